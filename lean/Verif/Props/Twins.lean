import Verif.Props.RenumberLinks
import Verif.Props.CtmTrain
import Verif.Props.Rtm

/-!
# Words, documents and topics that are alike (C314, C315, C316)

Words that occur equally often in every document, copies of a document, and topics that start alike.
-/

namespace Verif.Props.Twins

open Verif Verif.Ctm
open Verif.Mom (Data)
open Verif.Props.Renumber Verif.Props.RenumberCtm Verif.Props.RenumberLinks
open Verif.Props.RenumberStm (FollowsInv Numbers SameModel SameYv uv_train yv_train)

/-- Words `u` and `t` occur equally often in every document. -/
structure TwinWords (x : Data) (u t : Nat) : Prop where
  left : u < x.T
  right : t < x.T
  counts : ∀ d, d < x.D → x.words d u = x.words d t

/-- Documents `d` and `e` have the same words. -/
structure TwinDocs (x : Data) (d e : Nat) : Prop where
  left : d < x.D
  right : e < x.D
  counts : ∀ t, t < x.T → x.words d t = x.words e t

/-- Columns `u` and `t` of a table with `n` rows are equal. -/
def EqCols (n : Nat) (w : Nat → Nat → ℝ) (u t : Nat) : Prop := ∀ k, k < n → w k u = w k t

/-- Rows `d` and `e` of a table with `n` columns are equal. -/
def EqRows (n : Nat) (m : Nat → Nat → ℝ) (d e : Nat) : Prop := ∀ k, k < n → m d k = m e k

/-! ## Exchanging what is alike -/

theorem swap_eq {α : Type} {f : Nat → α} {u t : Nat} (h : f u = f t) (i : Nat) : f (Equiv.swap u t i) = f i := by
  rw [Equiv.swap_apply_def]
  split
  · next h1 => rw [h1, h]
  · split
    · next h2 => rw [h2, h]
    · rfl

theorem tab_refl (m n : Nat) (w : Nat → Nat → ℝ) : Tab m n (Equiv.refl _) (Equiv.refl _) w w := fun _ _ _ _ => rfl

theorem vec_refl (n : Nat) (w : Nat → ℝ) : Vec n (Equiv.refl _) w w := fun _ _ => rfl

theorem vec_swap {n u t : Nat} {w : Nat → ℝ} (h : w u = w t) : Vec n (Equiv.swap u t) w w := fun i _ => (swap_eq h i).symm

theorem tab_cols {m n u t : Nat} {w : Nat → Nat → ℝ} (h : EqCols m w u t) : Tab m n (Equiv.refl _) (Equiv.swap u t) w w :=
  fun i hi j _ => (swap_eq (f := w i) (h i hi) j).symm

theorem tab_rows {m n d e : Nat} {w : Nat → Nat → ℝ} (h : EqRows n w d e) : Tab m n (Equiv.swap d e) (Equiv.refl _) w w :=
  fun i _ j hj => (swap_eq (f := fun i => w i j) (h j hj) i).symm

theorem cols_tab {m n u t : Nat} {w : Nat → Nat → ℝ} (hu : u < n) (h : Tab m n (Equiv.refl _) (Equiv.swap u t) w w) : EqCols m w u t :=
  fun k hk => by simpa using h k hk u hu

theorem rows_tab {m n d e : Nat} {w : Nat → Nat → ℝ} (hd : d < m) (h : Tab m n (Equiv.swap d e) (Equiv.refl _) w w) : EqRows n w d e :=
  fun k hk => by simpa using h d hd k hk

theorem words_self {x : Data} {u t : Nat} (h : TwinWords x u t) : Renumbered (Equiv.refl _) (Equiv.swap u t) x x :=
  ⟨keeps_refl _, swap_keeps h.left h.right, rfl, rfl, fun d hd i _ => (swap_eq (f := x.words d) (h.counts d hd) i).symm⟩

theorem docs_self {x : Data} {d e : Nat} (h : TwinDocs x d e) : Renumbered (Equiv.swap d e) (Equiv.refl _) x x :=
  ⟨swap_keeps h.left h.right, keeps_refl _, rfl, rfl, fun i _ t ht => (swap_eq (f := fun i => x.words i t) (h.counts t ht) i).symm⟩

theorem data_self (x : Data) : Renumbered (Equiv.refl _) (Equiv.refl _) x x := ⟨keeps_refl _, keeps_refl _, rfl, rfl, fun _ _ _ _ => rfl⟩

theorem alike_self {α : Type} {R : α → α → Prop} {p : Py α} (h : Alike R p p) {a : α} (ha : p = .ok a) : R a a := by
  rw [ha] at h
  exact h

/-- Two lists of `L` words in which each word occurs equally often differ in the order only. -/
theorem reorder {L : Nat} {f g : Nat → Nat}
    (h : ∀ c, ((Finset.range L).filter fun n => f n = c).card = ((Finset.range L).filter fun n => g n = c).card) :
    ∃ π : Equiv.Perm Nat, Keeps L π ∧ ∀ n, n < L → f n = g (π n) := by
  have : Fintype { n // n < L } := Fintype.subtype (Finset.range L) (by simp)
  have hcard : ∀ (f : Nat → Nat) (c : Nat), Fintype.card { a : { n // n < L } // f a = c } = ((Finset.range L).filter fun n => f n = c).card := by
    intro f c
    rw [← Fintype.card_coe]
    exact Fintype.card_congr ⟨fun a => ⟨a.1.1, Finset.mem_filter.2 ⟨Finset.mem_range.2 a.1.2, a.2⟩⟩,
      fun b => ⟨⟨b.1, Finset.mem_range.1 (Finset.mem_filter.1 b.2).1⟩, (Finset.mem_filter.1 b.2).2⟩, fun _ => rfl, fun _ => rfl⟩
  have e : ∀ c, { a : { n // n < L } // f a = c } ≃ { a : { n // n < L } // g a = c } := fun c =>
    Fintype.equivOfCardEq (by rw [hcard, hcard, h])
  let p : Equiv.Perm { n // n < L } := Equiv.ofFiberEquiv (f := fun a : { n // n < L } => f a) (g := fun a : { n // n < L } => g a) e
  refine ⟨Equiv.Perm.ofSubtype p, fun i => Equiv.Perm.ofSubtype_apply_mem_iff_mem p i, fun n hn => ?_⟩
  rw [Equiv.Perm.ofSubtype_apply_of_mem p hn]
  exact (Equiv.ofFiberEquiv_map (f := fun a : { n // n < L } => f a) (g := fun a : { n // n < L } => g a) e ⟨n, hn⟩).symm

/-- How often word `u` occurs in document `d` of a corpus of lists of words -/
def occurs (c : Cvb.Corpus) (d u : Nat) : Nat := ((Finset.range (c.len d)).filter fun n => c.w d n = u).card

/-! ## Words -/

/-- **C314** (mixtures) -/
theorem em_words (psi : ℝ → ℝ) {p : Mom.EmParams} {x : Data} (plan : Mom.EmPlan) {s a : Mom.EmState} {u t : Nat} (h : TwinWords x u t)
    (hb : p.b u = p.b t) (hs : EqCols p.K s.word u t) (ha : Mom.emTrain psi p x plan s = .ok a) : EqCols p.K a.word u t :=
  cols_tab h.left (alike_self (em_train psi (words_self h) ⟨rfl, keeps_refl _, vec_refl _ _, vec_swap hb⟩ plan
    ⟨vec_refl _ _, tab_cols hs, tab_refl _ _ _⟩) ha).word

/-- **C314** (variational LDA): with every kind of learning rate -/
theorem vb_words (psi : ℝ → ℝ) {bound : (Nat → Nat → ℝ) → (Nat → Nat → ℝ) → ℝ} {p : VbPython.Params} {x : Data} {u t : Nat} (h : TwinWords x u t)
    (hb : SameBound (Equiv.refl _) (Equiv.swap u t) x.D p.K x.T bound bound) (plan : VbPython.Plan) {word topics : Nat → Nat → ℝ} {a : VbPython.Run}
    (hs : EqCols p.K word u t) (ha : VbPython.train psi bound p x plan word topics = .ok a) : EqCols p.K a.word u t :=
  cols_tab h.left (alike_self (vb_train psi (words_self h) ⟨rfl, keeps_refl _, vec_refl _ _, rfl⟩ hb plan (tab_cols hs) (tab_refl _ _ _)) ha).1

/-- **C314** (correlated topic model) -/
theorem ctm_words (oas : (Nat → Nat → ℝ) → Nat → Nat → ℝ) {x : Data} {K : Nat} (hoas : SameCov (Equiv.refl _) (Equiv.refl _) x.D K oas) {u t : Nat}
    (h : TwinWords x u t) (prior tiny : ℝ) {bound : State → ℝ}
    (hb : ∀ s r, SameCtm (Equiv.refl _) (Equiv.refl _) (Equiv.swap u t) x.D K x.T s r → bound r = bound s) (perp : ℝ → ℝ) (p : LogPlan)
    {s : State} {a : State × _} (hs : EqCols K s.vocab u t)
    (ha : train (trainStep oas x K prior) bound (fun st => logLikelihood x K tiny st.means st.vocab) perp p s = .ok a) : EqCols K a.1.vocab u t :=
  cols_tab h.left (alike_self (ctm_train oas hoas (words_self h) (keeps_refl _) rfl prior tiny hb perp p
    ⟨vec_refl _ _, tab_refl _ _ _, tab_cols hs, tab_refl _ _ _, tab_refl _ _ _, tab_refl _ _ _, tab_refl _ _ _, vec_refl _ _⟩) ha).1.vocab

/-- **C314** (Böhning's bound) -/
theorem bohning_words (inv : (Nat → Nat → ℝ) → Nat → Nat → ℝ) {K : Nat} (hinv : SameInv (Equiv.refl _) K inv)
    (cov : (Nat → Nat → ℝ) → (Nat → Nat → ℝ) → Nat → Nat → ℝ) {x : Data} {u t : Nat} (h : TwinWords x u t) (prior : ℝ) (fast : Bool) (n : Nat)
    {s : BState} (hs : EqCols K s.vocab u t) : EqCols K (bohningTrain inv cov x K prior (bohningA K) fast n s).vocab u t :=
  cols_tab h.left (bohning_train inv hinv cov (words_self h) (keeps_refl _) prior fast n
    ⟨vec_refl _ _, tab_refl _ _ _, tab_cols hs, tab_refl _ _ _, tab_refl _ _ _, tab_refl _ _ _⟩).vocab

/-- **C314** (stm_uv_vecy_bohning) -/
theorem uv_words {inv : Nat → (Nat → Nat → ℝ) → Nat → Nat → ℝ} (hinv : FollowsInv inv) (p : Stm.Params) {x : Data} {u t : Nat} (h : TwinWords x u t)
    (X : Nat → Nat → ℝ) (n : Nat) {s : Stm.State} (hs : EqCols p.K s.vocab u t) : EqCols p.K (Stm.uvTrain inv p x X n s).vocab u t :=
  cols_tab h.left (uv_train hinv ⟨words_self h, keeps_refl _, keeps_refl _, keeps_refl _, tab_refl _ _ _⟩ (tab_refl _ _ X) n (s := s) (r := s)
    (l := Equiv.refl _) (φ := Equiv.refl _) (σ := Equiv.refl _)
    ⟨tab_refl _ _ _, tab_refl _ _ _, tab_refl _ _ _, tab_refl _ _ _, tab_refl _ _ _, tab_cols hs, tab_refl _ _ _, tab_refl _ _ _⟩).vocab

/-- **C314** (stm_yv) -/
theorem yv_words {inv : Nat → (Nat → Nat → ℝ) → Nat → Nat → ℝ} (hinv : FollowsInv inv) (p : Stm.Params) {x : Data} {u t : Nat} (h : TwinWords x u t)
    (X : Nat → Nat → ℝ) (n : Nat) {s : StmYv.State} (hs : EqCols p.K s.vocab u t) : EqCols p.K (StmYv.train inv p x X n s).vocab u t :=
  cols_tab h.left (yv_train hinv ⟨words_self h, keeps_refl _, keeps_refl _, keeps_refl _, tab_refl _ _ _⟩ (tab_refl _ _ X) n (s := s) (r := s)
    (l := Equiv.refl _) (φ := Equiv.refl _) (σ := Equiv.refl _)
    ⟨tab_refl _ _ _, tab_refl _ _ _, tab_refl _ _ _, tab_refl _ _ _, tab_refl _ _ _, tab_cols hs, tab_refl _ _ _, tab_refl _ _ _, tab_refl _ _ _,
      tab_refl _ _ _, vec_refl _ _⟩).vocab

/-- **C314** (mtm2) -/
theorem mtm2_words {inv : Nat → (Nat → Nat → ℝ) → Nat → Nat → ℝ} (hinv : FollowsInv inv) {x links : Data} (hr : links.D = x.D) (hc : links.T = x.D)
    {K u t : Nat} (h : TwinWords x u t) (fast : Bool) (n : Nat) {s a : Mtm.State2} (hs : EqCols K s.vocab u t)
    (ha : Mtm.train2 inv x links K fast n s = .ok a) : EqCols K a.vocab u t :=
  cols_tab h.left (alike_self (mtm2_train hinv ⟨words_self h, data_self _, hr, hc⟩ (keeps_refl _) fast n
    ⟨vec_refl _ _, tab_refl _ _ _, tab_cols hs, tab_refl _ _ _, tab_refl _ _ _⟩) ha).vocab

/-- **C314** (mtm3) -/
theorem mtm3_words {inv : Nat → (Nat → Nat → ℝ) → Nat → Nat → ℝ} (hinv : FollowsInv inv) {x links : Data} (hr : links.D = x.D) (hc : links.T = x.D)
    {K u t : Nat} (h : TwinWords x u t) (n : Nat) {s : Mtm.State3} (hs : EqCols K s.vocab u t) :
    EqCols K (Mtm.train3 inv x links K n s).vocab u t :=
  cols_tab h.left (mtm3_train hinv ⟨words_self h, data_self _, hr, hc⟩ (keeps_refl _) n (s := s) (r := s)
    ⟨vec_refl _ _, tab_refl _ _ _, rfl, tab_cols hs, tab_refl _ _ _, tab_refl _ _ _, tab_refl _ _ _, tab_refl _ _ _, vec_refl _ _⟩).vocab

/-- **C314** (mtm) -/
theorem mtm_words {inv : (Nat → Nat → ℝ) → Nat → Nat → ℝ} (psi : ℝ → ℝ) {c : Mtm.Fixed} (hinv : SameInv (Equiv.refl _) c.K inv) {x links : Data}
    {u t : Nat} (h : TwinWords x u t) (hD : 0 < x.D) (hl : links.T = x.D) {stop : Nat → Mtm.MState → Bool}
    (hstop : ∀ itr s r, SameM (Equiv.refl _) (Equiv.swap u t) x.D c.K x.T s r → stop itr r = stop itr s) (logFrequency iterations : Nat) (b : Bool)
    {s a : Mtm.MState} (hs : EqCols c.K s.wordDists u t) (ha : Mtm.train inv psi c x links stop logFrequency iterations b s = .ok a) :
    EqCols c.K a.wordDists u t :=
  cols_tab h.left (alike_self (mtm_train psi hinv (words_self h) hD (keeps_refl _) ⟨rfl, rfl, tab_refl _ _ _, vec_refl _ _, vec_refl _ _⟩ hl hstop
    logFrequency iterations b ⟨tab_refl _ _ _, vec_refl _ _, vec_refl _ _, vec_refl _ _, vec_refl _ _, tab_cols hs, tab_refl _ _ _, tab_refl _ _ _,
      tab_refl _ _ _⟩) ha).wordDists

/-- **C314** (rtm) -/
theorem rtm_words {e : Rtm.Env} {n : Rtm.Numerics} (hin : ∀ d, ∀ j ∈ e.links d, j < e.x.D) {u t : Nat} (h : TwinWords e.x u t)
    (hn : SameNumerics (Equiv.refl _) (Equiv.swap u t) e.x.D e.K e.x.T n n) (iterations : Nat) {s a : Rtm.State} (hs : EqCols e.K s.word u t)
    (ha : Rtm.train e n iterations s = .ok a) : EqCols e.K a.word u t :=
  cols_tab h.left (alike_self (rtm_train ⟨rfl, rfl, rfl, rfl, rfl, words_self h, rfl, hin, rfl⟩ (keeps_refl _) rfl hn iterations
    ⟨tab_cols hs, tab_refl _ _ _, vec_refl _ _, vec_refl _ _⟩) ha).word

/-- **C314** (compiled LDA), whatever the order of the words of a document -/
theorem lda_words (psi : ℝ → ℝ) (p : Vb.Params) {c : Cvb.Corpus} (hin : ∀ d, d < c.lens.length → ∀ n, n < c.len d → c.w d n < p.T) {u t : Nat}
    (hu : u < p.T) (ht : t < p.T) (h : ∀ d, d < c.lens.length → occurs c d u = occurs c d t) (segments : List Nat) {s : Vb.State}
    (hs : EqCols p.K s.vocab u t) : EqCols p.K (Vb.train psi p c segments s).vocab u t := by
  have h1 : ∀ d, ∃ π : Equiv.Perm Nat, d < c.lens.length → Keeps (c.len d) π ∧ ∀ n, n < c.len d → Equiv.swap u t (c.w d n) = c.w d (π n) := by
    intro d
    by_cases hd : d < c.lens.length
    · obtain ⟨π, h2, h3⟩ := reorder (L := c.len d) (f := fun n => Equiv.swap u t (c.w d n)) (g := c.w d) fun i => by
        have h4 := swap_eq (f := occurs c d) (h d hd) i
        unfold occurs at h4
        rw [← h4]
        congr 1
        ext n
        simp [Equiv.swap_apply_eq_iff]
      exact ⟨π, fun _ => ⟨h2, h3⟩⟩
    · exact ⟨Equiv.refl _, fun h => absurd h hd⟩
  choose π hπ using h1
  exact cols_tab hu (lda_train psi (σ := Equiv.refl _) ⟨rfl, rfl, keeps_refl _, vec_refl _ _, rfl⟩ (δ := Equiv.refl _) (π := π)
    ⟨keeps_refl _, swap_keeps hu ht, fun d hd => (hπ d hd).1, rfl, fun _ _ => rfl, fun d hd n hn => (hπ d hd).2 n hn, hin⟩ segments (tab_cols hs)
    (tab_refl _ _ _)).1

/-! ## Documents -/

/-- **C315** (mixtures): the classes of copies -/
theorem em_docs (psi : ℝ → ℝ) {p : Mom.EmParams} {x : Data} (plan : Mom.EmPlan) {s a : Mom.EmState} {d e : Nat} (h : TwinDocs x d e)
    (hs : EqRows p.K s.resp d e) (ha : Mom.emTrain psi p x plan s = .ok a) : EqRows p.K a.resp d e :=
  rows_tab h.left (alike_self (em_train psi (docs_self h) ⟨rfl, keeps_refl _, vec_refl _ _, vec_refl _ _⟩ plan
    ⟨vec_refl _ _, tab_refl _ _ _, tab_rows hs⟩) ha).resp

/-- **C315** (queries of mixtures) -/
theorem em_query_docs (psi : ℝ → ℝ) {p : Mom.EmParams} {x : Data} (n : Nat) {s a : Mom.EmState} {d e : Nat} (h : TwinDocs x d e)
    (hs : EqRows p.K s.resp d e) (ha : Mom.emQuery psi p x n s = .ok a) : EqRows p.K a.resp d e :=
  rows_tab h.left (alike_self (em_query psi (docs_self h) ⟨rfl, keeps_refl _, vec_refl _ _, vec_refl _ _⟩ n
    ⟨vec_refl _ _, tab_refl _ _ _, tab_rows hs⟩) ha).resp

/-- **C315** (variational LDA), trained on all documents at once -/
theorem vb_docs (psi : ℝ → ℝ) (bound : (Nat → Nat → ℝ) → (Nat → Nat → ℝ) → ℝ) {p : VbPython.Params} {x : Data} (hc : VbPython.Corpus x) {d e : Nat}
    (h : TwinDocs x d e) (plan : VbPython.Plan) (hplan : plan.rateAlgor = "batch") {word topics : Nat → Nat → ℝ} (hs : EqRows p.K topics d e) :
    ∃ a, VbPython.train psi bound p x plan word topics = .ok a ∧ EqRows p.K a.means d e := by
  obtain ⟨a, b, h1, h2, -, h3⟩ := vb_batch_train psi bound bound (docs_self h) hc ⟨rfl, keeps_refl _, vec_refl _ _, rfl⟩ plan hplan
    (word := word) (word' := word) (tab_refl _ _ _) (tab_rows hs)
  rw [h1] at h2
  cases h2
  exact ⟨a, h1, rows_tab h.left h3⟩

/-- **C315** (correlated topic model) -/
theorem ctm_docs (oas : (Nat → Nat → ℝ) → Nat → Nat → ℝ) {x : Data} {K d e : Nat} (hoas : SameCov (Equiv.swap d e) (Equiv.refl _) x.D K oas)
    (h : TwinDocs x d e) (prior tiny : ℝ) {bound : State → ℝ}
    (hb : ∀ s r, SameCtm (Equiv.swap d e) (Equiv.refl _) (Equiv.refl _) x.D K x.T s r → bound r = bound s) (perp : ℝ → ℝ) (p : LogPlan)
    {s : State} {a : State × _} (hm : EqRows K s.means d e) (he : EqRows K s.expMeans d e) (hv : EqRows K s.varcs d e) (hl : EqRows K s.lxi d e)
    (h0 : s.s d = s.s e)
    (ha : train (trainStep oas x K prior) bound (fun st => logLikelihood x K tiny st.means st.vocab) perp p s = .ok a) :
    EqRows K a.1.means d e ∧ EqRows K a.1.varcs d e :=
  have h1 := (alike_self (ctm_train oas hoas (docs_self h) (keeps_refl _) rfl prior tiny hb perp p
    ⟨vec_refl _ _, tab_refl _ _ _, tab_refl _ _ _, tab_rows hm, tab_rows he, tab_rows hv, tab_rows hl, vec_swap h0⟩) ha).1
  ⟨rows_tab h.left h1.means, rows_tab h.left h1.varcs⟩

/-- **C315** (Böhning's bound) -/
theorem bohning_docs (inv : (Nat → Nat → ℝ) → Nat → Nat → ℝ) {K : Nat} (hinv : SameInv (Equiv.refl _) K inv)
    (cov : (Nat → Nat → ℝ) → (Nat → Nat → ℝ) → Nat → Nat → ℝ) {x : Data} {d e : Nat} (h : TwinDocs x d e) (prior : ℝ) (fast : Bool) (n : Nat)
    {s : BState} (hm : EqRows K s.means d e) (he : EqRows K s.expMeans d e) (hv : EqRows K s.varcs d e) :
    EqRows K (bohningTrain inv cov x K prior (bohningA K) fast n s).means d e
      ∧ EqRows K (bohningTrain inv cov x K prior (bohningA K) fast n s).varcs d e :=
  have h1 := bohning_train inv hinv cov (docs_self h) (keeps_refl _) prior fast n (s := s) (r := s)
    ⟨vec_refl _ _, tab_refl _ _ _, tab_refl _ _ _, tab_rows hm, tab_rows he, tab_rows hv⟩
  ⟨rows_tab h.left h1.means, rows_tab h.left h1.varcs⟩

/-- **C315** (stm_uv_vecy_bohning): copies with the same features -/
theorem uv_docs {inv : Nat → (Nat → Nat → ℝ) → Nat → Nat → ℝ} (hinv : FollowsInv inv) (p : Stm.Params) {x : Data} {d e : Nat} (h : TwinDocs x d e)
    {X : Nat → Nat → ℝ} (hX : EqRows p.F X d e) (n : Nat) {s : Stm.State} (hm : EqRows p.K s.means d e) (hv : EqRows p.K s.varcs d e) :
    EqRows p.K (Stm.uvTrain inv p x X n s).means d e ∧ EqRows p.K (Stm.uvTrain inv p x X n s).varcs d e :=
  have h1 := uv_train hinv ⟨docs_self h, keeps_refl _, keeps_refl _, keeps_refl _, tab_refl _ _ _⟩ (tab_rows hX) n (s := s) (r := s)
    (l := Equiv.refl _) (φ := Equiv.refl _) (σ := Equiv.refl _)
    ⟨tab_refl _ _ _, tab_refl _ _ _, tab_refl _ _ _, tab_refl _ _ _, tab_refl _ _ _, tab_refl _ _ _, tab_rows hm, tab_rows hv⟩
  ⟨rows_tab h.left h1.means, rows_tab h.left h1.varcs⟩

/-- **C315** (stm_yv): copies with the same features -/
theorem yv_docs {inv : Nat → (Nat → Nat → ℝ) → Nat → Nat → ℝ} (hinv : FollowsInv inv) (p : Stm.Params) {x : Data} {d e : Nat} (h : TwinDocs x d e)
    {X : Nat → Nat → ℝ} (hX : EqRows p.F X d e) (n : Nat) {s : StmYv.State} (hm : EqRows p.K s.means d e) (he : EqRows p.K s.expMeans d e)
    (hv : EqRows p.K s.varcs d e) (hl : EqRows p.K s.lxi d e) (h0 : s.s d = s.s e) :
    EqRows p.K (StmYv.train inv p x X n s).means d e ∧ EqRows p.K (StmYv.train inv p x X n s).varcs d e :=
  have h1 := yv_train hinv ⟨docs_self h, keeps_refl _, keeps_refl _, keeps_refl _, tab_refl _ _ _⟩ (tab_rows hX) n (s := s) (r := s)
    (l := Equiv.refl _) (φ := Equiv.refl _) (σ := Equiv.refl _)
    ⟨tab_refl _ _ _, tab_refl _ _ _, tab_refl _ _ _, tab_refl _ _ _, tab_refl _ _ _, tab_refl _ _ _, tab_rows hm, tab_rows he, tab_rows hv,
      tab_rows hl, vec_swap h0⟩
  ⟨rows_tab h.left h1.means, rows_tab h.left h1.varcs⟩

/-- **C315** (compiled LDA): documents with the same words in any order -/
theorem lda_docs (psi : ℝ → ℝ) (p : Vb.Params) {c : Cvb.Corpus} (hin : ∀ d, d < c.lens.length → ∀ n, n < c.len d → c.w d n < p.T) {d e : Nat}
    (hd : d < c.lens.length) (he : e < c.lens.length) (hlen : c.len d = c.len e) (h : ∀ t, occurs c d t = occurs c e t) (segments : List Nat)
    {s : Vb.State} (hs : EqRows p.K s.topics d e) : EqRows p.K (Vb.train psi p c segments s).topics d e := by
  have hl := swap_eq (f := c.len) hlen
  have h1 : ∀ i, ∃ π : Equiv.Perm Nat, Keeps (c.len i) π ∧ ∀ n, n < c.len i → c.w i n = c.w (Equiv.swap d e i) (π n) := by
    intro i
    refine reorder fun t => ?_
    have h2 := swap_eq (f := fun i => occurs c i t) (h t) i
    simp only [occurs, hl] at h2
    exact h2.symm
  choose π hπ using h1
  refine rows_tab hd (lda_train psi (σ := Equiv.refl _) (τ := Equiv.refl _) ⟨rfl, rfl, keeps_refl _, vec_refl _ _, rfl⟩ (δ := Equiv.swap d e) (π := π)
    ⟨swap_keeps hd he, keeps_refl _, fun i _ => ?_, rfl, fun i _ => (hl i).symm, fun i _ n hn => ?_, hin⟩ segments (tab_refl _ _ _)
    (tab_rows hs)).2
  · rw [hl]
    exact (hπ i).1
  · rw [hl] at hn
    exact (hπ i).2 n hn

/-- Documents `d` and `e` have the same links, to and from each document, once they are exchanged. -/
structure TwinLinks (x links : Data) (d e : Nat) : Prop where
  rows : links.D = x.D
  columns : links.T = x.D
  counts : ∀ i, i < x.D → ∀ j, j < x.D → links.words (Equiv.swap d e i) (Equiv.swap d e j) = links.words i j

theorem linked_self {x links : Data} {d e : Nat} (h : TwinDocs x d e) (hl : TwinLinks x links d e) :
    Linked (Equiv.swap d e) (Equiv.refl _) x links x links :=
  ⟨docs_self h, ⟨by rw [hl.rows]; exact swap_keeps h.left h.right, by rw [hl.columns]; exact swap_keeps h.left h.right, rfl, rfl, fun i hi j hj =>
    (hl.counts i (by rw [← hl.rows]; exact hi) j (by rw [← hl.columns]; exact hj)).symm⟩, hl.rows, hl.columns⟩

/-- **C315** (mtm2): copies with the same links -/
theorem mtm2_docs {inv : Nat → (Nat → Nat → ℝ) → Nat → Nat → ℝ} (hinv : FollowsInv inv) {x links : Data} {K d e : Nat} (h : TwinDocs x d e)
    (hl : TwinLinks x links d e) (fast : Bool) (n : Nat) {s a : Mtm.State2} (hm : EqRows K s.means d e) (hv : EqRows K s.varcs d e)
    (ha : Mtm.train2 inv x links K fast n s = .ok a) : EqRows K a.means d e ∧ EqRows K a.varcs d e :=
  have h1 := alike_self (mtm2_train hinv (linked_self h hl) (keeps_refl _) fast n
    ⟨vec_refl _ _, tab_refl _ _ _, tab_refl _ _ _, tab_rows hm, tab_rows hv⟩) ha
  ⟨rows_tab h.left h1.means, rows_tab h.left h1.varcs⟩

/-- **C315** (mtm3): copies with the same links -/
theorem mtm3_docs {inv : Nat → (Nat → Nat → ℝ) → Nat → Nat → ℝ} (hinv : FollowsInv inv) {x links : Data} {K d e : Nat} (h : TwinDocs x d e)
    (hl : TwinLinks x links d e) (n : Nat) {s : Mtm.State3} (hom : EqRows K s.outMeans d e) (hov : EqRows K s.outVarcs d e)
    (him : EqRows K s.inMeans d e) (hiv : EqRows K s.inVarcs d e) (hc : s.inDocCov d = s.inDocCov e) :
    EqRows K (Mtm.train3 inv x links K n s).outMeans d e ∧ EqRows K (Mtm.train3 inv x links K n s).inMeans d e :=
  have h1 := mtm3_train hinv (linked_self h hl) (keeps_refl _) n (s := s) (r := s)
    ⟨vec_refl _ _, tab_refl _ _ _, rfl, tab_refl _ _ _, tab_rows hom, tab_rows hov, tab_rows him, tab_rows hiv, vec_swap hc⟩
  ⟨rows_tab h.left h1.outMeans, rows_tab h.left h1.inMeans⟩

/-! ## Topics -/

/-- Exchanging `i` and `j` does not change a square table. -/
def SameCross (n : Nat) (m : Nat → Nat → ℝ) (i j : Nat) : Prop :=
  ∀ a, a < n → ∀ b, b < n → m (Equiv.swap i j a) (Equiv.swap i j b) = m a b

theorem tab_cross {n i j : Nat} {m : Nat → Nat → ℝ} (h : SameCross n m i j) : Tab n n (Equiv.swap i j) (Equiv.swap i j) m m :=
  fun a ha b hb => (h a ha b hb).symm

theorem vec_eq {n i j : Nat} {w : Nat → ℝ} (hi : i < n) (h : Vec n (Equiv.swap i j) w w) : w i = w j := by
  simpa using h i hi

/-- **C316** (mixtures): with equal priors -/
theorem em_topics (psi : ℝ → ℝ) {p : Mom.EmParams} {x : Data} (plan : Mom.EmPlan) {s a : Mom.EmState} {i j : Nat} (hi : i < p.K) (hj : j < p.K)
    (hp : p.a i = p.a j) (ht : s.topic i = s.topic j) (hw : EqRows x.T s.word i j) (hr : EqCols x.D s.resp i j)
    (ha : Mom.emTrain psi p x plan s = .ok a) : a.topic i = a.topic j ∧ EqRows x.T a.word i j ∧ EqCols x.D a.resp i j :=
  have h1 := alike_self (em_train psi (data_self x) ⟨rfl, swap_keeps hi hj, vec_swap hp, vec_refl _ _⟩ plan ⟨vec_swap ht, tab_rows hw, tab_cols hr⟩) ha
  ⟨vec_eq hi h1.topic, rows_tab hi h1.word, cols_tab hi h1.resp⟩

/-- **C316** (variational LDA): with equal priors -/
theorem vb_topics (psi : ℝ → ℝ) {bound : (Nat → Nat → ℝ) → (Nat → Nat → ℝ) → ℝ} {p : VbPython.Params} {x : Data} {i j : Nat} (hi : i < p.K)
    (hj : j < p.K) (hp : p.a i = p.a j) (hb : SameBound (Equiv.swap i j) (Equiv.refl _) x.D p.K x.T bound bound) (plan : VbPython.Plan)
    {word topics : Nat → Nat → ℝ} {a : VbPython.Run} (hw : EqRows x.T word i j) (ht : EqCols x.D topics i j)
    (ha : VbPython.train psi bound p x plan word topics = .ok a) : EqRows x.T a.word i j ∧ EqCols x.D a.means i j :=
  have h1 := alike_self (vb_train psi (data_self x) ⟨rfl, swap_keeps hi hj, vec_swap hp, rfl⟩ hb plan (tab_rows hw) (tab_cols ht)) ha
  ⟨rows_tab hi h1.1, cols_tab hi h1.2⟩

/-- **C316** (correlated topic model): topics other than the first -/
theorem ctm_topics (oas : (Nat → Nat → ℝ) → Nat → Nat → ℝ) {x : Data} {K i j : Nat} (hi : 0 < i ∧ i < K) (hj : 0 < j ∧ j < K)
    (hoas : SameCov (Equiv.refl _) (Equiv.swap i j) x.D K oas) (prior tiny : ℝ) {bound : State → ℝ}
    (hb : ∀ s r, SameCtm (Equiv.refl _) (Equiv.swap i j) (Equiv.refl _) x.D K x.T s r → bound r = bound s) (perp : ℝ → ℝ) (p : LogPlan)
    {s : State} {a : State × _} (ht : s.topicMean i = s.topicMean j) (hs : SameCross K s.sig i j) (hw : EqRows x.T s.vocab i j)
    (hm : EqCols x.D s.means i j) (he : EqCols x.D s.expMeans i j) (hv : EqCols x.D s.varcs i j) (hl : EqCols x.D s.lxi i j)
    (ha : train (trainStep oas x K prior) bound (fun st => logLikelihood x K tiny st.means st.vocab) perp p s = .ok a) :
    EqRows x.T a.1.vocab i j ∧ EqCols x.D a.1.means i j :=
  have h1 := (alike_self (ctm_train oas hoas (data_self x) (swap_keeps hi.2 hj.2)
    (Equiv.swap_apply_of_ne_of_ne (by omega) (by omega)) prior tiny hb perp p
    ⟨vec_swap ht, tab_cross hs, tab_rows hw, tab_cols hm, tab_cols he, tab_cols hv, tab_cols hl, vec_refl _ _⟩) ha).1
  ⟨rows_tab hi.2 h1.vocab, cols_tab hi.2 h1.means⟩

/-- **C316** (Böhning's bound) -/
theorem bohning_topics (inv : (Nat → Nat → ℝ) → Nat → Nat → ℝ) {K i j : Nat} (hi : i < K) (hj : j < K) (hinv : SameInv (Equiv.swap i j) K inv)
    (cov : (Nat → Nat → ℝ) → (Nat → Nat → ℝ) → Nat → Nat → ℝ) (x : Data) (prior : ℝ) (fast : Bool) (n : Nat) {s : BState}
    (ht : s.topicMean i = s.topicMean j) (hs : SameCross K s.sig i j) (hw : EqRows x.T s.vocab i j)
    (hm : EqCols x.D s.means i j) (he : EqCols x.D s.expMeans i j) (hv : EqCols x.D s.varcs i j) :
    EqRows x.T (bohningTrain inv cov x K prior (bohningA K) fast n s).vocab i j
      ∧ EqCols x.D (bohningTrain inv cov x K prior (bohningA K) fast n s).means i j :=
  have h1 := bohning_train inv hinv cov (data_self x) (swap_keeps hi hj) prior fast n (s := s) (r := s)
    ⟨vec_swap ht, tab_cross hs, tab_rows hw, tab_cols hm, tab_cols he, tab_cols hv⟩
  ⟨rows_tab hi h1.vocab, cols_tab hi h1.means⟩

/-- **C316** (compiled LDA): with equal priors -/
theorem lda_topics (psi : ℝ → ℝ) (p : Vb.Params) {c : Cvb.Corpus} (hin : ∀ d, d < c.lens.length → ∀ n, n < c.len d → c.w d n < p.T) {i j : Nat}
    (hi : i < p.K) (hj : j < p.K) (hp : p.a i = p.a j) (segments : List Nat) {s : Vb.State} (hw : EqRows p.T s.vocab i j)
    (ht : EqCols c.lens.length s.topics i j) : EqRows p.T (Vb.train psi p c segments s).vocab i j
      ∧ EqCols c.lens.length (Vb.train psi p c segments s).topics i j :=
  have h1 := lda_train psi (p := p) (q := p) (σ := Equiv.swap i j) (τ := Equiv.refl _) ⟨rfl, rfl, swap_keeps hi hj, vec_swap hp, rfl⟩
    (δ := Equiv.refl _) (π := fun _ => Equiv.refl _) (c := c) (e := c)
    ⟨keeps_refl _, keeps_refl _, fun _ _ => keeps_refl _, rfl, fun _ _ => rfl, fun _ _ _ _ => rfl, hin⟩ segments (tab_rows hw) (tab_cols ht)
  ⟨rows_tab hi h1.1, cols_tab hi h1.2⟩

/-- **C316** (mtm2) -/
theorem mtm2_topics {inv : Nat → (Nat → Nat → ℝ) → Nat → Nat → ℝ} (hinv : FollowsInv inv) {x links : Data} (hr : links.D = x.D) (hc : links.T = x.D)
    {K i j : Nat} (hi : i < K) (hj : j < K) (fast : Bool) (n : Nat) {s a : Mtm.State2} (ht : s.topicMean i = s.topicMean j)
    (hs : SameCross K s.topicCov i j) (hw : EqRows x.T s.vocab i j) (hm : EqCols x.D s.means i j) (hv : EqCols x.D s.varcs i j)
    (ha : Mtm.train2 inv x links K fast n s = .ok a) : EqRows x.T a.vocab i j ∧ EqCols x.D a.means i j :=
  have h1 := alike_self (mtm2_train hinv ⟨data_self _, data_self _, hr, hc⟩ (swap_keeps hi hj) fast n
    ⟨vec_swap ht, tab_cross hs, tab_rows hw, tab_cols hm, tab_cols hv⟩) ha
  ⟨rows_tab hi h1.vocab, cols_tab hi h1.means⟩

/-- **C316** (rtm): with equal priors and weights; `e.K` is the number of the intercept. -/
theorem rtm_topics {e : Rtm.Env} {n : Rtm.Numerics} (hin : ∀ d, ∀ j ∈ e.links d, j < e.x.D) {i j : Nat} (hi : i < e.K) (hj : j < e.K)
    (hn : SameNumerics (Equiv.swap i j) (Equiv.refl _) e.x.D e.K e.x.T n n) (iterations : Nat) {s a : Rtm.State} (hw : EqRows e.x.T s.word i j)
    (hm : EqCols e.x.D s.means i j) (hg : s.weights i = s.weights j) (hp : s.prior i = s.prior j) (ha : Rtm.train e n iterations s = .ok a) :
    EqRows e.x.T a.word i j ∧ EqCols e.x.D a.means i j ∧ a.weights i = a.weights j :=
  have h1 := alike_self (rtm_train ⟨rfl, rfl, rfl, rfl, rfl, data_self _, rfl, hin, rfl⟩ (swap_keeps hi hj)
    (Equiv.swap_apply_of_ne_of_ne (by omega) (by omega)) hn iterations ⟨tab_rows hw, tab_cols hm, vec_swap hg, vec_swap hp⟩) ha
  ⟨rows_tab hi h1.word, cols_tab (by omega) h1.means, vec_eq (by omega) h1.weights⟩

/-- **C316** (mtm3) -/
theorem mtm3_topics {inv : Nat → (Nat → Nat → ℝ) → Nat → Nat → ℝ} (hinv : FollowsInv inv) {x links : Data} (hr : links.D = x.D) (hc : links.T = x.D)
    {K i j : Nat} (hi : i < K) (hj : j < K) (n : Nat) {s : Mtm.State3} (ht : s.topicMean i = s.topicMean j) (hs : SameCross K s.topicCov i j)
    (hw : EqRows x.T s.vocab i j) (hom : EqCols x.D s.outMeans i j) (hov : EqCols x.D s.outVarcs i j) (him : EqCols x.D s.inMeans i j)
    (hiv : EqCols x.D s.inVarcs i j) : EqRows x.T (Mtm.train3 inv x links K n s).vocab i j ∧ EqCols x.D (Mtm.train3 inv x links K n s).outMeans i j
      ∧ EqCols x.D (Mtm.train3 inv x links K n s).inMeans i j :=
  have h1 := mtm3_train hinv (x := x) (links := links) (y := x) (links' := links) ⟨data_self _, data_self _, hr, hc⟩ (swap_keeps hi hj) n (s := s) (r := s)
    ⟨vec_swap ht, tab_cross hs, rfl, tab_rows hw, tab_cols hom, tab_cols hov, tab_cols him, tab_cols hiv, vec_refl _ _⟩
  ⟨rows_tab hi h1.vocab, cols_tab hi h1.outMeans, cols_tab hi h1.inMeans⟩

/-- **C316** (mtm): the constants of the model have to agree too -/
theorem mtm_topics {inv : (Nat → Nat → ℝ) → Nat → Nat → ℝ} (psi : ℝ → ℝ) {c : Mtm.Fixed} {x links : Data} (hl : links.T = x.D) (hD : 0 < x.D) {i j : Nat}
    (hi : i < c.K) (hj : j < c.K) (hinv : SameInv (Equiv.swap i j) c.K inv) (hu : EqCols x.D c.UV i j) (hlse : c.lse i = c.lse j)
    {stop : Nat → Mtm.MState → Bool} (hstop : ∀ itr s r, SameM (Equiv.swap i j) (Equiv.refl _) x.D c.K x.T s r → stop itr r = stop itr s)
    (logFrequency iterations : Nat) (b : Bool) {s a : Mtm.MState} (ht : EqCols x.D s.topics i j) (hs : s.sums i = s.sums j) (he : s.expSums i = s.expSums j)
    (hm : s.maxes i = s.maxes j) (hn : s.inCounts i = s.inCounts j) (hw : EqRows x.T s.wordDists i j) (hc : SameCross c.K s.cov i j)
    (hic : SameCross c.K s.invCov i j) (hp : EqCols x.D s.postCov i j) (ha : Mtm.train inv psi c x links stop logFrequency iterations b s = .ok a) :
    EqRows x.T a.wordDists i j ∧ EqCols x.D a.topics i j :=
  have h1 := alike_self (mtm_train psi (c := c) (c' := c) hinv (data_self x) hD (swap_keeps hi hj) ⟨rfl, rfl, tab_cols hu, vec_swap hlse, vec_refl _ _⟩ hl hstop
    logFrequency iterations b ⟨tab_cols ht, vec_swap hs, vec_swap he, vec_swap hm, vec_swap hn, tab_rows hw, tab_cross hc, tab_cross hic, tab_cols hp⟩) ha
  ⟨rows_tab hi h1.wordDists, cols_tab hi h1.topics⟩

theorem numbers_topics {p : Stm.Params} (x : Data) {i j : Nat} (hi : i < p.K) (hj : j < p.K) (hA : SameCross p.K p.Ab i j) :
    Numbers (Equiv.refl _) (Equiv.swap i j) (Equiv.refl _) (Equiv.refl _) (Equiv.refl _) p x x :=
  ⟨data_self x, swap_keeps hi hj, keeps_refl _, keeps_refl _, tab_cross hA⟩

/-- **C316** (stm_uv_vecy_bohning): the features have to weigh the same in both topics. -/
theorem uv_topics {inv : Nat → (Nat → Nat → ℝ) → Nat → Nat → ℝ} (hinv : FollowsInv inv) (p : Stm.Params) (x : Data) (X : Nat → Nat → ℝ) {i j : Nat}
    (hi : i < p.K) (hj : j < p.K) (hAb : SameCross p.K p.Ab i j) (n : Nat) {s : Stm.State} (hA : EqRows p.F s.A i j) (hY : EqRows p.P s.Y i j)
    (hs : SameCross p.K s.sig i j) (hw : EqRows x.T s.vocab i j) (hm : EqCols x.D s.means i j) (hv : EqCols x.D s.varcs i j) :
    EqRows x.T (Stm.uvTrain inv p x X n s).vocab i j ∧ EqCols x.D (Stm.uvTrain inv p x X n s).means i j ∧ EqRows p.F (Stm.uvTrain inv p x X n s).A i j :=
  have h1 := RenumberStm.uv_train hinv (numbers_topics x hi hj hAb) (X := X) (X' := X) (tab_refl _ _ _) n (s := s) (r := s)
    ⟨tab_rows hA, tab_rows hY, tab_refl _ _ _, tab_refl _ _ _, tab_cross hs, tab_rows hw, tab_cols hm, tab_cols hv⟩
  ⟨rows_tab hi h1.vocab, cols_tab hi h1.means, rows_tab hi h1.A⟩

/-- **C316** (stm_yv) -/
theorem yv_topics {inv : Nat → (Nat → Nat → ℝ) → Nat → Nat → ℝ} (hinv : FollowsInv inv) (p : Stm.Params) (x : Data) (X : Nat → Nat → ℝ) {i j : Nat}
    (hi : i < p.K) (hj : j < p.K) (hAb : SameCross p.K p.Ab i j) (n : Nat) {s : StmYv.State} (hA : EqRows p.F s.A i j) (hY : EqRows p.P s.Y i j)
    (hs : SameCross p.K s.sig i j) (hw : EqRows x.T s.vocab i j) (hm : EqCols x.D s.means i j) (he : EqCols x.D s.expMeans i j)
    (hv : EqCols x.D s.varcs i j) (hl : EqCols x.D s.lxi i j) :
    EqRows x.T (StmYv.train inv p x X n s).vocab i j ∧ EqCols x.D (StmYv.train inv p x X n s).means i j ∧ EqRows p.F (StmYv.train inv p x X n s).A i j :=
  have h1 := RenumberStm.yv_train hinv (numbers_topics x hi hj hAb) (X := X) (X' := X) (tab_refl _ _ _) n (s := s) (r := s)
    ⟨tab_rows hA, tab_rows hY, tab_refl _ _ _, tab_refl _ _ _, tab_cross hs, tab_rows hw, tab_cols hm, tab_cols he, tab_cols hv, tab_cols hl, vec_refl _ _⟩
  ⟨rows_tab hi h1.vocab, cols_tab hi h1.means, rows_tab hi h1.A⟩

/-! ## Examples -/

/-- Three documents, the first and the last alike; of the four words the first and the last occur equally often. -/
def exD : Data := ⟨3, 4, fun d t => if d = 1 then (if t = 1 then 5 else 2) else (if t = 0 ∨ t = 3 then 1 else t + 2)⟩

theorem ex_words : TwinWords exD 0 3 := ⟨by decide, by decide, by decide⟩

theorem ex_docs : TwinDocs exD 0 2 := ⟨by decide, by decide, by decide⟩

/-- Links among the three documents -/
def exK : Data := ⟨3, 3, fun d e => if d = e then 1 else if d = 1 then 2 else if e = 1 then 3 else 0⟩

theorem ex_links : TwinLinks exD exK 0 2 := ⟨rfl, rfl, by decide⟩

/-- Other documents and words are not alike. -/
example : ¬ TwinWords exD 0 1 ∧ ¬ TwinDocs exD 0 1 :=
  ⟨fun h => absurd (h.counts 0 (by decide)) (by decide), fun h => absurd (h.counts 0 (by decide)) (by decide)⟩

section
open Verif.Props.RenumberStm (exT exact_follows)

/-- A mixture trained without measuring ends normally. -/
theorem ex_em (psi : ℝ → ℝ) (n : Nat) (s : Mom.EmState) : ∃ a, Mom.emTrain psi ⟨2, fun _ => 1, fun _ => 1⟩ exD ⟨n, 0, false⟩ s = .ok a := by
  have h : ∀ fuel itr s, ∃ a, Mom.emLoop psi ⟨2, fun _ => 1, fun _ => 1⟩ exD ⟨n, 0, false⟩ fuel itr s = .ok a := by
    intro fuel
    induction fuel with
    | zero => exact fun _ s => ⟨s, rfl⟩
    | succ fuel ih =>
      intro itr s
      unfold Mom.emLoop
      simp only [Mom.logging]
      split
      · exact ⟨_, rfl⟩
      · exact ih _ _
  unfold Mom.emTrain
  rw [if_neg (by decide)]
  exact h _ _ _

/-- The first and the last word get the same probability in both classes, though the classes differ. -/
example (psi : ℝ → ℝ) (n : Nat) : ∃ a, Mom.emTrain psi ⟨2, fun _ => 1, fun _ => 1⟩ exD ⟨n, 0, false⟩
    ⟨fun k => k, fun k t => if t = 0 ∨ t = 3 then k + 1 else k + t, fun d k => if d = 1 then k else 2 * k⟩ = .ok a
      ∧ EqCols 2 a.word 0 3 ∧ EqRows 2 a.resp 0 2 := by
  obtain ⟨a, ha⟩ := ex_em psi n ⟨fun k => k, fun k t => if t = 0 ∨ t = 3 then k + 1 else k + t, fun d k => if d = 1 then k else 2 * k⟩
  exact ⟨a, ha, em_words psi _ ex_words rfl (fun k _ => by simp) ha, em_docs psi _ ex_docs (fun k _ => by simp) ha⟩

/-- Classes that start alike -/
example (psi : ℝ → ℝ) (n : Nat) : ∃ a, Mom.emTrain psi ⟨2, fun _ => 1, fun _ => 1⟩ exD ⟨n, 0, false⟩ ⟨fun _ => 1, fun _ t => t + 1, fun d _ => d⟩ = .ok a
    ∧ a.topic 0 = a.topic 1 ∧ EqRows 4 a.word 0 1 ∧ EqCols 3 a.resp 0 1 := by
  obtain ⟨a, ha⟩ := ex_em psi n ⟨fun _ => 1, fun _ t => t + 1, fun d _ => d⟩
  exact ⟨a, ha, em_topics psi _ (i := 0) (j := 1) (by norm_num) (by norm_num) rfl rfl (fun _ _ => rfl) (fun _ _ => rfl) ha⟩

example (psi : ℝ → ℝ) (n : Nat) : ∃ a, Mom.emQuery psi ⟨2, fun _ => 1, fun _ => 1⟩ exD (n + 1)
    ⟨fun k => k, fun k t => k + t, fun d k => if d = 1 then k else 2 * k⟩ = .ok a ∧ EqRows 2 a.resp 0 2 :=
  ⟨_, rfl, em_query_docs psi (p := ⟨2, fun _ => 1, fun _ => 1⟩) (s := ⟨fun k => k, fun k t => k + t, fun d k => if d = 1 then k else 2 * k⟩) (n + 1) ex_docs
    (fun k _ => by simp) rfl⟩

theorem ex_corpus : VbPython.Corpus exD := ⟨by decide, by decide⟩

/-- LDA: copies of a document, and words that occur equally often -/
example (psi : ℝ → ℝ) : ∃ a, VbPython.train psi (fun _ _ => 0) ⟨2, fun k => k + 1, 1⟩ exD ⟨5, 0, 1, 1, 1, 1, "batch"⟩
    (fun k t => if t = 0 ∨ t = 3 then k + 1 else k + t) (fun d k => if d = 1 then k else 2 * k) = .ok a
      ∧ EqRows 2 a.means 0 2 ∧ EqCols 2 a.word 0 3 := by
  obtain ⟨a, ha, h1⟩ := vb_docs psi (fun _ _ => 0) (p := ⟨2, fun k => k + 1, 1⟩) ex_corpus ex_docs ⟨5, 0, 1, 1, 1, 1, "batch"⟩ rfl
    (word := fun k t => if t = 0 ∨ t = 3 then k + 1 else k + t) (topics := fun d k => if d = 1 then k else 2 * k) (fun k _ => by simp)
  exact ⟨a, ha, h1, vb_words psi ex_words (fun _ _ _ _ _ _ => rfl) _ (fun k _ => by simp) ha⟩

/-- LDA: topics that start alike -/
example (psi : ℝ → ℝ) : ∃ a, VbPython.train psi (fun _ _ => 0) ⟨2, fun _ => 1, 1⟩ exD ⟨5, 0, 1, 1, 1, 1, "batch"⟩
    (fun _ t => t + 1) (fun d _ => if d = 1 then 1 else 2) = .ok a ∧ EqRows 4 a.word 0 1 ∧ EqCols 3 a.means 0 1 := by
  obtain ⟨a, ha, -⟩ := vb_docs psi (fun _ _ => 0) (p := ⟨2, fun _ => 1, 1⟩) ex_corpus ex_docs ⟨5, 0, 1, 1, 1, 1, "batch"⟩ rfl
    (word := fun _ t => t + 1) (topics := fun d _ => if d = 1 then 1 else 2) (fun k _ => by simp)
  exact ⟨a, ha, vb_topics psi (i := 0) (j := 1) (by norm_num) (by norm_num) rfl (fun _ _ _ _ _ _ => rfl) _ (fun _ _ => rfl) (fun _ _ => rfl) ha⟩

/-- mtm2 ends normally with two topics. -/
theorem ex_mtm2 (inv : Nat → (Nat → Nat → ℝ) → Nat → Nat → ℝ) (n : Nat) (s : Mtm.State2) : ∃ a, Mtm.train2 inv exD exK 2 false n s = .ok a := by
  induction n generalizing s with
  | zero => exact ⟨s, rfl⟩
  | succ n ih =>
    unfold Mtm.train2 Mtm.step2
    rw [if_neg (by decide)]
    exact ih _

example (n : Nat) : ∃ a, Mtm.train2 StmCov.exactInv exD exK 2 false n
    ⟨fun k => k, exT 1, fun k t => if t = 0 ∨ t = 3 then k + 1 else k + t, fun d k => if d = 1 then k else 2 * k, fun _ _ => 1⟩ = .ok a
      ∧ EqCols 2 a.vocab 0 3 ∧ EqRows 2 a.means 0 2 := by
  obtain ⟨a, ha⟩ := ex_mtm2 StmCov.exactInv n
    ⟨fun k => k, exT 1, fun k t => if t = 0 ∨ t = 3 then k + 1 else k + t, fun d k => if d = 1 then k else 2 * k, fun _ _ => 1⟩
  exact ⟨a, ha, mtm2_words (x := exD) (links := exK) exact_follows rfl rfl ex_words false n (fun k _ => by simp) ha,
    (mtm2_docs exact_follows ex_docs ex_links false n (fun k _ => by simp) (fun _ _ => rfl) ha).1⟩

example (n : Nat) : ∃ a, Mtm.train2 StmCov.exactInv exD exK 2 false n ⟨fun _ => 0, fun i j => if i = j then 1 else 0, fun _ t => t + 1, fun d _ => d, fun _ _ => 1⟩ = .ok a
    ∧ EqRows 4 a.vocab 0 1 ∧ EqCols 3 a.means 0 1 := by
  obtain ⟨a, ha⟩ := ex_mtm2 StmCov.exactInv n ⟨fun _ => 0, fun i j => if i = j then 1 else 0, fun _ t => t + 1, fun d _ => d, fun _ _ => 1⟩
  exact ⟨a, ha, mtm2_topics (x := exD) (links := exK) (i := 0) (j := 1) (K := 2) exact_follows rfl rfl (by norm_num) (by norm_num) false n rfl (fun a _ b _ => by simp) (fun _ _ => rfl) (fun _ _ => rfl)
    (fun _ _ => rfl) ha⟩

example (n : Nat) : EqRows 2 (Mtm.train3 StmCov.exactInv exD exK 2 n
    ⟨fun k => k, exT 1, 7, exT 2, fun d k => if d = 1 then k else 2 * k, fun _ _ => 1, fun _ k => k, fun _ _ => 1, fun _ => 1⟩).outMeans 0 2 :=
  (mtm3_docs exact_follows ex_docs ex_links n (fun k _ => by simp) (fun _ _ => rfl) (fun _ _ => rfl) (fun _ _ => rfl) rfl).1

example (n : Nat) : EqCols 2 (Mtm.train3 StmCov.exactInv exD exK 2 n
    ⟨fun k => k, exT 1, 7, fun k t => if t = 0 ∨ t = 3 then k + 1 else k + t, exT 2, exT 3, exT 4, exT 5, fun d => d + 1⟩).vocab 0 3 :=
  mtm3_words (x := exD) (links := exK) (K := 2) (u := 0) (t := 3) (s := ⟨fun k => k, exT 1, 7, fun k t => if t = 0 ∨ t = 3 then k + 1 else k + t, exT 2, exT 3, exT 4, exT 5, fun d => d + 1⟩)
    exact_follows rfl rfl ex_words n (fun k _ => by simp)

/-- Böhning's bound with the exact inverse -/
example (n : Nat) (fast : Bool) : EqCols 2 (bohningTrain (StmCov.exactInv 2) (fun _ _ _ _ => 0) exD 2 1 (bohningA 2) fast n
    ⟨fun k => k, exT 1, fun k t => if t = 0 ∨ t = 3 then k + 1 else k + t, exT 2, exT 3, exT 4⟩).vocab 0 3 :=
  bohning_words _ (exact_follows 2 _ (keeps_refl 2)) _ ex_words 1 fast n (fun k _ => by simp)

example (n : Nat) (fast : Bool) : EqRows 2 (bohningTrain (StmCov.exactInv 2) (fun _ _ _ _ => 0) exD 2 1 (bohningA 2) fast n
    ⟨fun k => k, exT 1, exT 2, fun d k => if d = 1 then k else 2 * k, fun d k => if d = 1 then k else 2 * k, fun _ _ => 1⟩).means 0 2 :=
  (bohning_docs _ (exact_follows 2 _ (keeps_refl 2)) _ ex_docs 1 fast n (fun k _ => by simp) (fun k _ => by simp) (fun _ _ => rfl)).1

example (n : Nat) (fast : Bool) : EqRows 4 (bohningTrain (StmCov.exactInv 2) (fun _ _ _ _ => 0) exD 2 1 (bohningA 2) fast n
    ⟨fun _ => 1, fun i j => if i = j then 1 else 0, fun _ t => t + 1, fun d _ => d, fun d _ => d, fun _ _ => 1⟩).vocab 0 1 :=
  (bohning_topics _ (i := 0) (j := 1) (by norm_num) (by norm_num) (exact_follows 2 _ (swap_keeps (by norm_num) (by norm_num))) _ exD 1 fast n rfl
    (fun a _ b _ => by simp) (fun _ _ => rfl) (fun _ _ => rfl) (fun _ _ => rfl) (fun _ _ => rfl)).1

/-- Lists of words: the first two documents have the same words in other orders; words 1 and 2 occur equally often. -/
def exC : Cvb.Corpus := ⟨[3, 3, 2], fun d n => if d = 0 then n else if d = 1 then 2 - n else n + 1⟩

theorem exC_in : ∀ d, d < exC.lens.length → ∀ n, n < exC.len d → exC.w d n < 3 := by decide

example (psi : ℝ → ℝ) : EqCols 2 (Vb.train psi ⟨2, 3, fun k => k + 1, 1⟩ exC [10, 5] ⟨exT 1, fun k t => if t = 0 then 1 else k + 2, exT 2, 0⟩).vocab 1 2 :=
  lda_words psi ⟨2, 3, fun k => k + 1, 1⟩ exC_in (u := 1) (t := 2) (by norm_num) (by norm_num) (by decide) _ (fun k _ => by simp)

example (psi : ℝ → ℝ) : EqRows 2 (Vb.train psi ⟨2, 3, fun k => k + 1, 1⟩ exC [10, 5] ⟨fun d k => if d = 2 then 1 else k, exT 1, exT 2, 0⟩).topics 0 1 :=
  lda_docs psi ⟨2, 3, fun k => k + 1, 1⟩ exC_in (d := 0) (e := 1) (by decide) (by decide) rfl (fun t => by
    rcases t with _ | _ | _ | t
    · decide
    · decide
    · decide
    · have h : ∀ d, d < 2 → ∀ n, n < 3 → exC.w d n < 3 := by decide
      have h0 : ∀ d, d < 2 → exC.len d = 3 → occurs exC d (t + 1 + 1 + 1) = 0 := fun d hd hl => by
        unfold occurs
        rw [hl, Finset.card_eq_zero]
        refine Finset.filter_false_of_mem fun n hn => ?_
        have := h d hd n (Finset.mem_range.1 hn)
        omega
      rw [h0 0 (by decide) rfl, h0 1 (by decide) rfl]) _ (fun k _ => by simp)

example (psi : ℝ → ℝ) : EqRows 3 (Vb.train psi ⟨2, 3, fun _ => 1, 1⟩ exC [10, 5] ⟨fun d _ => d, fun _ t => t + 1, exT 1, 0⟩).vocab 0 1 :=
  (lda_topics psi ⟨2, 3, fun _ => 1, 1⟩ exC_in (i := 0) (j := 1) (by norm_num) (by norm_num) rfl _ (fun _ _ => rfl) (fun _ _ => rfl)).1

/-- The correlated topic model: a run of ten iterations ends normally. -/
theorem ex_ctm (perp : ℝ → ℝ) (st : State) : ∃ a, train (trainStep (fun _ _ _ => 0) exD 3 1) (fun _ => 0)
    (fun st => logLikelihood exD 3 1 st.means st.vocab) perp ⟨10, 5, 30, .all⟩ st = .ok a := by
  rcases Props.CtmTrain.log_divides_partial (trainStep (fun _ _ _ => 0) exD 3 1) (fun _ => 0) (fun st => logLikelihood exD 3 1 st.means st.vocab) perp
    ⟨10, 5, 30, .all⟩ 5 (by decide) rfl (by decide) st with ⟨l, h, -⟩ | ⟨j, l, -, h, -⟩
  · exact ⟨_, h⟩
  · exact ⟨_, h⟩

example (perp : ℝ → ℝ) : ∃ a, train (trainStep (fun _ _ _ => 0) exD 3 1) (fun _ => 0) (fun st => logLikelihood exD 3 1 st.means st.vocab) perp
    ⟨10, 5, 30, .all⟩ ⟨fun k => k, exT 1, fun k t => if t = 0 ∨ t = 3 then k + 1 else k + t, fun d k => if d = 1 then k else 2 * k,
      fun d k => if d = 1 then k else 2 * k, fun _ _ => 1, fun _ _ => 1, fun _ => 0⟩ = .ok a ∧ EqCols 3 a.1.vocab 0 3 ∧ EqRows 3 a.1.means 0 2 := by
  obtain ⟨a, ha⟩ := ex_ctm perp ⟨fun k => k, exT 1, fun k t => if t = 0 ∨ t = 3 then k + 1 else k + t, fun d k => if d = 1 then k else 2 * k,
    fun d k => if d = 1 then k else 2 * k, fun _ _ => 1, fun _ _ => 1, fun _ => 0⟩
  exact ⟨a, ha, ctm_words _ (fun _ _ _ _ _ _ _ => rfl) ex_words 1 1 (fun _ _ _ => rfl) perp _ (fun k _ => by simp) ha,
    (ctm_docs _ (fun _ _ _ _ _ _ _ => rfl) ex_docs 1 1 (fun _ _ _ => rfl) perp _ (fun k _ => by simp) (fun k _ => by simp) (fun _ _ => rfl)
      (fun _ _ => rfl) rfl ha).1⟩

/-- The last two topics start alike. -/
example (perp : ℝ → ℝ) : ∃ a, train (trainStep (fun _ _ _ => 0) exD 3 1) (fun _ => 0) (fun st => logLikelihood exD 3 1 st.means st.vocab) perp
    ⟨10, 5, 30, .all⟩ ⟨fun _ => 1, fun i j => if i = j then 1 else 0, fun k t => if k = 0 then 7 else t + 1, fun d k => if k = 0 then 7 else d,
      fun d k => if k = 0 then 7 else d, fun _ _ => 1, fun _ _ => 1, fun _ => 0⟩ = .ok a ∧ EqRows 4 a.1.vocab 1 2 ∧ EqCols 3 a.1.means 1 2 := by
  obtain ⟨a, ha⟩ := ex_ctm perp ⟨fun _ => 1, fun i j => if i = j then 1 else 0, fun k t => if k = 0 then 7 else t + 1,
    fun d k => if k = 0 then 7 else d, fun d k => if k = 0 then 7 else d, fun _ _ => 1, fun _ _ => 1, fun _ => 0⟩
  exact ⟨a, ha, ctm_topics _ (x := exD) (K := 3) (i := 1) (j := 2) (by decide) (by decide) (fun _ _ _ _ _ _ _ => rfl) 1 1 (fun _ _ _ => rfl) perp _ rfl
    (fun a _ b _ => by simp) (fun _ _ => by simp) (fun _ _ => by simp) (fun _ _ => by simp) (fun _ _ => rfl) (fun _ _ => rfl) ha⟩

theorem ex_cross : SameCross 2 (bohningA 2) 0 1 := fun a _ b _ => by
  unfold bohningA
  simp

example (n : Nat) : EqCols 3 (Mtm.train3 StmCov.exactInv exD exK 2 n
    ⟨fun _ => 0, fun i j => if i = j then 1 else 0, 7, fun _ t => t + 1, fun d _ => d, fun _ _ => 1, fun _ _ => 1, fun _ _ => 2, fun d => d + 1⟩).inMeans 0 1 :=
  (mtm3_topics (x := exD) (links := exK) (K := 2) (i := 0) (j := 1) exact_follows rfl rfl (by norm_num) (by norm_num) n rfl (fun a _ b _ => by simp)
    (fun _ _ => rfl) (fun _ _ => rfl) (fun _ _ => rfl) (fun _ _ => rfl) (fun _ _ => rfl)).2.2

example (n : Nat) : EqRows 4 (Stm.uvTrain StmCov.exactInv ⟨2, 2, 2, 1, 2, 1 / 10, bohningA 2⟩ exD (exT 1) n
    ⟨fun _ f => f, fun _ q => q + 1, exT 3, exT 4, fun i j => if i = j then 1 else 0, fun _ t => t + 1, fun d _ => d, exT 7, fun _ _ => 1, exT 8⟩).vocab 0 1 :=
  (uv_topics exact_follows ⟨2, 2, 2, 1, 2, 1 / 10, bohningA 2⟩ exD (exT 1) (i := 0) (j := 1) (by norm_num) (by norm_num) ex_cross n (fun _ _ => rfl)
    (fun _ _ => rfl) (fun a _ b _ => by simp) (fun _ _ => rfl) (fun _ _ => rfl) (fun _ _ => rfl)).1

example (n : Nat) : EqRows 2 (StmYv.train StmCov.exactInv ⟨2, 2, 2, 1, 2, 1 / 10, bohningA 2⟩ exD (exT 1) n
    ⟨fun _ f => f, fun _ q => q + 1, exT 3, exT 4, fun i j => if i = j then 1 else 0, fun _ t => t + 1, fun d _ => d, fun d _ => d, fun _ _ => 1, fun _ _ => 1,
      fun _ => 0⟩).A 0 1 :=
  (yv_topics exact_follows ⟨2, 2, 2, 1, 2, 1 / 10, bohningA 2⟩ exD (exT 1) (i := 0) (j := 1) (by norm_num) (by norm_num) ex_cross n (fun _ _ => rfl)
    (fun _ _ => rfl) (fun a _ b _ => by simp) (fun _ _ => rfl) (fun _ _ => rfl) (fun _ _ => rfl) (fun _ _ => rfl) (fun _ _ => rfl)).2.2

/-- Models with features: copies with the same features -/
example (n : Nat) : EqRows 2 (Stm.uvTrain StmCov.exactInv ⟨2, 2, 2, 1, 2, 1 / 10, bohningA 2⟩ exD (fun d f => if d = 1 then f else 3) n
    ⟨exT 1, exT 2, exT 3, exT 4, exT 5, exT 6, fun d k => if d = 1 then k else 2 * k, exT 7, fun _ _ => 1, exT 8⟩).means 0 2 :=
  (uv_docs exact_follows ⟨2, 2, 2, 1, 2, 1 / 10, bohningA 2⟩ ex_docs (fun f _ => by simp) n (fun k _ => by simp) (fun _ _ => rfl)).1

example (n : Nat) : EqCols 2 (Stm.uvTrain StmCov.exactInv ⟨2, 2, 2, 1, 2, 1 / 10, bohningA 2⟩ exD (exT 1) n
    ⟨exT 1, exT 2, exT 3, exT 4, exT 5, fun k t => if t = 0 ∨ t = 3 then k + 1 else k + t, exT 6, exT 7, exT 8, exT 9⟩).vocab 0 3 :=
  uv_words exact_follows ⟨2, 2, 2, 1, 2, 1 / 10, bohningA 2⟩ ex_words _ n (fun k _ => by simp)

example (n : Nat) : EqRows 2 (StmYv.train StmCov.exactInv ⟨2, 2, 2, 1, 2, 1 / 10, bohningA 2⟩ exD (fun d f => if d = 1 then f else 3) n
    ⟨exT 1, exT 2, exT 3, exT 4, exT 5, exT 6, fun d k => if d = 1 then k else 2 * k, fun d k => if d = 1 then k else 2 * k, fun _ _ => 1, fun _ _ => 1,
      fun _ => 0⟩).means 0 2 :=
  (yv_docs exact_follows ⟨2, 2, 2, 1, 2, 1 / 10, bohningA 2⟩ ex_docs (fun f _ => by simp) n (fun k _ => by simp) (fun k _ => by simp) (fun _ _ => rfl)
    (fun _ _ => rfl) rfl).1

example (n : Nat) : EqCols 2 (StmYv.train StmCov.exactInv ⟨2, 2, 2, 1, 2, 1 / 10, bohningA 2⟩ exD (exT 1) n
    ⟨exT 1, exT 2, exT 3, exT 4, exT 5, fun k t => if t = 0 ∨ t = 3 then k + 1 else k + t, exT 6, exT 7, exT 8, exT 9, fun d => d⟩).vocab 0 3 :=
  yv_words exact_follows ⟨2, 2, 2, 1, 2, 1 / 10, bohningA 2⟩ ex_words _ n (fun k _ => by simp)

/-- mtm -/
example (psi : ℝ → ℝ) (iterations : Nat) : ∃ a, Mtm.train (StmCov.exactInv 2) psi ⟨2, 1 / 10, exT 1, fun k => k, fun d => d⟩ exD exK
    (fun itr _ => decide (itr = 7)) 1 iterations true ⟨exT 2, fun k => k, fun k => k + 1, fun k => k + 2, fun k => k + 3,
      fun k t => if t = 0 ∨ t = 3 then k + 1 else k + t, exT 4, exT 5, exT 6⟩ = .ok a ∧ EqCols 2 a.wordDists 0 3 := by
  have h : ∀ s, ∃ a, Mtm.train (StmCov.exactInv 2) psi ⟨2, 1 / 10, exT 1, fun k => k, fun d => d⟩ exD exK (fun itr _ => decide (itr = 7)) 1 iterations
      true s = .ok a := fun s => by
    unfold Mtm.train
    rw [if_neg (by decide), if_neg (by omega)]
    exact ⟨_, rfl⟩
  obtain ⟨a, ha⟩ := h ⟨exT 2, fun k => k, fun k => k + 1, fun k => k + 2, fun k => k + 3, fun k t => if t = 0 ∨ t = 3 then k + 1 else k + t, exT 4,
    exT 5, exT 6⟩
  exact ⟨a, ha, mtm_words psi (c := ⟨2, 1 / 10, exT 1, fun k => k, fun d => d⟩) (exact_follows 2 _ (keeps_refl 2)) ex_words (by decide) rfl
    (fun _ _ _ _ => rfl) 1 iterations true (fun k _ => by simp) ha⟩

example (psi : ℝ → ℝ) (iterations : Nat) : ∃ a, Mtm.train (StmCov.exactInv 2) psi ⟨2, 1 / 10, fun d _ => d, fun _ => 1, fun d => d⟩ exD exK
    (fun itr _ => decide (itr = 7)) 1 iterations true ⟨fun d _ => d, fun _ => 1, fun _ => 2, fun _ => 3, fun _ => 4, fun _ t => t + 1,
      fun i j => if i = j then 1 else 0, fun i j => if i = j then 1 else 0, fun _ _ => 1⟩ = .ok a ∧ EqRows 4 a.wordDists 0 1 := by
  have h : ∀ s, ∃ a, Mtm.train (StmCov.exactInv 2) psi ⟨2, 1 / 10, fun d _ => d, fun _ => 1, fun d => d⟩ exD exK (fun itr _ => decide (itr = 7)) 1
      iterations true s = .ok a := fun s => by
    unfold Mtm.train
    rw [if_neg (by decide), if_neg (by omega)]
    exact ⟨_, rfl⟩
  obtain ⟨a, ha⟩ := h ⟨fun d _ => d, fun _ => 1, fun _ => 2, fun _ => 3, fun _ => 4, fun _ t => t + 1,
      fun i j => if i = j then 1 else 0, fun i j => if i = j then 1 else 0, fun _ _ => 1⟩
  exact ⟨a, ha, (mtm_topics psi (c := ⟨2, 1 / 10, fun d _ => d, fun _ => 1, fun d => d⟩) (x := exD) (links := exK) rfl (by decide) (i := 0) (j := 1)
    (by norm_num) (by norm_num) (exact_follows 2 _ (swap_keeps (by norm_num) (by norm_num))) (fun _ _ => rfl) rfl (fun _ _ _ _ => rfl) 1 iterations true
    (fun _ _ => rfl) rfl rfl rfl rfl (fun _ _ => rfl) (fun a _ b _ => by simp) (fun a _ b _ => by simp) (fun _ _ => rfl) ha).1⟩

/-- rtm -/
theorem ex_rtm (psi pdf cdf : ℝ → ℝ) (n : Nat) (s : Rtm.State) :
    ∃ a, Rtm.train ⟨psi, pdf, cdf, 2, 1 / 10, exD, fun d => [2 - d], 3⟩ exN n s = .ok a := by
  have hc : ¬ ((List.range exD.D).any fun d => decide (exD.len d < 1)) = true := by decide
  unfold Rtm.train
  rw [if_neg hc]
  obtain ⟨a, h⟩ := Props.Rtm.loop_ok exN ⟨psi, pdf, cdf, 2, 1 / 10, exD, fun d => [2 - d], 3⟩ (fun _ s => ⟨_, rfl⟩) (by show 3 ≠ 0; decide) n 0
    { s with means := VbPython.toMeans ⟨2, s.prior, 1 / 10⟩ exD s.means }
  rw [h]
  exact ⟨_, rfl⟩

theorem ex_inside : ∀ d, ∀ j ∈ [2 - d], j < 3 := fun d j hj => by
  have : j = 2 - d := List.mem_singleton.1 hj
  omega

example (psi pdf cdf : ℝ → ℝ) (n : Nat) : ∃ a, Rtm.train ⟨psi, pdf, cdf, 2, 1 / 10, exD, fun d => [2 - d], 3⟩ exN n
    ⟨fun k t => if t = 0 ∨ t = 3 then k + 1 else k + t, exT 2, fun k => k, fun k => k + 1⟩ = .ok a ∧ EqCols 2 a.word 0 3 := by
  obtain ⟨a, ha⟩ := ex_rtm psi pdf cdf n ⟨fun k t => if t = 0 ∨ t = 3 then k + 1 else k + t, exT 2, fun k => k, fun k => k + 1⟩
  exact ⟨a, ha, rtm_words (e := ⟨psi, pdf, cdf, 2, 1 / 10, exD, fun d => [2 - d], 3⟩) ex_inside ex_words (exN_same _ _ _ _ _) n (fun k _ => by simp) ha⟩

example (psi pdf cdf : ℝ → ℝ) (n : Nat) : ∃ a, Rtm.train ⟨psi, pdf, cdf, 2, 1 / 10, exD, fun d => [2 - d], 3⟩ exN n
    ⟨fun _ t => t + 1, fun d k => if k = 2 then 5 else d, fun k => if k = 2 then 5 else 1, fun k => if k = 2 then 0 else 1⟩ = .ok a
      ∧ EqRows 4 a.word 0 1 ∧ EqCols 3 a.means 0 1 ∧ a.weights 0 = a.weights 1 := by
  obtain ⟨a, ha⟩ := ex_rtm psi pdf cdf n
    ⟨fun _ t => t + 1, fun d k => if k = 2 then 5 else d, fun k => if k = 2 then 5 else 1, fun k => if k = 2 then 0 else 1⟩
  exact ⟨a, ha, rtm_topics (e := ⟨psi, pdf, cdf, 2, 1 / 10, exD, fun d => [2 - d], 3⟩) ex_inside (i := 0) (j := 1) (by norm_num) (by norm_num)
    (exN_same _ _ _ _ _) n (fun _ _ => rfl) (fun _ _ => by simp) (by simp) (by simp) ha⟩

end

end Verif.Props.Twins
