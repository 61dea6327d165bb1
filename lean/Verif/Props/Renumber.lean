import Verif.Props.Numerics
import Verif.Props.VbElbo

/-!
# Renumbering words, topics and documents (C300, C301, C302)

The numbers of words, topics and documents are arbitrary: a corpus with other numbers is the same corpus.  Mixtures trained by EM
and LDA trained by variational Bayes in Python.
-/

namespace Verif.Props.Renumber

open Verif
open Verif.Mom (Data)
open Verif.Props.Numerics (softmax shifted)

/-! ## What renumbering means -/

/-- A renumbering of the first `n` numbers -/
def Keeps (n : Nat) (σ : Equiv.Perm Nat) : Prop := ∀ i, σ i < n ↔ i < n

/-- Number `i` of the second vector is number `σ i` of the first. -/
def Vec (n : Nat) (σ : Equiv.Perm Nat) (u v : Nat → ℝ) : Prop := ∀ i, i < n → v i = u (σ i)

/-- The second table has the rows and the columns of the first under other numbers. -/
def Tab (m n : Nat) (σ τ : Equiv.Perm Nat) (u v : Nat → Nat → ℝ) : Prop := ∀ i, i < m → ∀ j, j < n → v i j = u (σ i) (τ j)

/-- The second corpus is the first with other numbers for documents and words. -/
structure Renumbered (δ τ : Equiv.Perm Nat) (x y : Data) : Prop where
  docs : Keeps x.D δ
  vocab : Keeps x.T τ
  D : y.D = x.D
  T : y.T = x.T
  words : ∀ d, d < x.D → ∀ t, t < x.T → y.words d t = x.words (δ d) (τ t)

/-- Both succeed with results that are related, or both fail alike. -/
def Alike {α β : Type} (R : α → β → Prop) : Py α → Py β → Prop
  | .ok a, .ok b => R a b
  | .error e, .error e' => e = e'
  | _, _ => False

/-! ## Sums and softmax -/

theorem sum_eq {n : Nat} {σ : Equiv.Perm Nat} (h : Keeps n σ) {f g : Nat → ℝ} (hfg : ∀ i, i < n → g i = f (σ i)) :
    ∑ i ∈ Finset.range n, g i = ∑ i ∈ Finset.range n, f i := by
  rw [Finset.sum_congr rfl fun i hi => hfg i (Finset.mem_range.1 hi)]
  refine Finset.sum_equiv σ (fun i => ?_) (fun i _ => rfl)
  rw [Finset.mem_range, Finset.mem_range]
  exact (h i).symm

theorem softmax_eq {K : Nat} {σ : Equiv.Perm Nat} (h : Keeps K σ) {r s : Nat → ℝ} (hrs : Vec K σ r s) :
    Vec K σ (softmax K r) (softmax K s) := by
  intro k hk
  unfold softmax
  rw [hrs k hk, sum_eq (f := fun i => Real.exp (r i)) h fun i hi => by rw [hrs i hi]]

theorem len_eq {δ τ : Equiv.Perm Nat} {x y : Data} (h : Renumbered δ τ x y) (d : Nat) (hd : d < x.D) : y.len d = x.len (δ d) := by
  unfold Data.len
  rw [h.T, Finset.sum_congr rfl fun t ht => h.words d hd t (Finset.mem_range.1 ht)]
  refine Finset.sum_equiv τ (fun t => ?_) (fun t _ => rfl)
  rw [Finset.mem_range, Finset.mem_range]
  exact (h.vocab t).symm

theorem check_eq {δ τ : Equiv.Perm Nat} {x y : Data} (h : Renumbered δ τ x y) :
    (List.range y.D).any (fun d => decide (y.len d < 1)) = (List.range x.D).any (fun d => decide (x.len d < 1)) := by
  rw [Bool.eq_iff_iff]
  simp only [List.any_eq_true, List.mem_range, decide_eq_true_eq, h.D]
  constructor
  · rintro ⟨d, hd, hl⟩
    exact ⟨δ d, (h.docs d).2 hd, by rwa [← len_eq h d hd]⟩
  · rintro ⟨d, hd, hl⟩
    have hd' : δ.symm d < x.D := (h.docs _).1 (by simpa using hd)
    refine ⟨δ.symm d, hd', ?_⟩
    rw [len_eq h _ hd']
    simpa using hl

theorem keeps_refl (n : Nat) : Keeps n (Equiv.refl Nat) := fun _ => Iff.rfl

/-! ## Mixtures of multinomials, trained by EM -/

/-- The priors of a mixture under other numbers -/
structure SameEm (σ τ : Equiv.Perm Nat) (T : Nat) (p q : Mom.EmParams) : Prop where
  K : q.K = p.K
  topics : Keeps p.K σ
  a : Vec p.K σ p.a q.a
  b : Vec T τ p.b q.b

/-- The state of a mixture under other numbers -/
structure SameMix (δ σ τ : Equiv.Perm Nat) (D K T : Nat) (s r : Mom.EmState) : Prop where
  topic : Vec K σ s.topic r.topic
  word : Tab K T σ τ s.word r.word
  resp : Tab D K δ σ s.resp r.resp

section
variable {δ σ τ : Equiv.Perm Nat} {x y : Data} {p q : Mom.EmParams} {s r : Mom.EmState}

theorem em_join (psi : ℝ → ℝ) (hx : Renumbered δ τ x y) (hp : SameEm σ τ x.T p q) (hs : SameMix δ σ τ x.D p.K x.T s r) :
    Tab x.D p.K δ σ (Mom.logJoint psi p x s) (Mom.logJoint psi q y r) := by
  intro d hd k hk
  unfold Mom.logJoint
  rw [hx.T, hp.K, hs.topic k hk, sum_eq (f := s.topic) hp.topics hs.topic,
    sum_eq (f := fun t => s.word (σ k) t) hx.vocab fun t ht => hs.word k hk t ht]
  congr 1
  refine sum_eq (f := fun t => (x.words (δ d) t : ℝ) * (psi (s.word (σ k) t) - psi (∑ t' ∈ Finset.range x.T, s.word (σ k) t')))
    hx.vocab fun t ht => ?_
  rw [hx.words d hd t ht, hs.word k hk t ht]

theorem em_resp (psi : ℝ → ℝ) (hx : Renumbered δ τ x y) (hp : SameEm σ τ x.T p q) (hs : SameMix δ σ τ x.D p.K x.T s r) :
    Tab x.D p.K δ σ (Mom.eStep psi p x s) (Mom.eStep psi q y r) := by
  intro d hd k hk
  unfold Mom.eStep
  rw [shifted, shifted, hp.K]
  exact softmax_eq hp.topics (fun k hk => em_join psi hx hp hs d hd k hk) k hk

theorem em_new (hx : Renumbered δ τ x y) (hp : SameEm σ τ x.T p q) (hs : SameMix δ σ τ x.D p.K x.T s r) :
    SameMix δ σ τ x.D p.K x.T (Mom.mStep p x s) (Mom.mStep q y r) where
  topic k hk := by
    show ∑ d ∈ Finset.range y.D, r.resp d k + q.a k = _
    rw [hx.D, hp.a k hk, sum_eq (f := fun d => s.resp d (σ k)) hx.docs fun d hd => hs.resp d hd k hk]
    rfl
  word k hk t ht := by
    show ∑ d ∈ Finset.range y.D, (y.words d t : ℝ) * r.resp d k + q.b t = _
    rw [hx.D, hp.b t ht, sum_eq (f := fun d => (x.words d (τ t) : ℝ) * s.resp d (σ k)) hx.docs fun d hd => by
      rw [hx.words d hd t ht, hs.resp d hd k hk]]
    rfl
  resp := hs.resp

theorem em_settled (hx : Renumbered δ τ x y) (hp : SameEm σ τ x.T p q) {o n o' n' : Nat → Nat → ℝ} (ho : Tab x.D p.K δ σ o o')
    (hn : Tab x.D p.K δ σ n n') : Mom.Settled q y o' n' ↔ Mom.Settled p x o n := by
  unfold Mom.Settled
  rw [hx.D, hp.K, sum_eq (f := fun d => ∑ k ∈ Finset.range p.K, |o d k - n d k|) hx.docs fun d hd =>
    sum_eq (f := fun k => |o (δ d) k - n (δ d) k|) hp.topics fun k hk => by rw [ho d hd k hk, hn d hd k hk]]

theorem em_loop (psi : ℝ → ℝ) (hx : Renumbered δ τ x y) (hp : SameEm σ τ x.T p q) (plan : Mom.EmPlan) (fuel : Nat) :
    ∀ (itr : Nat) (s r : Mom.EmState), SameMix δ σ τ x.D p.K x.T s r →
      Alike (SameMix δ σ τ x.D p.K x.T) (Mom.emLoop psi p x plan fuel itr s) (Mom.emLoop psi q y plan fuel itr r) := by
  induction fuel with
  | zero => intro itr s r h; exact h
  | succ fuel ih =>
    intro itr s r h
    have hr := em_resp psi hx hp h
    have hset := em_settled hx hp h.resp hr
    have hnew : SameMix δ σ τ x.D p.K x.T { s with resp := Mom.eStep psi p x s } { r with resp := Mom.eStep psi q y r } :=
      ⟨h.topic, h.word, hr⟩
    unfold Mom.emLoop
    dsimp only
    by_cases hc : Mom.Settled p x s.resp (Mom.eStep psi p x s)
    · rw [if_pos hc, if_pos (hset.2 hc)]
      exact hnew
    · rw [if_neg hc, if_neg (fun h' => hc (hset.1 h'))]
      by_cases hl : Mom.logging plan.debug plan.logFrequency itr
      · rw [if_pos hl, if_pos hl]
        rfl
      · rw [if_neg hl, if_neg hl]
        exact ih _ _ _ (em_new hx hp hnew)

/-- **C300, C301, C302** (mixtures): training by EM with other numbers for the words, the topics and the documents ends in the same way, with
the same result under the other numbers. -/
theorem em_train (psi : ℝ → ℝ) (hx : Renumbered δ τ x y) (hp : SameEm σ τ x.T p q) (plan : Mom.EmPlan)
    (h : SameMix δ σ τ x.D p.K x.T s r) :
    Alike (SameMix δ σ τ x.D p.K x.T) (Mom.emTrain psi p x plan s) (Mom.emTrain psi q y plan r) := by
  unfold Mom.emTrain
  rw [check_eq hx]
  split
  · rfl
  · exact em_loop psi hx hp plan _ _ _ _ h

theorem em_queryLoop (psi : ℝ → ℝ) (hx : Renumbered δ τ x y) (hp : SameEm σ τ x.T p q) (fuel : Nat) :
    ∀ (s r : Mom.EmState), SameMix δ σ τ x.D p.K x.T s r →
      SameMix δ σ τ x.D p.K x.T (Mom.emQueryLoop psi p x fuel s) (Mom.emQueryLoop psi q y fuel r) := by
  induction fuel with
  | zero => intro s r h; exact h
  | succ fuel ih =>
    intro s r h
    have hr := em_resp psi hx hp h
    have hset := em_settled hx hp hr h.resp
    have hnew : SameMix δ σ τ x.D p.K x.T { s with resp := Mom.eStep psi p x s } { r with resp := Mom.eStep psi q y r } :=
      ⟨h.topic, h.word, hr⟩
    unfold Mom.emQueryLoop
    dsimp only
    by_cases hc : Mom.Settled p x (Mom.eStep psi p x s) s.resp
    · rw [if_pos hc, if_pos (hset.2 hc)]
      exact hnew
    · rw [if_neg hc, if_neg (fun h' => hc (hset.1 h'))]
      exact ih _ _ hnew

/-- **C300, C301, C302** (queries of mixtures) -/
theorem em_query (psi : ℝ → ℝ) (hx : Renumbered δ τ x y) (hp : SameEm σ τ x.T p q) (iterations : Nat)
    (h : SameMix δ σ τ x.D p.K x.T s r) :
    Alike (SameMix δ σ τ x.D p.K x.T) (Mom.emQuery psi p x iterations s) (Mom.emQuery psi q y iterations r) := by
  unfold Mom.emQuery
  split
  · rfl
  · exact em_queryLoop psi hx hp _ _ _ h

end

/-! ## Variational LDA in Python -/

/-- The priors of LDA under other numbers; the prior of the words is a number. -/
structure SameVb (σ : Equiv.Perm Nat) (p q : VbPython.Params) : Prop where
  K : q.K = p.K
  topics : Keeps p.K σ
  a : Vec p.K σ p.a q.a
  v : q.v = p.v

section
variable {δ σ τ : Equiv.Perm Nat} {x y : Data} {p q : VbPython.Params}

theorem vb_infer (psi : ℝ → ℝ) (hx : Renumbered δ τ x y) (hp : SameVb σ p q) {word word' means means' : Nat → Nat → ℝ}
    (hw : Tab p.K x.T σ τ word word') (hm : Tab x.D p.K δ σ means means') (d t k : Nat) (hd : d < x.D) (ht : t < x.T) (hk : k < p.K) :
    VbPython.inferTopics psi q y word' means' d t k = VbPython.inferTopics psi p x word means (δ d) (τ t) (σ k) := by
  unfold VbPython.inferTopics
  rw [shifted, shifted, hp.K]
  refine softmax_eq hp.topics (fun k hk => ?_) k hk
  unfold VbPython.score
  rw [hw k hk t ht, hx.T, sum_eq (f := fun t => word (σ k) t) hx.vocab fun t ht => hw k hk t ht, hp.a k hk, len_eq hx d hd, hm d hd k hk]

theorem vb_toMeans (hx : Renumbered δ τ x y) (hp : SameVb σ p q) {u v : Nat → Nat → ℝ} (h : Tab x.D p.K δ σ u v) :
    Tab x.D p.K δ σ (VbPython.toMeans p x u) (VbPython.toMeans q y v) := by
  intro d hd k hk
  unfold VbPython.toMeans
  rw [h d hd k hk, hp.a k hk, len_eq hx d hd]

theorem vb_toDirichlet (hx : Renumbered δ τ x y) (hp : SameVb σ p q) {u v : Nat → Nat → ℝ} (h : Tab x.D p.K δ σ u v) :
    Tab x.D p.K δ σ (VbPython.toDirichlet p x u) (VbPython.toDirichlet q y v) := by
  intro d hd k hk
  unfold VbPython.toDirichlet
  rw [h d hd k hk, hp.a k hk, len_eq hx d hd]

/-! ### Words and topics, for every way of training -/

/-- The variables of the inner loop under other numbers; documents keep theirs. -/
structure SameBatch (σ τ : Equiv.Perm Nat) (D K T : Nat) (s r : VbPython.Batch) : Prop where
  means : Tab D K (Equiv.refl _) σ s.means r.means
  d : r.d = s.d
  grad : Tab K T σ τ s.grad r.grad
  visits : r.visits = s.visits

/-- The variables of the outer loop under other numbers -/
structure SameRun (σ τ : Equiv.Perm Nat) (D K T : Nat) (s r : VbPython.Run) : Prop where
  word : Tab K T σ τ s.word r.word
  means : Tab D K (Equiv.refl _) σ s.means r.means
  d : r.d = s.d
  step : Vec K σ s.step r.step
  gradStep : Vec K σ s.gradStep r.gradStep
  exGrad : Tab K T σ τ s.exGrad r.exGrad
  expGtg : Vec K σ s.expGtg r.expGtg
  visits : r.visits = s.visits

theorem vb_visit (psi : ℝ → ℝ) (hx : Renumbered (Equiv.refl _) τ x y) (hp : SameVb σ p q) {word word' : Nat → Nat → ℝ}
    (hw : Tab p.K x.T σ τ word word') {s r : VbPython.Batch} (h : SameBatch σ τ x.D p.K x.T s r) :
    Alike (SameBatch σ τ x.D p.K x.T) (VbPython.visit psi p x word s) (VbPython.visit psi q y word' r) := by
  unfold VbPython.visit
  dsimp only
  rw [h.d, hx.D]
  generalize hn : VbPython.nextDoc x.D s.d = n
  split
  · rename_i hd
    refine ⟨fun d' hd' k hk => ?_, rfl, fun k hk t ht => ?_, by rw [h.visits]⟩
    · dsimp only
      by_cases he : d' = n.toNat
      · subst he
        rw [if_pos rfl, if_pos (by simp), hx.T, len_eq hx _ hd,
          sum_eq (f := fun t => VbPython.inferTopics psi p x word s.means n.toNat t (σ k) * (x.words n.toNat t : ℝ)) hx.vocab fun t ht => by
            rw [vb_infer psi hx hp hw h.means _ t k hd ht hk, hx.words _ hd t ht]; rfl]
        rfl
      · rw [if_neg he, if_neg (by simpa using he)]
        exact h.means d' hd' k hk
    · dsimp only
      rw [h.grad k hk t ht, hx.words _ hd t ht, vb_infer psi hx hp hw h.means _ t k hd ht hk]
      rfl
  · rfl

theorem alike_foldlM {α β ι : Type} {R : α → β → Prop} {f : α → ι → Py α} {g : β → ι → Py β}
    (h : ∀ a b i, R a b → Alike R (f a i) (g b i)) (l : List ι) : ∀ a b, R a b → Alike R (l.foldlM f a) (l.foldlM g b) := by
  induction l with
  | nil => intro a b hab; exact hab
  | cons i l ih =>
    intro a b hab
    have hi := h a b i hab
    rw [List.foldlM_cons, List.foldlM_cons]
    generalize f a i = u at hi ⊢
    generalize g b i = v at hi ⊢
    cases u with
    | error e => cases v with
      | error e' => exact hi
      | ok b' => exact hi.elim
    | ok a' => cases v with
      | error e' => exact hi.elim
      | ok b' => exact ih a' b' hi

theorem vb_mix {step step' : Nat → ℝ} {u v u' v' : Nat → Nat → ℝ} {K T : Nat} (hs : Vec K σ step step') (hu : Tab K T σ τ u u')
    (hv : Tab K T σ τ v v') : Tab K T σ τ (VbPython.mix step u v) (VbPython.mix step' u' v') := by
  intro k hk t ht
  unfold VbPython.mix
  rw [hs k hk, hu k hk t ht, hv k hk t ht]

/-- What the measured bound must satisfy: it does not depend on the numbers. -/
def SameBound (σ τ : Equiv.Perm Nat) (D K T : Nat) (bound bound' : (Nat → Nat → ℝ) → (Nat → Nat → ℝ) → ℝ) : Prop :=
  ∀ w w' m m', Tab K T σ τ w w' → Tab D K (Equiv.refl _) σ m m' → bound' w' m' = bound w m

/-- The runs agree, and with Amari's rates the (single) step size too -/
def SameRun' (σ τ : Equiv.Perm Nat) (D K T : Nat) (plan : VbPython.Plan) (s r : VbPython.Run) : Prop :=
  SameRun σ τ D K T s r ∧ (plan.rateAlgor = "amari" → r.step 0 = s.step 0)

theorem vb_step (psi : ℝ → ℝ) {bound bound' : (Nat → Nat → ℝ) → (Nat → Nat → ℝ) → ℝ} (hx : Renumbered (Equiv.refl _) τ x y)
    (hp : SameVb σ p q) (hb : SameBound σ τ x.D p.K x.T bound bound') (plan : VbPython.Plan) (size : Nat) (s r : VbPython.Run) (b : Nat)
    (h : SameRun' σ τ x.D p.K x.T plan s r) :
    Alike (SameRun' σ τ x.D p.K x.T plan) (VbPython.trainStep psi bound p x plan size s b)
      (VbPython.trainStep psi bound' q y plan size r b) := by
  obtain ⟨h, ha⟩ := h
  have hbatch : Alike (SameBatch σ τ x.D p.K x.T) (VbPython.batch psi p x size s) (VbPython.batch psi q y size r) := by
    unfold VbPython.batch
    refine alike_foldlM (fun a b _ hab => vb_visit psi hx hp h.word hab) _ _ _ ⟨h.means, h.d, fun k _ t _ => hp.v, h.visits⟩
  unfold VbPython.trainStep
  generalize VbPython.batch psi p x size s = u at hbatch ⊢
  generalize VbPython.batch psi q y size r = v at hbatch ⊢
  cases u with
  | error e => cases v with
    | error e' => exact hbatch
    | ok b' => exact hbatch.elim
  | ok g => cases v with
    | error e' => exact hbatch.elim
    | ok g' =>
      have hg : SameBatch σ τ x.D p.K x.T g g' := hbatch
      dsimp only
      by_cases h1 : plan.rateAlgor = "batch"
      · rw [if_pos h1, if_pos h1]
        exact ⟨⟨hg.grad, hg.means, hg.d, h.step, h.gradStep, h.exGrad, h.expGtg, hg.visits⟩, ha⟩
      rw [if_neg h1, if_neg h1]
      by_cases h2 : plan.rateAlgor = "kappa"
      · rw [if_pos h2, if_pos h2]
        exact ⟨⟨vb_mix (fun _ _ => rfl) h.word hg.grad, hg.means, hg.d, fun _ _ => rfl, h.gradStep, h.exGrad, h.expGtg, hg.visits⟩,
          fun _ => rfl⟩
      rw [if_neg h2, if_neg h2]
      by_cases h3 : plan.rateAlgor = "variance"
      · rw [if_pos h3, if_pos h3]
        have hex : Tab p.K x.T σ τ (VbPython.mix s.gradStep s.exGrad g.grad) (VbPython.mix r.gradStep r.exGrad g'.grad) :=
          vb_mix h.gradStep h.exGrad hg.grad
        have hgr : Tab p.K x.T σ τ (fun k t => g.grad k t * s.gradStep k) (fun k t => g'.grad k t * r.gradStep k) := by
          intro k hk t ht
          dsimp only
          rw [hg.grad k hk t ht, h.gradStep k hk]
        have hex2 : Vec p.K σ
            (fun k => ∑ t ∈ Finset.range x.T, VbPython.mix s.gradStep s.exGrad g.grad k t * VbPython.mix s.gradStep s.exGrad g.grad k t)
            (fun k => ∑ t ∈ Finset.range y.T, VbPython.mix r.gradStep r.exGrad g'.grad k t * VbPython.mix r.gradStep r.exGrad g'.grad k t) := by
          intro k hk
          dsimp only
          rw [hx.T]
          exact sum_eq (f := fun t => VbPython.mix s.gradStep s.exGrad g.grad (σ k) t * VbPython.mix s.gradStep s.exGrad g.grad (σ k) t) hx.vocab
            fun t ht => by rw [hex k hk t ht]
        have hgtg : Vec p.K σ
            (fun k => s.expGtg k * (1 - s.gradStep k)
              + (∑ t ∈ Finset.range x.T, g.grad k t * s.gradStep k * (g.grad k t * s.gradStep k)) * s.gradStep k)
            (fun k => r.expGtg k * (1 - r.gradStep k)
              + (∑ t ∈ Finset.range y.T, g'.grad k t * r.gradStep k * (g'.grad k t * r.gradStep k)) * r.gradStep k) := by
          intro k hk
          dsimp only
          rw [hx.T, h.expGtg k hk, h.gradStep k hk, sum_eq
            (f := fun t => g.grad (σ k) t * s.gradStep (σ k) * (g.grad (σ k) t * s.gradStep (σ k))) hx.vocab
            fun t ht => by rw [hg.grad k hk t ht]]
        have hst : Vec p.K σ
            (fun k => (∑ t ∈ Finset.range x.T, VbPython.mix s.gradStep s.exGrad g.grad k t * VbPython.mix s.gradStep s.exGrad g.grad k t)
              / (s.expGtg k * (1 - s.gradStep k)
              + (∑ t ∈ Finset.range x.T, g.grad k t * s.gradStep k * (g.grad k t * s.gradStep k)) * s.gradStep k))
            (fun k => (∑ t ∈ Finset.range y.T, VbPython.mix r.gradStep r.exGrad g'.grad k t * VbPython.mix r.gradStep r.exGrad g'.grad k t)
              / (r.expGtg k * (1 - r.gradStep k)
              + (∑ t ∈ Finset.range y.T, g'.grad k t * r.gradStep k * (g'.grad k t * r.gradStep k)) * r.gradStep k)) := by
          intro k hk
          have h5 := hex2 k hk
          have h6 := hgtg k hk
          dsimp only at h5 h6 ⊢
          rw [h5, h6]
        refine ⟨⟨vb_mix hst h.word hgr, hg.means, hg.d, hst, ?_, hex, hgtg, hg.visits⟩, fun h4 => absurd h4 (by rw [h3]; decide)⟩
        intro k hk
        have h5 := hst k hk
        dsimp only at h5 ⊢
        rw [h5, h.gradStep k hk]
      rw [if_neg h3, if_neg h3]
      by_cases h4 : plan.rateAlgor = "amari"
      · rw [if_pos h4, if_pos h4]
        have htop := vb_toDirichlet hx hp hg.means
        have hbd : bound' r.word (VbPython.toDirichlet q y g'.means) = bound s.word (VbPython.toDirichlet p x g.means) :=
          hb _ _ _ _ h.word htop
        rw [hbd, ha h4]
        exact ⟨⟨vb_mix (fun _ _ => rfl) h.word hg.grad, vb_toDirichlet hx hp htop, hg.d, fun _ _ => rfl, h.gradStep, h.exGrad, h.expGtg,
          hg.visits⟩, fun _ => rfl⟩
      · rw [if_neg h4, if_neg h4]
        rfl

/-- **C300, C301** (variational LDA): training with other numbers for the words and the topics, with every kind of learning rate, ends in the
same way, with the same result under the other numbers. -/
theorem vb_train (psi : ℝ → ℝ) {bound bound' : (Nat → Nat → ℝ) → (Nat → Nat → ℝ) → ℝ} (hx : Renumbered (Equiv.refl _) τ x y)
    (hp : SameVb σ p q) (hb : SameBound σ τ x.D p.K x.T bound bound') (plan : VbPython.Plan) {word word' topics topics' : Nat → Nat → ℝ}
    (hw : Tab p.K x.T σ τ word word') (ht : Tab x.D p.K (Equiv.refl _) σ topics topics') :
    Alike (fun s r => Tab p.K x.T σ τ s.word r.word ∧ Tab x.D p.K (Equiv.refl _) σ s.means r.means)
      (VbPython.train psi bound p x plan word topics) (VbPython.train psi bound' q y plan word' topics') := by
  have hsize : VbPython.usedBatchSize y plan = VbPython.usedBatchSize x plan := by
    unfold VbPython.usedBatchSize
    rw [hx.D]
  have hcount : VbPython.batchCount y plan = VbPython.batchCount x plan := by
    unfold VbPython.batchCount
    rw [hx.D]
  unfold VbPython.train
  rw [check_eq hx, hsize, hcount]
  split
  · rfl
  split
  · rfl
  split
  · rfl
  have hloop := alike_foldlM (R := SameRun' σ τ x.D p.K x.T plan)
    (fun a b i hab => vb_step psi hx hp hb plan (VbPython.usedBatchSize x plan) a b i hab)
    (List.range (VbPython.batchCount x plan * plan.iterations))
    { word := word, means := VbPython.toMeans p x topics, d := -1, step := fun _ => 1
      gradStep := fun _ => 1 / (VbPython.usedBatchSize x plan : ℝ), exGrad := fun _ _ => 0, expGtg := fun _ => 0, visits := [] }
    { word := word', means := VbPython.toMeans q y topics', d := -1, step := fun _ => 1
      gradStep := fun _ => 1 / (VbPython.usedBatchSize x plan : ℝ), exGrad := fun _ _ => 0, expGtg := fun _ => 0, visits := [] }
    ⟨⟨hw, vb_toMeans hx hp ht, rfl, fun _ _ => rfl, fun _ _ => rfl, fun _ _ _ _ => rfl, fun _ _ => rfl, rfl⟩, fun _ => rfl⟩
  generalize List.foldlM (VbPython.trainStep psi bound p x plan (VbPython.usedBatchSize x plan)) _ _ = u at hloop ⊢
  generalize List.foldlM (VbPython.trainStep psi bound' q y plan (VbPython.usedBatchSize x plan)) _ _ = v at hloop ⊢
  cases u with
  | error e => cases v with
    | error e' => exact hloop
    | ok b' => exact hloop.elim
  | ok g => cases v with
    | error e' => exact hloop.elim
    | ok g' => exact ⟨hloop.1.word, vb_toDirichlet hx hp hloop.1.means⟩

/-! ### Documents, when trained on all of them at once -/

theorem corpus_eq (hx : Renumbered δ τ x y) (h : VbPython.Corpus x) : VbPython.Corpus y where
  some := by rw [hx.D]; exact h.some
  words d hd := by
    rw [hx.D] at hd
    rw [len_eq hx d hd]
    exact h.words _ ((hx.docs d).2 hd)

theorem vb_batch_loop (psi : ℝ → ℝ) (bound bound' : (Nat → Nat → ℝ) → (Nat → Nat → ℝ) → ℝ) (hx : Renumbered δ τ x y) (hc : VbPython.Corpus x)
    (hp : SameVb σ p q) (plan : VbPython.Plan) (hplan : plan.rateAlgor = "batch") (s r : VbPython.Run)
    (hd : s.d = -1) (hd' : r.d = -1) (hw : Tab p.K x.T σ τ s.word r.word) (hm : Tab x.D p.K δ σ s.means r.means) (n : Nat) :
    ∃ s' r', (List.range n).foldlM (VbPython.trainStep psi bound p x plan x.D) s = .ok s'
      ∧ (List.range n).foldlM (VbPython.trainStep psi bound' q y plan x.D) r = .ok r'
      ∧ s'.d = VbPython.pos x.D (n * x.D) ∧ r'.d = VbPython.pos x.D (n * x.D)
      ∧ Tab p.K x.T σ τ s'.word r'.word ∧ Tab x.D p.K δ σ s'.means r'.means := by
  induction n with
  | zero => exact ⟨s, r, rfl, rfl, by rw [hd, Nat.zero_mul]; rfl, by rw [hd', Nat.zero_mul]; rfl, hw, hm⟩
  | succ n ih =>
    obtain ⟨s1, r1, e1, e2, d1, d2, w1, m1⟩ := ih
    obtain ⟨s2, f1, g1, t1, v1⟩ := VbElbo.step_exact psi bound p x hc plan hplan n s1 d1
    obtain ⟨r2, f2, g2, t2, v2⟩ := VbElbo.step_exact psi bound' q y (corpus_eq hx hc) plan hplan n r1 (by rw [hx.D]; exact d2)
    rw [hx.D] at f2 g2
    refine ⟨s2, r2, ?_, ?_, g1, g2, ?_, ?_⟩
    · rw [List.range_succ, List.foldlM_append, e1]
      simp only [bind, Except.bind, List.foldlM_cons, List.foldlM_nil, pure, Except.pure]
      rw [f1]
    · rw [List.range_succ, List.foldlM_append, e2]
      simp only [bind, Except.bind, List.foldlM_cons, List.foldlM_nil, pure, Except.pure]
      rw [f2]
    · intro k hk t ht
      rw [v1, v2, hx.D, hp.v, sum_eq
        (f := fun d => (x.words d (τ t) : ℝ) * VbPython.inferTopics psi p x s1.word s1.means d (τ t) (σ k)) hx.docs fun d hd => by
          rw [hx.words d hd t ht, vb_infer psi hx hp w1 m1 d t k hd ht hk]]
    · intro d hd k hk
      have hl : (x.len (δ d) : ℝ) ≠ 0 := by exact_mod_cast (hc.words _ ((hx.docs d).2 hd)).ne'
      have e3 := t1 (δ d) (σ k) ((hx.docs d).2 hd)
      have e4 := t2 d k (by rw [hx.D]; exact hd)
      rw [hx.T, hp.a k hk, sum_eq
        (f := fun t => VbPython.inferTopics psi p x s1.word s1.means (δ d) t (σ k) * (x.words (δ d) t : ℝ)) hx.vocab fun t ht => by
          rw [hx.words d hd t ht, vb_infer psi hx hp w1 m1 d t k hd ht hk], ← e3] at e4
      unfold VbPython.toDirichlet at e4
      rw [len_eq hx d hd, hp.a k hk] at e4
      exact mul_right_cancel₀ hl (add_right_cancel e4)

/-- **C302** (variational LDA), for documents with words: training on all documents at once gives the same result whatever the order of the
documents. -/
theorem vb_batch_train (psi : ℝ → ℝ) (bound bound' : (Nat → Nat → ℝ) → (Nat → Nat → ℝ) → ℝ) (hx : Renumbered δ τ x y) (hc : VbPython.Corpus x)
    (hp : SameVb σ p q) (plan : VbPython.Plan) (hplan : plan.rateAlgor = "batch") {word word' topics topics' : Nat → Nat → ℝ}
    (hw : Tab p.K x.T σ τ word word') (ht : Tab x.D p.K δ σ topics topics') :
    ∃ s r, VbPython.train psi bound p x plan word topics = .ok s ∧ VbPython.train psi bound' q y plan word' topics' = .ok r
      ∧ Tab p.K x.T σ τ s.word r.word ∧ Tab x.D p.K δ σ s.means r.means := by
  have hsize : VbPython.usedBatchSize y plan = x.D := by
    unfold VbPython.usedBatchSize
    rw [if_pos hplan, hx.D]
  have hsize' : VbPython.usedBatchSize x plan = x.D := by
    unfold VbPython.usedBatchSize
    rw [if_pos hplan]
  have hcount : VbPython.batchCount y plan = VbPython.batchCount x plan := by
    unfold VbPython.batchCount
    rw [hx.D]
  have hk : VbPython.Known plan.rateAlgor := .inl hplan
  obtain ⟨s, r, e1, e2, _, _, w1, m1⟩ := vb_batch_loop psi bound bound' hx hc hp plan hplan
    { word := word, means := VbPython.toMeans p x topics, d := -1, step := fun _ => 1
      gradStep := fun _ => 1 / (x.D : ℝ), exGrad := fun _ _ => 0, expGtg := fun _ => 0, visits := [] }
    { word := word', means := VbPython.toMeans q y topics', d := -1, step := fun _ => 1
      gradStep := fun _ => 1 / (x.D : ℝ), exGrad := fun _ _ => 0, expGtg := fun _ => 0, visits := [] }
    rfl rfl hw (vb_toMeans hx hp ht) (VbPython.batchCount x plan * plan.iterations)
  refine ⟨{ s with means := VbPython.toDirichlet p x s.means }, { r with means := VbPython.toDirichlet q y r.means }, ?_, ?_, w1,
    vb_toDirichlet hx hp m1⟩
  · unfold VbPython.train
    rw [if_neg hc.check, hsize', if_neg hc.some.ne', if_neg (not_not.2 hk), e1]
  · unfold VbPython.train
    rw [if_neg (corpus_eq hx hc).check, hsize, if_neg hc.some.ne', if_neg (not_not.2 hk), hcount, e2]

end

/-! ## Examples -/

theorem swap_keeps {n a b : Nat} (ha : a < n) (hb : b < n) : Keeps n (Equiv.swap a b) := by
  intro i
  by_cases h1 : i = a
  · subst h1
    rw [Equiv.swap_apply_left]
    omega
  · by_cases h2 : i = b
    · subst h2
      rw [Equiv.swap_apply_right]
      omega
    · rw [Equiv.swap_apply_of_ne_of_ne h1 h2]

/-- Two documents of three words -/
def exX : Data := ⟨2, 3, fun d t => if d = 0 then t + 1 else 4 - t⟩

/-- The same documents in the other order, with words 0 and 2 exchanged -/
def exY : Data := ⟨2, 3, fun d t => exX.words (Equiv.swap 0 1 d) (Equiv.swap 0 2 t)⟩

theorem ex_renumbered : Renumbered (Equiv.swap 0 1) (Equiv.swap 0 2) exX exY :=
  ⟨swap_keeps (by decide) (by decide), swap_keeps (by decide) (by decide), rfl, rfl, fun _ _ _ _ => rfl⟩

/-- The counts differ, the corpora are the same. -/
example : exX.words 0 0 = 1 ∧ exY.words 0 0 = 2 ∧ exY.words 1 2 = 1 := by decide

/-- Topics exchanged in a mixture -/
example (psi : ℝ → ℝ) (plan : Mom.EmPlan) (s : Mom.EmState) :
    Alike (SameMix (Equiv.swap 0 1) (Equiv.swap 0 1) (Equiv.swap 0 2) 2 2 3)
      (Mom.emTrain psi ⟨2, fun k => k + 1, fun _ => 1⟩ exX plan s)
      (Mom.emTrain psi ⟨2, fun k => (Equiv.swap 0 1 k : Nat) + 1, fun _ => 1⟩ exY plan
        ⟨fun k => s.topic (Equiv.swap 0 1 k), fun k t => s.word (Equiv.swap 0 1 k) (Equiv.swap 0 2 t),
          fun d k => s.resp (Equiv.swap 0 1 d) (Equiv.swap 0 1 k)⟩) := by
  have hp : SameEm (Equiv.swap 0 1) (Equiv.swap 0 2) 3 ⟨2, fun k => k + 1, fun _ => 1⟩ ⟨2, fun k => (Equiv.swap 0 1 k : Nat) + 1, fun _ => 1⟩ :=
    ⟨rfl, swap_keeps (n := 2) (a := 0) (b := 1) (by decide) (by decide), fun _ _ => rfl, fun _ _ => rfl⟩
  exact em_train psi ex_renumbered hp plan ⟨fun _ _ => rfl, fun _ _ _ _ => rfl, fun _ _ _ _ => rfl⟩

theorem ex_corpus : VbPython.Corpus exX :=
  ⟨by decide, fun d hd => by
    have hd : d < 2 := hd
    interval_cases d <;> decide⟩

/-- LDA with the documents in the other order -/
example (psi : ℝ → ℝ) (bound : (Nat → Nat → ℝ) → (Nat → Nat → ℝ) → ℝ) (word topics : Nat → Nat → ℝ) :
    ∃ s r, VbPython.train psi bound ⟨2, fun _ => 1, 1⟩ exX ⟨5, 0, 1, 1, 1, 1, "batch"⟩ word topics = .ok s
      ∧ VbPython.train psi bound ⟨2, fun _ => 1, 1⟩ exY ⟨5, 0, 1, 1, 1, 1, "batch"⟩
          (fun k t => word (Equiv.swap 0 1 k) (Equiv.swap 0 2 t)) (fun d k => topics (Equiv.swap 0 1 d) (Equiv.swap 0 1 k)) = .ok r
      ∧ Tab 2 3 (Equiv.swap 0 1) (Equiv.swap 0 2) s.word r.word ∧ Tab 2 2 (Equiv.swap 0 1) (Equiv.swap 0 1) s.means r.means :=
  vb_batch_train (p := ⟨2, fun _ => 1, 1⟩) psi bound bound ex_renumbered ex_corpus
    ⟨rfl, swap_keeps (n := 2) (a := 0) (b := 1) (by decide) (by decide), fun _ _ => rfl, rfl⟩ _ rfl (fun _ _ _ _ => rfl) (fun _ _ _ _ => rfl)

/-- A bound that is the sum of all parameters -/
example : SameBound (Equiv.swap 0 1) (Equiv.swap 0 2) 2 2 3
    (fun w m => ∑ k ∈ Finset.range 2, ∑ t ∈ Finset.range 3, w k t + ∑ d ∈ Finset.range 2, ∑ k ∈ Finset.range 2, m d k)
    (fun w m => ∑ k ∈ Finset.range 2, ∑ t ∈ Finset.range 3, w k t + ∑ d ∈ Finset.range 2, ∑ k ∈ Finset.range 2, m d k) := by
  intro w w' m m' hw hm
  dsimp only
  rw [sum_eq (f := fun k => ∑ t ∈ Finset.range 3, w k t) (swap_keeps (n := 2) (a := 0) (b := 1) (by decide) (by decide)) fun k hk =>
    sum_eq (f := fun t => w (Equiv.swap 0 1 k) t) (swap_keeps (n := 3) (a := 0) (b := 2) (by decide) (by decide)) fun t ht => hw k hk t ht,
    sum_eq (f := fun d => ∑ k ∈ Finset.range 2, m d k) (keeps_refl 2) fun d hd =>
      sum_eq (f := fun k => m d k) (swap_keeps (n := 2) (a := 0) (b := 1) (by decide) (by decide)) fun k hk => hm d hd k hk]

end Verif.Props.Renumber
