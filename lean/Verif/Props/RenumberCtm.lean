import Verif.Props.Renumber
import Verif.Props.CtmQuery
import Verif.Props.Vb

/-!
# Renumbering words, topics and documents (C300, C301, C302): correlated topic models and compiled variational LDA
-/

namespace Verif.Props.RenumberCtm

open Verif Verif.Ctm
open Verif.Mom (Data)
open Verif.Props.Renumber
open Verif.Props.Numerics (softmax shifted)

variable {δ σ τ : Equiv.Perm Nat} {x y : Data} {K : Nat}

/-! ## Building blocks -/

theorem rowMax_eq (hK : 0 < K) (hσ : Keeps K σ) {r s : Nat → ℝ} (h : Vec K σ r s) : Numerics.rowMax K s = Numerics.rowMax K r := by
  obtain ⟨h1, k, hk, he⟩ := Props.Numerics.rowMax_spec K r hK
  obtain ⟨h1', k', hk', he'⟩ := Props.Numerics.rowMax_spec K s hK
  apply le_antisymm
  · rw [he', h k' hk']
    exact h1 _ ((hσ k').2 hk')
  · have hk2 : σ.symm k < K := (hσ _).1 (by simpa using hk)
    have := h1' _ hk2
    rw [h _ hk2] at this
    rw [he]
    simpa using this

theorem expRows_eq (hσ : Keeps K σ) {D : Nat} {m m' : Nat → Nat → ℝ} (h : Tab D K δ σ m m') :
    Tab D K δ σ (expRows K m) (expRows K m') := by
  intro d hd k hk
  unfold expRows
  rw [h d hd k hk, rowMax_eq (by omega) hσ (fun k hk => h d hd k hk)]

theorem softmaxRows_eq (hσ : Keeps K σ) {D : Nat} {m m' : Nat → Nat → ℝ} (h : Tab D K δ σ m m') :
    Tab D K δ σ (softmaxRows K m) (softmaxRows K m') := by
  intro d hd k hk
  unfold softmaxRows
  rw [shifted, shifted]
  exact softmax_eq hσ (fun k hk => h d hd k hk) k hk

theorem quotient_eq (hx : Renumbered δ τ x y) (hσ : Keeps K σ) {e e' v v' : Nat → Nat → ℝ} (he : Tab x.D K δ σ e e') (hv : Tab K x.T σ τ v v') :
    Tab x.D x.T δ τ (quotient x K e v) (quotient y K e' v') := by
  intro d hd t ht
  unfold quotient
  rw [hx.words d hd t ht, sum_eq (f := fun k => e (δ d) k * v k (τ t)) hσ fun k hk => by rw [he d hd k hk, hv k hk t ht]]

theorem vocab_eq (hx : Renumbered δ τ x y) (hσ : Keeps K σ) (prior : ℝ) {e e' v v' : Nat → Nat → ℝ} (he : Tab x.D K δ σ e e')
    (hv : Tab K x.T σ τ v v') : Tab K x.T σ τ (newVocab x K prior e v) (newVocab y K prior e' v') := by
  have hraw : Tab K x.T σ τ (fun k t => v k t * ∑ d ∈ Finset.range x.D, quotient x K e v d t * e d k + prior)
      (fun k t => v' k t * ∑ d ∈ Finset.range y.D, quotient y K e' v' d t * e' d k + prior) := by
    intro k hk t ht
    dsimp only
    rw [hv k hk t ht, hx.D, sum_eq (f := fun d => quotient x K e v d (τ t) * e d (σ k)) hx.docs fun d hd => by
      rw [quotient_eq hx hσ he hv d hd t ht, he d hd k hk]]
  intro k hk t ht
  have h1 := hraw k hk t ht
  have h2 : ∑ t' ∈ Finset.range x.T, (v' k t' * ∑ d ∈ Finset.range y.D, quotient y K e' v' d t' * e' d k + prior)
      = ∑ t' ∈ Finset.range x.T, (v (σ k) t' * ∑ d ∈ Finset.range x.D, quotient x K e v d t' * e d (σ k) + prior) :=
    sum_eq hx.vocab fun t ht => hraw k hk t ht
  dsimp only at h1
  unfold newVocab vocabWith normalizeRows
  dsimp only
  rw [hx.T, h1, h2]

theorem counts_eq (hx : Renumbered δ τ x y) (hσ : Keeps K σ) {e e' v v' : Nat → Nat → ℝ} (he : Tab x.D K δ σ e e')
    (hv : Tab K x.T σ τ v v') : Tab x.D K δ σ (topicCounts x K e v) (topicCounts y K e' v') := by
  intro d hd k hk
  unfold topicCounts
  rw [he d hd k hk, hx.T, sum_eq (f := fun t => quotient x K e v (δ d) t * v (σ k) t) hx.vocab fun t ht => by
    rw [quotient_eq hx hσ he hv d hd t ht, hv k hk t ht]]

/-- The likelihood of the corpus does not depend on the numbers. -/
theorem likelihood_eq (hx : Renumbered δ τ x y) (hσ : Keeps K σ) (tiny : ℝ) {m m' v v' : Nat → Nat → ℝ} (hm : Tab x.D K δ σ m m')
    (hv : Tab K x.T σ τ v v') : logLikelihood y K tiny m' v' = logLikelihood x K tiny m v := by
  unfold logLikelihood
  rw [hx.D, hx.T]
  refine sum_eq (f := fun d => ∑ t ∈ Finset.range x.T,
    (x.words d t : ℝ) * SparseKernels.safeLn tiny (∑ k ∈ Finset.range K, softmaxRows K m d k * v k t)) hx.docs fun d hd => ?_
  refine sum_eq (f := fun t =>
    (x.words (δ d) t : ℝ) * SparseKernels.safeLn tiny (∑ k ∈ Finset.range K, softmaxRows K m (δ d) k * v k t)) hx.vocab fun t ht => ?_
  rw [hx.words d hd t ht, sum_eq (f := fun k => softmaxRows K m (δ d) k * v k (τ t)) hσ fun k hk => by
    rw [softmaxRows_eq hσ hm d hd k hk, hv k hk t ht]]

/-! ## The correlated topic model -/

/-- The state of the correlated topic model under other numbers -/
structure SameCtm (δ σ τ : Equiv.Perm Nat) (D K T : Nat) (s r : State) : Prop where
  topicMean : Vec K σ s.topicMean r.topicMean
  sig : Tab K K σ σ s.sig r.sig
  vocab : Tab K T σ τ s.vocab r.vocab
  means : Tab D K δ σ s.means r.means
  expMeans : Tab D K δ σ s.expMeans r.expMeans
  varcs : Tab D K δ σ s.varcs r.varcs
  lxi : Tab D K δ σ s.lxi r.lxi
  s : Vec D δ s.s r.s

/-- What the estimator of the covariance must satisfy: the covariance of samples does not depend on the order of the samples, and follows the
order of the variables. -/
def SameCov (δ σ : Equiv.Perm Nat) (D K : Nat) (oas : (Nat → Nat → ℝ) → Nat → Nat → ℝ) : Prop :=
  ∀ m m', Tab D K δ σ m m' → Tab K K σ σ (oas m) (oas m')

theorem ctm_step (oas : (Nat → Nat → ℝ) → Nat → Nat → ℝ) (hoas : SameCov δ σ x.D K oas) (hx : Renumbered δ τ x y) (hσ : Keeps K σ)
    (h0 : σ 0 = 0) (prior : ℝ) {s r : State} (h : SameCtm δ σ τ x.D K x.T s r) :
    SameCtm δ σ τ x.D K x.T (trainStep oas x K prior s) (trainStep oas y K prior r) := by
  have htm : Vec K σ (fun k => (∑ d ∈ Finset.range x.D, s.means d k) / ((x.D : ℝ) + ((K : ℝ) + 2)))
      (fun k => (∑ d ∈ Finset.range y.D, r.means d k) / ((y.D : ℝ) + ((K : ℝ) + 2))) := by
    intro k hk
    dsimp only
    rw [hx.D, sum_eq (f := fun d => s.means d (σ k)) hx.docs fun d hd => h.means d hd k hk]
  have hdiag : Vec K σ
      (fun k => oas s.means k k + (∑ d ∈ Finset.range x.D, s.varcs d k) / (x.D : ℝ) + 0.1 + ((K : ℝ) + 2) * (x.D : ℝ) / (((K : ℝ) + 2) + (x.D : ℝ))
        * ((∑ d ∈ Finset.range x.D, s.means d k) / ((x.D : ℝ) + ((K : ℝ) + 2)) * ((∑ d ∈ Finset.range x.D, s.means d k) / ((x.D : ℝ) + ((K : ℝ) + 2)))))
      (fun k => oas r.means k k + (∑ d ∈ Finset.range y.D, r.varcs d k) / (y.D : ℝ) + 0.1 + ((K : ℝ) + 2) * (y.D : ℝ) / (((K : ℝ) + 2) + (y.D : ℝ))
        * ((∑ d ∈ Finset.range y.D, r.means d k) / ((y.D : ℝ) + ((K : ℝ) + 2)) * ((∑ d ∈ Finset.range y.D, r.means d k) / ((y.D : ℝ) + ((K : ℝ) + 2))))) := by
    intro k hk
    have h1 := htm k hk
    dsimp only at h1 ⊢
    rw [h1, hoas _ _ h.means k hk k hk, hx.D, sum_eq (f := fun d => s.varcs d (σ k)) hx.docs fun d hd => h.varcs d hd k hk]
  have he := expRows_eq hσ h.means
  have hv := vocab_eq hx hσ prior he h.vocab
  have hS := counts_eq hx hσ he hv
  have hvar : Tab x.D K δ σ (trainStep oas x K prior s).varcs (trainStep oas y K prior r).varcs := by
    intro d hd k hk
    have h1 := hdiag k hk
    unfold trainStep
    dsimp only at h1 ⊢
    rw [h1, len_eq hx d hd, h.lxi d hd k hk]
  have hmean : Tab x.D K δ σ (trainStep oas x K prior s).means (trainStep oas y K prior r).means := by
    intro d hd k hk
    have hK : 0 < K := by omega
    have v1 := hvar d hd k hk
    have v2 := hvar d hd 0 hK
    have d1 := hdiag k hk
    have d2 := hdiag 0 hK
    have t1 := htm k hk
    have t2 := htm 0 hK
    have s1 := hS d hd k hk
    have s2 := hS d hd 0 hK
    rw [h0] at v2 d2 t2 s2
    unfold trainStep at v1 v2
    unfold trainStep
    dsimp only at v1 v2 d1 d2 t1 t2 ⊢
    rw [v1, v2, d1, d2, t1, t2, s1, s2, len_eq hx d hd, h.s d hd, h.lxi d hd k hk, h.lxi d hd 0 hK, h0]
  refine ⟨htm, fun k hk j hj => ?_, hv, hmean, he, hvar, fun d hd k hk => ?_, h.s⟩
  · have h1 := hdiag k hk
    unfold trainStep
    dsimp only at h1 ⊢
    by_cases hkj : k = j
    · rw [if_pos hkj, if_pos (by rw [hkj])]
      exact h1
    · rw [if_neg hkj, if_neg (fun hc => hkj (σ.injective hc))]
  · show 2 * negJakkola (deriveXi ((trainStep oas y K prior r).means d k) ((trainStep oas y K prior r).varcs d k) (r.s d)) = _
    rw [hmean d hd k hk, hvar d hd k hk, h.s d hd]
    rfl

theorem loop_eq {α : Type} {R : α → α → Prop} {f g : α → α} (hstep : ∀ s r, R s r → R (f s) (g r)) {bound bound' like like' : α → ℝ}
    (hb : ∀ s r, R s r → bound' r = bound s) (hl : ∀ s r, R s r → like' r = like s) (perp : ℝ → ℝ) (p : LogPlan) (fuel : Nat) :
    ∀ (itr : Nat) (s r : α) (l : Log), R s r →
      Alike (fun a b => R a.1 b.1 ∧ b.2 = a.2) (loop f bound like perp p fuel itr s l) (loop g bound' like' perp p fuel itr r l) := by
  induction fuel with
  | zero => intro itr s r l h; exact ⟨h, rfl⟩
  | succ fuel ih =>
    intro itr s r l h
    have hn := hstep s r h
    unfold loop
    dsimp only
    rw [hb _ _ hn, hl _ _ hn]
    split
    · split
      · split
        · exact ⟨hn, rfl⟩
        · exact ih _ _ _ _ hn
      · rfl
    · exact ih _ _ _ _ hn

/-- **C300, C302** (correlated topic model): training with other numbers for the words and the documents ends in the same way, with the same
log, and with the same result under the other numbers.  Topics may have other numbers too as long as the first stays the first (C301). -/
theorem ctm_train (oas : (Nat → Nat → ℝ) → Nat → Nat → ℝ) (hoas : SameCov δ σ x.D K oas) (hx : Renumbered δ τ x y) (hσ : Keeps K σ)
    (h0 : σ 0 = 0) (prior tiny : ℝ) {bound bound' : State → ℝ} (hb : ∀ s r, SameCtm δ σ τ x.D K x.T s r → bound' r = bound s)
    (perp : ℝ → ℝ) (p : LogPlan) {s r : State} (h : SameCtm δ σ τ x.D K x.T s r) :
    Alike (fun a b => SameCtm δ σ τ x.D K x.T a.1 b.1 ∧ b.2 = a.2)
      (train (trainStep oas x K prior) bound (fun st => logLikelihood x K tiny st.means st.vocab) perp p s)
      (train (trainStep oas y K prior) bound' (fun st => logLikelihood y K tiny st.means st.vocab) perp p r) := by
  unfold train
  split
  · rfl
  dsimp only
  split
  · rfl
  · exact loop_eq (fun s r h => ctm_step oas hoas hx hσ h0 prior h) hb (fun s r h => likelihood_eq hx hσ tiny h.means h.vocab) perp p _ _ _ _ _ h

/-- **C301** (correlated topic model): exchanging topics other than the first exchanges the topics of the result.  Missing: the first topic. -/
theorem ctm_topics_partial (oas : (Nat → Nat → ℝ) → Nat → Nat → ℝ) (hoas : SameCov (Equiv.refl _) σ x.D K oas) (hσ : Keeps K σ) (h0 : σ 0 = 0)
    (prior tiny : ℝ) {bound : State → ℝ} (hb : ∀ s r, SameCtm (Equiv.refl _) σ (Equiv.refl _) x.D K x.T s r → bound r = bound s)
    (perp : ℝ → ℝ) (p : LogPlan) {s r : State} (h : SameCtm (Equiv.refl _) σ (Equiv.refl _) x.D K x.T s r) :
    Alike (fun a b => SameCtm (Equiv.refl _) σ (Equiv.refl _) x.D K x.T a.1 b.1 ∧ b.2 = a.2)
      (train (trainStep oas x K prior) bound (fun st => logLikelihood x K tiny st.means st.vocab) perp p s)
      (train (trainStep oas x K prior) bound (fun st => logLikelihood x K tiny st.means st.vocab) perp p r) :=
  ctm_train oas hoas ⟨keeps_refl _, keeps_refl _, rfl, rfl, fun _ _ _ _ => rfl⟩ hσ h0 prior tiny hb perp p h

/-- **C301** (violated): whatever the state, the weights of the first topic are zero after an iteration, and its mean after the next. -/
theorem first_topic (oas : (Nat → Nat → ℝ) → Nat → Nat → ℝ) (x : Data) (K : Nat) (prior : ℝ) (s : State) :
    (∀ d, (trainStep oas x K prior s).means d 0 = 0)
      ∧ (trainStep oas x K prior (trainStep oas x K prior s)).topicMean 0 = 0 := by
  have h1 : ∀ d, (trainStep oas x K prior s).means d 0 = 0 := fun d => by
    unfold trainStep
    dsimp only
    ring
  refine ⟨h1, ?_⟩
  show (∑ d ∈ Finset.range x.D, (trainStep oas x K prior s).means d 0) / _ = 0
  rw [Finset.sum_congr rfl fun d _ => h1 d]
  simp

/-- One document of one word -/
def exOne : Data := ⟨1, 1, fun _ _ => 1⟩

/-- Three topics that differ in one number -/
noncomputable def exState (j : Nat) : State where
  topicMean := fun _ => 0
  sig := fun k i => if k = i then 1 else 0
  vocab := fun _ _ => 1
  means := fun _ _ => 0
  expMeans := fun _ _ => 1
  varcs := fun _ _ => 1
  lxi := fun _ k => if k = j then 1 else 0
  s := fun _ => 0

theorem ex_same : SameCtm (Equiv.refl _) (Equiv.swap 0 1) (Equiv.refl _) 1 3 1 (exState 1) (exState 0) := by
  refine ⟨fun _ _ => rfl, fun k _ j _ => ?_, fun _ _ _ _ => rfl, fun _ _ _ _ => rfl, fun _ _ _ _ => rfl, fun _ _ _ _ => rfl, fun d _ k _ => ?_,
    fun _ _ => rfl⟩
  · show (if k = j then (1 : ℝ) else 0) = if Equiv.swap 0 1 k = Equiv.swap 0 1 j then 1 else 0
    simp
  · show (if k = 0 then (1 : ℝ) else 0) = if Equiv.swap 0 1 k = 1 then 1 else 0
    have : Equiv.swap 0 1 k = 1 ↔ k = 0 := by
      rw [Equiv.swap_apply_eq_iff, Equiv.swap_apply_right]
    simp [this]

theorem ex_rowMax : Numerics.rowMax 3 (fun _ => (0 : ℝ)) = 0 := by
  obtain ⟨_, k, _, h⟩ := Props.Numerics.rowMax_spec 3 (fun _ => (0 : ℝ)) (by norm_num)
  exact h

theorem ex_means : (trainStep (fun _ _ _ => 0) exOne 3 1 (exState 1)).means 0 1 = 121 / 1260 := by
  have he : expRows 3 (exState 1).means = fun _ _ => 1 := by
    funext d k
    unfold expRows
    show Real.exp ((0 : ℝ) - Numerics.rowMax 3 (fun _ => (0 : ℝ))) = 1
    rw [ex_rowMax]
    simp
  have hv : ∀ k, newVocab exOne 3 1 (fun _ _ => 1) (fun _ _ => (1 : ℝ)) k 0 = 1 := by
    intro k
    unfold newVocab vocabWith normalizeRows quotient
    norm_num [exOne]
  have hS : ∀ k, topicCounts exOne 3 (fun _ _ => 1) (newVocab exOne 3 1 (fun _ _ => 1) (fun _ _ => (1 : ℝ))) 0 k = 1 / 3 := by
    intro k
    unfold topicCounts quotient
    simp only [show exOne.T = 1 from rfl, Finset.sum_range_one, hv]
    norm_num [exOne]
  unfold trainStep
  dsimp only
  rw [he]
  simp only [show (exState 1).vocab = fun _ _ => (1 : ℝ) from rfl, hS]
  norm_num [exState, exOne, Data.len]

/-- **C301** (violated): two starting points that differ in the numbers of the topics only, with results that differ: the second topic of the
first run has a mean of its own, the first topic of the second run has none. -/
theorem topics_not_alike :
    SameCtm (Equiv.refl _) (Equiv.swap 0 1) (Equiv.refl _) 1 3 1 (exState 1) (exState 0)
      ∧ SameCov (Equiv.refl _) (Equiv.swap 0 1) 1 3 (fun _ _ _ => 0)
      ∧ (trainStep (fun _ _ _ => 0) exOne 3 1 (trainStep (fun _ _ _ => 0) exOne 3 1 (exState 1))).topicMean 1 = 121 / 7560
      ∧ (trainStep (fun _ _ _ => 0) exOne 3 1 (trainStep (fun _ _ _ => 0) exOne 3 1 (exState 0))).topicMean 0 = 0 := by
  refine ⟨ex_same, fun _ _ _ _ _ _ _ => rfl, ?_, (first_topic _ _ _ _ _).2⟩
  show (∑ d ∈ Finset.range exOne.D, (trainStep (fun _ _ _ => 0) exOne 3 1 (exState 1)).means d 1) / ((exOne.D : ℝ) + (((3 : Nat) : ℝ) + 2)) = _
  simp only [show exOne.D = 1 from rfl, Finset.sum_range_one, ex_means]
  norm_num

/-! ## Böhning's bound -/

/-- The state of the Böhning model under other numbers -/
structure SameB (δ σ τ : Equiv.Perm Nat) (D K T : Nat) (s r : BState) : Prop where
  topicMean : Vec K σ s.topicMean r.topicMean
  sig : Tab K K σ σ s.sig r.sig
  vocab : Tab K T σ τ s.vocab r.vocab
  means : Tab D K δ σ s.means r.means
  expMeans : Tab D K δ σ s.expMeans r.expMeans
  varcs : Tab D K δ σ s.varcs r.varcs

/-- What the matrix inverse satisfies: rows and columns of the inverse follow those of the matrix. -/
def SameInv (σ : Equiv.Perm Nat) (K : Nat) (inv : (Nat → Nat → ℝ) → Nat → Nat → ℝ) : Prop :=
  ∀ m m', Tab K K σ σ m m' → Tab K K σ σ (inv m) (inv m')

theorem A_eq (K : Nat) (σ : Equiv.Perm Nat) : Tab K K σ σ (bohningA K) (bohningA K) := by
  intro i _ j _
  unfold bohningA
  simp

theorem rhs_eq (hx : Renumbered δ τ x y) (hσ : Keeps K σ) {A A' isig isig' V V' m m' : Nat → Nat → ℝ} {tm tm' : Nat → ℝ}
    (hA : Tab K K σ σ A A') (hi : Tab K K σ σ isig isig') (htm : Vec K σ tm tm') (hV : Tab x.D K δ σ V V') (hm : Tab x.D K δ σ m m') :
    Tab x.D K δ σ (bohningRhs x K A isig tm V m) (bohningRhs y K A' isig' tm' V' m') := by
  intro d hd k hk
  have h1 : ∑ j ∈ Finset.range K, m' d j * A' j k = ∑ j ∈ Finset.range K, m (δ d) j * A j (σ k) :=
    sum_eq hσ fun j hj => by rw [hm d hd j hj, hA j hj k hk]
  have h2 : ∑ j ∈ Finset.range K, isig' k j * tm' j = ∑ j ∈ Finset.range K, isig (σ k) j * tm j :=
    sum_eq hσ fun j hj => by rw [hi k hk j hj, htm j hj]
  unfold bohningRhs
  rw [hV d hd k hk, len_eq hx d hd, h1, h2, softmaxRows_eq hσ hm d hd k hk]

theorem means_eq (inv : (Nat → Nat → ℝ) → Nat → Nat → ℝ) (hinv : SameInv σ K inv) (hx : Renumbered δ τ x y) (hσ : Keeps K σ) (fast : Bool)
    {A A' isig isig' v v' r r' : Nat → Nat → ℝ} (hA : Tab K K σ σ A A') (hi : Tab K K σ σ isig isig') (hv : Tab x.D K δ σ v v')
    (hr : Tab x.D K δ σ r r') : Tab x.D K δ σ (bohningMeans inv x K fast A isig v r) (bohningMeans inv y K fast A' isig' v' r') := by
  intro d hd k hk
  unfold bohningMeans
  split
  · rw [hv d hd k hk, hr d hd k hk]
  · refine sum_eq (f := fun j => inv (fun i l => isig i l + (x.len (δ d) : ℝ) * A i l) (σ k) j * r (δ d) j) hσ fun j hj => ?_
    rw [hr d hd j hj, hinv (fun i l => isig i l + (x.len (δ d) : ℝ) * A i l) (fun i l => isig' i l + (y.len d : ℝ) * A' i l) ?_ k hk j hj]
    intro i hi' l hl
    dsimp only
    rw [hi i hi' l hl, hA i hi' l hl, len_eq hx d hd]

theorem bohning_step (inv : (Nat → Nat → ℝ) → Nat → Nat → ℝ) (hinv : SameInv σ K inv) (cov : (Nat → Nat → ℝ) → (Nat → Nat → ℝ) → Nat → Nat → ℝ)
    (hx : Renumbered δ τ x y) (hσ : Keeps K σ) (prior : ℝ) (fast : Bool) {s r : BState} (h : SameB δ σ τ x.D K x.T s r) :
    SameB δ σ τ x.D K x.T (bohningStep inv cov x K prior (bohningA K) fast s) (bohningStep inv cov y K prior (bohningA K) fast r) := by
  have htm : Vec K σ (fun k => (∑ d ∈ Finset.range x.D, s.means d k) / (x.D : ℝ)) (fun k => (∑ d ∈ Finset.range y.D, r.means d k) / (y.D : ℝ)) := by
    intro k hk
    dsimp only
    rw [hx.D, sum_eq (f := fun d => s.means d (σ k)) hx.docs fun d hd => h.means d hd k hk]
  have hsig : Tab K K σ σ (fun k j : Nat => if k = j then (1 : ℝ) else 0) (fun k j : Nat => if k = j then (1 : ℝ) else 0) := by
    intro k _ j _
    simp
  have he := expRows_eq hσ h.means
  have hv := vocab_eq hx hσ prior he h.vocab
  have hV := counts_eq hx hσ he hv
  have hvar : Tab x.D K δ σ (fun d k => 1 / ((x.len d : ℝ) * ((K : ℝ) - 1) / (K : ℝ) + if k = k then (1 : ℝ) else 0))
      (fun d k => 1 / ((y.len d : ℝ) * ((K : ℝ) - 1) / (K : ℝ) + if k = k then (1 : ℝ) else 0)) := by
    intro d hd k hk
    dsimp only
    rw [len_eq hx d hd]
    simp
  have hi := hinv _ _ hsig
  exact ⟨htm, hsig, hv, means_eq inv hinv hx hσ fast (A_eq K σ) hi hvar (rhs_eq hx hσ (A_eq K σ) hi htm hV h.means), he, hvar⟩

/-- **C300, C301, C302** (Böhning's bound): any number of iterations with other numbers for words, topics and documents gives the same result
under the other numbers. -/
theorem bohning_train (inv : (Nat → Nat → ℝ) → Nat → Nat → ℝ) (hinv : SameInv σ K inv) (cov : (Nat → Nat → ℝ) → (Nat → Nat → ℝ) → Nat → Nat → ℝ)
    (hx : Renumbered δ τ x y) (hσ : Keeps K σ) (prior : ℝ) (fast : Bool) (n : Nat) : ∀ {s r : BState}, SameB δ σ τ x.D K x.T s r →
    SameB δ σ τ x.D K x.T (bohningTrain inv cov x K prior (bohningA K) fast n s) (bohningTrain inv cov y K prior (bohningA K) fast n r) := by
  induction n with
  | zero => intro s r h; exact h
  | succ n ih => intro s r h; exact ih (bohning_step inv hinv cov hx hσ prior fast h)

/-! ## Compiled variational LDA -/

/-- The second corpus is the first with other numbers for documents and words; the words of a document may be listed in another order. -/
structure SameList (δ τ : Equiv.Perm Nat) (π : Nat → Equiv.Perm Nat) (T : Nat) (c e : Cvb.Corpus) : Prop where
  docs : Keeps c.lens.length δ
  vocab : Keeps T τ
  tokens : ∀ d, d < c.lens.length → Keeps (c.len (δ d)) (π d)
  D : e.lens.length = c.lens.length
  len : ∀ d, d < c.lens.length → e.len d = c.len (δ d)
  words : ∀ d, d < c.lens.length → ∀ n, n < c.len (δ d) → τ (e.w d n) = c.w (δ d) (π d n)
  inVocab : ∀ d, d < c.lens.length → ∀ n, n < c.len d → c.w d n < T

/-- The priors under other numbers -/
structure SamePriors (σ : Equiv.Perm Nat) (p q : Vb.Params) : Prop where
  K : q.K = p.K
  T : q.T = p.T
  topics : Keeps p.K σ
  a : Vec p.K σ p.a q.a
  b : q.b = p.b

section
variable {π : Nat → Equiv.Perm Nat} {c e : Cvb.Corpus} {p q : Vb.Params}

theorem used_eq (hp : SamePriors σ p q) (D : Nat) : Vec p.K σ (Vb.used p D) (Vb.used q D) := by
  intro k hk
  unfold Vb.used
  rw [hp.a k hk, hp.K]

theorem resp_eq (psi : ℝ → ℝ) (hp : SamePriors σ p q) (hτ : Keeps p.T τ) {v v' : Nat → Nat → ℝ} (hv : Tab p.K p.T σ τ v v') {g g' : Nat → ℝ}
    (hg : Vec p.K σ g g') {t t' : Nat} (ht : t' < p.T) (htt : τ t' = t) : Vec p.K σ (Vb.resp psi p v g t) (Vb.resp psi q v' g' t') := by
  intro k hk
  unfold Vb.resp
  rw [hp.K]
  refine softmax_eq hp.topics (fun k hk => ?_) k hk
  rw [hv k hk t' ht, htt, hg k hk, hp.T, sum_eq (f := fun t => v (σ k) t) hτ fun t ht => hv k hk t ht]

theorem word_lt (hc : SameList δ τ π p.T c e) (d : Nat) (hd : d < c.lens.length) (n : Nat) (hn : n < c.len (δ d)) : e.w d n < p.T := by
  rw [← hc.vocab, hc.words d hd n hn]
  exact hc.inVocab _ ((hc.docs d).2 hd) _ ((hc.tokens d hd n).2 hn)

/-- An iteration -/
theorem lda_step (psi : ℝ → ℝ) (hp : SamePriors σ p q) (hc : SameList δ τ π p.T c e) {s r : Vb.State} (hv : Tab p.K p.T σ τ s.vocab r.vocab) :
    Tab p.K p.T σ τ (Vb.iterate1 psi p c s).vocab (Vb.iterate1 psi q e r).vocab
      ∧ Tab c.lens.length p.K δ σ (Vb.iterate1 psi p c s).topics (Vb.iterate1 psi q e r).topics := by
  obtain ⟨t1, v1, _⟩ := Vb.iterate1_spec psi p c s
  obtain ⟨t2, v2, _⟩ := Vb.iterate1_spec psi q e r
  have hu := used_eq hp c.lens.length
  rw [hc.D] at t2 v2
  constructor
  · intro k hk t ht
    rw [v1 (σ k) (τ t) ((hp.topics k).2 hk), v2 k t (by rw [hp.K]; exact hk), hp.b]
    congr 1
    refine sum_eq (f := fun d => ∑ n ∈ Finset.range (c.len d),
      if c.w d n = τ t then Vb.resp psi p s.vocab (Vb.used p c.lens.length) (c.w d n) (σ k) else 0) hc.docs fun d hd => ?_
    rw [hc.len d hd]
    refine sum_eq (f := fun n => if c.w (δ d) n = τ t then Vb.resp psi p s.vocab (Vb.used p c.lens.length) (c.w (δ d) n) (σ k) else 0)
      (hc.tokens d hd) fun n hn => ?_
    rw [resp_eq psi hp hc.vocab hv hu (word_lt hc d hd n hn) (hc.words d hd n hn) k hk, ← hc.words d hd n hn]
    simp
  · intro d hd k hk
    rw [t1 (δ d) (σ k) ((hc.docs d).2 hd) ((hp.topics k).2 hk), t2 d k hd (by rw [hp.K]; exact hk), hu k hk, hc.len d hd]
    congr 1
    refine sum_eq (f := fun n => Vb.resp psi p s.vocab (Vb.used p c.lens.length) (c.w (δ d) n) (σ k)) (hc.tokens d hd) fun n hn => ?_
    rw [resp_eq psi hp hc.vocab hv hu (word_lt hc d hd n hn) (hc.words d hd n hn) k hk]

theorem normalise_eq {m n : Nat} {α β : Equiv.Perm Nat} (hβ : Keeps n β) {u v : Nat → Nat → ℝ} (h : Tab m n α β u v) :
    Tab m n α β (Vb.normalise n u) (Vb.normalise n v) := by
  intro i hi j hj
  unfold Vb.normalise
  rw [h i hi j hj, sum_eq (f := fun j => u (α i) j) hβ fun j hj => h i hi j hj]

theorem lda_iterate (psi : ℝ → ℝ) (hp : SamePriors σ p q) (hc : SameList δ τ π p.T c e) (n : Nat) : ∀ {s r : Vb.State},
    Tab p.K p.T σ τ s.vocab r.vocab → Tab c.lens.length p.K δ σ s.topics r.topics →
    Tab p.K p.T σ τ (Vb.iterate psi p c n s).vocab (Vb.iterate psi q e n r).vocab
      ∧ Tab c.lens.length p.K δ σ (Vb.iterate psi p c n s).topics (Vb.iterate psi q e n r).topics := by
  induction n with
  | zero => intro s r hv ht; exact ⟨hv, ht⟩
  | succ n ih =>
    intro s r hv _
    obtain ⟨h1, h2⟩ := lda_step psi hp hc hv
    exact ih h1 h2

/-- **C300, C301, C302** (compiled variational LDA): training with other numbers for words, topics and documents, and with the words of each
document in another order, gives the same result under the other numbers, whatever the segments of the training. -/
theorem lda_train (psi : ℝ → ℝ) (hp : SamePriors σ p q) (hc : SameList δ τ π p.T c e) (segments : List Nat) : ∀ {s r : Vb.State},
    Tab p.K p.T σ τ s.vocab r.vocab → Tab c.lens.length p.K δ σ s.topics r.topics →
    Tab p.K p.T σ τ (Vb.train psi p c segments s).vocab (Vb.train psi q e segments r).vocab
      ∧ Tab c.lens.length p.K δ σ (Vb.train psi p c segments s).topics (Vb.train psi q e segments r).topics := by
  induction segments with
  | nil => intro s r hv ht; exact ⟨hv, ht⟩
  | cons n ns ih =>
    intro s r hv ht
    obtain ⟨h1, h2⟩ := lda_iterate psi hp hc n hv ht
    refine ih ?_ ?_
    · show Tab p.K p.T σ τ (Vb.normalise p.T (Vb.normalise p.T _)) (Vb.normalise q.T (Vb.normalise q.T _))
      rw [hp.T]
      exact normalise_eq hc.vocab (normalise_eq hc.vocab h1)
    · show Tab c.lens.length p.K δ σ (Vb.normalise p.K _) (Vb.normalise q.K _)
      rw [hp.K]
      exact normalise_eq hp.topics h2

/-- **C300, C301, C302** (queries of compiled variational LDA) -/
theorem lda_query (psi : ℝ → ℝ) (hp : SamePriors σ p q) (hc : SameList δ τ π p.T c e) (n : Nat) {s r : Vb.State}
    (hv : Tab p.K p.T σ τ s.vocab r.vocab) :
    Tab p.K p.T σ τ (Vb.query psi p c (n + 1) s).vocab (Vb.query psi q e (n + 1) r).vocab
      ∧ Tab c.lens.length p.K δ σ (Vb.query psi p c (n + 1) s).topics (Vb.query psi q e (n + 1) r).topics := by
  constructor
  · rw [Vb.query_vocab, Vb.query_vocab]
    exact hv
  · intro d hd k hk
    rw [Vb.query_row psi p c n s _ _ ((hc.docs d).2 hd) ((hp.topics k).2 hk), Vb.query_row psi q e n r d k (by rw [hc.D]; exact hd)
      (by rw [hp.K]; exact hk), hc.D, used_eq hp _ k hk, hc.len d hd]
    congr 1
    refine sum_eq (f := fun i => Vb.resp psi p s.vocab (Vb.used p c.lens.length) (c.w (δ d) i) (σ k)) (hc.tokens d hd) fun i hi => ?_
    rw [resp_eq psi hp hc.vocab hv (used_eq hp _) (word_lt hc d hd i hi) (hc.words d hd i hi) k hk]

end

/-! ## Examples -/

/-- The corpus of `Renumber` with other numbers; a run of the correlated topic model in which the last two topics are exchanged -/
example (perp : ℝ → ℝ) (p : LogPlan) :
    Alike (fun a b => SameCtm (Equiv.swap 0 1) (Equiv.swap 1 2) (Equiv.swap 0 2) 2 3 3 a.1 b.1 ∧ b.2 = a.2)
      (train (trainStep (fun _ _ _ => 0) exX 3 1) (fun _ => 0) (fun st => logLikelihood exX 3 1 st.means st.vocab) perp p (exState 1))
      (train (trainStep (fun _ _ _ => 0) exY 3 1) (fun _ => 0) (fun st => logLikelihood exY 3 1 st.means st.vocab) perp p (exState 2)) := by
  refine ctm_train (x := exX) (y := exY) _ (fun _ _ _ _ _ _ _ => rfl) ex_renumbered (swap_keeps (by norm_num) (by norm_num)) (by decide) 1 1
    (fun _ _ _ => rfl) perp p ⟨fun _ _ => rfl, fun k _ j _ => ?_, fun _ _ _ _ => rfl, fun _ _ _ _ => rfl, fun _ _ _ _ => rfl, fun _ _ _ _ => rfl,
      fun d _ k _ => ?_, fun _ _ => rfl⟩
  · show (if k = j then (1 : ℝ) else 0) = if Equiv.swap 1 2 k = Equiv.swap 1 2 j then 1 else 0
    simp
  · show (if k = 2 then (1 : ℝ) else 0) = if Equiv.swap 1 2 k = 1 then 1 else 0
    have : Equiv.swap 1 2 k = 1 ↔ k = 2 := by rw [Equiv.swap_apply_eq_iff, Equiv.swap_apply_left]
    simp [this]

/-- The inverse of diagonal matrices follows the numbers. -/
example : SameInv (Equiv.swap 0 1) 3 (fun m i j => if i = j then 1 / m i j else 0) := by
  intro m m' h i hi j hj
  dsimp only
  rw [h i hi j hj]
  simp

/-- A run of the Böhning model in which the first two topics are exchanged -/
example (n : Nat) (s r : BState) (h : SameB (Equiv.swap 0 1) (Equiv.swap 0 1) (Equiv.swap 0 2) 2 3 3 s r) (k t : Nat) (hk : k < 3) (ht : t < 3) :
    (bohningTrain (fun m i j => if i = j then 1 / m i j else 0) (fun _ _ _ _ => 0) exY 3 1 (bohningA 3) true n r).vocab k t
      = (bohningTrain (fun m i j => if i = j then 1 / m i j else 0) (fun _ _ _ _ => 0) exX 3 1 (bohningA 3) true n s).vocab
          (Equiv.swap 0 1 k) (Equiv.swap 0 2 t) := by
  refine (bohning_train (x := exX) (y := exY) _ (fun m m' h i hi j hj => ?_) _ ex_renumbered (swap_keeps (by norm_num) (by norm_num)) 1 true n
    h).vocab k hk t ht
  rw [h i hi j hj]
  simp

/-- Two documents as lists of words, and the same documents with other numbers, the words of the longer one reversed -/
def exC : Cvb.Corpus := ⟨[2, 1], fun d n => if d = 0 then (if n = 0 then 0 else 1) else 2⟩

/-- The second list: the long document comes last; word 0 is called 2 and conversely. -/
def exE : Cvb.Corpus := ⟨[1, 2], fun d n => if d = 0 then 0 else (if n = 0 then 1 else 2)⟩

theorem ex_list : SameList (Equiv.swap 0 1) (Equiv.swap 0 2) (fun d => if d = 0 then Equiv.refl _ else Equiv.swap 0 1) 3 exC exE where
  docs := swap_keeps (by decide) (by decide)
  vocab := swap_keeps (by decide) (by decide)
  tokens d hd := by
    have hd : d < 2 := hd
    interval_cases d
    · exact keeps_refl _
    · exact swap_keeps (by decide) (by decide)
  D := rfl
  len d hd := by
    have hd : d < 2 := hd
    interval_cases d <;> rfl
  words d hd n hn := by
    have hd : d < 2 := hd
    interval_cases d
    · have hn : n < 1 := hn
      interval_cases n
      decide
    · have hn : n < 2 := hn
      interval_cases n <;> decide
  inVocab d hd n hn := by
    have hd : d < 2 := hd
    interval_cases d
    · have hn : n < 2 := hn
      interval_cases n <;> decide
    · have hn : n < 1 := hn
      interval_cases n
      decide

example (psi : ℝ → ℝ) (s r : Vb.State) (hv : Tab 2 3 (Equiv.swap 0 1) (Equiv.swap 0 2) s.vocab r.vocab)
    (ht : Tab 2 2 (Equiv.swap 0 1) (Equiv.swap 0 1) s.topics r.topics) :
    (Vb.train psi ⟨2, 3, fun k => k + 1, 1⟩ exE [10, 5] r).vocab 0 2 = (Vb.train psi ⟨2, 3, fun k => 2 - k, 1⟩ exC [10, 5] s).vocab 1 0 := by
  have hp : SamePriors (Equiv.swap 0 1) ⟨2, 3, fun k => 2 - k, 1⟩ ⟨2, 3, fun k => k + 1, 1⟩ :=
    ⟨rfl, rfl, swap_keeps (by decide) (by decide), fun k hk => by
      have hk : k < 2 := hk
      interval_cases k
      · show ((0 : Nat) : ℝ) + 1 = 2 - ((Equiv.swap 0 1 0 : Nat) : ℝ)
        rw [Equiv.swap_apply_left]
        norm_num
      · show ((1 : Nat) : ℝ) + 1 = 2 - ((Equiv.swap 0 1 1 : Nat) : ℝ)
        rw [Equiv.swap_apply_right]
        norm_num, rfl⟩
  have h := (lda_train psi hp ex_list [10, 5] hv ht).1 0 (by decide) 2 (by decide)
  rw [h, Equiv.swap_apply_left, Equiv.swap_apply_right]

end Verif.Props.RenumberCtm
