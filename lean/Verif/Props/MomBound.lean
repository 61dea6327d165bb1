import Verif.Model.MomBound
import Verif.Props.MomGibbs
import Mathlib.MeasureTheory.Integral.Bochner.Basic
import Mathlib.Analysis.SpecialFunctions.Log.Basic

/-!
# The bound of the mixture sampler is no bound (C273)

The evidence is the probability of the words of the corpus: every document has a topic, drawn from a distribution `θ`, and its words are drawn from the
distribution of that topic.  The parameters themselves may be known or drawn from any distribution `μ`.
-/

namespace Verif.Props.MomBound

open Verif Verif.Mom Verif.MomBound MeasureTheory

/-! ## The evidence -/

/-- The probability of the words of the corpus, given the parameters -/
noncomputable def given (K : Nat) (x : Data) (θ : Nat → ℝ) (φ : Nat → Nat → ℝ) : ℝ :=
  ∏ d ∈ Finset.range x.D, ∑ k ∈ Finset.range K, θ k * ∏ t ∈ Finset.range x.T, φ k t ^ x.words d t

/-- Topics and words have probabilities -/
structure Proper (K T : Nat) (θ : Nat → ℝ) (φ : Nat → Nat → ℝ) : Prop where
  pos : ∀ k, k < K → 0 ≤ θ k
  sum : ∑ k ∈ Finset.range K, θ k = 1
  wpos : ∀ k, k < K → ∀ t, t < T → 0 ≤ φ k t
  wsum : ∀ k, k < K → ∑ t ∈ Finset.range T, φ k t = 1

/-- The probability of the words, when the parameters are drawn from `μ` -/
noncomputable def evidence (K : Nat) (x : Data) (μ : Measure ((Nat → ℝ) × (Nat → Nat → ℝ))) : ℝ := ∫ z, given K x z.1 z.2 ∂μ

theorem given_le_one (K : Nat) (x : Data) (θ : Nat → ℝ) (φ : Nat → Nat → ℝ) (h : Proper K x.T θ φ) : 0 ≤ given K x θ φ ∧ given K x θ φ ≤ 1 := by
  have hφ : ∀ k, k < K → ∀ t, t < x.T → φ k t ≤ 1 := by
    intro k hk t ht
    rw [← h.wsum k hk]
    exact Finset.single_le_sum (fun i hi => h.wpos k hk i (Finset.mem_range.mp hi)) (Finset.mem_range.mpr ht)
  have hp : ∀ d k, k < K → 0 ≤ ∏ t ∈ Finset.range x.T, φ k t ^ x.words d t ∧ ∏ t ∈ Finset.range x.T, φ k t ^ x.words d t ≤ 1 := by
    intro d k hk
    refine ⟨Finset.prod_nonneg fun t ht => pow_nonneg (h.wpos k hk t (Finset.mem_range.mp ht)) _, ?_⟩
    exact Finset.prod_le_one (fun t ht => pow_nonneg (h.wpos k hk t (Finset.mem_range.mp ht)) _)
      (fun t ht => pow_le_one₀ (h.wpos k hk t (Finset.mem_range.mp ht)) (hφ k hk t (Finset.mem_range.mp ht)))
  have hs : ∀ d, 0 ≤ ∑ k ∈ Finset.range K, θ k * ∏ t ∈ Finset.range x.T, φ k t ^ x.words d t
      ∧ ∑ k ∈ Finset.range K, θ k * ∏ t ∈ Finset.range x.T, φ k t ^ x.words d t ≤ 1 := by
    intro d
    refine ⟨Finset.sum_nonneg fun k hk => mul_nonneg (h.pos k (Finset.mem_range.mp hk)) (hp d k (Finset.mem_range.mp hk)).1, ?_⟩
    rw [← h.sum]
    exact Finset.sum_le_sum fun k hk => mul_le_of_le_one_right (h.pos k (Finset.mem_range.mp hk)) (hp d k (Finset.mem_range.mp hk)).2
  exact ⟨Finset.prod_nonneg fun d _ => (hs d).1, Finset.prod_le_one (fun d _ => (hs d).1) (fun d _ => (hs d).2)⟩

/-- The logarithm of the evidence is never positive -/
theorem log_evidence_nonpos (K : Nat) (x : Data) (μ : Measure ((Nat → ℝ) × (Nat → Nat → ℝ))) [IsProbabilityMeasure μ]
    (hμ : ∀ᵐ z ∂μ, Proper K x.T z.1 z.2) : Real.log (evidence K x μ) ≤ 0 := by
  have h0 : 0 ≤ evidence K x μ := by
    apply integral_nonneg_of_ae
    filter_upwards [hμ] with z hz
    exact (given_le_one K x z.1 z.2 hz).1
  have h1 : evidence K x μ ≤ 1 := by
    have : evidence K x μ ≤ ∫ _, (1 : ℝ) ∂μ := by
      apply integral_mono_of_nonneg
      · filter_upwards [hμ] with z hz
        exact (given_le_one K x z.1 z.2 hz).1
      · exact integrable_const 1
      · filter_upwards [hμ] with z hz
        exact (given_le_one K x z.1 z.2 hz).2
    simpa using this
  exact Real.log_nonpos h0 h1

/-! ## The bound -/

theorem almostZero_pos : 0 < Numerics.almostZero false := by
  unfold Numerics.almostZero
  simp only [Bool.false_eq_true, if_false]
  positivity

theorem almostZero_lt : Numerics.almostZero false < 1 := by
  unfold Numerics.almostZero
  simp only [Bool.false_eq_true, if_false]
  exact pow_lt_one₀ (by norm_num) (by norm_num) (by norm_num)

theorem safeLog_nonpos (v : ℝ) (h1 : v ≤ 1) : Numerics.safeLogOut false v ≤ 0 := by
  unfold Numerics.safeLogOut
  split
  · next h => exact Real.log_nonpos (le_trans almostZero_pos.le h) h1
  · exact Real.log_nonpos almostZero_pos.le almostZero_lt.le

theorem safeLog_neg (v : ℝ) (h1 : v < 1) : Numerics.safeLogOut false v < 0 := by
  unfold Numerics.safeLogOut
  split
  · next h => exact Real.log_neg (lt_of_lt_of_le almostZero_pos h) h1
  · exact Real.log_neg almostZero_pos almostZero_lt

theorem safeLog_zero : Numerics.safeLogOut false 0 = Real.log (Numerics.almostZero false) := by
  unfold Numerics.safeLogOut
  rw [if_neg (not_le.mpr almostZero_pos)]

theorem safeLog_one : Numerics.safeLogOut false 1 = 0 := by
  unfold Numerics.safeLogOut
  rw [if_pos almostZero_lt.le, Real.log_one]

theorem like_nonpos (x : Data) (word : Nat → Nat → ℝ) (d k : Nat) (hw : ∀ t, t < x.T → word k t ≤ 1) : like x word d k ≤ 0 :=
  Finset.sum_nonpos fun t ht => mul_nonpos_of_nonneg_of_nonpos (Nat.cast_nonneg _) (safeLog_nonpos _ (hw t (Finset.mem_range.mp ht)))

/-- Whatever the words and the memberships, as long as they are probabilities, the bound is no less than zero, hence than the logarithm of the evidence -/
theorem bound_nonneg (K : Nat) (x : Data) (word mem : Nat → Nat → ℝ) (hw : ∀ k, k < K → ∀ t, t < x.T → word k t ≤ 1)
    (hm : ∀ d, d < x.D → ∀ k, k < K → 0 ≤ mem d k ∧ mem d k ≤ 1) : 0 ≤ varBound K x word mem := by
  unfold varBound
  apply add_nonneg
  · exact Finset.sum_nonneg fun d hd => Finset.sum_nonneg fun k hk => mul_nonneg_of_nonpos_of_nonpos
      (like_nonpos x word d k (hw k (Finset.mem_range.mp hk))) (safeLog_nonpos _ (hm d (Finset.mem_range.mp hd) k (Finset.mem_range.mp hk)).2)
  · refine Finset.sum_nonneg fun d hd => Finset.sum_nonneg fun k hk => ?_
    obtain ⟨h0, h1⟩ := hm d (Finset.mem_range.mp hd) k (Finset.mem_range.mp hk)
    exact mul_nonneg_of_nonpos_of_nonpos (by linarith) (safeLog_nonpos _ h1)

/-- With memberships in one topic each (as sampling makes them), the bound is made of the *other* topics only: how well the words suit the topic of their
document does not enter -/
theorem bound_hard (K : Nat) (x : Data) (word : Nat → Nat → ℝ) (z : Nat → Nat) :
    varBound K x word (fun d => oneHot (z d))
      = Real.log (Numerics.almostZero false)
        * ∑ d ∈ Finset.range x.D, ∑ k ∈ (Finset.range K).filter (fun k => k ≠ z d), ∑ t ∈ Finset.range x.T,
            (x.words d t : ℝ) * Numerics.safeLogOut false (word k t) := by
  unfold varBound
  have h2 : ∑ d ∈ Finset.range x.D, ∑ k ∈ Finset.range K, -oneHot (z d) k * Numerics.safeLogOut false (oneHot (z d) k) = 0 := by
    refine Finset.sum_eq_zero fun d _ => Finset.sum_eq_zero fun k _ => ?_
    unfold oneHot
    split
    · rw [safeLog_one, mul_zero]
    · simp
  rw [h2, add_zero, Finset.mul_sum]
  refine Finset.sum_congr rfl fun d _ => ?_
  rw [Finset.mul_sum, Finset.sum_filter]
  refine Finset.sum_congr rfl fun k _ => ?_
  show like x word d k * Numerics.safeLogOut false (oneHot (z d) k) = _
  unfold oneHot
  by_cases hk : k = z d
  · rw [if_pos hk, safeLog_one, mul_zero, if_neg (by simpa using hk)]
  · rw [if_neg hk, safeLog_zero, if_pos hk, mul_comm]
    rfl

/-- **Violation.** After training, the bound exceeds the logarithm of the evidence, whatever distribution the parameters are drawn from, unless all other
topics give every word of every document a probability of one -/
theorem bound_exceeds_violation (K : Nat) (x : Data) (word : Nat → Nat → ℝ) (z : Nat → Nat) (hw : ∀ k, k < K → ∀ t, t < x.T → word k t ≤ 1)
    (d k t : Nat) (hd : d < x.D) (hk : k < K) (hkz : k ≠ z d) (ht : t < x.T) (hc : 0 < x.words d t) (hlt : word k t < 1)
    (μ : Measure ((Nat → ℝ) × (Nat → Nat → ℝ))) [IsProbabilityMeasure μ] (hμ : ∀ᵐ q ∂μ, Proper K x.T q.1 q.2) :
    Real.log (evidence K x μ) < varBound K x word (fun d => oneHot (z d)) := by
  refine lt_of_le_of_lt (log_evidence_nonpos K x μ hμ) ?_
  rw [bound_hard]
  have hneg : ∑ d ∈ Finset.range x.D, ∑ k ∈ (Finset.range K).filter (fun k => k ≠ z d), like x word d k < 0 := by
    have hle : ∀ d' ∈ Finset.range x.D, ∑ k ∈ (Finset.range K).filter (fun k => k ≠ z d'), like x word d' k ≤ 0 := fun d' _ =>
      Finset.sum_nonpos fun k hk => like_nonpos x word d' k (hw k (Finset.mem_range.mp (Finset.mem_filter.mp hk).1))
    refine Finset.sum_neg' hle ⟨d, Finset.mem_range.mpr hd, ?_⟩
    refine Finset.sum_neg' (fun k hk => like_nonpos x word d k (hw k (Finset.mem_range.mp (Finset.mem_filter.mp hk).1)))
      ⟨k, Finset.mem_filter.mpr ⟨Finset.mem_range.mpr hk, hkz⟩, ?_⟩
    refine Finset.sum_neg' (fun t ht => mul_nonpos_of_nonneg_of_nonpos (Nat.cast_nonneg _) (safeLog_nonpos _ (hw k hk t (Finset.mem_range.mp ht))))
      ⟨t, Finset.mem_range.mpr ht, ?_⟩
    exact mul_neg_of_pos_of_neg (Nat.cast_pos.mpr hc) (safeLog_neg _ hlt)
  exact mul_pos_of_neg_of_neg (Real.log_neg almostZero_pos almostZero_lt) hneg

theorem varBound_congr (K : Nat) (x : Data) (word mem mem' : Nat → Nat → ℝ) (h : ∀ d, d < x.D → ∀ k, mem d k = mem' d k) :
    varBound K x word mem = varBound K x word mem' := by
  unfold varBound
  congr 1
  · exact Finset.sum_congr rfl fun d hd => Finset.sum_congr rfl fun k _ => by rw [h d (Finset.mem_range.mp hd) k]
  · exact Finset.sum_congr rfl fun d hd => Finset.sum_congr rfl fun k _ => by rw [h d (Finset.mem_range.mp hd) k]

/-- **Violation.** The bound of every trained model of two or more topics exceeds the logarithm of the evidence: for every corpus of non-empty documents
with two or more words in the vocabulary, every prior, plan and random draws, and whatever distribution the parameters of the evidence are drawn from -/
theorem trained_bound_violation (p : GibbsParams) (hK : 2 ≤ p.K) (x : Data) (hD : 0 < x.D) (hT : 2 ≤ x.T) (hx : ∀ d, d < x.D → 0 < x.len d)
    (plan : GibbsPlan) (hp : MomGibbs.Trainable plan) (hi : 0 < plan.iterations) (draws : Nat → Nat → Nat) (words : Nat → Nat → Nat → ℝ)
    (hpos : ∀ itr k t, t < x.T → 0 < words itr k t) (hsum : ∀ itr k, ∑ t ∈ Finset.range x.T, words itr k t = 1) (mem word : Nat → Nat → ℝ)
    (μ : Measure ((Nat → ℝ) × (Nat → Nat → ℝ))) [IsProbabilityMeasure μ] (hμ : ∀ᵐ q ∂μ, Proper p.K x.T q.1 q.2) :
    ∃ s, gibbsTrain p x plan draws words mem word = .ok s ∧ Real.log (evidence p.K x μ) < varBound p.K x s.word s.mem := by
  obtain ⟨s, h1, h2, h3⟩ := MomGibbs.training_returns_last p x hx plan hp hi draws words mem word
  refine ⟨s, h1, ?_⟩
  generalize plan.iterations + plan.burnIn - 1 = m at h2 h3
  have hlt : ∀ k t, t < x.T → words m k t < 1 := by
    intro k t ht
    rw [← hsum m k]
    obtain ⟨t', ht', hne⟩ : ∃ t', t' < x.T ∧ t' ≠ t := by
      by_cases h0 : t = 0
      · exact ⟨1, by omega, by omega⟩
      · exact ⟨0, by omega, by omega⟩
    exact Finset.single_lt_sum hne (Finset.mem_range.mpr ht) (Finset.mem_range.mpr ht') (hpos m k t' ht')
      (fun i hi _ => (hpos m k i (Finset.mem_range.mp hi)).le)
  rw [varBound_congr p.K x s.word s.mem (fun d => oneHot (draws m d)) (fun d hd k => h3 d hd k), h2]
  obtain ⟨t, ht, hc⟩ : ∃ t, t < x.T ∧ 0 < x.words 0 t := by
    by_contra hne
    push Not at hne
    have : x.len 0 = 0 := Finset.sum_eq_zero fun t ht => Nat.le_zero.mp (hne t (Finset.mem_range.mp ht))
    have := hx 0 hD
    omega
  obtain ⟨k, hk, hkz⟩ : ∃ k, k < p.K ∧ k ≠ draws m 0 := by
    by_cases h0 : draws m 0 = 0
    · exact ⟨1, by omega, by omega⟩
    · exact ⟨0, by omega, by omega⟩
  exact bound_exceeds_violation p.K x (words m) (draws m) (fun k _ t ht => (hlt k t ht).le) 0 k t hD hk hkz ht hc (hlt k t ht) μ hμ

/-- Training with known parameters: the evidence is the likelihood -/
theorem evidence_dirac (K : Nat) (x : Data) (θ : Nat → ℝ) (φ : Nat → Nat → ℝ) : evidence K x (Measure.dirac (θ, φ)) = given K x θ φ := by
  unfold evidence
  rw [integral_dirac]

/-- Three documents of two words, after twelve iterations -/
example : ∃ s, gibbsTrain (MomGibbs.defaultPrior 2) MomGibbs.exX (newTrainPlan 12 0 false) (fun itr d => (itr + d) % 2) (fun _ _ _ => 1 / 2) (fun _ _ => 0)
      (fun _ _ => 0) = .ok s
    ∧ Real.log (given 2 MomGibbs.exX (fun _ => 1 / 2) (fun _ _ => 1 / 2)) < varBound 2 MomGibbs.exX s.word s.mem := by
  rw [← evidence_dirac]
  refine trained_bound_violation (MomGibbs.defaultPrior 2) (by decide) MomGibbs.exX (by decide) (by decide) MomGibbs.exX_len _ ⟨rfl, rfl, by decide⟩
    (by decide) _ _ (fun _ _ _ _ => by norm_num) (fun _ _ => ?_) _ _ _ ?_
  · rw [Finset.sum_const, Finset.card_range]
    show (2 : ℕ) • _ = _
    norm_num
  · rw [ae_dirac_eq]
    exact ⟨fun _ _ => by norm_num, by norm_num [MomGibbs.defaultPrior], fun _ _ _ _ => by norm_num, fun _ _ => by norm_num [MomGibbs.exX]⟩

end Verif.Props.MomBound
