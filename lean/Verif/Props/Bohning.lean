import Mathlib.Tactic.NormNum
import Mathlib.Analysis.SpecialFunctions.Log.Deriv
import Mathlib.Analysis.SpecialFunctions.ExpDeriv
import Mathlib.Analysis.Calculus.Deriv.MeanValue
import Mathlib.Analysis.Calculus.Deriv.Inv
import Verif.Props.Ctm

/-!
# Böhning's bound, training and queries of `ctm_bohning.py` (C138, C139, C140, C141, C142)
-/

namespace Verif.Props.Bohning

open Verif Verif.Ctm
open Verif.Mom (Data)
open Verif.Props.Ctm
open Verif.Props.MomEm (IsDist softmax_dist)
open Verif.Props.Numerics (softmax sum_exp_pos)

/-! ## The curvature -/

/-- `yᵀ M y` -/
noncomputable def quad (K : Nat) (M : Nat → Nat → ℝ) (y : Nat → ℝ) : ℝ :=
  ∑ i ∈ Finset.range K, y i * ∑ j ∈ Finset.range K, M i j * y j

/-- The logarithm of a sum of exponentials -/
noncomputable def lse (K : Nat) (y : Nat → ℝ) : ℝ := Real.log (∑ k ∈ Finset.range K, Real.exp (y k))

theorem quad_bohning (K : Nat) (y : Nat → ℝ) :
    quad K (bohningA K) y
      = (∑ k ∈ Finset.range K, y k ^ 2 - (∑ k ∈ Finset.range K, y k) ^ 2 / ((K : ℝ) + 1)) / 2 := by
  have h1 : ∀ i ∈ Finset.range K, y i * ∑ j ∈ Finset.range K, bohningA K i j * y j
      = (y i ^ 2 - y i * (∑ j ∈ Finset.range K, y j) / ((K : ℝ) + 1)) / 2 := by
    intro i hi
    have h2 : ∀ j ∈ Finset.range K, bohningA K i j * y j = (if i = j then y j / 2 else 0) - y j / (2 * ((K : ℝ) + 1)) := by
      intro j _
      unfold bohningA
      have : (K : ℝ) + 1 ≠ 0 := by positivity
      split
      · field_simp; ring
      · field_simp; ring
    rw [Finset.sum_congr rfl h2, Finset.sum_sub_distrib, Finset.sum_ite_eq, if_pos hi, ← Finset.sum_div]
    have : (K : ℝ) + 1 ≠ 0 := by positivity
    field_simp
  unfold quad
  rw [Finset.sum_congr rfl h1, ← Finset.sum_div, Finset.sum_sub_distrib, ← Finset.sum_div, ← Finset.sum_mul]
  ring

/-- Deviations from the mean: those of the largest and the smallest number alone give half the square of the range. -/
theorem spread (K : Nat) (y : Nat → ℝ) (i j : Nat) (hi : i < K) (hj : j < K) :
    (y i - y j) ^ 2 / 2 ≤ ∑ k ∈ Finset.range K, y k ^ 2 - (∑ k ∈ Finset.range K, y k) ^ 2 / ((K : ℝ) + 1) := by
  have hK : (0 : ℝ) < K := by exact_mod_cast (Nat.zero_lt_of_lt hi)
  set m := (∑ k ∈ Finset.range K, y k) / (K : ℝ) with hm
  have hsum : ∑ k ∈ Finset.range K, y k = K * m := by rw [hm]; field_simp
  have h1 : ∑ k ∈ Finset.range K, (y k - m) ^ 2 = ∑ k ∈ Finset.range K, y k ^ 2 - K * m ^ 2 := by
    have : ∀ k ∈ Finset.range K, (y k - m) ^ 2 = y k ^ 2 - 2 * m * y k + m ^ 2 := fun k _ => by ring
    rw [Finset.sum_congr rfl this, Finset.sum_add_distrib, Finset.sum_sub_distrib, ← Finset.mul_sum, hsum, Finset.sum_const,
      Finset.card_range, nsmul_eq_mul]
    ring
  have h2 : (y i - y j) ^ 2 / 2 ≤ ∑ k ∈ Finset.range K, (y k - m) ^ 2 := by
    by_cases hij : i = j
    · rw [hij, sub_self]
      have : 0 ≤ ∑ k ∈ Finset.range K, (y k - m) ^ 2 := Finset.sum_nonneg fun k _ => sq_nonneg _
      linarith
    · have h3 : ∑ k ∈ ({i, j} : Finset Nat), (y k - m) ^ 2 ≤ ∑ k ∈ Finset.range K, (y k - m) ^ 2 := by
        refine Finset.sum_le_sum_of_subset_of_nonneg ?_ fun k _ _ => sq_nonneg _
        intro k hk
        rcases Finset.mem_insert.mp hk with rfl | hk
        · exact Finset.mem_range.mpr hi
        · rw [Finset.mem_singleton.mp hk]; exact Finset.mem_range.mpr hj
      rw [Finset.sum_pair hij] at h3
      nlinarith [sq_nonneg (y i + y j - 2 * m)]
  have h3 : (∑ k ∈ Finset.range K, y k) ^ 2 / ((K : ℝ) + 1) ≤ K * m ^ 2 := by
    rw [hsum, div_le_iff₀ (by positivity)]
    nlinarith [mul_nonneg hK.le (sq_nonneg m)]
  linarith

/-- C141: for every distribution over topics, the curvature of log-sum-exp (the variance of `y`) is at most that of the matrix `A`. -/
theorem curvature (K : Nat) (hK : 0 < K) (p y : Nat → ℝ) (hp : ∀ k, k < K → 0 ≤ p k) (hs : ∑ k ∈ Finset.range K, p k = 1) :
    ∑ k ∈ Finset.range K, p k * y k ^ 2 - (∑ k ∈ Finset.range K, p k * y k) ^ 2 ≤ quad K (bohningA K) y := by
  obtain ⟨i, hi, hmax⟩ := Finset.exists_max_image (Finset.range K) y ⟨0, Finset.mem_range.mpr hK⟩
  obtain ⟨j, hj, hmin⟩ := Finset.exists_min_image (Finset.range K) y ⟨0, Finset.mem_range.mpr hK⟩
  have h1 := spread K y i j (Finset.mem_range.mp hi) (Finset.mem_range.mp hj)
  set c := (y i + y j) / 2 with hc
  set e := ∑ k ∈ Finset.range K, p k * y k with he
  have h2 : ∑ k ∈ Finset.range K, p k * (y k - c) ^ 2 = ∑ k ∈ Finset.range K, p k * y k ^ 2 - 2 * c * e + c ^ 2 := by
    have : ∀ k ∈ Finset.range K, p k * (y k - c) ^ 2 = p k * y k ^ 2 - 2 * c * (p k * y k) + c ^ 2 * p k := fun k _ => by ring
    rw [Finset.sum_congr rfl this, Finset.sum_add_distrib, Finset.sum_sub_distrib, ← Finset.mul_sum, ← Finset.mul_sum, hs, mul_one]
  have h3 : ∑ k ∈ Finset.range K, p k * (y k - c) ^ 2 ≤ ∑ k ∈ Finset.range K, p k * ((y i - y j) ^ 2 / 4) := by
    refine Finset.sum_le_sum fun k hk => mul_le_mul_of_nonneg_left ?_ (hp k (Finset.mem_range.mp hk))
    have ha := hmax k hk
    have hb := hmin k hk
    nlinarith [mul_nonneg (sub_nonneg.mpr ha) (sub_nonneg.mpr hb)]
  rw [← Finset.sum_mul, hs, one_mul] at h3
  rw [quad_bohning]
  nlinarith [sq_nonneg (e - c)]

theorem quad_bohning_nonneg (K : Nat) (y : Nat → ℝ) : 0 ≤ quad K (bohningA K) y := by
  rcases Nat.eq_zero_or_pos K with rfl | hK
  · simp [quad]
  · rw [quad_bohning]
    have := spread K y 0 0 hK hK
    rw [sub_self] at this
    linarith

theorem lse_line_deriv (K : Nat) (hK : 0 < K) (y δ : Nat → ℝ) (t : ℝ) :
    HasDerivAt (fun t => lse K (fun k => y k + t * δ k))
      ((∑ k ∈ Finset.range K, δ k * Real.exp (y k + t * δ k)) / ∑ k ∈ Finset.range K, Real.exp (y k + t * δ k)) t := by
  have hZ : HasDerivAt (fun t => ∑ k ∈ Finset.range K, Real.exp (y k + t * δ k))
      (∑ k ∈ Finset.range K, δ k * Real.exp (y k + t * δ k)) t := by
    refine HasDerivAt.fun_sum fun k _ => ?_
    have h := (((hasDerivAt_id t).mul_const (δ k)).const_add (y k)).exp
    simpa [mul_comm] using h
  exact hZ.log (sum_exp_pos K _ hK).ne'

theorem slope_deriv (K : Nat) (hK : 0 < K) (y δ : Nat → ℝ) (t : ℝ) :
    HasDerivAt (fun t => (∑ k ∈ Finset.range K, δ k * Real.exp (y k + t * δ k)) / ∑ k ∈ Finset.range K, Real.exp (y k + t * δ k))
      (∑ k ∈ Finset.range K, softmax K (fun k => y k + t * δ k) k * δ k ^ 2
        - (∑ k ∈ Finset.range K, softmax K (fun k => y k + t * δ k) k * δ k) ^ 2) t := by
  have hE : ∀ k, HasDerivAt (fun t => Real.exp (y k + t * δ k)) (δ k * Real.exp (y k + t * δ k)) t := by
    intro k
    have h := (((hasDerivAt_id t).mul_const (δ k)).const_add (y k)).exp
    simpa [mul_comm] using h
  have hN : HasDerivAt (fun t => ∑ k ∈ Finset.range K, δ k * Real.exp (y k + t * δ k))
      (∑ k ∈ Finset.range K, δ k * (δ k * Real.exp (y k + t * δ k))) t :=
    HasDerivAt.fun_sum fun k _ => (hE k).const_mul (δ k)
  have hZ : HasDerivAt (fun t => ∑ k ∈ Finset.range K, Real.exp (y k + t * δ k))
      (∑ k ∈ Finset.range K, δ k * Real.exp (y k + t * δ k)) t := HasDerivAt.fun_sum fun k _ => hE k
  have hpos := sum_exp_pos K (fun k => y k + t * δ k) hK
  have h := hN.fun_div hZ hpos.ne'
  refine h.congr_deriv (Eq.symm ?_)
  unfold softmax
  have e1 : ∀ f : Nat → ℝ, ∑ k ∈ Finset.range K, Real.exp (y k + t * δ k) / (∑ j ∈ Finset.range K, Real.exp (y j + t * δ j)) * f k
      = (∑ k ∈ Finset.range K, f k * Real.exp (y k + t * δ k)) / ∑ j ∈ Finset.range K, Real.exp (y j + t * δ j) := by
    intro f
    rw [Finset.sum_div]
    exact Finset.sum_congr rfl fun k _ => by ring
  rw [e1 (fun k => δ k ^ 2), e1 δ]
  have e2 : ∑ k ∈ Finset.range K, δ k * (δ k * Real.exp (y k + t * δ k)) = ∑ k ∈ Finset.range K, δ k ^ 2 * Real.exp (y k + t * δ k) :=
    Finset.sum_congr rfl fun k _ => by ring
  rw [e2]
  generalize ∑ k ∈ Finset.range K, δ k ^ 2 * Real.exp (y k + t * δ k) = Q
  generalize ∑ k ∈ Finset.range K, δ k * Real.exp (y k + t * δ k) = N
  generalize ∑ k ∈ Finset.range K, Real.exp (y k + t * δ k) = Z at hpos
  have := hpos.ne'
  field_simp

/-- C141: Böhning's bound: log-sum-exp is nowhere above its quadratic expansion with the matrix `A`. -/
theorem lse_bohning (K : Nat) (hK : 0 < K) (y z : Nat → ℝ) :
    lse K z ≤ lse K y + ∑ k ∈ Finset.range K, softmax K y k * (z k - y k) + quad K (bohningA K) (fun k => z k - y k) / 2 := by
  set δ := fun k => z k - y k with hδ
  set c := quad K (bohningA K) δ with hc
  set g := fun t : ℝ => lse K (fun k => y k + t * δ k) with hg
  set g' := fun t : ℝ => (∑ k ∈ Finset.range K, δ k * Real.exp (y k + t * δ k)) / ∑ k ∈ Finset.range K, Real.exp (y k + t * δ k) with hg'
  have hd : ∀ t, HasDerivAt g (g' t) t := fun t => lse_line_deriv K hK y δ t
  have hmono : Monotone (fun t => c * t - g' t) := by
    refine monotone_of_deriv_nonneg (fun t => ?_) (fun t => ?_)
    · exact (((hasDerivAt_id t).const_mul c).fun_sub (slope_deriv K hK y δ t)).differentiableAt
    · have h := (((hasDerivAt_id t).const_mul c).fun_sub (slope_deriv K hK y δ t)).deriv
      have h' : deriv (fun t => c * t - g' t) t = c * 1 - (∑ k ∈ Finset.range K, softmax K (fun k => y k + t * δ k) k * δ k ^ 2
        - (∑ k ∈ Finset.range K, softmax K (fun k => y k + t * δ k) k * δ k) ^ 2) := h
      rw [h', mul_one, sub_nonneg]
      have hsd := softmax_dist K (fun k => y k + t * δ k) hK
      exact curvature K hK _ δ (fun k hk => (hsd.1 k hk).le) hsd.2
  have hmono2 : MonotoneOn (fun t => g' 0 * t + c * t ^ 2 / 2 - g t) (Set.Icc 0 1) := by
    have hdd : ∀ t, HasDerivAt (fun t => g' 0 * t + c * t ^ 2 / 2 - g t) (g' 0 + c * t - g' t) t := by
      intro t
      have h := (((hasDerivAt_id t).const_mul (g' 0)).fun_add ((((hasDerivAt_id t).fun_pow 2).const_mul c).div_const 2)).fun_sub (hd t)
      refine h.congr_deriv ?_
      simp only [id_eq]
      ring
    refine monotoneOn_of_deriv_nonneg (convex_Icc 0 1) (fun t _ => (hdd t).continuousAt.continuousWithinAt)
      (fun t _ => (hdd t).differentiableAt.differentiableWithinAt) (fun t ht => ?_)
    rw [(hdd t).deriv]
    rw [interior_Icc] at ht
    have := hmono ht.1.le
    simp only at this
    linarith
  have h01 := hmono2 (Set.left_mem_Icc.mpr zero_le_one) (Set.right_mem_Icc.mpr zero_le_one) zero_le_one
  have g0 : g 0 = lse K y := by simp [hg]
  have g1 : g 1 = lse K z := by simp [hg, hδ]
  have gs : g' 0 = ∑ k ∈ Finset.range K, softmax K y k * δ k := by
    simp only [hg', zero_mul, add_zero]
    rw [Finset.sum_div]
    exact Finset.sum_congr rfl fun k _ => by unfold softmax; ring
  simp only [g0, g1, gs] at h01
  linarith

/-! ## Inference never gets worse -/

/-- The log-likelihood of the words of document `d` when its topic weights are `softmax m` -/
noncomputable def wordLik (x : Data) (K : Nat) (vocab : Nat → Nat → ℝ) (d : Nat) (m : Nat → ℝ) : ℝ :=
  ∑ t ∈ Finset.range x.T, (x.words d t : ℝ) * Real.log (∑ k ∈ Finset.range K, softmax K m k * vocab k t)

/-- The logarithm of the posterior density of the topic weights `m` of a document, up to a constant: likelihood of its words and
normal prior with mean `mu` and inverse covariance `isig` -/
noncomputable def docPosterior (x : Data) (K : Nat) (mu : Nat → ℝ) (isig vocab : Nat → Nat → ℝ) (d : Nat) (m : Nat → ℝ) : ℝ :=
  wordLik x K vocab d m - quad K isig (fun k => m k - mu k) / 2

theorem log_softmax (K : Nat) (hK : 0 < K) (m : Nat → ℝ) (k : Nat) : Real.log (softmax K m k) = m k - lse K m := by
  unfold softmax lse
  rw [Real.log_div (Real.exp_pos _).ne' (sum_exp_pos K m hK).ne', Real.log_exp]

theorem word_gain (x : Data) (K : Nat) (hK : 0 < K) (means vocab : Nat → Nat → ℝ) (hv : Topics K x.T vocab) (d : Nat)
    (z : Nat → ℝ) :
    ∑ k ∈ Finset.range K, topicCounts x K (expRows K means) vocab d k * (z k - means d k)
        - (x.len d : ℝ) * (lse K z - lse K (means d))
      ≤ wordLik x K vocab d z - wordLik x K vocab d (means d) := by
  have hz := softmax_dist K z hK
  have hm := softmax_dist K (means d) hK
  have htok : ∀ t, t < x.T → ∑ k ∈ Finset.range K, posterior K means vocab d t k * (z k - means d k) - (lse K z - lse K (means d))
      ≤ Real.log (∑ k ∈ Finset.range K, softmax K z k * vocab k t)
        - Real.log (∑ k ∈ Finset.range K, softmax K (means d) k * vocab k t) := by
    intro t ht
    have hp : ∀ k, k < K → 0 < vocab k t := fun k hk => (hv k hk).1 t ht
    have hP := wordProb_pos K means vocab hK d t hp
    have hP' : 0 < ∑ k ∈ Finset.range K, softmax K z k * vocab k t :=
      Finset.sum_pos (fun k hk => mul_pos (hz.1 k (Finset.mem_range.mp hk)) (hp k (Finset.mem_range.mp hk)))
        ⟨0, Finset.mem_range.mpr hK⟩
    have h := log_mean_ge K (posterior K means vocab d t) (fun k => softmax K z k / softmax K (means d) k)
      (fun k hk => (posterior_pos K means vocab hK d t hp k hk).le) (posterior_sum K means vocab hK d t hp)
      (fun k hk => div_pos (hz.1 k hk) (hm.1 k hk))
    have e1 : ∑ k ∈ Finset.range K, posterior K means vocab d t k * Real.log (softmax K z k / softmax K (means d) k)
        = ∑ k ∈ Finset.range K, posterior K means vocab d t k * (z k - means d k) - (lse K z - lse K (means d)) := by
      have : ∀ k ∈ Finset.range K, posterior K means vocab d t k * Real.log (softmax K z k / softmax K (means d) k)
          = posterior K means vocab d t k * (z k - means d k) - posterior K means vocab d t k * (lse K z - lse K (means d)) := by
        intro k hk
        have hk' := Finset.mem_range.mp hk
        rw [Real.log_div (hz.1 k hk').ne' (hm.1 k hk').ne', log_softmax K hK, log_softmax K hK]
        ring
      rw [Finset.sum_congr rfl this, Finset.sum_sub_distrib, ← Finset.sum_mul, posterior_sum K means vocab hK d t hp, one_mul]
    have e2 : ∑ k ∈ Finset.range K, posterior K means vocab d t k * (softmax K z k / softmax K (means d) k)
        = (∑ k ∈ Finset.range K, softmax K z k * vocab k t) / wordProb K means vocab d t := by
      rw [Finset.sum_div]
      refine Finset.sum_congr rfl fun k hk => ?_
      have := (hm.1 k (Finset.mem_range.mp hk)).ne'
      have := hP.ne'
      unfold posterior
      field_simp
    rw [e1, e2, Real.log_div hP'.ne' hP.ne'] at h
    exact h
  have hV := (topic_counts x K means vocab hK hv d).1
  have e3 : ∑ k ∈ Finset.range K, topicCounts x K (expRows K means) vocab d k * (z k - means d k)
        - (x.len d : ℝ) * (lse K z - lse K (means d))
      = ∑ t ∈ Finset.range x.T, (x.words d t : ℝ) * (∑ k ∈ Finset.range K, posterior K means vocab d t k * (z k - means d k)
        - (lse K z - lse K (means d))) := by
    simp only [hV, Finset.sum_mul]
    rw [Finset.sum_comm]
    unfold Data.len
    push_cast
    rw [Finset.sum_mul, ← Finset.sum_sub_distrib]
    refine Finset.sum_congr rfl fun t _ => ?_
    rw [mul_sub (x.words d t : ℝ) (∑ k ∈ Finset.range K, posterior K means vocab d t k * (z k - means d k)), Finset.mul_sum]
    congr 1
    exact Finset.sum_congr rfl fun k _ => by ring
  rw [e3]
  unfold wordLik
  rw [← Finset.sum_sub_distrib]
  refine Finset.sum_le_sum fun t ht => ?_
  rw [← mul_sub]
  exact mul_le_mul_of_nonneg_left (htok t (Finset.mem_range.mp ht)) (Nat.cast_nonneg _)

/-- `M` is symmetric and positive semidefinite. -/
structure IsPrec (K : Nat) (M : Nat → Nat → ℝ) : Prop where
  symm : ∀ i j, M i j = M j i
  nonneg : ∀ y, 0 ≤ quad K M y

/-- `N` is a (right) inverse of the matrix `M`. -/
def IsInv (K : Nat) (M N : Nat → Nat → ℝ) : Prop :=
  ∀ i j, i < K → j < K → ∑ l ∈ Finset.range K, M i l * N l j = if i = j then 1 else 0

theorem mul_of_isInv (K : Nat) (M N : Nat → Nat → ℝ) (h : IsInv K M N) (b : Nat → ℝ) (i : Nat) (hi : i < K) :
    ∑ l ∈ Finset.range K, M i l * ∑ j ∈ Finset.range K, N l j * b j = b i := by
  simp only [Finset.mul_sum]
  rw [Finset.sum_comm]
  have : ∀ j ∈ Finset.range K, ∑ l ∈ Finset.range K, M i l * (N l j * b j) = if i = j then b j else 0 := by
    intro j hj
    have h1 := h i j hi (Finset.mem_range.mp hj)
    have h2 : ∑ l ∈ Finset.range K, M i l * (N l j * b j) = (∑ l ∈ Finset.range K, M i l * N l j) * b j := by
      rw [Finset.sum_mul]
      exact Finset.sum_congr rfl fun l _ => by ring
    rw [h2, h1]
    split <;> simp
  rw [Finset.sum_congr rfl this, Finset.sum_ite_eq, if_pos (Finset.mem_range.mpr hi)]

theorem quad_add (K : Nat) (M N : Nat → Nat → ℝ) (c : ℝ) (y : Nat → ℝ) :
    quad K (fun i j => M i j + c * N i j) y = quad K M y + c * quad K N y := by
  unfold quad
  rw [Finset.mul_sum, ← Finset.sum_add_distrib]
  refine Finset.sum_congr rfl fun i _ => ?_
  have : ∑ j ∈ Finset.range K, (M i j + c * N i j) * y j
      = ∑ j ∈ Finset.range K, M i j * y j + c * ∑ j ∈ Finset.range K, N i j * y j := by
    rw [Finset.mul_sum, ← Finset.sum_add_distrib]
    exact Finset.sum_congr rfl fun j _ => by ring
  rw [this]
  ring

/-- Expansion of a symmetric quadratic form -/
theorem quad_shift (K : Nat) (M : Nat → Nat → ℝ) (hM : ∀ i j, M i j = M j i) (a δ : Nat → ℝ) :
    quad K M (fun k => a k + δ k) = quad K M a + 2 * ∑ i ∈ Finset.range K, δ i * ∑ j ∈ Finset.range K, M i j * a j + quad K M δ := by
  have hs : ∑ i ∈ Finset.range K, a i * ∑ j ∈ Finset.range K, M i j * δ j
      = ∑ i ∈ Finset.range K, δ i * ∑ j ∈ Finset.range K, M i j * a j := by
    simp only [Finset.mul_sum]
    rw [Finset.sum_comm]
    exact Finset.sum_congr rfl fun i _ => Finset.sum_congr rfl fun j _ => by rw [hM j i]; ring
  unfold quad
  have : ∀ i ∈ Finset.range K, (a i + δ i) * ∑ j ∈ Finset.range K, M i j * (a j + δ j)
      = a i * ∑ j ∈ Finset.range K, M i j * a j + a i * ∑ j ∈ Finset.range K, M i j * δ j
        + δ i * ∑ j ∈ Finset.range K, M i j * a j + δ i * ∑ j ∈ Finset.range K, M i j * δ j := by
    intro i _
    have : ∑ j ∈ Finset.range K, M i j * (a j + δ j) = ∑ j ∈ Finset.range K, M i j * a j + ∑ j ∈ Finset.range K, M i j * δ j := by
      rw [← Finset.sum_add_distrib]
      exact Finset.sum_congr rfl fun j _ => by ring
    rw [this]; ring
  rw [Finset.sum_congr rfl this, Finset.sum_add_distrib, Finset.sum_add_distrib, Finset.sum_add_distrib, hs]
  ring

theorem bohningA_symm (K i j : Nat) : bohningA K i j = bohningA K j i := by
  unfold bohningA
  congr 2
  by_cases h : i = j
  · rw [if_pos h, if_pos h.symm]
  · rw [if_neg h, if_neg (Ne.symm h)]

/-- The update of the means of document `d` in the accurate mode, by the current means and topics -/
noncomputable def accurate (inv : (Nat → Nat → ℝ) → Nat → Nat → ℝ) (x : Data) (K : Nat) (isig : Nat → Nat → ℝ) (mu : Nat → ℝ)
    (vocab varcs means : Nat → Nat → ℝ) : Nat → Nat → ℝ :=
  bohningMeans inv x K false (bohningA K) isig varcs
    (bohningRhs x K (bohningA K) isig mu (topicCounts x K (expRows K means) vocab) means)

/-- C142: in the accurate mode an update of the topic weights never lowers their posterior density, for any document. -/
theorem accurate_monotone (inv : (Nat → Nat → ℝ) → Nat → Nat → ℝ) (x : Data) (K : Nat) (hK : 0 < K) (isig : Nat → Nat → ℝ)
    (hisig : IsPrec K isig) (mu : Nat → ℝ) (vocab varcs means : Nat → Nat → ℝ) (hv : Topics K x.T vocab) (d : Nat)
    (hinv : IsInv K (fun i l => isig i l + (x.len d : ℝ) * bohningA K i l) (inv fun i l => isig i l + (x.len d : ℝ) * bohningA K i l)) :
    docPosterior x K mu isig vocab d (means d)
      ≤ docPosterior x K mu isig vocab d (accurate inv x K isig mu vocab varcs means d) := by
  set n : ℝ := (x.len d : ℝ) with hn
  set B := fun i l => isig i l + n * bohningA K i l with hB
  set V := topicCounts x K (expRows K means) vocab d with hV
  set m := means d with hm
  set z := accurate inv x K isig mu vocab varcs means d with hz
  set δ := fun k => z k - m k with hδ
  set p := softmax K m with hp
  -- what the linear system says about the step
  have hrhs : ∀ i, i < K → ∑ l ∈ Finset.range K, B i l * z l
      = V i + (n * ∑ j ∈ Finset.range K, m j * bohningA K j i + ∑ j ∈ Finset.range K, isig i j * mu j) - n * p i := by
    intro i hi
    have h := mul_of_isInv K B (inv B) hinv
      (bohningRhs x K (bohningA K) isig mu (topicCounts x K (expRows K means) vocab) means d) i hi
    have h2 : bohningRhs x K (bohningA K) isig mu (topicCounts x K (expRows K means) vocab) means d i
        = V i + (n * ∑ j ∈ Finset.range K, m j * bohningA K j i + ∑ j ∈ Finset.range K, isig i j * mu j) - n * p i := by
      unfold bohningRhs
      rw [softmaxRows_eq]
    rw [← h2, ← h]
    rfl
  have hstep : ∀ i, i < K → ∑ l ∈ Finset.range K, B i l * δ l
      = V i - n * p i - ∑ j ∈ Finset.range K, isig i j * (m j - mu j) := by
    intro i hi
    have h1 : ∑ l ∈ Finset.range K, B i l * δ l = ∑ l ∈ Finset.range K, B i l * z l - ∑ l ∈ Finset.range K, B i l * m l := by
      rw [← Finset.sum_sub_distrib]
      exact Finset.sum_congr rfl fun l _ => by rw [hδ]; ring
    have h2 : ∑ l ∈ Finset.range K, B i l * m l
        = ∑ l ∈ Finset.range K, isig i l * m l + n * ∑ l ∈ Finset.range K, m l * bohningA K l i := by
      rw [Finset.mul_sum, ← Finset.sum_add_distrib]
      exact Finset.sum_congr rfl fun l _ => by rw [hB, bohningA_symm K l i]; ring
    have h3 : ∑ j ∈ Finset.range K, isig i j * (m j - mu j)
        = ∑ j ∈ Finset.range K, isig i j * m j - ∑ j ∈ Finset.range K, isig i j * mu j := by
      rw [← Finset.sum_sub_distrib]
      exact Finset.sum_congr rfl fun j _ => by ring
    rw [h1, h2, h3, hrhs i hi]
    ring
  have hquad : quad K B δ = ∑ i ∈ Finset.range K, δ i * V i - n * ∑ i ∈ Finset.range K, p i * δ i
      - ∑ i ∈ Finset.range K, δ i * ∑ j ∈ Finset.range K, isig i j * (m j - mu j) := by
    rw [Finset.mul_sum, ← Finset.sum_sub_distrib, ← Finset.sum_sub_distrib]
    unfold quad
    refine Finset.sum_congr rfl fun i hi => ?_
    rw [hstep i (Finset.mem_range.mp hi)]
    ring
  have hquad2 : quad K B δ = quad K isig δ + n * quad K (bohningA K) δ := quad_add K isig (bohningA K) n δ
  have hn0 : 0 ≤ n := Nat.cast_nonneg _
  have hpsd : 0 ≤ quad K B δ := by
    rw [hquad2]
    exact add_nonneg (hisig.nonneg δ) (mul_nonneg hn0 (quad_bohning_nonneg K δ))
  have hlse : lse K z - lse K m ≤ ∑ k ∈ Finset.range K, p k * δ k + quad K (bohningA K) δ / 2 := by
    have := lse_bohning K hK m z
    linarith
  have hgain := word_gain x K hK means vocab hv d z
  have hprior : quad K isig (fun k => z k - mu k) = quad K isig (fun k => m k - mu k)
      + 2 * ∑ i ∈ Finset.range K, δ i * ∑ j ∈ Finset.range K, isig i j * (m j - mu j) + quad K isig δ := by
    rw [← quad_shift K isig hisig.symm (fun k => m k - mu k) δ]
    congr 1
    funext k
    rw [hδ]; ring
  have hVd : ∑ k ∈ Finset.range K, V k * (z k - m k) = ∑ i ∈ Finset.range K, δ i * V i :=
    Finset.sum_congr rfl fun i _ => by rw [hδ]; ring
  have hmul := mul_le_mul_of_nonneg_left hlse hn0
  unfold docPosterior
  rw [hprior]
  rw [hVd] at hgain
  nlinarith

/-! ## Queries -/

theorem query_loop_accurate (inv : (Nat → Nat → ℝ) → Nat → Nat → ℝ) (x : Data) (K : Nat) (isig : Nat → Nat → ℝ) (mu : Nat → ℝ)
    (vocab varcs : Nat → Nat → ℝ) (perp : (Nat → Nat → ℝ) → ℝ) (fuel : Nat) : ∀ itr (q : BQuery), q.aliased = true → q.held = q.means →
    ∃ n, (bohningQueryLoop inv x K (bohningA K) isig mu vocab varcs perp false fuel itr q).held
        = (accurate inv x K isig mu vocab varcs)^[n] q.means ∧ n ≤ fuel ∧ (n = fuel ∨ 21 < itr + n) := by
  induction fuel with
  | zero => exact fun itr q _ hq => ⟨0, hq, le_rfl, Or.inl rfl⟩
  | succ fuel ih =>
    intro itr q ha hq
    unfold bohningQueryLoop
    simp only [ha]
    split
    · rename_i hstop
      exact ⟨1, rfl, by omega, Or.inr (by have := hstop.1; omega)⟩
    · obtain ⟨n, h1, h2, h3⟩ := ih (itr + 1) ⟨accurate inv x K isig mu vocab varcs q.means, accurate inv x K isig mu vocab varcs q.means,
        true, expRows K q.means, perp (accurate inv x K isig mu vocab varcs q.means)⟩ rfl rfl
      exact ⟨n + 1, h1, by omega, by omega⟩

/-- C139: in the accurate mode a query returns the last of the updated means: as many as requested, or at least 22. -/
theorem query_accurate (inv : (Nat → Nat → ℝ) → Nat → Nat → ℝ) (x : Data) (K : Nat) (sig : Nat → Nat → ℝ) (mu : Nat → ℝ)
    (vocab : Nat → Nat → ℝ) (perp : (Nat → Nat → ℝ) → ℝ) (iterations : Nat) (means expMeans varcs : Nat → Nat → ℝ) (lastPerp : ℝ) :
    ∃ n, (bohningQuery inv x K (bohningA K) sig mu vocab perp false iterations means expMeans varcs lastPerp).1
        = (accurate inv x K (inv sig) mu vocab (fun d k => 1 / ((x.len d : ℝ) * ((K : ℝ) - 1) / (K : ℝ) + inv sig k k)))^[n] means ∧
      n ≤ iterations ∧ (n = iterations ∨ 21 < n) := by
  obtain ⟨n, h1, h2, h3⟩ := query_loop_accurate inv x K (inv sig) mu vocab
    (fun d k => 1 / ((x.len d : ℝ) * ((K : ℝ) - 1) / (K : ℝ) + inv sig k k)) perp iterations 0 ⟨means, means, true, expMeans, lastPerp⟩
    rfl rfl
  exact ⟨n, h1, h2, by omega⟩

/-- C142: in the accurate mode, whatever the number of iterations, a query never returns topic weights with a lower posterior density
than those it was given. -/
theorem query_monotone (inv : (Nat → Nat → ℝ) → Nat → Nat → ℝ) (x : Data) (K : Nat) (hK : 0 < K) (sig : Nat → Nat → ℝ) (mu : Nat → ℝ)
    (vocab : Nat → Nat → ℝ) (hv : Topics K x.T vocab) (hisig : IsPrec K (inv sig)) (perp : (Nat → Nat → ℝ) → ℝ) (iterations : Nat)
    (means expMeans varcs : Nat → Nat → ℝ) (lastPerp : ℝ) (d : Nat)
    (hinv : IsInv K (fun i l => inv sig i l + (x.len d : ℝ) * bohningA K i l)
      (inv fun i l => inv sig i l + (x.len d : ℝ) * bohningA K i l)) :
    docPosterior x K mu (inv sig) vocab d (means d)
      ≤ docPosterior x K mu (inv sig) vocab d
        ((bohningQuery inv x K (bohningA K) sig mu vocab perp false iterations means expMeans varcs lastPerp).1 d) := by
  obtain ⟨n, h1, -, -⟩ := query_accurate inv x K sig mu vocab perp iterations means expMeans varcs lastPerp
  rw [h1]
  clear h1
  induction n generalizing means with
  | zero => exact le_rfl
  | succ n ih =>
    refine (accurate_monotone inv x K hK (inv sig) hisig mu vocab
      (fun d k => 1 / ((x.len d : ℝ) * ((K : ℝ) - 1) / (K : ℝ) + inv sig k k)) means hv d hinv).trans ?_
    exact ih _

theorem query_loop_fast (inv : (Nat → Nat → ℝ) → Nat → Nat → ℝ) (x : Data) (K : Nat) (A isig : Nat → Nat → ℝ) (mu : Nat → ℝ)
    (vocab varcs : Nat → Nat → ℝ) (perp : (Nat → Nat → ℝ) → ℝ) (fuel : Nat) : ∀ itr (q : BQuery), q.aliased = false →
    (bohningQueryLoop inv x K A isig mu vocab varcs perp true fuel itr q).held = q.held := by
  induction fuel with
  | zero => exact fun itr q _ => rfl
  | succ fuel ih =>
    intro itr q ha
    unfold bohningQueryLoop
    simp only [ha]
    split
    · rfl
    · rw [ih]
      · rfl
      · rfl

/-- C139: in the fast mode the means returned by a query of at least one iteration are the softmax of those it was given, whatever
the words, the topics and the prior. -/
theorem query_fast_violation (inv : (Nat → Nat → ℝ) → Nat → Nat → ℝ) (x : Data) (K : Nat) (A sig : Nat → Nat → ℝ) (mu : Nat → ℝ)
    (vocab : Nat → Nat → ℝ) (perp : (Nat → Nat → ℝ) → ℝ) (iterations : Nat) (means expMeans varcs : Nat → Nat → ℝ) (lastPerp : ℝ) :
    (bohningQuery inv x K A sig mu vocab perp true (iterations + 1) means expMeans varcs lastPerp).1 = fun d => softmax K (means d) := by
  have h : (bohningQuery inv x K A sig mu vocab perp true (iterations + 1) means expMeans varcs lastPerp).1 = softmaxRows K means := by
    unfold bohningQuery bohningQueryLoop
    simp only
    split
    · rfl
    · rw [query_loop_fast]
      · rfl
      · rfl
  rw [h]
  funext d
  exact softmaxRows_eq K means d

/-- C139: the variances returned are those given, in either mode. -/
theorem query_variances_violation (inv : (Nat → Nat → ℝ) → Nat → Nat → ℝ) (x : Data) (K : Nat) (A sig : Nat → Nat → ℝ) (mu : Nat → ℝ)
    (vocab : Nat → Nat → ℝ) (perp : (Nat → Nat → ℝ) → ℝ) (fast : Bool) (iterations : Nat) (means expMeans varcs : Nat → Nat → ℝ)
    (lastPerp : ℝ) : (bohningQuery inv x K A sig mu vocab perp fast iterations means expMeans varcs lastPerp).2.2 = varcs := rfl

/-- C138: `topicDists` raises an `AttributeError` for every query state. -/
theorem topicDists_violation {α β : Type} (query : String → α) (rest : α → β) : topicDists query rest = .error .attributeError := rfl

/-! ## Training -/

/-- The variables `train` maximises in the accurate mode: the penalised likelihood of the corpus plus the logarithm of a normal prior with
identity covariance -/
noncomputable def objective (x : Data) (K : Nat) (prior : ℝ) (mu : Nat → ℝ) (means vocab : Nat → Nat → ℝ) : ℝ :=
  penalised x K prior means vocab - (∑ d ∈ Finset.range x.D, ∑ k ∈ Finset.range K, (means d k - mu k) ^ 2) / 2

/-- The identity matrix -/
noncomputable def eye (i j : Nat) : ℝ := if i = j then 1 else 0

theorem quad_eye (K : Nat) (y : Nat → ℝ) : quad K eye y = ∑ k ∈ Finset.range K, y k ^ 2 := by
  unfold quad eye
  refine Finset.sum_congr rfl fun i hi => ?_
  have : ∀ j ∈ Finset.range K, (if i = j then (1 : ℝ) else 0) * y j = if i = j then y j else 0 := fun j _ => by split <;> simp
  rw [Finset.sum_congr rfl this, Finset.sum_ite_eq, if_pos hi]
  ring

theorem eye_prec (K : Nat) : IsPrec K eye := by
  refine ⟨fun i j => ?_, fun y => ?_⟩
  · unfold eye
    by_cases h : i = j
    · rw [if_pos h, if_pos h.symm]
    · rw [if_neg h, if_neg (Ne.symm h)]
  · rw [quad_eye]
    exact Finset.sum_nonneg fun k _ => sq_nonneg _

/-- The sample mean is the best mean. -/
theorem mean_optimal (D : Nat) (hD : 0 < D) (a : Nat → ℝ) (c : ℝ) :
    ∑ d ∈ Finset.range D, (a d - (∑ d ∈ Finset.range D, a d) / (D : ℝ)) ^ 2 ≤ ∑ d ∈ Finset.range D, (a d - c) ^ 2 := by
  have hD' : (0 : ℝ) < D := by exact_mod_cast hD
  set m := (∑ d ∈ Finset.range D, a d) / (D : ℝ) with hm
  have hs : ∑ d ∈ Finset.range D, a d = D * m := by rw [hm]; field_simp
  have h : ∀ c, ∑ d ∈ Finset.range D, (a d - c) ^ 2 = ∑ d ∈ Finset.range D, a d ^ 2 - 2 * c * (D * m) + D * c ^ 2 := by
    intro c
    have : ∀ d ∈ Finset.range D, (a d - c) ^ 2 = a d ^ 2 - 2 * c * a d + c ^ 2 := fun d _ => by ring
    rw [Finset.sum_congr rfl this, Finset.sum_add_distrib, Finset.sum_sub_distrib, ← Finset.mul_sum, hs, Finset.sum_const,
      Finset.card_range, nsmul_eq_mul]
  rw [h, h]
  nlinarith [mul_nonneg hD'.le (sq_nonneg (m - c))]

/-- `inv` inverts the matrices that `train` inverts in the accurate mode. -/
structure Inverts (inv : (Nat → Nat → ℝ) → Nat → Nat → ℝ) (x : Data) (K : Nat) : Prop where
  eye : inv Bohning.eye = Bohning.eye
  docs : ∀ d, d < x.D → IsInv K (fun i l => Bohning.eye i l + (x.len d : ℝ) * bohningA K i l)
    (inv fun i l => Bohning.eye i l + (x.len d : ℝ) * bohningA K i l)

/-- C142: in the accurate mode no iteration of `train` lowers the objective. -/
theorem step_monotone (inv : (Nat → Nat → ℝ) → Nat → Nat → ℝ) (cov : (Nat → Nat → ℝ) → (Nat → Nat → ℝ) → Nat → Nat → ℝ) (x : Data)
    (K : Nat) (hK : 0 < K) (hD : 0 < x.D) (hT : 0 < x.T) (hi : Inverts inv x K) (prior : ℝ) (hp : 0 < prior) (st : BState)
    (hv : Topics K x.T st.vocab) :
    objective x K prior st.topicMean st.means st.vocab
      ≤ objective x K prior (bohningStep inv cov x K prior (bohningA K) false st).topicMean
          (bohningStep inv cov x K prior (bohningA K) false st).means (bohningStep inv cov x K prior (bohningA K) false st).vocab := by
  set mu := fun k => (∑ d ∈ Finset.range x.D, st.means d k) / (x.D : ℝ) with hmu
  set v := newVocab x K prior (expRows K st.means) st.vocab with hvd
  set varcs := fun d k => 1 / ((x.len d : ℝ) * ((K : ℝ) - 1) / (K : ℝ) + eye k k) with hvarcs
  have e1 : (bohningStep inv cov x K prior (bohningA K) false st).topicMean = mu := rfl
  have e2 : (bohningStep inv cov x K prior (bohningA K) false st).vocab = v := rfl
  have e3 : (bohningStep inv cov x K prior (bohningA K) false st).means = accurate inv x K eye mu v varcs st.means := by
    have : (bohningStep inv cov x K prior (bohningA K) false st).means = accurate inv x K (inv eye) mu v varcs st.means := rfl
    rw [this, hi.eye]
  have hv' : Topics K x.T v := vocab_dist x K prior hp st.means st.vocab hK hT hv
  rw [e1, e2, e3]
  have s1 : ∑ d ∈ Finset.range x.D, ∑ k ∈ Finset.range K, (st.means d k - mu k) ^ 2
      ≤ ∑ d ∈ Finset.range x.D, ∑ k ∈ Finset.range K, (st.means d k - st.topicMean k) ^ 2 := by
    rw [Finset.sum_comm, Finset.sum_comm (s := Finset.range x.D)]
    exact Finset.sum_le_sum fun k _ => mean_optimal x.D hD (fun d => st.means d k) (st.topicMean k)
  have s2 := vocab_monotone x K prior hp st.means st.vocab hK hT hv
  have s3 : ∑ d ∈ Finset.range x.D, docPosterior x K mu eye v d (st.means d)
      ≤ ∑ d ∈ Finset.range x.D, docPosterior x K mu eye v d (accurate inv x K eye mu v varcs st.means d) :=
    Finset.sum_le_sum fun d hd =>
      accurate_monotone inv x K hK eye (eye_prec K) mu v varcs st.means hv' d (hi.docs d (Finset.mem_range.mp hd))
  have hsum : ∀ m : Nat → Nat → ℝ, ∑ d ∈ Finset.range x.D, docPosterior x K mu eye v d (m d)
      = ∑ d ∈ Finset.range x.D, ∑ t ∈ Finset.range x.T, (x.words d t : ℝ) * Real.log (wordProb K m v d t)
        - (∑ d ∈ Finset.range x.D, ∑ k ∈ Finset.range K, (m d k - mu k) ^ 2) / 2 := by
    intro m
    unfold docPosterior
    simp only [quad_eye]
    rw [Finset.sum_sub_distrib, ← Finset.sum_div]
    rfl
  rw [hsum, hsum] at s3
  unfold objective
  rw [← hvd] at s2
  unfold penalised at *
  linarith

theorem train_spec (inv : (Nat → Nat → ℝ) → Nat → Nat → ℝ) (cov : (Nat → Nat → ℝ) → (Nat → Nat → ℝ) → Nat → Nat → ℝ) (x : Data)
    (K : Nat) (hK : 0 < K) (hT : 0 < x.T) (prior : ℝ) (hp : 0 < prior) (A : Nat → Nat → ℝ) (fast : Bool) (n : Nat) :
    ∀ st, Topics K x.T st.vocab → Topics K x.T (bohningTrain inv cov x K prior A fast n st).vocab := by
  induction n with
  | zero => exact fun st h => h
  | succ n ih => exact fun st h => ih _ (vocab_dist x K prior hp st.means st.vocab hK hT h)

/-- C142: nor does any number of iterations; the topics remain distributions. -/
theorem train_monotone (inv : (Nat → Nat → ℝ) → Nat → Nat → ℝ) (cov : (Nat → Nat → ℝ) → (Nat → Nat → ℝ) → Nat → Nat → ℝ) (x : Data)
    (K : Nat) (hK : 0 < K) (hD : 0 < x.D) (hT : 0 < x.T) (hi : Inverts inv x K) (prior : ℝ) (hp : 0 < prior) (n : Nat) :
    ∀ st, Topics K x.T st.vocab →
    Topics K x.T (bohningTrain inv cov x K prior (bohningA K) false n st).vocab ∧
    objective x K prior st.topicMean st.means st.vocab
      ≤ objective x K prior (bohningTrain inv cov x K prior (bohningA K) false n st).topicMean
          (bohningTrain inv cov x K prior (bohningA K) false n st).means
          (bohningTrain inv cov x K prior (bohningA K) false n st).vocab := by
  induction n with
  | zero => exact fun st h => ⟨h, le_rfl⟩
  | succ n ih =>
    intro st h
    obtain ⟨h1, h2⟩ := ih (bohningStep inv cov x K prior (bohningA K) false st) (vocab_dist x K prior hp st.means st.vocab hK hT h)
    exact ⟨h1, (step_monotone inv cov x K hK hD hT hi prior hp st h).trans h2⟩

/-! ## Correlations -/

/-- C140: the covariance of a trained `ctm_bohning` model is the identity, whatever the corpus and the estimate of the covariance. -/
theorem bohning_identity_violation (inv : (Nat → Nat → ℝ) → Nat → Nat → ℝ)
    (cov : (Nat → Nat → ℝ) → (Nat → Nat → ℝ) → Nat → Nat → ℝ) (x : Data) (K : Nat) (prior : ℝ) (A : Nat → Nat → ℝ) (fast : Bool) (n : Nat) :
    ∀ st, (bohningTrain inv cov x K prior A fast (n + 1) st).sig = eye := by
  induction n with
  | zero => exact fun st => rfl
  | succ n ih => exact fun st => ih _

/-- C140: the covariance of a trained `ctm` model has no entries off the diagonal. -/
theorem ctm_uncorrelated_violation (oas : (Nat → Nat → ℝ) → Nat → Nat → ℝ) (x : Data) (K : Nat) (prior : ℝ) (st : State) (k j : Nat)
    (hkj : k ≠ j) : (trainStep oas x K prior st).sig k j = 0 := if_neg hkj

/-- C140: the variances of `ctm` follow the data: they are the estimated ones plus the mean variance of the documents, a tenth and
the shrinkage of the mean. -/
theorem ctm_variances_partial (oas : (Nat → Nat → ℝ) → Nat → Nat → ℝ) (x : Data) (K : Nat) (prior : ℝ) (st : State) (k : Nat) :
    (trainStep oas x K prior st).sig k k = oas st.means k k + (∑ d ∈ Finset.range x.D, st.varcs d k) / (x.D : ℝ) + 1 / 10
      + ((K : ℝ) + 2) * x.D / ((K : ℝ) + 2 + x.D) * (trainStep oas x K prior st).topicMean k ^ 2 := by
  have h : (trainStep oas x K prior st).sig k k = _ := if_pos rfl
  rw [h]
  show _ = oas st.means k k + (∑ d ∈ Finset.range x.D, st.varcs d k) / (x.D : ℝ) + 1 / 10
      + ((K : ℝ) + 2) * x.D / ((K : ℝ) + 2 + x.D) * ((∑ d ∈ Finset.range x.D, st.means d k) / ((x.D : ℝ) + ((K : ℝ) + 2))) ^ 2
  rw [show (0.1 : ℝ) = 1 / 10 by norm_num, pow_two]

/-! ## Examples -/

/-- The inverse of `a I - b 11ᵀ`, the form of the matrices that `train` inverts -/
noncomputable def exInv (K : Nat) (M : Nat → Nat → ℝ) (i j : Nat) : ℝ :=
  1 / (M 0 0 - M 0 1) * eye i j + -M 0 1 / ((M 0 0 - M 0 1) * (M 0 0 - M 0 1 + K * M 0 1))

/-- There is a function that inverts the matrices, for every corpus and number of topics. -/
theorem exInv_inverts (x : Data) (K : Nat) : Inverts (exInv K) x K := by
  refine ⟨?_, fun d _ => ?_⟩
  · funext i j
    unfold exInv
    have h0 : eye 0 0 = 1 := if_pos rfl
    have h1 : eye 0 1 = 0 := if_neg (by decide)
    rw [h0, h1]
    norm_num
  · intro i j hi hj
    set n : ℝ := (x.len d : ℝ) with hn
    have hn0 : 0 ≤ n := Nat.cast_nonneg _
    have hK0 : (0 : ℝ) ≤ K := Nat.cast_nonneg _
    have hM : ∀ i l, eye i l + n * bohningA K i l = (1 + n / 2) * eye i l - n / (2 * ((K : ℝ) + 1)) := by
      intro i l
      have : (K : ℝ) + 1 ≠ 0 := by positivity
      unfold bohningA eye
      field_simp
      ring
    have h00 : (fun i l => eye i l + n * bohningA K i l) 0 0 = (1 + n / 2) - n / (2 * ((K : ℝ) + 1)) := by
      simp only [hM]
      rw [show eye 0 0 = 1 from if_pos rfl, mul_one]
    have h01 : (fun i l => eye i l + n * bohningA K i l) 0 1 = -(n / (2 * ((K : ℝ) + 1))) := by
      simp only [hM]
      rw [show eye 0 1 = 0 from if_neg (by decide), mul_zero, zero_sub]
    unfold exInv
    rw [h00, h01]
    simp only [hM]
    set a := 1 + n / 2 with ha
    set b := n / (2 * ((K : ℝ) + 1)) with hb
    have hb0 : 0 ≤ b := by positivity
    have hab : a - K * b = 1 + b := by rw [ha, hb]; field_simp; ring
    have ha0 : 0 < a := by positivity
    rw [show a - b - -b = a by ring, show a + (K : ℝ) * -b = 1 + b by rw [← hab]; ring, neg_neg]
    have hs1 : ∑ l ∈ Finset.range K, eye i l * eye l j = eye i j := by
      have : ∀ l ∈ Finset.range K, eye i l * eye l j = if i = l then eye l j else 0 := fun l _ => by
        unfold eye; split <;> simp
      rw [Finset.sum_congr rfl this, Finset.sum_ite_eq, if_pos (Finset.mem_range.mpr hi)]
    have hs2 : ∑ l ∈ Finset.range K, eye i l = 1 := by
      unfold eye
      rw [Finset.sum_ite_eq, if_pos (Finset.mem_range.mpr hi)]
    have hs3 : ∑ l ∈ Finset.range K, eye l j = 1 := by
      unfold eye
      rw [Finset.sum_ite_eq', if_pos (Finset.mem_range.mpr hj)]
    have hexp : ∀ l ∈ Finset.range K, (a * eye i l - b) * (1 / a * eye l j + b / (a * (1 + b)))
        = eye i l * eye l j + b / (1 + b) * eye i l - b / a * eye l j - b * (b / (a * (1 + b))) := by
      intro l _
      have : 1 + b ≠ 0 := by positivity
      field_simp
      ring
    rw [Finset.sum_congr rfl hexp, Finset.sum_sub_distrib, Finset.sum_sub_distrib, Finset.sum_add_distrib, ← Finset.mul_sum,
      ← Finset.mul_sum, hs1, hs2, hs3, Finset.sum_const, Finset.card_range, nsmul_eq_mul]
    have hz : b / (1 + b) * 1 - b / a * 1 - (K : ℝ) * (b * (b / (a * (1 + b)))) = 0 := by
      have h1 : 1 + b ≠ 0 := by positivity
      have h2 : (K : ℝ) * b = a - 1 - b := by linarith
      have h3 : (K : ℝ) * (b * (b / (a * (1 + b)))) = (K : ℝ) * b * (b / (a * (1 + b))) := by ring
      rw [h3, h2]
      field_simp
      ring
    have : eye i j = if i = j then 1 else 0 := rfl
    rw [← this]
    linarith

noncomputable def exB : BState := ⟨fun _ => 0, eye, exV, fun d k => d * k, fun _ _ => 1, fun _ _ => 1⟩

example (cov : (Nat → Nat → ℝ) → (Nat → Nat → ℝ) → Nat → Nat → ℝ) :
    objective exX 2 1 exB.topicMean exB.means exB.vocab
      ≤ objective exX 2 1 (bohningTrain (exInv 2) cov exX 2 1 (bohningA 2) false 50 exB).topicMean
          (bohningTrain (exInv 2) cov exX 2 1 (bohningA 2) false 50 exB).means
          (bohningTrain (exInv 2) cov exX 2 1 (bohningA 2) false 50 exB).vocab :=
  (train_monotone (exInv 2) cov exX 2 two_pos (by decide) (by decide) (exInv_inverts exX 2) 1 one_pos 50 exB exV_topics).2

example (perp : (Nat → Nat → ℝ) → ℝ) (mu : Nat → ℝ) :
    docPosterior exX 2 mu eye exV 0 (fun _ => 0)
      ≤ docPosterior exX 2 mu eye exV 0
        ((bohningQuery (exInv 2) exX 2 (bohningA 2) eye mu exV perp false 30 (fun _ _ => 0) (fun _ _ => 1) (fun _ _ => 1) 1000).1 0) := by
  have h := exInv_inverts exX 2
  have := query_monotone (exInv 2) exX 2 two_pos eye mu exV exV_topics (by rw [h.eye]; exact eye_prec 2) perp 30 (fun _ _ => 0)
    (fun _ _ => 1) (fun _ _ => 1) 1000 0 (by rw [h.eye]; exact h.docs 0 (by decide))
  rwa [h.eye] at this

/-- Two corpora, one answer -/
example (inv : (Nat → Nat → ℝ) → Nat → Nat → ℝ) (perp : (Nat → Nat → ℝ) → ℝ) (x x' : Data) (m : Nat → Nat → ℝ) :
    (bohningQuery inv x 2 (bohningA 2) eye (fun _ => 0) exV perp true 10 m m m 1000).1
      = (bohningQuery inv x' 2 (bohningA 2) eye (fun _ => 0) exV perp true 10 m m m 1000).1 := by
  rw [query_fast_violation, query_fast_violation]

example : lse 3 (fun k => k) ≤ lse 3 (fun _ => 0) + ∑ k ∈ Finset.range 3, softmax 3 (fun _ => 0) k * ((k : ℝ) - 0)
    + quad 3 (bohningA 3) (fun k => (k : ℝ) - 0) / 2 := lse_bohning 3 (by decide) (fun _ => 0) (fun k => k)

end Verif.Props.Bohning
