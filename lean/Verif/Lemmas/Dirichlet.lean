import Mathlib.Probability.Distributions.Beta
import Mathlib.Analysis.SpecialFunctions.Gamma.BohrMollerup
import Mathlib.Analysis.Convex.Deriv
import Mathlib.Tactic.Linarith
import Mathlib.Tactic.FieldSimp

/-!
# Dirichlet distributions

The digamma function `digamma` is the derivative of `log ∘ Gamma`.  The main result `dirichlet_kl` is that the relative entropy of two
Dirichlet distributions, written with Gamma and digamma functions, is not negative.  It follows from the convexity of the logarithm of
the Beta function, which is Hölder's inequality for Euler's integral.
-/

namespace Verif.Dirichlet

open MeasureTheory Set Real ProbabilityTheory

/-- The derivative of `log ∘ Gamma` -/
noncomputable def digamma (x : ℝ) : ℝ := deriv (fun y => Real.log (Real.Gamma y)) x

theorem hasDerivAt_logGamma (x : ℝ) (hx : 0 < x) : HasDerivAt (fun y => Real.log (Real.Gamma y)) (digamma x) x := by
  have h1 : DifferentiableAt ℝ Real.Gamma x :=
    Real.differentiableAt_Gamma fun m => by
      have : (0 : ℝ) ≤ m := Nat.cast_nonneg m
      linarith
  exact (h1.log (Real.Gamma_pos_of_pos hx).ne').hasDerivAt

theorem beta_integrable (x y : ℝ) (hx : 0 < x) (hy : 0 < y) :
    Integrable (fun t : ℝ => t ^ (x - 1) * (1 - t) ^ (y - 1)) (volume.restrict (Ioo 0 1)) := by
  have h := Complex.betaIntegral_convergent (u := (x : ℂ)) (v := (y : ℂ)) (by simpa) (by simpa)
  rw [intervalIntegrable_iff_integrableOn_Ioc_of_le (by simp)] at h
  have h2 : IntegrableOn (fun t : ℝ => (t : ℂ) ^ ((x : ℂ) - 1) * (1 - (t : ℂ)) ^ ((y : ℂ) - 1)) (Ioo 0 1) :=
    h.mono_set Ioo_subset_Ioc_self
  have h3 := Integrable.re h2
  refine h3.congr (ae_restrict_of_forall_mem measurableSet_Ioo fun t ht => ?_)
  obtain ⟨h0, h1⟩ := ht
  show RCLike.re _ = _
  norm_cast
  rw [← Complex.ofReal_cpow h0.le, ← Complex.ofReal_cpow (by linarith), RCLike.re_to_complex, Complex.re_mul_ofReal, Complex.ofReal_re]

theorem beta_eq_integral (x y : ℝ) (hx : 0 < x) (hy : 0 < y) :
    beta x y = ∫ t in Ioo (0 : ℝ) 1, t ^ (x - 1) * (1 - t) ^ (y - 1) := by
  rw [beta_eq_betaIntegralReal x y hx hy, Complex.betaIntegral, intervalIntegral.integral_of_le (by norm_num),
    ← integral_Ioc_eq_integral_Ioo, ← RCLike.re_to_complex, ← integral_re]
  · refine setIntegral_congr_fun measurableSet_Ioc fun t ⟨ht1, ht2⟩ => ?_
    show RCLike.re _ = _
    norm_cast
    rw [← Complex.ofReal_cpow ht1.le, ← Complex.ofReal_cpow (by linarith), RCLike.re_to_complex, Complex.re_mul_ofReal, Complex.ofReal_re]
  · have h := Complex.betaIntegral_convergent (u := (x : ℂ)) (v := (y : ℂ)) (by simpa) (by simpa)
    rw [intervalIntegrable_iff_integrableOn_Ioc_of_le (by simp)] at h
    exact h

/-- Log-convexity of the Beta function in both arguments together -/
theorem beta_holder {s t u v a b : ℝ} (hs : 0 < s) (ht : 0 < t) (hu : 0 < u) (hv : 0 < v) (ha : 0 < a) (hb : 0 < b) (hab : a + b = 1) :
    beta (a * s + b * t) (a * u + b * v) ≤ beta s u ^ a * beta t v ^ b := by
  let f : ℝ → ℝ → ℝ → ℝ → ℝ := fun c p q x => x ^ (c * (p - 1)) * (1 - x) ^ (c * (q - 1))
  have e : HolderConjugate (1 / a) (1 / b) := Real.holderConjugate_one_div ha hb hab
  have hab' : b = 1 - a := by linarith
  have posf : ∀ c p q x : ℝ, x ∈ Ioo (0 : ℝ) 1 → 0 ≤ f c p q x := fun c p q x hx =>
    mul_nonneg (rpow_pos_of_pos hx.1 _).le (rpow_pos_of_pos (by linarith [hx.2]) _).le
  have posf' : ∀ c p q : ℝ, ∀ᵐ x : ℝ ∂volume.restrict (Ioo 0 1), 0 ≤ f c p q x := fun c p q =>
    (ae_restrict_iff' measurableSet_Ioo).mpr (ae_of_all _ (posf c p q))
  have fpow : ∀ {c x : ℝ} (_ : 0 < c) (p q : ℝ) (_ : x ∈ Ioo (0 : ℝ) 1), x ^ (p - 1) * (1 - x) ^ (q - 1) = f c p q x ^ (1 / c) := by
    intro c x hc p q hx
    have h1 : (0 : ℝ) ≤ 1 - x := by linarith [hx.2]
    dsimp only [f]
    rw [mul_rpow (rpow_nonneg hx.1.le _) (rpow_nonneg h1 _), ← rpow_mul hx.1.le, ← rpow_mul h1]
    congr 2 <;> field_simp
  have f_mem_Lp : ∀ {c p q : ℝ} (_ : 0 < c) (_ : 0 < p) (_ : 0 < q),
      MemLp (f c p q) (ENNReal.ofReal (1 / c)) (volume.restrict (Ioo 0 1)) := by
    intro c p q hc hp hq
    have A : ENNReal.ofReal (1 / c) ≠ 0 := by
      rwa [Ne, ENNReal.ofReal_eq_zero, not_le, one_div_pos]
    have B : ENNReal.ofReal (1 / c) ≠ ⊤ := ENNReal.ofReal_ne_top
    rw [← memLp_norm_rpow_iff _ A B, ENNReal.toReal_ofReal (one_div_nonneg.mpr hc.le), ENNReal.div_self A B, memLp_one_iff_integrable]
    · apply Integrable.congr (beta_integrable p q hp hq)
      refine Filter.eventuallyEq_of_mem (self_mem_ae_restrict measurableSet_Ioo) fun x hx => ?_
      show x ^ (p - 1) * (1 - x) ^ (q - 1) = _
      rw [fpow hc p q hx]
      congr 1
      exact (norm_of_nonneg (posf _ _ _ x hx)).symm
    · exact Measurable.aestronglyMeasurable (by fun_prop)
  have hp : 0 < a * s + b * t := by positivity
  have hq : 0 < a * u + b * v := by positivity
  rw [beta_eq_integral _ _ hs hu, beta_eq_integral _ _ ht hv, beta_eq_integral _ _ hp hq]
  convert! MeasureTheory.integral_mul_le_Lp_mul_Lq_of_nonneg e (posf' a s u) (posf' b t v) (f_mem_Lp ha hs hu) (f_mem_Lp hb ht hv) using 1
  · refine setIntegral_congr_fun measurableSet_Ioo fun x hx => ?_
    have h1 : (0 : ℝ) < 1 - x := by linarith [hx.2]
    have A : x ^ (a * s + b * t - 1) = x ^ (a * (s - 1)) * x ^ (b * (t - 1)) := by
      rw [← rpow_add hx.1, hab']
      congr 1
      ring
    have B : (1 - x) ^ (a * u + b * v - 1) = (1 - x) ^ (a * (u - 1)) * (1 - x) ^ (b * (v - 1)) := by
      rw [← rpow_add h1, hab']
      congr 1
      ring
    show x ^ (a * s + b * t - 1) * (1 - x) ^ (a * u + b * v - 1) = _
    rw [A, B]
    dsimp only [f]
    ring
  · rw [one_div_one_div, one_div_one_div]
    congr 2 <;> exact setIntegral_congr_fun measurableSet_Ioo fun x hx => fpow (by assumption) _ _ hx

theorem log_beta_convex (S : Set ℝ) (hS : Convex ℝ S) (x0 x1 y0 y1 : ℝ) (hx : ∀ t ∈ S, 0 < x0 + t * x1) (hy : ∀ t ∈ S, 0 < y0 + t * y1) :
    ConvexOn ℝ S fun t => Real.log (beta (x0 + t * x1) (y0 + t * y1)) := by
  refine convexOn_iff_forall_pos.mpr ⟨hS, fun t ht u hu a b ha hb hab => ?_⟩
  simp only [smul_eq_mul]
  have hsum : ∀ z0 z1 : ℝ, z0 + (a * t + b * u) * z1 = a * (z0 + t * z1) + b * (z0 + u * z1) := by
    intro z0 z1
    have : b = 1 - a := by linarith
    rw [this]
    ring
  have p1 := beta_pos (hx t ht) (hy t ht)
  have p2 := beta_pos (hx u hu) (hy u hu)
  rw [hsum x0 x1, hsum y0 y1, ← Real.log_rpow p1, ← Real.log_rpow p2,
    ← Real.log_mul (Real.rpow_pos_of_pos p1 _).ne' (Real.rpow_pos_of_pos p2 _).ne']
  refine Real.log_le_log (beta_pos ?_ ?_) (beta_holder (hx t ht) (hx u hu) (hy t ht) (hy u hu) ha hb hab)
  · have := hx t ht
    have := hx u hu
    positivity
  · have := hy t ht
    have := hy u hu
    positivity

/-! ## The normaliser of a Dirichlet distribution -/

/-- The logarithm of the normaliser of the Dirichlet distribution with the parameters `α 0, …, α (K - 1)` -/
noncomputable def logB (K : Nat) (α : Nat → ℝ) : ℝ :=
  ∑ k ∈ Finset.range K, Real.log (Real.Gamma (α k)) - Real.log (Real.Gamma (∑ k ∈ Finset.range K, α k))

/-- The expectation of the logarithm of the probability of `k` -/
noncomputable def expLog (K : Nat) (α : Nat → ℝ) (k : Nat) : ℝ := digamma (α k) - digamma (∑ j ∈ Finset.range K, α j)

theorem logB_succ (K : Nat) (hK : 0 < K) (α : Nat → ℝ) (h : ∀ k, k < K + 1 → 0 < α k) :
    logB (K + 1) α = logB K α + Real.log (beta (∑ k ∈ Finset.range K, α k) (α K)) := by
  have hs : 0 < ∑ k ∈ Finset.range K, α k :=
    Finset.sum_pos (fun k hk => h k (by have := Finset.mem_range.mp hk; omega)) ⟨0, Finset.mem_range.mpr hK⟩
  have hl := h K (by omega)
  unfold logB beta
  rw [Finset.sum_range_succ, Finset.sum_range_succ, Real.log_div, Real.log_mul]
  · ring
  · exact (Real.Gamma_pos_of_pos hs).ne'
  · exact (Real.Gamma_pos_of_pos hl).ne'
  · exact (mul_pos (Real.Gamma_pos_of_pos hs) (Real.Gamma_pos_of_pos hl)).ne'
  · exact (Real.Gamma_pos_of_pos (add_pos hs hl)).ne'

theorem logB_convex (S : Set ℝ) (hS : Convex ℝ S) (α β : Nat → ℝ) (K : Nat) (hK : 0 < K)
    (h : ∀ t ∈ S, ∀ k, k < K → 0 < α k + t * β k) : ConvexOn ℝ S fun t => logB K fun k => α k + t * β k := by
  induction K with
  | zero => omega
  | succ K ih =>
    by_cases hz : K = 0
    · subst hz
      have : (fun t => logB (0 + 1) fun k => α k + t * β k) = fun _ => (0 : ℝ) := by
        funext t
        simp [logB]
      rw [this]
      exact convexOn_const 0 hS
    · have hK' : 0 < K := Nat.pos_of_ne_zero hz
      have h1 := ih hK' fun t ht k hk => h t ht k (by omega)
      have hsum : ∀ t : ℝ, ∑ k ∈ Finset.range K, (α k + t * β k) = ∑ k ∈ Finset.range K, α k + t * ∑ k ∈ Finset.range K, β k := by
        intro t
        rw [Finset.sum_add_distrib, Finset.mul_sum]
      have h2 := log_beta_convex S hS (∑ k ∈ Finset.range K, α k) (∑ k ∈ Finset.range K, β k) (α K) (β K)
        (fun t ht => by
          rw [← hsum]
          exact Finset.sum_pos (fun k hk => h t ht k (by have := Finset.mem_range.mp hk; omega)) ⟨0, Finset.mem_range.mpr hK'⟩)
        (fun t ht => h t ht K (by omega))
      refine (h1.add h2).congr fun t ht => ?_
      have h3 := logB_succ K hK' (fun k => α k + t * β k) (h t ht)
      rw [hsum] at h3
      exact h3.symm

/-- The relative entropy of two Dirichlet distributions is not negative: the tangent of the logarithm of the normaliser lies below it. -/
theorem dirichlet_kl (K : Nat) (hK : 0 < K) (α c : Nat → ℝ) (hα : ∀ k, k < K → 0 < α k) (hc : ∀ k, k < K → 0 < c k) :
    ∑ k ∈ Finset.range K, (c k - α k) * expLog K α k ≤ logB K c - logB K α := by
  have hconv := logB_convex (Icc 0 1) (convex_Icc 0 1) α (fun k => c k - α k) K hK (by
    intro t ht k hk
    have h1 := hα k hk
    have h2 := hc k hk
    have h3 : α k + t * (c k - α k) = (1 - t) * α k + t * c k := by ring
    rw [h3]
    rcases eq_or_lt_of_le ht.1 with h | h
    · rw [← h]
      simpa using h1
    · have := mul_pos h h2
      have := mul_nonneg (sub_nonneg.mpr ht.2) h1.le
      linarith)
  have hs : 0 < ∑ k ∈ Finset.range K, α k := Finset.sum_pos (fun k hk => hα k (Finset.mem_range.mp hk)) ⟨0, Finset.mem_range.mpr hK⟩
  have hd : HasDerivAt (fun t : ℝ => logB K fun k => α k + t * (c k - α k))
      (∑ k ∈ Finset.range K, digamma (α k) * (c k - α k)
        - digamma (∑ k ∈ Finset.range K, α k) * ∑ k ∈ Finset.range K, (c k - α k)) 0 := by
    unfold logB
    refine HasDerivAt.sub (HasDerivAt.fun_sum fun k hk => ?_) ?_
    · have hin : HasDerivAt (fun t : ℝ => α k + t * (c k - α k)) (c k - α k) 0 := by
        simpa using ((hasDerivAt_id (0 : ℝ)).mul_const (c k - α k)).const_add (α k)
      have hout := hasDerivAt_logGamma (α k) (hα k (Finset.mem_range.mp hk))
      have : HasDerivAt (fun y => Real.log (Real.Gamma y)) (digamma (α k)) (α k + 0 * (c k - α k)) := by simpa using hout
      exact this.comp (0 : ℝ) hin
    · have hin : HasDerivAt (fun t : ℝ => ∑ k ∈ Finset.range K, (α k + t * (c k - α k))) (∑ k ∈ Finset.range K, (c k - α k)) 0 := by
        refine HasDerivAt.fun_sum fun k _ => ?_
        simpa using ((hasDerivAt_id (0 : ℝ)).mul_const (c k - α k)).const_add (α k)
      have hout := hasDerivAt_logGamma _ hs
      have : HasDerivAt (fun y => Real.log (Real.Gamma y)) (digamma (∑ k ∈ Finset.range K, α k))
          (∑ k ∈ Finset.range K, (α k + 0 * (c k - α k))) := by simpa using hout
      exact this.comp (0 : ℝ) hin
  have hslope := hconv.le_slope_of_hasDerivAt (left_mem_Icc.mpr zero_le_one) (right_mem_Icc.mpr zero_le_one) zero_lt_one hd
  rw [slope_def_field] at hslope
  have e1 : (fun k => α k + (1 : ℝ) * (c k - α k)) = c := by
    funext k
    ring
  have e0 : (fun k => α k + (0 : ℝ) * (c k - α k)) = α := by
    funext k
    ring
  simp only [e1, e0, sub_zero, div_one] at hslope
  have e : ∑ k ∈ Finset.range K, (c k - α k) * expLog K α k
      = ∑ k ∈ Finset.range K, digamma (α k) * (c k - α k)
        - digamma (∑ k ∈ Finset.range K, α k) * ∑ k ∈ Finset.range K, (c k - α k) := by
    rw [Finset.mul_sum, ← Finset.sum_sub_distrib]
    refine Finset.sum_congr rfl fun k _ => ?_
    unfold expLog
    ring
  rw [e]
  exact hslope

/-- Gibbs' inequality in the form used for topic responsibilities: among all distributions the softmax of the scores has the largest
expected score plus entropy. -/
theorem entropy_max (K : Nat) (hK : 0 < K) (l q : Nat → ℝ) (hq : ∀ k, k < K → 0 ≤ q k) (hsum : ∑ k ∈ Finset.range K, q k = 1) :
    ∑ k ∈ Finset.range K, q k * (l k - Real.log (q k)) ≤ Real.log (∑ k ∈ Finset.range K, Real.exp (l k)) := by
  have hZ : 0 < ∑ k ∈ Finset.range K, Real.exp (l k) := Finset.sum_pos (fun k _ => Real.exp_pos _) ⟨0, Finset.mem_range.mpr hK⟩
  set Z := ∑ k ∈ Finset.range K, Real.exp (l k) with hZd
  have hterm : ∀ k ∈ Finset.range K, q k * (l k - Real.log (q k)) ≤ q k * Real.log Z + (Real.exp (l k) / Z - q k) := by
    intro k hk
    rcases eq_or_lt_of_le (hq k (Finset.mem_range.mp hk)) with h | h
    · rw [← h]
      have := div_pos (Real.exp_pos (l k)) hZ
      simp only [zero_mul, zero_add, sub_zero]
      exact this.le
    · have h1 : 0 < Real.exp (l k) / (Z * q k) := div_pos (Real.exp_pos _) (mul_pos hZ h)
      have h2 := Real.log_le_sub_one_of_pos h1
      rw [Real.log_div (Real.exp_pos _).ne' (mul_pos hZ h).ne', Real.log_mul hZ.ne' h.ne', Real.log_exp] at h2
      have h3 := mul_le_mul_of_nonneg_left h2 h.le
      have h4 : q k * (Real.exp (l k) / (Z * q k) - 1) = Real.exp (l k) / Z - q k := by
        field_simp
      rw [h4] at h3
      linarith
  have h := Finset.sum_le_sum hterm
  rw [Finset.sum_add_distrib, ← Finset.sum_mul, Finset.sum_sub_distrib, ← Finset.sum_div, hsum, ← hZd, div_self hZ.ne'] at h
  linarith

/-- The softmax attains the bound. -/
theorem entropy_attained (K : Nat) (hK : 0 < K) (l : Nat → ℝ) :
    ∑ k ∈ Finset.range K, Real.exp (l k) / (∑ j ∈ Finset.range K, Real.exp (l j))
        * (l k - Real.log (Real.exp (l k) / ∑ j ∈ Finset.range K, Real.exp (l j)))
      = Real.log (∑ k ∈ Finset.range K, Real.exp (l k)) := by
  have hZ : 0 < ∑ k ∈ Finset.range K, Real.exp (l k) := Finset.sum_pos (fun k _ => Real.exp_pos _) ⟨0, Finset.mem_range.mpr hK⟩
  set Z := ∑ k ∈ Finset.range K, Real.exp (l k) with hZd
  have : ∀ k ∈ Finset.range K, Real.exp (l k) / Z * (l k - Real.log (Real.exp (l k) / Z)) = Real.exp (l k) / Z * Real.log Z := by
    intro k _
    rw [Real.log_div (Real.exp_pos _).ne' hZ.ne', Real.log_exp]
    ring
  rw [Finset.sum_congr rfl this, ← Finset.sum_mul, ← Finset.sum_div, ← hZd, div_self hZ.ne', one_mul]

end Verif.Dirichlet
