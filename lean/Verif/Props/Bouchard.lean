import Mathlib.Tactic.Ring
import Mathlib.Tactic.Linarith
import Mathlib.Tactic.FieldSimp
import Mathlib.Tactic.Positivity
import Mathlib.Analysis.SpecialFunctions.Log.Deriv
import Mathlib.Analysis.SpecialFunctions.ExpDeriv
import Mathlib.Analysis.SpecialFunctions.Trigonometric.DerivHyp
import Mathlib.Analysis.Calculus.Deriv.MeanValue
import Mathlib.MeasureTheory.Integral.Bochner.Basic
import Mathlib.MeasureTheory.Function.SpecialFunctions.Basic
import Verif.Model.Ctm
import Verif.Props.Numerics

/-!
# Bouchard's bound (C133, C134)
-/

namespace Verif.Props.Bouchard

open Verif Verif.Ctm
open Verif.Props.Numerics (log1pExp)

/-! ## The coefficient -/

/-- `tanh (x / 2)` -/
noncomputable def h (x : ℝ) : ℝ := 1 - 2 / (1 + Real.exp x)

theorem one_add_exp_pos (x : ℝ) : 0 < 1 + Real.exp x := by have := Real.exp_pos x; linarith

theorem negJakkola_eq (x : ℝ) : negJakkola x = h x / (4 * x) := by
  unfold negJakkola h
  have h1 : Real.exp (-x) * Real.exp x = 1 := by rw [← Real.exp_add]; simp
  have h2 : 1 / (1 + Real.exp (-x)) = 1 - 1 / (1 + Real.exp x) := by
    have a := (one_add_exp_pos x).ne'
    have b := (one_add_exp_pos (-x)).ne'
    field_simp
    nlinarith
  rw [h2]
  rcases eq_or_ne x 0 with hx | hx
  · simp [hx]
  · have a := (one_add_exp_pos x).ne'
    field_simp
    ring

theorem h_deriv (x : ℝ) : HasDerivAt h (2 * Real.exp x / (1 + Real.exp x) ^ 2) x := by
  have h1 : HasDerivAt (fun y => 1 + Real.exp y) (Real.exp x) x := (Real.hasDerivAt_exp x).const_add 1
  have h2 := ((hasDerivAt_const x (2 : ℝ)).div h1 (one_add_exp_pos x).ne').const_sub 1
  refine h2.congr_deriv ?_
  ring

theorem h_odd (x : ℝ) : h (-x) = -h x := by
  unfold h
  have a := (one_add_exp_pos x).ne'
  have b := (one_add_exp_pos (-x)).ne'
  have h1 : Real.exp (-x) * Real.exp x = 1 := by rw [← Real.exp_add]; simp
  field_simp
  nlinarith

theorem h_pos (x : ℝ) (hx : 0 < x) : 0 < h x := by
  unfold h
  have h1 : 1 < Real.exp x := Real.one_lt_exp_iff.mpr hx
  have : 2 / (1 + Real.exp x) < 1 := by rw [div_lt_one (one_add_exp_pos x)]; linarith
  linarith

theorem h_zero : h 0 = 0 := by unfold h; norm_num

theorem h_le (x : ℝ) (hx : 0 ≤ x) : h x ≤ x / 2 := by
  have hd : ∀ y, HasDerivAt (fun y => y / 2 - h y) (1 / 2 - 2 * Real.exp y / (1 + Real.exp y) ^ 2) y := fun y =>
    ((hasDerivAt_id y).div_const 2).sub (h_deriv y)
  have hm : Monotone (fun y => y / 2 - h y) := by
    refine monotone_of_deriv_nonneg (fun y => (hd y).differentiableAt) fun y => ?_
    rw [(hd y).deriv, sub_nonneg, div_le_div_iff₀ (by have := one_add_exp_pos y; positivity) (by norm_num)]
    nlinarith [sq_nonneg (1 - Real.exp y)]
  have := hm hx
  simp only [h_zero] at this
  linarith

theorem two_mul_le_exp_sub (x : ℝ) (hx : 0 ≤ x) : 2 * x * Real.exp x ≤ Real.exp x ^ 2 - 1 := by
  have hs : x ≤ Real.sinh x := Real.self_le_sinh_iff.mpr hx
  rw [Real.sinh_eq] at hs
  have h1 : Real.exp (-x) * Real.exp x = 1 := by rw [← Real.exp_add]; simp
  have := mul_le_mul_of_nonneg_right hs (Real.exp_pos x).le
  nlinarith

theorem negJakkola_antitone : AntitoneOn negJakkola (Set.Ioi 0) := by
  have hd : ∀ x, 0 < x → HasDerivAt (fun x => h x / (4 * x))
      ((2 * Real.exp x / (1 + Real.exp x) ^ 2 * (4 * x) - h x * (4 * 1)) / (4 * x) ^ 2) x := fun x hx =>
    (h_deriv x).div ((hasDerivAt_id x).const_mul 4) (by positivity)
  have key : AntitoneOn (fun x => h x / (4 * x)) (Set.Ioi 0) := by
    refine antitoneOn_of_deriv_nonpos (convex_Ioi 0)
      (fun x hx => (hd x hx).continuousAt.continuousWithinAt)
      (fun x hx => (hd x (by simpa using hx)).differentiableAt.differentiableWithinAt) fun x hx => ?_
    have hx' : 0 < x := by simpa using hx
    rw [(hd x hx').deriv]
    refine div_nonpos_of_nonpos_of_nonneg ?_ (by positivity)
    have he := one_add_exp_pos x
    have h2 : h x = (Real.exp x - 1) / (1 + Real.exp x) := by unfold h; field_simp; ring
    rw [h2, sub_nonpos, mul_one, div_mul_eq_mul_div, div_mul_eq_mul_div, div_le_div_iff₀ (by positivity) he]
    nlinarith [two_mul_le_exp_sub x hx'.le]
  intro a ha b hb hab
  rw [negJakkola_eq, negJakkola_eq]
  exact key ha hb hab

/-- C133: the coefficient of Jaakkola's bound is positive, symmetric, at most an eighth and decreases away from zero. -/
theorem coefficient_spec (x : ℝ) (hx : x ≠ 0) :
    0 < negJakkola x ∧ negJakkola x ≤ 1 / 8 ∧ negJakkola (-x) = negJakkola x ∧
    ∀ y, |x| ≤ |y| → negJakkola y ≤ negJakkola x := by
  have heven : ∀ z, negJakkola (-z) = negJakkola z := fun z => by
    rw [negJakkola_eq, negJakkola_eq, h_odd]
    rw [mul_neg, neg_div_neg_eq]
  have habs : ∀ z, negJakkola |z| = negJakkola z := fun z => by
    rcases abs_choice z with e | e <;> rw [e]
    exact heven z
  have hp : 0 < |x| := abs_pos.mpr hx
  refine ⟨?_, ?_, heven x, fun y hy => ?_⟩
  · rw [← habs, negJakkola_eq]
    exact div_pos (h_pos _ hp) (by positivity)
  · rw [← habs, negJakkola_eq, div_le_div_iff₀ (by positivity) (by norm_num)]
    have := h_le |x| hp.le
    linarith
  · rw [← habs x, ← habs y]
    exact negJakkola_antitone hp (lt_of_lt_of_le hp hy) hy

/-! ## Jaakkola's bound -/

/-- `log (2 cosh (x / 2))` -/
noncomputable def f (x : ℝ) : ℝ := Real.log (1 + Real.exp x) - x / 2

theorem f_even (x : ℝ) : f (-x) = f x := by
  unfold f
  have h1 : Real.exp (-x) * Real.exp x = 1 := by rw [← Real.exp_add]; simp
  have : 1 + Real.exp (-x) = (1 + Real.exp x) * Real.exp (-x) := by rw [add_mul, mul_comm (Real.exp x), h1]; ring
  rw [this, Real.log_mul (one_add_exp_pos x).ne' (Real.exp_pos _).ne', Real.log_exp]
  ring

theorem f_deriv (x : ℝ) : HasDerivAt f (h x / 2) x := by
  have h1 : HasDerivAt (fun y => 1 + Real.exp y) (Real.exp x) x := (Real.hasDerivAt_exp x).const_add 1
  have h2 := (h1.log (one_add_exp_pos x).ne').sub ((hasDerivAt_id x).div_const 2)
  refine h2.congr_deriv ?_
  unfold h
  have := (one_add_exp_pos x).ne'
  field_simp
  ring

theorem f_le_pos (x ξ : ℝ) (hx : 0 ≤ x) (hξ : 0 < ξ) : f x - negJakkola ξ * x ^ 2 ≤ f ξ - negJakkola ξ * ξ ^ 2 := by
  set l := negJakkola ξ with hl
  have hd : ∀ y, HasDerivAt (fun y => f y - l * y ^ 2) (h y / 2 - l * (2 * y)) y := fun y => by
    have := (f_deriv y).sub (((hasDerivAt_id y).pow 2).const_mul l)
    refine this.congr_deriv ?_
    simp
  have hsl : ∀ y, 0 < y → h y / 2 - l * (2 * y) = 2 * y * (negJakkola y - l) := fun y hy => by
    rw [negJakkola_eq]; field_simp; ring
  rcases le_total x ξ with hle | hle
  · have hm : MonotoneOn (fun y => f y - l * y ^ 2) (Set.Icc 0 ξ) := by
      refine monotoneOn_of_deriv_nonneg (convex_Icc 0 ξ) (fun y _ => (hd y).continuousAt.continuousWithinAt)
        (fun y _ => (hd y).differentiableAt.differentiableWithinAt) fun y hy => ?_
      rw [interior_Icc] at hy
      rw [(hd y).deriv, hsl y hy.1]
      exact mul_nonneg (by linarith [hy.1]) (sub_nonneg.mpr (negJakkola_antitone hy.1 hξ hy.2.le))
    exact hm ⟨hx, hle⟩ ⟨hξ.le, le_rfl⟩ hle
  · have hm : AntitoneOn (fun y => f y - l * y ^ 2) (Set.Ici ξ) := by
      refine antitoneOn_of_deriv_nonpos (convex_Ici ξ) (fun y _ => (hd y).continuousAt.continuousWithinAt)
        (fun y _ => (hd y).differentiableAt.differentiableWithinAt) fun y hy => ?_
      rw [interior_Ici] at hy
      have hy' : ξ < y := hy
      have hy0 : 0 < y := hξ.trans hy'
      rw [(hd y).deriv, hsl y hy0]
      exact mul_nonpos_of_nonneg_of_nonpos (by linarith) (sub_nonpos.mpr (negJakkola_antitone hξ hy0 hy'.le))
    exact hm (Set.mem_Ici.mpr le_rfl) (Set.mem_Ici.mpr hle) hle

/-- C133: Jaakkola's bound, which touches at `±ξ`. -/
theorem jaakkola (x ξ : ℝ) (hξ : ξ ≠ 0) :
    Real.log (1 + Real.exp x) ≤ negJakkola ξ * (x ^ 2 - ξ ^ 2) + (x - ξ) / 2 + Real.log (1 + Real.exp ξ) ∧
    (|x| = |ξ| → Real.log (1 + Real.exp x) = negJakkola ξ * (x ^ 2 - ξ ^ 2) + (x - ξ) / 2 + Real.log (1 + Real.exp ξ)) := by
  have habs : ∀ z, f |z| = f z := fun z => by
    rcases abs_choice z with e | e <;> rw [e]
    exact f_even z
  have hj : negJakkola |ξ| = negJakkola ξ := by
    rcases abs_choice ξ with e | e <;> rw [e]
    exact (coefficient_spec ξ hξ).2.2.1
  refine ⟨?_, fun he => ?_⟩
  · have := f_le_pos |x| |ξ| (abs_nonneg _) (abs_pos.mpr hξ)
    rw [habs, habs, hj, sq_abs, sq_abs] at this
    unfold f at this
    linarith
  · have h1 : f x = f ξ := by rw [← habs x, ← habs ξ, he]
    have h2 : x ^ 2 = ξ ^ 2 := by rw [← sq_abs x, ← sq_abs ξ, he]
    unfold f at h1
    rw [h2]
    linarith

/-! ## Bouchard's bound of the log-sum-exp -/

theorem lse_le (K : Nat) (hK : 0 < K) (y : Nat → ℝ) (s : ℝ) :
    Real.log (∑ k ∈ Finset.range K, Real.exp (y k)) ≤ s + ∑ k ∈ Finset.range K, Real.log (1 + Real.exp (y k - s)) := by
  have h1 : ∀ n, ∑ k ∈ Finset.range n, Real.exp (y k - s) + 1 ≤ ∏ k ∈ Finset.range n, (1 + Real.exp (y k - s)) := by
    intro n
    induction n with
    | zero => simp
    | succ n ih =>
      rw [Finset.sum_range_succ, Finset.prod_range_succ]
      have hp : 1 ≤ ∏ k ∈ Finset.range n, (1 + Real.exp (y k - s)) := by
        have : 0 ≤ ∑ k ∈ Finset.range n, Real.exp (y k - s) := Finset.sum_nonneg fun k _ => (Real.exp_pos _).le
        linarith
      nlinarith [Real.exp_pos (y n - s)]
  have h2 : ∑ k ∈ Finset.range K, Real.exp (y k) = Real.exp s * ∑ k ∈ Finset.range K, Real.exp (y k - s) := by
    rw [Finset.mul_sum]
    exact Finset.sum_congr rfl fun k _ => by rw [← Real.exp_add]; congr 1; ring
  have h3 := Props.Numerics.sum_exp_pos K (fun k => y k - s) hK
  rw [h2, Real.log_mul (Real.exp_pos s).ne' h3.ne', Real.log_exp, ← Real.log_prod (fun k _ => (one_add_exp_pos _).ne')]
  have h4 := h1 K
  have h5 : Real.log (∑ k ∈ Finset.range K, Real.exp (y k - s)) ≤ Real.log (∏ k ∈ Finset.range K, (1 + Real.exp (y k - s))) :=
    Real.log_le_log h3 (by linarith)
  linarith

/-- Bouchard's upper bound of `log Σ_k exp y_k` -/
noncomputable def upper (K : Nat) (xi y : Nat → ℝ) (s : ℝ) : ℝ :=
  s + ∑ k ∈ Finset.range K, (negJakkola (xi k) * ((y k - s) ^ 2 - xi k ^ 2) + (y k - s - xi k) / 2
    + Real.log (1 + Real.exp (xi k)))

theorem lse_le_upper (K : Nat) (hK : 0 < K) (y xi : Nat → ℝ) (hxi : ∀ k, k < K → xi k ≠ 0) (s : ℝ) :
    Real.log (∑ k ∈ Finset.range K, Real.exp (y k)) ≤ upper K xi y s := by
  refine (lse_le K hK y s).trans (add_le_add_right (Finset.sum_le_sum fun k hk => ?_) s)
  exact (jaakkola (y k - s) (xi k) (hxi k (Finset.mem_range.mp hk))).1

open MeasureTheory

/-- Random topic weights `X` with the given means and variances -/
structure Moments {Ω : Type} [MeasurableSpace Ω] (μ : Measure Ω) (K : Nat) (X : Nat → Ω → ℝ) (m v : Nat → ℝ) : Prop where
  int : ∀ k, k < K → Integrable (X k) μ
  intSq : ∀ k, k < K → Integrable (fun ω => X k ω ^ 2) μ
  mean : ∀ k, k < K → ∫ ω, X k ω ∂μ = m k
  variance : ∀ k, k < K → ∫ ω, X k ω ^ 2 ∂μ = m k ^ 2 + v k

theorem lse_integrable {Ω : Type} [MeasurableSpace Ω] (μ : Measure Ω) [IsProbabilityMeasure μ] (K : Nat) (hK : 0 < K)
    (X : Nat → Ω → ℝ) (hX : ∀ k, k < K → Integrable (X k) μ) :
    Integrable (fun ω => Real.log (∑ k ∈ Finset.range K, Real.exp (X k ω))) μ := by
  have hm : AEStronglyMeasurable (fun ω => Real.log (∑ k ∈ Finset.range K, Real.exp (X k ω))) μ := by
    refine (Real.measurable_log.comp_aemeasurable ?_).aestronglyMeasurable
    refine Finset.aemeasurable_fun_sum _ fun k hk => ?_
    exact Real.measurable_exp.comp_aemeasurable (hX k (Finset.mem_range.mp hk)).aemeasurable
  have hb : Integrable (fun ω => ∑ k ∈ Finset.range K, |X k ω| + Real.log K) μ :=
    (integrable_finsetSum _ fun k hk => (hX k (Finset.mem_range.mp hk)).abs).add (integrable_const _)
  refine hb.mono' hm (Filter.Eventually.of_forall fun ω => ?_)
  have hle : ∀ k, k < K → |X k ω| ≤ ∑ j ∈ Finset.range K, |X j ω| := fun k hk =>
    Finset.single_le_sum (f := fun j => |X j ω|) (fun _ _ => abs_nonneg _) (Finset.mem_range.mpr hk)
  set B := ∑ j ∈ Finset.range K, |X j ω| with hB
  have hpos := Props.Numerics.sum_exp_pos K (fun k => X k ω) hK
  rw [Real.norm_eq_abs, abs_le]
  have hlogK : 0 ≤ Real.log K := Real.log_natCast_nonneg K
  refine ⟨?_, ?_⟩
  · have h1 : X 0 ω ≤ Real.log (∑ k ∈ Finset.range K, Real.exp (X k ω)) := by
      rw [Real.le_log_iff_exp_le hpos]
      exact Finset.single_le_sum (f := fun k => Real.exp (X k ω)) (fun _ _ => (Real.exp_pos _).le) (Finset.mem_range.mpr hK)
    have h2 := hle 0 hK
    have h3 := neg_abs_le (X 0 ω)
    linarith
  · rw [Real.log_le_iff_le_exp hpos, Real.exp_add, Real.exp_log (by exact_mod_cast hK)]
    calc ∑ k ∈ Finset.range K, Real.exp (X k ω) ≤ ∑ _k ∈ Finset.range K, Real.exp B :=
          Finset.sum_le_sum fun k hk => Real.exp_le_exp.mpr ((le_abs_self _).trans (hle k (Finset.mem_range.mp hk)))
      _ = Real.exp B * K := by rw [Finset.sum_const, Finset.card_range, nsmul_eq_mul]; ring

theorem upper_integral {Ω : Type} [MeasurableSpace Ω] (μ : Measure Ω) [IsProbabilityMeasure μ] (K : Nat)
    (X : Nat → Ω → ℝ) (m v xi : Nat → ℝ) (s : ℝ) (hX : Moments μ K X m v) :
    Integrable (fun ω => upper K xi (fun k => X k ω) s) μ ∧
    ∫ ω, upper K xi (fun k => X k ω) s ∂μ
      = s + ∑ k ∈ Finset.range K, (negJakkola (xi k) * (m k ^ 2 + v k - 2 * s * m k + s ^ 2 - xi k ^ 2) + (m k - s - xi k) / 2
          + Real.log (1 + Real.exp (xi k))) := by
  have hterm : ∀ k, k < K →
      Integrable (fun ω => negJakkola (xi k) * ((X k ω - s) ^ 2 - xi k ^ 2) + (X k ω - s - xi k) / 2
        + Real.log (1 + Real.exp (xi k))) μ ∧
      ∫ ω, (negJakkola (xi k) * ((X k ω - s) ^ 2 - xi k ^ 2) + (X k ω - s - xi k) / 2 + Real.log (1 + Real.exp (xi k))) ∂μ
        = negJakkola (xi k) * (m k ^ 2 + v k - 2 * s * m k + s ^ 2 - xi k ^ 2) + (m k - s - xi k) / 2
          + Real.log (1 + Real.exp (xi k)) := by
    intro k hk
    have heq : (fun ω => negJakkola (xi k) * ((X k ω - s) ^ 2 - xi k ^ 2) + (X k ω - s - xi k) / 2
        + Real.log (1 + Real.exp (xi k)))
        = fun ω => negJakkola (xi k) * X k ω ^ 2 + ((1 / 2 - 2 * s * negJakkola (xi k)) * X k ω
          + (negJakkola (xi k) * (s ^ 2 - xi k ^ 2) + (-s - xi k) / 2 + Real.log (1 + Real.exp (xi k)))) := by
      funext ω; ring
    have i1 := (hX.intSq k hk).const_mul (negJakkola (xi k))
    have i2 := (hX.int k hk).const_mul (1 / 2 - 2 * s * negJakkola (xi k))
    have i3 : Integrable (fun _ : Ω => negJakkola (xi k) * (s ^ 2 - xi k ^ 2) + (-s - xi k) / 2
      + Real.log (1 + Real.exp (xi k))) μ := integrable_const _
    have i23 : Integrable (fun ω => (1 / 2 - 2 * s * negJakkola (xi k)) * X k ω
      + (negJakkola (xi k) * (s ^ 2 - xi k ^ 2) + (-s - xi k) / 2 + Real.log (1 + Real.exp (xi k)))) μ := i2.add i3
    rw [heq]
    refine ⟨i1.add i23, ?_⟩
    rw [integral_add i1 i23, integral_add i2 i3, integral_const_mul, integral_const_mul, hX.mean k hk,
      hX.variance k hk, integral_const]
    simp only [probReal_univ, smul_eq_mul, one_mul]
    ring
  have hs : Integrable (fun ω => ∑ k ∈ Finset.range K, (negJakkola (xi k) * ((X k ω - s) ^ 2 - xi k ^ 2) + (X k ω - s - xi k) / 2
        + Real.log (1 + Real.exp (xi k)))) μ :=
    integrable_finsetSum _ fun k hk => (hterm k (Finset.mem_range.mp hk)).1
  unfold upper
  refine ⟨(integrable_const s).add hs, ?_⟩
  rw [integral_add (integrable_const s) hs, integral_finsetSum _ fun k hk => (hterm k (Finset.mem_range.mp hk)).1, integral_const]
  simp only [probReal_univ, smul_eq_mul, one_mul]
  congr 1
  exact Finset.sum_congr rfl fun k hk => (hterm k (Finset.mem_range.mp hk)).2

theorem boundTerms_eq (K : Nat) (n : ℝ) (m v lxi xi : Nat → ℝ) (s : ℝ) :
    boundTerms K n m v lxi xi s
      = -n * (s + ∑ k ∈ Finset.range K, (lxi k * (m k ^ 2 + v k - 2 * s * m k + s ^ 2 - xi k ^ 2) + (m k - s - xi k) / 2
          + Real.log (1 + Real.exp (xi k)))) := by
  unfold boundTerms
  rw [mul_add, Finset.mul_sum, zero_sub]
  have : ∀ k, -n * (lxi k * (m k ^ 2 + v k - 2 * s * m k + s ^ 2 - xi k ^ 2) + (m k - s - xi k) / 2
          + Real.log (1 + Real.exp (xi k)))
      = -((m k * m k + v k) * n * lxi k) + m k * 2 * n * s * lxi k + m k * -0.5 * n - n * lxi k * (s * s - xi k * xi k)
        + 0.5 * n * (s + xi k) - n * Real.log (1 + Real.exp (xi k)) := fun k => by ring
  simp only [this, Finset.sum_add_distrib, Finset.sum_sub_distrib, Finset.sum_neg_distrib]
  ring

/-- C134: with the coefficients of `negJakkola`, the terms of the bound that stand for the expected log-sum-exp never exceed it,
whatever the distribution of the topic weights with these means and variances and whatever the parameters `s` and `xi`. -/
theorem bound_valid_partial {Ω : Type} [MeasurableSpace Ω] (μ : Measure Ω) [IsProbabilityMeasure μ] (K : Nat) (hK : 0 < K)
    (X : Nat → Ω → ℝ) (n : ℝ) (hn : 0 ≤ n) (m v xi : Nat → ℝ) (hxi : ∀ k, k < K → xi k ≠ 0) (s : ℝ) (hX : Moments μ K X m v) :
    boundTerms K n m v (fun k => negJakkola (xi k)) xi s
      ≤ -n * ∫ ω, Real.log (∑ k ∈ Finset.range K, Real.exp (X k ω)) ∂μ := by
  obtain ⟨hi, he⟩ := upper_integral μ K X m v xi s hX
  have h1 := integral_mono (lse_integrable μ K hK X hX.int) hi (fun ω => lse_le_upper K hK (fun k => X k ω) xi hxi s)
  rw [he] at h1
  rw [boundTerms_eq, neg_mul, neg_mul]
  exact neg_le_neg (mul_le_mul_of_nonneg_left h1 hn)

example : 0 < negJakkola 3 ∧ negJakkola 3 ≤ 1 / 8 := ⟨(coefficient_spec 3 (by norm_num)).1, (coefficient_spec 3 (by norm_num)).2.1⟩

example : Real.log (∑ k ∈ Finset.range 3, Real.exp (k : ℝ)) ≤ upper 3 (fun _ => 1) (fun k => k) 2 :=
  lse_le_upper 3 (by decide) _ _ (fun _ _ => one_ne_zero) 2

/-- Fixed weights 0 and 1 -/
example : boundTerms 2 3 (fun k => k) (fun _ => 0) (fun _ => negJakkola 1) (fun _ => 1) 0
    ≤ -3 * ∫ _ω, Real.log (∑ k ∈ Finset.range 2, Real.exp (k : ℝ)) ∂(Measure.dirac true) :=
  bound_valid_partial (Measure.dirac true) 2 two_pos (fun k _ => (k : ℝ)) 3 (by norm_num) _ _ _ (fun _ _ => one_ne_zero) 0
    ⟨fun k _ => integrable_const _, fun k _ => integrable_const _, fun k _ => by rw [integral_dirac],
      fun k _ => by rw [integral_dirac, add_zero]⟩

end Verif.Props.Bouchard
