import Verif.Model.LogUtils
import Mathlib.Analysis.Calculus.MeanValue
import Mathlib.Analysis.SpecialFunctions.Log.Deriv
import Mathlib.Analysis.Complex.ExponentialBounds

/-!
# The careful logarithms
-/

namespace Verif.Props.LogUtils

open Verif Verif.LogUtils

theorem ratio_deriv (p1 p2 p3 q1 q2 q3 t : ℝ) (hq : ((q3 * (t * t) + q2) * (t * t) + q1) * (t * t) + 1 ≠ 0) (h1 : 0 < 1 + t) (h2 : 0 < 1 - t) :
    HasDerivAt (fun t : ℝ => 2 * t * ((((p3 * (t * t) + p2) * (t * t) + p1) * (t * t) + 1) / (((q3 * (t * t) + q2) * (t * t) + q1) * (t * t) + 1))
        - (Real.log (1 + t) - Real.log (1 - t)))
      (2 * ((((((p3 * (t * t) + p2) * (t * t) + p1) * (t * t) + 1) * (((q3 * (t * t) + q2) * (t * t) + q1) * (t * t) + 1)
          + 2 * (t * t) * ((3 * p3 * (t * t) * (t * t) + 2 * p2 * (t * t) + p1) * (((q3 * (t * t) + q2) * (t * t) + q1) * (t * t) + 1)
            - (((p3 * (t * t) + p2) * (t * t) + p1) * (t * t) + 1) * (3 * q3 * (t * t) * (t * t) + 2 * q2 * (t * t) + q1))) * (1 - t * t)
          - (((q3 * (t * t) + q2) * (t * t) + q1) * (t * t) + 1) ^ 2)
        / ((((q3 * (t * t) + q2) * (t * t) + q1) * (t * t) + 1) ^ 2 * (1 - t * t)))) t := by
  have hs : HasDerivAt (fun t : ℝ => t * t) (t + t) t := by
    have := (hasDerivAt_id' t).fun_mul (hasDerivAt_id' t)
    simpa using this
  have hpoly : ∀ a b c : ℝ, HasDerivAt (fun t : ℝ => ((c * (t * t) + b) * (t * t) + a) * (t * t) + 1)
      ((t + t) * (3 * c * (t * t) * (t * t) + 2 * b * (t * t) + a)) t := by
    intro a b c
    have := ((((((hs.const_mul c).add_const b).fun_mul hs).add_const a).fun_mul hs).add_const 1)
    refine this.congr_deriv ?_
    ring
  have hl1 : HasDerivAt (fun t : ℝ => Real.log (1 + t)) (1 / (1 + t)) t := by
    have := ((hasDerivAt_id t).const_add 1).log h1.ne'
    simpa using this
  have hl2 : HasDerivAt (fun t : ℝ => Real.log (1 - t)) (-1 / (1 - t)) t := by
    have := ((hasDerivAt_id t).const_sub 1).log h2.ne'
    simpa using this
  have := (((hasDerivAt_id' t).const_mul 2).fun_mul ((hpoly p1 p2 p3).fun_div (hpoly q1 q2 q3) hq)).sub (hl1.sub hl2)
  refine this.congr_deriv ?_
  have h3 : 1 - t * t ≠ 0 := by
    have : (1 + t) * (1 - t) = 1 - t * t := by ring
    rw [← this]
    positivity
  have h4 : 1 / (1 + t) - -1 / (1 - t) = 2 / (1 - t * t) := by
    have : (1 + t) * (1 - t) = 1 - t * t := by ring
    rw [← this]
    field_simp
    ring
  rw [h4]
  generalize ((q3 * (t * t) + q2) * (t * t) + q1) * (t * t) + 1 = Q at hq ⊢
  generalize ((p3 * (t * t) + p2) * (t * t) + p1) * (t * t) + 1 = P
  generalize 1 - t * t = U at h3 ⊢
  generalize 3 * p3 * (t * t) * (t * t) + 2 * p2 * (t * t) + p1 = P'
  generalize 3 * q3 * (t * t) * (t * t) + 2 * q2 * (t * t) + q1 = Q'
  field_simp
  ring

/-- The error of the approximation as a function of `t` -/
noncomputable def err (t : ℝ) : ℝ := 2 * t * ratio (t * t) - (Real.log (1 + t) - Real.log (1 - t))

theorem err_eq (x : ℝ) (h : -1 < x) : 2 * (x / (x + 2)) * ratio (x / (x + 2) * (x / (x + 2))) - Real.log (1 + x) = err (x / (x + 2)) := by
  unfold err
  have h2 : 0 < x + 2 := by linarith
  have h1 : 0 < 1 + x / (x + 2) := by
    have : 1 + x / (x + 2) = 2 * (x + 1) / (x + 2) := by field_simp; ring
    rw [this]
    exact div_pos (by linarith) h2
  have h3 : 0 < 1 - x / (x + 2) := by
    have : 1 - x / (x + 2) = 2 / (x + 2) := by field_simp; ring
    rw [this]
    positivity
  rw [← Real.log_div h1.ne' h3.ne']
  congr 2
  have h4 := h3.ne'
  field_simp
  ring

/-- The denominator of the approximation is well away from zero -/
theorem denom_low (s : ℝ) (h0 : 0 ≤ s) (h1 : s ≤ 3 / 50) : (9 / 10 : ℝ) ≤ ((-0.0845104217945565 * s + 0.747811014037616) * s + -1.62752256355323) * s + 1 := by
  have h2 : 0 ≤ (-0.0845104217945565 * s + 0.747811014037616) * s * s := by
    apply mul_nonneg (mul_nonneg _ h0) h0
    norm_num
    linarith
  nlinarith

/-- The slope of the error, for squares of `t` up to `m` -/
theorem err_slope (m b : ℝ) (hm1 : m ≤ 3 / 50)
    (hb : 1 / 10 ^ 13 * m + 4.425 / 10 ^ 11 * m ^ 2 + 6.848 / 10 ^ 9 * m ^ 3 + 4.651 / 10 ^ 7 * m ^ 4 + 1.546 / 10 ^ 5 * m ^ 5
      + 2.467 / 10 ^ 4 * m ^ 6 + 1.512 / 10 ^ 3 * m ^ 7 ≤ b) (t : ℝ) (ht : t * t ≤ m) :
    ∃ e', HasDerivAt err e' t ∧ |e'| ≤ 3 * b := by
  have hs0 : 0 ≤ t * t := mul_self_nonneg t
  have hQ := denom_low (t * t) hs0 (ht.trans hm1)
  have ht1 : |t| < 1 := by
    by_contra hc
    push Not at hc
    have : 1 ≤ t * t := by nlinarith [abs_mul_abs_self t, abs_nonneg t]
    linarith
  have h1 := (abs_lt.mp ht1).1
  have h2 := (abs_lt.mp ht1).2
  refine ⟨_, ratio_deriv (-1.29418923021993) 0.405303492862024 (-0.0178874546012214) (-1.62752256355323) 0.747811014037616 (-0.0845104217945565) t
    (by linarith) (by linarith) (by linarith), ?_⟩
  have hs1 : t * t ≤ 3 / 50 := ht.trans hm1
  generalize hs : t * t = s at *
  set Q := ((-0.0845104217945565 * s + 0.747811014037616) * s + -1.62752256355323) * s + 1 with hQdef
  have hnum : (((((-0.0178874546012214 * s + 0.405303492862024) * s + -1.29418923021993) * s + 1) * Q
          + 2 * s * ((3 * -0.0178874546012214 * s * s + 2 * 0.405303492862024 * s + -1.29418923021993) * Q
            - (((-0.0178874546012214 * s + 0.405303492862024) * s + -1.29418923021993) * s + 1) * (3 * -0.0845104217945565 * s * s + 2 * 0.747811014037616 * s + -1.62752256355323))) * (1 - s)
          - Q ^ 2)
        = -1/10000000000000 * s + 44244250752118441/1000000000000000000000000000 * s ^ 2 + -342353838614061050011/50000000000000000000000000000 * s ^ 3
          + 465066699400637576814493/1000000000000000000000000000000 * s ^ 4 + -77258819501047774533114211/5000000000000000000000000000000 * s ^ 5
          + 4932049927665371763607996161/20000000000000000000000000000000 * s ^ 6 + -15116763331802009500647713091/10000000000000000000000000000000 * s ^ 7 := by
    rw [hQdef]
    norm_num
    ring
  rw [hnum]
  have hp : ∀ n : ℕ, 0 ≤ s ^ n ∧ s ^ n ≤ m ^ n := fun n => ⟨pow_nonneg hs0 n, pow_le_pow_left₀ hs0 ht n⟩
  have hN : |(-1/10000000000000 * s + 44244250752118441/1000000000000000000000000000 * s ^ 2 + -342353838614061050011/50000000000000000000000000000 * s ^ 3
          + 465066699400637576814493/1000000000000000000000000000000 * s ^ 4 + -77258819501047774533114211/5000000000000000000000000000000 * s ^ 5
          + 4932049927665371763607996161/20000000000000000000000000000000 * s ^ 6 + -15116763331802009500647713091/10000000000000000000000000000000 * s ^ 7)| ≤ b := by
    obtain ⟨a2, b2⟩ := hp 2
    obtain ⟨a3, b3⟩ := hp 3
    obtain ⟨a4, b4⟩ := hp 4
    obtain ⟨a5, b5⟩ := hp 5
    obtain ⟨a6, b6⟩ := hp 6
    obtain ⟨a7, b7⟩ := hp 7
    norm_num at hb
    rw [abs_le]
    constructor <;> linarith
  have hb0 : 0 ≤ b := (abs_nonneg _).trans hN
  rw [abs_mul, abs_div, abs_of_pos (by norm_num : (0 : ℝ) < 2)]
  have hden : (7 / 10 : ℝ) ≤ Q ^ 2 * (1 - s) := by
    have : (81 / 100 : ℝ) ≤ Q ^ 2 := by nlinarith
    nlinarith
  rw [abs_of_pos (by linarith : 0 < Q ^ 2 * (1 - s))]
  rw [mul_div_assoc', div_le_iff₀ (by linarith)]
  nlinarith

/-- The error at `t` is at most three times the bound times the size of `t` -/
theorem err_le (m b : ℝ) (hm1 : m ≤ 3 / 50)
    (hb : 1 / 10 ^ 13 * m + 4.425 / 10 ^ 11 * m ^ 2 + 6.848 / 10 ^ 9 * m ^ 3 + 4.651 / 10 ^ 7 * m ^ 4 + 1.546 / 10 ^ 5 * m ^ 5
      + 2.467 / 10 ^ 4 * m ^ 6 + 1.512 / 10 ^ 3 * m ^ 7 ≤ b) (t : ℝ) (ht : t * t ≤ m) : |err t| ≤ 3 * b * |t| := by
  have h0 : err 0 = 0 := by simp [err]
  choose! e' he' hb' using err_slope m b hm1 hb
  have hconv : Convex ℝ {u : ℝ | |u| ≤ |t|} := by
    have : {u : ℝ | |u| ≤ |t|} = Set.Icc (-|t|) |t| := by
      ext u
      simp [abs_le]
    rw [this]
    exact convex_Icc _ _
  have hin : ∀ u : ℝ, u ∈ {u : ℝ | |u| ≤ |t|} → u * u ≤ m := by
    intro u hu
    have h3 : |u| ≤ |t| := hu
    rw [← abs_mul_abs_self u]
    rw [← abs_mul_abs_self t] at ht
    exact (mul_self_le_mul_self (abs_nonneg u) h3).trans ht
  have := hconv.norm_image_sub_le_of_norm_hasDerivWithin_le (f := err) (f' := e') (C := 3 * b)
    (fun u hu => (he' u (hin u hu)).hasDerivWithinAt) (fun u hu => by rw [Real.norm_eq_abs]; exact hb' u (hin u hu))
    (x := 0) (y := t) (by simp) (by simp)
  simpa [h0] using this

/-- Eleven digits after the point for every argument down to `-0.375` -/
theorem log_one_plus_accurate_partial (x : ℝ) (hx : -0.375 ≤ x) : |logOnePlus x - Real.log (1 + x)| ≤ 2 / 10 ^ 11 := by
  unfold logOnePlus
  split
  · simp
    positivity
  · rename_i hc
    push Not at hc
    norm_num at hx hc
    rw [err_eq x (by linarith)]
    have h2 : 0 < x + 2 := by linarith
    have ht : |x / (x + 2)| ≤ 3 / 13 := by
      rw [abs_le, le_div_iff₀ h2, div_le_iff₀ h2]
      constructor <;> linarith
    have htt : x / (x + 2) * (x / (x + 2)) ≤ 9 / 169 := by
      rw [← abs_mul_abs_self]
      nlinarith [abs_nonneg (x / (x + 2))]
    have := err_le (9 / 169) (2 / 10 ^ 11) (by norm_num) (by norm_num) _ htt
    have h4 := abs_nonneg (x / (x + 2))
    nlinarith

/-- Twelve digits for arguments which are not negative -/
theorem log_one_plus_accurate_nonneg (x : ℝ) (hx : 0 ≤ x) : |logOnePlus x - Real.log (1 + x)| ≤ 3 / 10 ^ 13 := by
  unfold logOnePlus
  split
  · simp
    positivity
  · rename_i hc
    push Not at hc
    norm_num at hx hc
    rw [err_eq x (by linarith)]
    have h2 : 0 < x + 2 := by linarith
    have ht : |x / (x + 2)| ≤ 3 / 19 := by
      rw [abs_le, le_div_iff₀ h2, div_le_iff₀ h2]
      constructor <;> linarith
    have htt : x / (x + 2) * (x / (x + 2)) ≤ 9 / 361 := by
      rw [← abs_mul_abs_self]
      nlinarith [abs_nonneg (x / (x + 2))]
    have := err_le (9 / 361) (6 / 10 ^ 13) (by norm_num) (by norm_num) _ htt
    have h4 := abs_nonneg (x / (x + 2))
    nlinarith

/-- The error relative to the argument, which is what the rational approximation is for -/
theorem log_one_plus_relative (x : ℝ) (hx : 0 ≤ x) : |logOnePlus x - Real.log (1 + x)| ≤ 1 / 10 ^ 12 * x := by
  unfold logOnePlus
  split
  · simp
    positivity
  · rename_i hc
    push Not at hc
    norm_num at hx hc
    rw [err_eq x (by linarith)]
    have h2 : 0 < x + 2 := by linarith
    have h0 : 0 ≤ x / (x + 2) := by positivity
    have hle : x / (x + 2) ≤ x / 2 := by
      rw [div_le_div_iff₀ h2 (by norm_num)]
      nlinarith
    have ht : x / (x + 2) ≤ 3 / 19 := by
      rw [div_le_iff₀ h2]
      linarith
    have htt : x / (x + 2) * (x / (x + 2)) ≤ 9 / 361 := by nlinarith
    have := err_le (9 / 361) (6 / 10 ^ 13) (by norm_num) (by norm_num) _ htt
    rw [abs_of_nonneg h0] at this
    norm_num at this ⊢
    linarith

/-- `log(1 + exp(x))` is accurate to eleven significant digits for every argument, however large or small -/
theorem log_one_plus_exp_relative (x : ℝ) : |logOnePlusExp x - Real.log (1 + Real.exp x)| ≤ 2 / 10 ^ 12 * Real.log (1 + Real.exp x) := by
  have hpos : 0 < Real.exp x := Real.exp_pos x
  have hlog : 0 ≤ Real.log (1 + Real.exp x) := Real.log_nonneg (by linarith)
  unfold logOnePlusExp
  split
  · rename_i hc
    have hy : Real.exp x ≤ 1 / 4 := by
      have := Real.exp_le_exp.mpr hc
      rw [Real.exp_log (by norm_num)] at this
      norm_num at this ⊢
      exact this
    have h1 := log_one_plus_relative (Real.exp x) hpos.le
    have h2 := Real.one_sub_inv_le_log_of_pos (by linarith : 0 < 1 + Real.exp x)
    have h3 : Real.exp x / 2 ≤ 1 - (1 + Real.exp x)⁻¹ := by
      rw [inv_eq_one_div, le_sub_iff_add_le, ← le_sub_iff_add_le', div_le_iff₀ (by linarith)]
      nlinarith
    norm_num at h1 ⊢
    linarith
  · split
    · rename_i hc
      have h1 : Real.log (1 + Real.exp x) = x + Real.log (1 + Real.exp (-x)) := by
        have : 1 + Real.exp x = Real.exp x * (1 + Real.exp (-x)) := by
          rw [mul_add, ← Real.exp_add]
          simp [add_comm]
        rw [this, Real.log_mul hpos.ne' (by positivity), Real.log_exp]
      have hsmall : Real.exp (-x) ≤ dblEpsilon := by
        have h2 : -x ≤ Real.log dblEpsilon := by linarith
        have := Real.exp_le_exp.mpr h2
        rwa [Real.exp_log (by unfold dblEpsilon; positivity)] at this
      have h3 := Real.log_le_sub_one_of_pos (by positivity : 0 < 1 + Real.exp (-x))
      have h4 : 0 ≤ Real.log (1 + Real.exp (-x)) := Real.log_nonneg (by linarith [Real.exp_pos (-x)])
      have h5 : 1 ≤ x := by
        by_contra hcon
        push Not at hcon
        have h6 : Real.exp (-1) < Real.exp (-x) := Real.exp_lt_exp.mpr (by linarith)
        have h7 : (0.36787944116 : ℝ) < Real.exp (-1) := Real.exp_neg_one_gt_d9
        have h8 : dblEpsilon < 0.1 := by unfold dblEpsilon; norm_num
        norm_num at h7 h8
        linarith
      have h6 : dblEpsilon ≤ 2 / 10 ^ 12 := by unfold dblEpsilon; norm_num
      rw [h1, abs_sub_comm, add_sub_cancel_left, abs_of_nonneg h4]
      norm_num at h6 ⊢
      nlinarith
    · simp
      positivity

/-- Below the range of the approximation the error has no bound: the true value runs off to minus infinity and the result does not follow -/
theorem log_one_plus_unbounded (M : ℝ) : ∃ x : ℝ, -1 < x ∧ x < -0.375 ∧ M < logOnePlus x - Real.log (1 + x) := by
  refine ⟨Real.exp (-(|M| + 60)) - 1, by linarith [Real.exp_pos (-(|M| + 60))], ?_, ?_⟩
  · have h1 : Real.exp (-(|M| + 60)) ≤ Real.exp (-1) := Real.exp_le_exp.mpr (by linarith [abs_nonneg M])
    have h2 : Real.exp (-1) < 0.36787944117 + 0.1 := by
      have := Real.exp_neg_one_lt_d9
      norm_num at this ⊢
      linarith
    norm_num at h2
    have h3 : (-0.375 : ℝ) = -(3 / 8) := by norm_num
    rw [h3]
    linarith
  · have hlt : Real.exp (-(|M| + 60)) ≤ Real.exp (-1) := Real.exp_le_exp.mpr (by linarith [abs_nonneg M])
    have h2 : Real.exp (-1) < 1 / 2 := by
      have := Real.exp_neg_one_lt_d9
      norm_num at this ⊢
      linarith
    have hp := Real.exp_pos (-(|M| + 60))
    have hl : Real.log (1 + (Real.exp (-(|M| + 60)) - 1)) = -(|M| + 60) := by
      rw [add_sub_cancel, Real.log_exp]
    rw [hl]
    generalize Real.exp (-(|M| + 60)) = e at *
    unfold logOnePlus
    rw [if_neg (by norm_num; linarith)]
    have hden : 0 < e - 1 + 2 := by linarith
    have ht1 : -1 ≤ (e - 1) / (e - 1 + 2) := by
      rw [le_div_iff₀ hden]
      linarith
    have ht2 : (e - 1) / (e - 1 + 2) ≤ 0 := div_nonpos_of_nonpos_of_nonneg (by linarith) hden.le
    generalize (e - 1) / (e - 1 + 2) = t at *
    have hs0 : 0 ≤ t * t := mul_self_nonneg t
    have hs1 : t * t ≤ 1 := by nlinarith
    have hw : ratio (t * t) ≤ 29 := by
      unfold ratio
      generalize t * t = s at *
      have hQ : (0.0357 : ℝ) ≤ ((-0.0845104217945565 * s + 0.747811014037616) * s + -1.62752256355323) * s + 1 := by
        have : 0 ≤ (1 - s) * (0.13 + 0.08 * s * s) := by
          apply mul_nonneg (by linarith)
          have := mul_nonneg hs0 hs0
          norm_num
          linarith
        norm_num at this ⊢
        nlinarith [mul_nonneg hs0 (by linarith : 0 ≤ 1 - s)]
      have hP : ((-0.0178874546012214 * s + 0.405303492862024) * s + -1.29418923021993) * s + 1 ≤ 1 := by
        have : 0 ≤ s * (1.29418923021993 - 0.405303492862024 * s + 0.0178874546012214 * s * s) := by
          apply mul_nonneg hs0
          have := mul_nonneg hs0 hs0
          norm_num
          linarith
        norm_num at this ⊢
        linarith
      rw [div_le_iff₀ (by norm_num at hQ ⊢; linarith)]
      norm_num at hQ hP ⊢
      linarith
    have h5 : -29 ≤ t * ratio (t * t) := by nlinarith
    linarith [le_abs_self M]

example : |logOnePlus (1 / 4) - Real.log (1 + 1 / 4)| ≤ 3 / 10 ^ 13 := log_one_plus_accurate_nonneg _ (by norm_num)
example : |logOnePlus (-1 / 4) - Real.log (1 + -1 / 4)| ≤ 2 / 10 ^ 11 := log_one_plus_accurate_partial _ (by norm_num)
example : |logOnePlusExp (-50) - Real.log (1 + Real.exp (-50))| ≤ 2 / 10 ^ 12 * Real.log (1 + Real.exp (-50)) := log_one_plus_exp_relative _

end Verif.Props.LogUtils
