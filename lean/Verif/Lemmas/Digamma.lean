import Verif.Lemmas.Dirichlet
import Mathlib.Analysis.SpecialFunctions.Gamma.BohrMollerup
import Mathlib.Analysis.Convex.Deriv

/-!
# The digamma function
-/

namespace Verif.Dirichlet

theorem digamma_mono {x y : ℝ} (hx : 0 < x) (h : x ≤ y) : digamma x ≤ digamma y := by
  have hm := Real.convexOn_log_Gamma.monotoneOn_deriv (fun z hz => (hasDerivAt_logGamma z hz).differentiableAt)
  exact hm (Set.mem_Ioi.mpr hx) (Set.mem_Ioi.mpr (hx.trans_le h)) h

theorem digamma_add_one (x : ℝ) (hx : 0 < x) : digamma (x + 1) = digamma x + 1 / x := by
  have h1 : HasDerivAt (fun y => Real.log (Real.Gamma (y + 1))) (digamma (x + 1)) x := by
    have := (hasDerivAt_logGamma (x + 1) (by linarith)).comp_add_const x 1
    simpa using this
  have h2 : HasDerivAt (fun y => Real.log (Real.Gamma y) + Real.log y) (digamma x + 1 / x) x := by
    have := (hasDerivAt_logGamma x hx).add (Real.hasDerivAt_log hx.ne')
    rw [one_div]
    exact this
  have h3 : (fun y => Real.log (Real.Gamma (y + 1))) =ᶠ[nhds x] fun y => Real.log (Real.Gamma y) + Real.log y := by
    filter_upwards [lt_mem_nhds hx] with y hy
    rw [Real.Gamma_add_one hy.ne', Real.log_mul hy.ne' (Real.Gamma_pos_of_pos hy).ne']
    ring
  exact h1.unique (h2.congr_of_eventuallyEq h3)

theorem digamma_strict {x y : ℝ} (hx : 0 < x) (h : x < y) : digamma x < digamma y := by
  refine lt_of_le_of_ne (digamma_mono hx h.le) fun he => ?_
  have h1 := digamma_mono (x := x + 1) (y := y + 1) (by linarith) (by linarith)
  rw [digamma_add_one x hx, digamma_add_one y (hx.trans h), ← he] at h1
  have h2 : 1 / y < 1 / x := one_div_lt_one_div_of_lt hx h
  linarith

/-- Half a step of the function is at least half the logarithm. -/
theorem logGamma_half (a : ℝ) (ha : 1 / 2 < a) :
    Real.log (a - 1 / 2) / 2 ≤ Real.log (Real.Gamma (a + 1 / 2)) - Real.log (Real.Gamma a) := by
  have hc := Real.convexOn_log_Gamma.2 (Set.mem_Ioi.mpr (show 0 < a - 1 / 2 by linarith)) (Set.mem_Ioi.mpr (show 0 < a + 1 / 2 by linarith))
    (show (0 : ℝ) ≤ 1 / 2 by norm_num) (show (0 : ℝ) ≤ 1 / 2 by norm_num) (by norm_num)
  simp only [smul_eq_mul, Function.comp_apply] at hc
  rw [show 1 / 2 * (a - 1 / 2) + 1 / 2 * (a + 1 / 2) = a by ring] at hc
  have hp : 0 < a - 1 / 2 := by linarith
  have h1 : Real.Gamma (a + 1 / 2) = (a - 1 / 2) * Real.Gamma (a - 1 / 2) := by
    rw [← Real.Gamma_add_one hp.ne']
    congr 1
    ring
  have h2 : Real.log (Real.Gamma (a + 1 / 2)) = Real.log (a - 1 / 2) + Real.log (Real.Gamma (a - 1 / 2)) := by
    rw [h1, Real.log_mul hp.ne' (Real.Gamma_pos_of_pos hp).ne']
  linarith

end Verif.Dirichlet
