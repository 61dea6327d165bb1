import Mathlib.Probability.Distributions.Gaussian.Real
import Mathlib.Probability.CDF
import Mathlib.MeasureTheory.Integral.IntervalIntegral.FundThmCalculus
import Mathlib.Analysis.Calculus.Deriv.MeanValue

/-!
# The normal distribution function
-/

namespace Verif.Probit

open MeasureTheory ProbabilityTheory Filter

/-- The density of the standard normal distribution -/
noncomputable def pdf (x : ℝ) : ℝ := (Real.sqrt (2 * Real.pi))⁻¹ * Real.exp (-(x ^ 2) / 2)

/-- Its distribution function -/
noncomputable def cdf (x : ℝ) : ℝ := ∫ t in Set.Iic x, pdf t

theorem pdf_eq : pdf = gaussianPDFReal 0 1 := by
  funext x
  simp [pdf, gaussianPDFReal]

theorem pdf_pos (x : ℝ) : 0 < pdf x := by
  unfold pdf
  have : 0 < Real.sqrt (2 * Real.pi) := Real.sqrt_pos.2 (by positivity)
  positivity

theorem pdf_continuous : Continuous pdf := by
  unfold pdf
  fun_prop

theorem pdf_integrable : Integrable pdf := by
  rw [pdf_eq]
  exact integrable_gaussianPDFReal 0 1

theorem cdf_eq (x : ℝ) : cdf x = ProbabilityTheory.cdf (gaussianReal 0 1) x := by
  rw [cdf_eq_real, measureReal_def, gaussianReal_apply_eq_integral 0 one_ne_zero, ENNReal.toReal_ofReal]
  · rw [cdf, pdf_eq]
  · exact setIntegral_nonneg measurableSet_Iic fun t _ => gaussianPDFReal_nonneg 0 1 t

theorem hasDerivAt_cdf (x : ℝ) : HasDerivAt cdf (pdf x) x := by
  have h : ∀ y, cdf y = cdf 0 + ∫ t in (0 : ℝ)..y, pdf t := by
    intro y
    have := intervalIntegral.integral_Iic_sub_Iic (μ := volume) (f := pdf) (a := 0) (b := y) pdf_integrable.integrableOn pdf_integrable.integrableOn
    unfold cdf
    linarith
  have h2 : HasDerivAt (fun y => cdf 0 + ∫ t in (0 : ℝ)..y, pdf t) (pdf x) x :=
    (intervalIntegral.integral_hasDerivAt_right (pdf_continuous.intervalIntegrable _ _)
      (pdf_continuous.stronglyMeasurableAtFilter _ _) pdf_continuous.continuousAt).const_add _
  exact h2.congr_of_eventuallyEq (Eventually.of_forall h)

theorem cdf_strictMono : StrictMono cdf :=
  strictMono_of_deriv_pos fun x => by
    rw [(hasDerivAt_cdf x).deriv]
    exact pdf_pos x

theorem cdf_pos (x : ℝ) : 0 < cdf x := by
  have h1 : 0 ≤ cdf (x - 1) := by
    rw [cdf_eq]
    exact cdf_nonneg _ _
  exact h1.trans_lt (cdf_strictMono (by linarith))

theorem cdf_lt_one (x : ℝ) : cdf x < 1 := by
  have h1 : cdf (x + 1) ≤ 1 := by
    rw [cdf_eq]
    exact cdf_le_one _ _
  exact lt_of_lt_of_le (cdf_strictMono (by linarith)) h1

theorem tendsto_one : Tendsto cdf atTop (nhds 1) := by
  rw [show cdf = ProbabilityTheory.cdf (gaussianReal 0 1) from funext cdf_eq]
  exact tendsto_cdf_atTop _

theorem tendsto_zero : Tendsto cdf atBot (nhds 0) := by
  rw [show cdf = ProbabilityTheory.cdf (gaussianReal 0 1) from funext cdf_eq]
  exact tendsto_cdf_atBot _

end Verif.Probit
