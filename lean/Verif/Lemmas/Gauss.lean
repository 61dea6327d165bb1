import Mathlib.Probability.Distributions.Gaussian.Real
import Mathlib.MeasureTheory.Integral.Pi
import Mathlib.MeasureTheory.Measure.Lebesgue.Basic
import Mathlib.LinearAlgebra.Matrix.PosDef
import Mathlib.Analysis.Matrix.Order
import Mathlib.Tactic.Linarith
import Mathlib.Tactic.FieldSimp

/-!
# Gaussian distributions of vectors

`field` is the density of independent Gaussian variables, `density` that of a Gaussian vector with a given covariance.  The main result
`evidence_bound` is the lower bound of the logarithm of an expectation under the second by expectations under the first.
-/

namespace Verif.Gauss

open MeasureTheory ProbabilityTheory
open scoped NNReal ENNReal Matrix MatrixOrder

variable {K : Nat}

/-! ## Independent variables -/

/-- The density of independent Gaussian variables with means `m` and variances `v` -/
noncomputable def field (m : Fin K → ℝ) (v : Fin K → ℝ≥0) (η : Fin K → ℝ) : ℝ := ∏ k, gaussianPDFReal (m k) (v k) (η k)

/-- The distribution with that density -/
noncomputable def law (m : Fin K → ℝ) (v : Fin K → ℝ≥0) : Measure (Fin K → ℝ) := volume.withDensity fun η => ENNReal.ofReal (field m v η)

theorem field_pos (m : Fin K → ℝ) (v : Fin K → ℝ≥0) (hv : ∀ k, v k ≠ 0) (η : Fin K → ℝ) : 0 < field m v η :=
  Finset.prod_pos fun k _ => gaussianPDFReal_pos _ _ _ (hv k)

theorem field_nonneg (m : Fin K → ℝ) (v : Fin K → ℝ≥0) (η : Fin K → ℝ) : 0 ≤ field m v η :=
  Finset.prod_nonneg fun _ _ => gaussianPDFReal_nonneg _ _ _

theorem field_measurable (m : Fin K → ℝ) (v : Fin K → ℝ≥0) : Measurable (field m v) :=
  Finset.measurable_fun_prod _ fun k _ => (measurable_gaussianPDFReal (m k) (v k)).comp (measurable_pi_apply k)

theorem law_integral (m : Fin K → ℝ) (v : Fin K → ℝ≥0) (g : (Fin K → ℝ) → ℝ) : ∫ η, g η ∂(law m v) = ∫ η, field m v η * g η := by
  unfold law
  rw [integral_withDensity_eq_integral_toReal_smul (field_measurable m v).ennreal_ofReal (Filter.Eventually.of_forall fun _ => ENNReal.ofReal_lt_top)]
  refine integral_congr_ae (Filter.Eventually.of_forall fun η => ?_)
  show (ENNReal.ofReal (field m v η)).toReal • g η = _
  rw [ENNReal.toReal_ofReal (field_nonneg m v η), smul_eq_mul]

theorem law_integrable (m : Fin K → ℝ) (v : Fin K → ℝ≥0) (g : (Fin K → ℝ) → ℝ) :
    Integrable g (law m v) ↔ Integrable (fun η => field m v η * g η) := by
  unfold law
  rw [integrable_withDensity_iff_integrable_smul' (field_measurable m v).ennreal_ofReal (Filter.Eventually.of_forall fun _ => ENNReal.ofReal_lt_top)]
  refine integrable_congr (Filter.Eventually.of_forall fun η => ?_)
  show (ENNReal.ofReal (field m v η)).toReal • g η = _
  rw [ENNReal.toReal_ofReal (field_nonneg m v η), smul_eq_mul]

theorem real_integrable (m : ℝ) (v : ℝ≥0) (hv : v ≠ 0) (g : ℝ → ℝ) (hg : Integrable g (gaussianReal m v)) :
    Integrable (fun x => gaussianPDFReal m v x * g x) := by
  rw [gaussianReal_of_var_ne_zero m hv, integrable_withDensity_iff_integrable_smul' (measurable_gaussianPDF m v)
    (Filter.Eventually.of_forall fun _ => gaussianPDF_lt_top)] at hg
  simpa only [toReal_gaussianPDF, smul_eq_mul] using hg

/-- Expectations of products of functions of the variables -/
theorem law_prod (m : Fin K → ℝ) (v : Fin K → ℝ≥0) (hv : ∀ k, v k ≠ 0) (g : Fin K → ℝ → ℝ) (hg : ∀ k, Integrable (g k) (gaussianReal (m k) (v k))) :
    Integrable (fun η => ∏ k, g k (η k)) (law m v) ∧ ∫ η, ∏ k, g k (η k) ∂(law m v) = ∏ k, ∫ x, g k x ∂(gaussianReal (m k) (v k)) := by
  have hprod : ∀ η : Fin K → ℝ, field m v η * ∏ k, g k (η k) = ∏ k, gaussianPDFReal (m k) (v k) (η k) * g k (η k) :=
    fun η => Finset.prod_mul_distrib.symm
  constructor
  · rw [law_integrable]
    simp only [hprod]
    exact Integrable.fintype_prod (μ := fun _ => volume) (f := fun k x => gaussianPDFReal (m k) (v k) x * g k x)
      fun k => real_integrable _ _ (hv k) _ (hg k)
  · rw [law_integral]
    simp only [hprod]
    rw [integral_fintype_prod_volume_eq_prod (fun k x => gaussianPDFReal (m k) (v k) x * g k x)]
    refine Finset.prod_congr rfl fun k _ => ?_
    rw [integral_gaussianReal_eq_integral_smul (hv k)]
    rfl

theorem law_one (m : Fin K → ℝ) (v : Fin K → ℝ≥0) (hv : ∀ k, v k ≠ 0) : Integrable (field m v) ∧ ∫ η, field m v η = 1 := by
  obtain ⟨h1, h2⟩ := law_prod m v hv (fun _ _ => 1) (fun k => integrable_const _)
  rw [law_integrable] at h1
  rw [law_integral] at h2
  simpa using And.intro h1 h2

theorem law_probability (m : Fin K → ℝ) (v : Fin K → ℝ≥0) (hv : ∀ k, v k ≠ 0) : IsProbabilityMeasure (law m v) := by
  refine ⟨?_⟩
  unfold law
  rw [withDensity_apply _ MeasurableSet.univ, Measure.restrict_univ,
    ← ofReal_integral_eq_lintegral_ofReal (law_one m v hv).1 (Filter.Eventually.of_forall (field_nonneg m v)), (law_one m v hv).2,
    ENNReal.ofReal_one]

theorem real_moments (m : ℝ) (v : ℝ≥0) (c : ℝ) : Integrable (fun x => x - c) (gaussianReal m v) ∧ ∫ x, (x - c) ∂(gaussianReal m v) = m - c ∧
    Integrable (fun x => (x - c) ^ 2) (gaussianReal m v) ∧ ∫ x, (x - c) ^ 2 ∂(gaussianReal m v) = (m - c) ^ 2 + v := by
  have hid : Integrable (fun x : ℝ => x) (gaussianReal m v) := by
    have := memLp_id_gaussianReal (μ := m) (v := v) 1
    rw [ENNReal.coe_one, memLp_one_iff_integrable] at this
    exact this
  have h2 : MemLp (fun x : ℝ => x - c) 2 (gaussianReal m v) := (memLp_id_gaussianReal (μ := m) (v := v) 2).sub (memLp_const c)
  have hmean : ∫ x, (x - c) ∂(gaussianReal m v) = m - c := by
    rw [integral_sub hid (integrable_const c), integral_id_gaussianReal, integral_const]
    simp
  refine ⟨hid.sub (integrable_const c), hmean, h2.integrable_sq, ?_⟩
  have hvar := variance_eq_sub h2
  have hshift : Var[fun x : ℝ => x - c; gaussianReal m v] = v := by
    rw [variance_sub_const (by fun_prop), variance_fun_id_gaussianReal]
  rw [hshift] at hvar
  have he : (∫ x, (fun x : ℝ => x - c) x ∂(gaussianReal m v)) = m - c := hmean
  rw [he] at hvar
  have : ∫ x, (x - c) ^ 2 ∂(gaussianReal m v) = ∫ x, ((fun x : ℝ => x - c) ^ 2) x ∂(gaussianReal m v) := rfl
  rw [this]
  linarith

/-- The second moments of the variables around a point `c` -/
theorem law_moment (m : Fin K → ℝ) (v : Fin K → ℝ≥0) (hv : ∀ k, v k ≠ 0) (c : Fin K → ℝ) (i j : Fin K) :
    Integrable (fun η => (η i - c i) * (η j - c j)) (law m v) ∧
    ∫ η, (η i - c i) * (η j - c j) ∂(law m v) = (m i - c i) * (m j - c j) + if i = j then (v i : ℝ) else 0 := by
  by_cases hij : i = j
  · subst hij
    obtain ⟨h1, h2⟩ := law_prod m v hv (fun k x => if k = i then (x - c i) ^ 2 else 1) (fun k => by
      by_cases hk : k = i
      · subst hk
        simpa using (real_moments (m k) (v k) (c k)).2.2.1
      · simp only [hk, if_false]
        exact integrable_const _)
    have hp : ∀ η : Fin K → ℝ, (∏ k, if k = i then (η k - c i) ^ 2 else 1) = (η i - c i) * (η i - c i) := by
      intro η
      rw [Finset.prod_ite_eq' Finset.univ i, if_pos (Finset.mem_univ i)]
      ring
    simp only [hp] at h1 h2
    refine ⟨h1, ?_⟩
    rw [h2, ← Finset.mul_prod_erase _ _ (Finset.mem_univ i), Finset.prod_eq_one, mul_one, if_pos rfl]
    · simp only [if_true]
      rw [(real_moments (m i) (v i) (c i)).2.2.2]
      ring
    · intro k hk
      simp [Finset.ne_of_mem_erase hk]
  · obtain ⟨h1, h2⟩ := law_prod m v hv (fun k x => (if k = i then x - c i else 1) * (if k = j then x - c j else 1)) (fun k => by
      by_cases hki : k = i
      · subst hki
        simpa [hij] using (real_moments (m k) (v k) (c k)).1
      · by_cases hkj : k = j
        · subst hkj
          simpa [hki] using (real_moments (m k) (v k) (c k)).1
        · simp only [hki, hkj, if_false]
          exact integrable_const _)
    have hp : ∀ η : Fin K → ℝ, (∏ k, (if k = i then η k - c i else 1) * (if k = j then η k - c j else 1)) = (η i - c i) * (η j - c j) := by
      intro η
      rw [Finset.prod_mul_distrib, Finset.prod_ite_eq' Finset.univ i, Finset.prod_ite_eq' Finset.univ j, if_pos (Finset.mem_univ i),
        if_pos (Finset.mem_univ j)]
    simp only [hp] at h1 h2
    refine ⟨h1, ?_⟩
    have hval : ∀ k, (∫ x, (if k = i then x - c i else 1) * (if k = j then x - c j else 1) ∂(gaussianReal (m k) (v k)))
        = (if k = i then m k - c i else 1) * (if k = j then m k - c j else 1) := by
      intro k
      by_cases hki : k = i
      · subst hki
        simpa [hij] using (real_moments (m k) (v k) (c k)).2.1
      · by_cases hkj : k = j
        · subst hkj
          simpa [hki] using (real_moments (m k) (v k) (c k)).2.1
        · simp [hki, hkj]
    rw [h2, Finset.prod_congr rfl fun k _ => hval k, Finset.prod_mul_distrib, Finset.prod_ite_eq' Finset.univ i, Finset.prod_ite_eq' Finset.univ j,
      if_pos (Finset.mem_univ i), if_pos (Finset.mem_univ j), if_neg hij, add_zero]

/-- The means of the variables -/
theorem law_mean (m : Fin K → ℝ) (v : Fin K → ℝ≥0) (hv : ∀ k, v k ≠ 0) (i : Fin K) :
    Integrable (fun η => η i) (law m v) ∧ ∫ η, η i ∂(law m v) = m i := by
  obtain ⟨h1, h2⟩ := law_prod m v hv (fun k x => if k = i then x else 1) (fun k => by
    by_cases hk : k = i
    · subst hk
      simpa using (real_moments (m k) (v k) 0).1
    · simp only [hk, if_false]
      exact integrable_const _)
  have hp : ∀ η : Fin K → ℝ, (∏ k, if k = i then η k else 1) = η i := by
    intro η
    rw [Finset.prod_ite_eq' Finset.univ i, if_pos (Finset.mem_univ i)]
  simp only [hp] at h1 h2
  refine ⟨h1, ?_⟩
  rw [h2, ← Finset.mul_prod_erase _ _ (Finset.mem_univ i), Finset.prod_eq_one, mul_one]
  · simp
  · intro k hk
    simp [Finset.ne_of_mem_erase hk]

/-- The expected logarithm of the density of the variables themselves -/
theorem law_entropy (m : Fin K → ℝ) (v : Fin K → ℝ≥0) (hv : ∀ k, v k ≠ 0) :
    Integrable (fun η => Real.log (field m v η)) (law m v) ∧
    ∫ η, Real.log (field m v η) ∂(law m v) = -(∑ k, (Real.log (2 * Real.pi * v k) / 2 + 1 / 2)) := by
  have hp := law_probability m v hv
  have hlog : ∀ η, Real.log (field m v η) = ∑ k, (-(Real.log (2 * Real.pi * v k) / 2) - (2 * (v k : ℝ))⁻¹ * ((η k - m k) * (η k - m k))) := by
    intro η
    unfold field
    rw [Real.log_prod fun k _ => (gaussianPDFReal_pos _ _ _ (hv k)).ne']
    refine Finset.sum_congr rfl fun k _ => ?_
    have hvk : (0 : ℝ) < v k := by
      have := (v k).2
      exact lt_of_le_of_ne this fun h => hv k (NNReal.coe_eq_zero.1 h.symm)
    have h2 : (0 : ℝ) < 2 * Real.pi * v k := by positivity
    unfold gaussianPDFReal
    rw [Real.log_mul (inv_ne_zero (Real.sqrt_pos.2 h2).ne') (Real.exp_pos _).ne', Real.log_inv, Real.log_sqrt h2.le, Real.log_exp]
    field_simp
    ring
  simp only [hlog]
  have hi : ∀ k, Integrable (fun η : Fin K → ℝ => -(Real.log (2 * Real.pi * v k) / 2) - (2 * (v k : ℝ))⁻¹ * ((η k - m k) * (η k - m k))) (law m v) :=
    fun k => (integrable_const _).sub ((law_moment m v hv m k k).1.const_mul _)
  refine ⟨integrable_finsetSum _ fun k _ => hi k, ?_⟩
  rw [integral_finsetSum _ fun k _ => hi k, ← Finset.sum_neg_distrib]
  refine Finset.sum_congr rfl fun k _ => ?_
  rw [integral_sub (integrable_const _) ((law_moment m v hv m k k).1.const_mul _), integral_const_mul, (law_moment m v hv m k k).2, integral_const]
  have hvk : (v k : ℝ) ≠ 0 := fun h => hv k (NNReal.coe_eq_zero.1 h)
  simp
  field_simp
  ring

/-- Gibbs' inequality: the logarithm of an integral is at least the expected logarithm of the integrand over the density. -/
theorem gibbs (m : Fin K → ℝ) (v : Fin K → ℝ≥0) (hv : ∀ k, v k ≠ 0) (r : (Fin K → ℝ) → ℝ) (hr : ∀ η, 0 < r η) (hint : Integrable r)
    (hlog : Integrable (fun η => Real.log (r η)) (law m v)) :
    ∫ η, Real.log (r η) ∂(law m v) - ∫ η, Real.log (field m v η) ∂(law m v) ≤ Real.log (∫ η, r η) := by
  have hp := law_probability m v hv
  obtain ⟨hq, _⟩ := law_entropy m v hv
  obtain ⟨c, hc⟩ : ∃ c, c = ∫ η, r η := ⟨_, rfl⟩
  have hcpos : 0 < c := by
    rw [hc, integral_pos_iff_support_of_nonneg (fun η => (hr η).le) hint]
    have : Function.support r = Set.univ := Set.eq_univ_of_forall fun η => (hr η).ne'
    rw [this]
    exact MeasureTheory.Measure.measure_univ_pos.2 (NeZero.ne _)
  have hquot : ∀ η, field m v η * (r η / (field m v η * c)) = r η / c := by
    intro η
    have := (field_pos m v hv η).ne'
    field_simp
  have hi : Integrable (fun η => r η / (field m v η * c)) (law m v) := by
    rw [law_integrable]
    simp only [hquot]
    exact hint.div_const c
  have hone : ∫ η, r η / (field m v η * c) ∂(law m v) = 1 := by
    rw [law_integral]
    simp only [hquot]
    rw [integral_div, ← hc, div_self hcpos.ne']
  rw [← hc, ← integral_sub hlog hq]
  have hle : ∫ η, (Real.log (r η) - Real.log (field m v η)) ∂(law m v)
      ≤ ∫ η, (r η / (field m v η * c) - 1 + Real.log c) ∂(law m v) := by
    refine integral_mono (hlog.sub hq) ((hi.sub (integrable_const _)).add (integrable_const _)) fun η => ?_
    have hf := field_pos m v hv η
    have h := Real.log_le_sub_one_of_pos (div_pos (hr η) (mul_pos hf hcpos))
    rw [Real.log_div (hr η).ne' (mul_pos hf hcpos).ne', Real.log_mul hf.ne' hcpos.ne'] at h
    show Real.log (r η) - Real.log (field m v η) ≤ r η / (field m v η * c) - 1 + Real.log c
    linarith
  refine hle.trans (le_of_eq ?_)
  have hi1 : Integrable (fun η => r η / (field m v η * c) - 1) (law m v) := hi.sub (integrable_const _)
  rw [integral_add hi1 (integrable_const _), integral_sub hi (integrable_const _), hone, integral_const, integral_const]
  simp

/-! ## Vectors with a covariance -/

/-- The quadratic form of a matrix -/
def quad (A : Matrix (Fin K) (Fin K) ℝ) (x : Fin K → ℝ) : ℝ := ∑ i, ∑ j, A i j * (x i * x j)

/-- The density of a Gaussian vector with mean `μ` and covariance `S` -/
noncomputable def density (μ : Fin K → ℝ) (S : Matrix (Fin K) (Fin K) ℝ) (η : Fin K → ℝ) : ℝ :=
  Real.exp (-(quad S⁻¹ (fun k => η k - μ k)) / 2) / Real.sqrt ((2 * Real.pi) ^ K * S.det)

theorem quad_eq (A : Matrix (Fin K) (Fin K) ℝ) (x : Fin K → ℝ) : quad A x = x ⬝ᵥ (A *ᵥ x) := by
  unfold quad Matrix.mulVec dotProduct
  refine Finset.sum_congr rfl fun i _ => ?_
  dsimp only
  rw [Finset.mul_sum]
  refine Finset.sum_congr rfl fun j _ => ?_
  ring

theorem quad_sq (B : Matrix (Fin K) (Fin K) ℝ) (x : Fin K → ℝ) : quad (Bᵀ * B) x = ∑ k, (B *ᵥ x) k ^ 2 := by
  rw [quad_eq, ← Matrix.mulVec_mulVec, Matrix.dotProduct_mulVec, Matrix.vecMul_transpose]
  unfold dotProduct
  exact Finset.sum_congr rfl fun k _ => (sq _).symm

theorem factor (A : Matrix (Fin K) (Fin K) ℝ) (hA : A.PosDef) : ∃ B : Matrix (Fin K) (Fin K) ℝ, A = Bᵀ * B ∧ B.det ≠ 0 ∧ |B.det| = Real.sqrt A.det := by
  obtain ⟨B, hB⟩ := CStarAlgebra.nonneg_iff_eq_star_mul_self.1 hA.posSemidef.nonneg
  have hB' : A = Bᵀ * B := by
    rw [hB, Matrix.star_eq_conjTranspose, Matrix.conjTranspose_eq_transpose_of_trivial]
  have hdet : A.det = B.det * B.det := by rw [hB', Matrix.det_mul, Matrix.det_transpose]
  have hpos := hA.det_pos
  refine ⟨B, hB', ?_, ?_⟩
  · intro h
    rw [h, mul_zero] at hdet
    exact hpos.ne' hdet
  · rw [hdet, Real.sqrt_mul_self_eq_abs]

theorem sqrt_pow {x : ℝ} (hx : 0 ≤ x) (n : Nat) : Real.sqrt (x ^ n) = Real.sqrt x ^ n := by
  rw [Real.sqrt_eq_iff_mul_self_eq (pow_nonneg hx n) (pow_nonneg (Real.sqrt_nonneg x) n), ← mul_pow, Real.mul_self_sqrt hx]

theorem standard_exp (y : Fin K → ℝ) : Real.exp (-(∑ k, y k ^ 2) / 2) = Real.sqrt ((2 * Real.pi) ^ K) * field (fun _ => 0) (fun _ => 1) y := by
  have h2 : (0 : ℝ) < 2 * Real.pi := by positivity
  unfold field gaussianPDFReal
  rw [Finset.prod_mul_distrib, ← Real.exp_sum, Finset.prod_const, Finset.card_univ, Fintype.card_fin, sqrt_pow h2.le]
  simp only [NNReal.coe_one, mul_one, sub_zero]
  rw [inv_pow, ← mul_assoc, mul_inv_cancel₀ (pow_pos (Real.sqrt_pos.2 h2) K).ne', one_mul, ← Finset.sum_div, Finset.sum_neg_distrib]

/-- The density of a Gaussian vector is integrable, and its integral is one. -/
theorem density_one (μ : Fin K → ℝ) (S : Matrix (Fin K) (Fin K) ℝ) (hS : S.PosDef) :
    Integrable (density μ S) ∧ ∫ η, density μ S η = 1 := by
  obtain ⟨B, hB, hdet, habs⟩ := factor S⁻¹ hS.inv
  have hSdet := hS.det_pos
  obtain ⟨g, hg⟩ : ∃ g : (Fin K → ℝ) → ℝ, g = fun y => Real.exp (-(∑ k, y k ^ 2) / 2) := ⟨_, rfl⟩
  have hgm : Continuous g := by rw [hg]; fun_prop
  have hgi : Integrable g ∧ ∫ y, g y = Real.sqrt ((2 * Real.pi) ^ K) := by
    obtain ⟨h1, h2⟩ := law_one (fun _ : Fin K => (0 : ℝ)) (fun _ => 1) (fun _ => one_ne_zero)
    simp only [hg, standard_exp]
    exact ⟨h1.const_mul _, by rw [integral_const_mul, h2, mul_one]⟩
  have hmap := Real.map_matrix_volume_pi_eq_smul_volume_pi hdet
  have hmeas : Measurable (Matrix.toLin' B) := (LinearMap.continuous_of_finiteDimensional _).measurable
  have hcomp : Integrable (fun x => g (Matrix.toLin' B x)) ∧ ∫ x, g (Matrix.toLin' B x) = |B.det|⁻¹ * Real.sqrt ((2 * Real.pi) ^ K) := by
    constructor
    · have := (integrable_map_measure (f := Matrix.toLin' B) (μ := volume) (g := g) hgm.aestronglyMeasurable hmeas.aemeasurable).1
        (by rw [hmap]; exact hgi.1.smul_measure ENNReal.ofReal_ne_top)
      exact this
    · rw [← integral_map (φ := Matrix.toLin' B) (f := g) hmeas.aemeasurable hgm.aestronglyMeasurable, hmap, integral_smul_measure, hgi.2,
        ENNReal.toReal_ofReal (abs_nonneg _), abs_inv, smul_eq_mul]
  have hd : density μ S = fun η => (fun x => g (Matrix.toLin' B x)) (η - μ) / Real.sqrt ((2 * Real.pi) ^ K * S.det) := by
    funext η
    unfold density
    rw [hB, quad_sq, hg]
    rfl
  rw [hd]
  refine ⟨(hcomp.1.comp_sub_right μ).div_const _, ?_⟩
  rw [integral_div, integral_sub_right_eq_self (fun x => g (Matrix.toLin' B x)) μ, hcomp.2, habs, Real.sqrt_mul (by positivity), Matrix.det_nonsing_inv,
    Ring.inverse_eq_inv', Real.sqrt_inv, inv_inv]
  have h1 : Real.sqrt ((2 * Real.pi) ^ K) ≠ 0 := (Real.sqrt_pos.2 (by positivity)).ne'
  have h2 : Real.sqrt S.det ≠ 0 := (Real.sqrt_pos.2 hSdet).ne'
  field_simp

theorem density_pos (μ : Fin K → ℝ) (S : Matrix (Fin K) (Fin K) ℝ) (hS : S.PosDef) (η : Fin K → ℝ) : 0 < density μ S η := by
  have := hS.det_pos
  exact div_pos (Real.exp_pos _) (Real.sqrt_pos.2 (by positivity))

/-- The relative entropy of independent Gaussian variables to a Gaussian vector, negative -/
noncomputable def gaussTerm (μ : Fin K → ℝ) (S : Matrix (Fin K) (Fin K) ℝ) (m : Fin K → ℝ) (v : Fin K → ℝ≥0) : ℝ :=
  -(K / 2 * Real.log (2 * Real.pi)) - Real.log S.det / 2 - quad S⁻¹ (fun k => m k - μ k) / 2 - (∑ k, S⁻¹ k k * v k) / 2
    + ∑ k, (Real.log (2 * Real.pi * v k) / 2 + 1 / 2)

/-- The expected logarithm of the density of the vector, under independent variables -/
theorem density_log (μ : Fin K → ℝ) (S : Matrix (Fin K) (Fin K) ℝ) (hS : S.PosDef) (m : Fin K → ℝ) (v : Fin K → ℝ≥0) (hv : ∀ k, v k ≠ 0) :
    Integrable (fun η => Real.log (density μ S η)) (law m v) ∧
    ∫ η, Real.log (density μ S η) ∂(law m v) = -(K / 2 * Real.log (2 * Real.pi)) - Real.log S.det / 2 - quad S⁻¹ (fun k => m k - μ k) / 2
      - (∑ k, S⁻¹ k k * v k) / 2 := by
  have hp := law_probability m v hv
  have hdet := hS.det_pos
  have hlog : ∀ η, Real.log (density μ S η) = -(K / 2 * Real.log (2 * Real.pi)) - Real.log S.det / 2
      - (∑ i, ∑ j, S⁻¹ i j * ((η i - μ i) * (η j - μ j))) / 2 := by
    intro η
    have h2 : (0 : ℝ) < (2 * Real.pi) ^ K := by positivity
    unfold density quad
    rw [Real.log_div (Real.exp_pos _).ne' (Real.sqrt_pos.2 (mul_pos h2 hdet)).ne', Real.log_exp, Real.log_sqrt (mul_pos h2 hdet).le,
      Real.log_mul h2.ne' hdet.ne', Real.log_pow]
    ring
  simp only [hlog]
  have hij : ∀ i j, Integrable (fun η : Fin K → ℝ => S⁻¹ i j * ((η i - μ i) * (η j - μ j))) (law m v) :=
    fun i j => (law_moment m v hv μ i j).1.const_mul _
  have hi : ∀ i, Integrable (fun η : Fin K → ℝ => ∑ j, S⁻¹ i j * ((η i - μ i) * (η j - μ j))) (law m v) :=
    fun i => integrable_finsetSum _ fun j _ => hij i j
  have hall : Integrable (fun η : Fin K → ℝ => ∑ i, ∑ j, S⁻¹ i j * ((η i - μ i) * (η j - μ j))) (law m v) :=
    integrable_finsetSum _ fun i _ => hi i
  refine ⟨(integrable_const _).sub (hall.div_const 2), ?_⟩
  rw [integral_sub (integrable_const _) (hall.div_const 2), integral_const, integral_div, integral_finsetSum _ fun i _ => hi i]
  have hval : ∀ i, ∫ η, ∑ j, S⁻¹ i j * ((η i - μ i) * (η j - μ j)) ∂(law m v) = ∑ j, S⁻¹ i j * ((m i - μ i) * (m j - μ j)) + S⁻¹ i i * v i := by
    intro i
    rw [integral_finsetSum _ fun j _ => hij i j]
    have : ∀ j, ∫ η, S⁻¹ i j * ((η i - μ i) * (η j - μ j)) ∂(law m v)
        = S⁻¹ i j * ((m i - μ i) * (m j - μ j)) + if i = j then S⁻¹ i j * (v i : ℝ) else 0 := by
      intro j
      rw [integral_const_mul, (law_moment m v hv μ i j).2, mul_add]
      split_ifs <;> simp
    rw [Finset.sum_congr rfl fun j _ => this j, Finset.sum_add_distrib, Finset.sum_ite_eq Finset.univ i, if_pos (Finset.mem_univ i)]
  rw [Finset.sum_congr rfl fun i _ => hval i, Finset.sum_add_distrib]
  unfold quad
  simp
  ring

/-- The evidence bound: the logarithm of the expectation of `f` under the Gaussian vector is at least the expected logarithm of `f` under
independent variables, minus the relative entropy. -/
theorem evidence_bound (μ : Fin K → ℝ) (S : Matrix (Fin K) (Fin K) ℝ) (hS : S.PosDef) (m : Fin K → ℝ) (v : Fin K → ℝ≥0) (hv : ∀ k, v k ≠ 0)
    (f : (Fin K → ℝ) → ℝ) (hf : ∀ η, 0 < f η) (hf1 : ∀ η, f η ≤ 1) (hfm : Continuous f) (hlog : Integrable (fun η => Real.log (f η)) (law m v)) :
    ∫ η, Real.log (f η) ∂(law m v) + gaussTerm μ S m v ≤ Real.log (∫ η, density μ S η * f η) := by
  obtain ⟨hd, hdi⟩ := density_log μ S hS m v hv
  obtain ⟨hq, hqi⟩ := law_entropy m v hv
  have hint : Integrable (fun η => density μ S η * f η) := by
    refine (density_one μ S hS).1.mul_bdd (c := 1) hfm.aestronglyMeasurable (Filter.Eventually.of_forall fun η => ?_)
    rw [Real.norm_of_nonneg (hf η).le]
    exact hf1 η
  have hsum : ∀ η, Real.log (density μ S η * f η) = Real.log (density μ S η) + Real.log (f η) :=
    fun η => Real.log_mul (density_pos μ S hS η).ne' (hf η).ne'
  have h := gibbs m v hv (fun η => density μ S η * f η) (fun η => mul_pos (density_pos μ S hS η) (hf η)) hint (by
    simp only [hsum]
    exact hd.add hlog)
  simp only [hsum] at h
  rw [integral_add hd hlog, hdi, hqi] at h
  unfold gaussTerm
  linarith

end Verif.Gauss
