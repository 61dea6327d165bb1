import Mathlib.Analysis.Matrix.Order
import Verif.Props.Stm
import Verif.Props.StmModel

/-!
# The covariance and the topic weights of the topic models with document features (C159–C161)
-/

namespace Verif.Props.StmCov

open Verif Verif.Stm
open Verif.Ctm hiding State train
open Verif.Mom (Data)
open Verif.Props.Ctm
open Verif.Props.Bohning
open Verif.Props.Stm
open Matrix
open scoped MatrixOrder

/-! ## The best covariance -/

/-- A positive semidefinite matrix has a square root. -/
theorem sqrt_exists {n : Type*} [Fintype n] [DecidableEq n] (A : Matrix n n ℝ) (h : A.PosSemidef) : ∃ B : Matrix n n ℝ, A = Bᴴ * B := by
  have h0 : 0 ≤ A := h.nonneg
  obtain ⟨B, hB⟩ := CStarAlgebra.nonneg_iff_eq_star_mul_self.mp h0
  exact ⟨B, hB⟩

/-- The logarithm of the determinant is at most the trace minus the dimension. -/
theorem log_det_le {n : Type*} [Fintype n] [DecidableEq n] (B : Matrix n n ℝ) (h : B.PosDef) : Real.log B.det ≤ B.trace - Fintype.card n := by
  rw [h.1.det_eq_prod_eigenvalues, h.1.trace_eq_sum_eigenvalues]
  simp only [RCLike.ofReal_real_eq_id, id_eq]
  rw [Real.log_prod (fun i _ => ne_of_gt (h.eigenvalues_pos i))]
  have : ∀ i ∈ (Finset.univ : Finset n), Real.log (h.1.eigenvalues i) ≤ h.1.eigenvalues i - 1 := fun i _ => by
    have := Real.log_le_sub_one_of_pos (h.eigenvalues_pos i)
    exact this
  have h2 := Finset.sum_le_sum this
  rw [Finset.sum_sub_distrib] at h2
  simpa using h2

/-- The Gaussian likelihood is largest at the sample covariance. -/
theorem gauss_optimal {n : Type*} [Fintype n] [DecidableEq n] (S C : Matrix n n ℝ) (hS : S.PosDef) (hC : C.PosDef) (N : ℝ) (hN : 0 < N) :
    N * Real.log ((1 / N) • S).det + (((1 / N) • S)⁻¹ * S).trace ≤ N * Real.log C.det + (C⁻¹ * S).trace := by
  have hN' : N ≠ 0 := ne_of_gt hN
  have hS' : ((1 / N) • S).PosDef := hS.smul (by positivity)
  obtain ⟨L, hL⟩ := sqrt_exists C⁻¹ hC.inv.posSemidef
  have hLu : IsUnit L := by
    have : IsUnit (Lᴴ * L) := by rw [← hL]; exact hC.inv.isUnit
    exact (Matrix.isUnit_iff_isUnit_det _).mpr (by
      have h1 := (Matrix.isUnit_iff_isUnit_det _).mp this
      rw [Matrix.det_mul] at h1
      exact isUnit_of_mul_isUnit_right h1)
  have hB : (L * ((1 / N) • S) * Lᴴ).PosDef := hS'.mul_mul_conjTranspose_same (by
    rw [Matrix.vecMul_injective_iff_isUnit]; exact hLu)
  have h1 := log_det_le _ hB
  have hdet : (L * ((1 / N) • S) * Lᴴ).det = C.det⁻¹ * ((1 / N) • S).det := by
    have : C⁻¹.det = Lᴴ.det * L.det := by rw [hL, Matrix.det_mul]
    rw [Matrix.det_nonsing_inv, Ring.inverse_eq_inv'] at this
    rw [Matrix.det_mul, Matrix.det_mul, this]
    ring
  have htr : (L * ((1 / N) • S) * Lᴴ).trace = 1 / N * (C⁻¹ * S).trace := by
    rw [Matrix.trace_mul_comm, ← Matrix.mul_assoc, ← hL, Matrix.mul_smul, Matrix.trace_smul, smul_eq_mul]
  have h2 : (((1 / N) • S)⁻¹ * S).trace = N * Fintype.card n := by
    have hu := (Matrix.isUnit_iff_isUnit_det _).mp hS'.isUnit
    have : (((1 / N) • S)⁻¹ * S) = N • (1 : Matrix n n ℝ) := by
      have h3 := Matrix.nonsing_inv_mul ((1 / N) • S) hu
      rw [Matrix.mul_smul] at h3
      rw [← h3, smul_smul]
      rw [mul_one_div_cancel hN', one_smul]
    rw [this, Matrix.trace_smul, Matrix.trace_one, smul_eq_mul]
  rw [hdet, htr, Real.log_mul (inv_ne_zero (ne_of_gt hC.det_pos)) (ne_of_gt hS'.det_pos), Real.log_inv] at h1
  rw [h2]
  have h4 := mul_le_mul_of_nonneg_left h1 (le_of_lt hN)
  have h5 : N * (1 / N * (C⁻¹ * S).trace - Fintype.card n) = (C⁻¹ * S).trace - N * Fintype.card n := by field_simp
  rw [h5] at h4
  linarith

/-- `yᵀ C⁻¹ y` -/
noncomputable def form {K : Nat} (C : Matrix (Fin K) (Fin K) ℝ) (y : Nat → ℝ) : ℝ := ∑ i : Fin K, ∑ j : Fin K, y i * C⁻¹ i j * y j

/-- Minus twice the expected logarithm of the density of all Gaussian variables with covariance (proportional to) `C`, up to a constant: the
columns of `Y` around zero, those of `A` around `Y V`, and the topic weights of the documents, with their variances, around their
prediction from the features. -/
noncomputable def misfit {K : Nat} (p : Params) (x : Data) (X A Y V means varcs : Nat → Nat → ℝ) (C : Matrix (Fin K) (Fin K) ℝ) : ℝ :=
  ((p.P : ℝ) + x.D + p.F) * Real.log C.det
    + ∑ l ∈ Finset.range p.P, 1 / p.lfv * form C (fun k => Y k l)
    + ∑ f ∈ Finset.range p.F, 1 / p.fv * form C (fun k => A k f - ∑ l ∈ Finset.range p.P, Y k l * V l f)
    + ∑ d ∈ Finset.range x.D, (form C (fun k => means d k - ∑ f ∈ Finset.range p.F, X d f * A k f) + ∑ k : Fin K, varcs d k * C⁻¹ k k)

theorem sum_outer {K n : Nat} (Q : Matrix (Fin K) (Fin K) ℝ) (w : ℝ) (a : Nat → Nat → ℝ) :
    ∑ i : Fin K, ∑ j : Fin K, Q i j * (w * ∑ l ∈ Finset.range n, a j l * a i l)
      = ∑ l ∈ Finset.range n, w * ∑ i : Fin K, ∑ j : Fin K, a i l * Q i j * a j l := by
  simp only [Finset.mul_sum]
  rw [Finset.sum_comm' (s := Finset.range n) (t := fun _ => (Finset.univ : Finset (Fin K))) (t' := Finset.univ)
    (s' := fun _ => Finset.range n) (by simp)]
  refine Finset.sum_congr rfl fun i _ => ?_
  rw [Finset.sum_comm' (s := Finset.range n) (t := fun _ => (Finset.univ : Finset (Fin K))) (t' := Finset.univ)
    (s' := fun _ => Finset.range n) (by simp)]
  exact Finset.sum_congr rfl fun j _ => Finset.sum_congr rfl fun l _ => by ring

/-- The covariance of `train`, not scaled, as a matrix -/
noncomputable def covMatrix (p : Params) (x : Data) (X A Y V means varcs : Nat → Nat → ℝ) : Matrix (Fin p.K) (Fin p.K) ℝ :=
  Matrix.of fun i j => covariance p x X A Y V means varcs i j

theorem trace_cov (p : Params) (x : Data) (X A Y V means varcs : Nat → Nat → ℝ) (C : Matrix (Fin p.K) (Fin p.K) ℝ) :
    (C⁻¹ * covMatrix p x X A Y V means varcs).trace
      = ∑ l ∈ Finset.range p.P, 1 / p.lfv * form C (fun k => Y k l)
        + ∑ f ∈ Finset.range p.F, 1 / p.fv * form C (fun k => A k f - ∑ l ∈ Finset.range p.P, Y k l * V l f)
        + ∑ d ∈ Finset.range x.D,
          (form C (fun k => means d k - ∑ f ∈ Finset.range p.F, X d f * A k f) + ∑ k : Fin p.K, varcs d k * C⁻¹ k k) := by
  have h : (C⁻¹ * covMatrix p x X A Y V means varcs).trace = ∑ i : Fin p.K, ∑ j : Fin p.K, C⁻¹ i j * covariance p x X A Y V means varcs j i := rfl
  have h1 := sum_outer C⁻¹ (1 / p.lfv) Y (n := p.P)
  have h2 := sum_outer C⁻¹ (1 / p.fv) (fun k f => A k f - ∑ l ∈ Finset.range p.P, Y k l * V l f) (n := p.F)
  have h3 := sum_outer C⁻¹ 1 (fun k d => means d k - ∑ f ∈ Finset.range p.F, X d f * A k f) (n := x.D)
  have h4 : ∑ i : Fin p.K, ∑ j : Fin p.K, C⁻¹ i j * (if (j : Nat) = (i : Nat) then ∑ d ∈ Finset.range x.D, varcs d j else 0)
      = ∑ d ∈ Finset.range x.D, ∑ k : Fin p.K, varcs d k * C⁻¹ k k := by
    rw [Finset.sum_comm' (s := Finset.range x.D) (t := fun _ => (Finset.univ : Finset (Fin p.K))) (t' := Finset.univ)
      (s' := fun _ => Finset.range x.D) (by simp)]
    refine Finset.sum_congr rfl fun i _ => ?_
    have : ∀ j ∈ (Finset.univ : Finset (Fin p.K)), C⁻¹ i j * (if (j : Nat) = (i : Nat) then ∑ d ∈ Finset.range x.D, varcs d j else 0)
        = if j = i then C⁻¹ i j * ∑ d ∈ Finset.range x.D, varcs d j else 0 := by
      intro j _
      by_cases hj : j = i
      · rw [if_pos hj, if_pos (by rw [hj])]
      · rw [if_neg hj, if_neg (fun hh => hj (Fin.ext hh)), mul_zero]
    rw [Finset.sum_congr rfl this, Finset.sum_ite_eq' Finset.univ i, if_pos (Finset.mem_univ _), Finset.mul_sum]
    exact Finset.sum_congr rfl fun d _ => mul_comm _ _
  rw [h]
  unfold covariance
  simp only [mul_add, Finset.sum_add_distrib]
  rw [h4]
  unfold form
  simp only [one_mul] at h3
  have e1 : ∑ i : Fin p.K, ∑ j : Fin p.K, C⁻¹ i j * (1 / p.lfv * dotT p.P Y Y j i) = _ := h1
  have e2 : ∑ i : Fin p.K, ∑ j : Fin p.K, C⁻¹ i j * (1 / p.fv * dotT p.F (fun k f => A k f - dot p.P Y V k f) (fun k f => A k f - dot p.P Y V k f) j i)
    = _ := h2
  have e3 : ∑ i : Fin p.K, ∑ j : Fin p.K, C⁻¹ i j *
    tDot x.D (fun d k => means d k - dotT p.F X A d k) (fun d k => means d k - dotT p.F X A d k) j i = _ := h3
  rw [e1, e2, e3]
  ring

theorem covMatrix_posDef (p : Params) (hfv : 0 < p.fv) (hlfv : 0 < p.lfv) (x : Data) (hD : 0 < x.D) (X A Y V means varcs : Nat → Nat → ℝ)
    (hv : ∀ d k, d < x.D → k < p.K → 0 < varcs d k) : (covMatrix p x X A Y V means varcs).PosDef := by
  set M1 : Matrix (Fin p.K) (Fin p.P) ℝ := Matrix.of fun i l => Y i l with hM1
  set M2 : Matrix (Fin p.K) (Fin p.F) ℝ := Matrix.of fun i f => A i f - dot p.P Y V i f with hM2
  set M3 : Matrix (Fin p.K) (Fin x.D) ℝ := Matrix.of fun i d => means d i - dotT p.F X A d i with hM3
  have he : covMatrix p x X A Y V means varcs
      = ((1 / p.lfv) • (M1 * M1ᴴ) + (1 / p.fv) • (M2 * M2ᴴ) + M3 * M3ᴴ)
        + Matrix.diagonal fun k : Fin p.K => ∑ d ∈ Finset.range x.D, varcs d k := by
    ext i j
    simp only [covMatrix, Matrix.of_apply, Matrix.add_apply, Matrix.smul_apply, smul_eq_mul, Matrix.mul_apply, Matrix.conjTranspose_apply,
      star_trivial, hM1, hM2, hM3, covariance, Matrix.diagonal_apply]
    congr 1
    · congr 1
      · congr 1
        · congr 1
          unfold dotT
          rw [Finset.sum_range]
        · congr 1
          show ∑ l ∈ Finset.range p.F, _ = _
          rw [Finset.sum_range]
      · show ∑ l ∈ Finset.range x.D, _ = _
        rw [Finset.sum_range]
    · simp only [Fin.ext_iff]
  rw [he]
  refine Matrix.PosDef.posSemidef_add ?_ ?_
  · refine (Matrix.PosSemidef.add (Matrix.PosSemidef.add ?_ ?_) (Matrix.posSemidef_self_mul_conjTranspose M3))
    · exact (Matrix.posSemidef_self_mul_conjTranspose M1).smul (by positivity)
    · exact (Matrix.posSemidef_self_mul_conjTranspose M2).smul (by positivity)
  · rw [Matrix.posDef_diagonal_iff]
    exact fun k => Finset.sum_pos (fun d hd => hv d k (Finset.mem_range.mp hd) k.2) ⟨0, Finset.mem_range.mpr hD⟩

/-- C159: the covariance that training stores is the best one of all, given the other parameters and the topic weights with their variances. -/
theorem covariance_optimal (p : Params) (hfv : 0 < p.fv) (hlfv : 0 < p.lfv) (x : Data) (hD : 0 < x.D) (X A Y V means varcs : Nat → Nat → ℝ)
    (hv : ∀ d k, d < x.D → k < p.K → 0 < varcs d k) (C : Matrix (Fin p.K) (Fin p.K) ℝ) (hC : C.PosDef) :
    misfit p x X A Y V means varcs (Matrix.of fun i j : Fin p.K => covariance p x X A Y V means varcs i j * sigScale p x)
      ≤ misfit p x X A Y V means varcs C := by
  have hN : (0 : ℝ) < (p.P : ℝ) + x.D + p.F := by
    have : (0 : ℝ) < x.D := by exact_mod_cast hD
    positivity
  have h := gauss_optimal (covMatrix p x X A Y V means varcs) C (covMatrix_posDef p hfv hlfv x hD X A Y V means varcs hv) hC _ hN
  have he : (Matrix.of fun i j : Fin p.K => covariance p x X A Y V means varcs i j * sigScale p x)
      = (1 / ((p.P : ℝ) + x.D + p.F)) • covMatrix p x X A Y V means varcs := by
    ext i j
    simp only [Matrix.of_apply, Matrix.smul_apply, smul_eq_mul, covMatrix, sigScale]
    ring
  rw [he]
  rw [trace_cov, trace_cov] at h
  unfold misfit
  linarith

/-- C159: it is the covariance of the iteration of `stm_uv_vecy_bohning.py`. -/
theorem uv_covariance (inv : Nat → (Nat → Nat → ℝ) → Nat → Nat → ℝ)
    (update : (Nat → Nat → Nat → ℝ) → (Nat → Nat → ℝ) → (Nat → Nat → ℝ) → Nat → Nat → ℝ) (p : Params) (hfv : 0 < p.fv) (hlfv : 0 < p.lfv)
    (x : Data) (hD : 0 < x.D) (X : Nat → Nat → ℝ) (st : State) (hv : ∀ d k, d < x.D → k < p.K → 0 < st.varcs d k) (n : Nat) (hn : 0 < n)
    (C : Matrix (Fin p.K) (Fin p.K) ℝ) (hC : C.PosDef) :
    ∃ sig, trainedCovariance p x n (uvStep inv update p x X st) = .ok sig ∧
      misfit p x X st.A st.Y st.V st.means st.varcs (Matrix.of fun i j : Fin p.K => sig i j) ≤ misfit p x X st.A st.Y st.V st.means st.varcs C := by
  refine ⟨fun k j => covariance p x X st.A st.Y st.V st.means st.varcs k j * sigScale p x, ?_, ?_⟩
  · unfold trainedCovariance
    rw [if_neg (by omega)]
    rfl
  · exact covariance_optimal p hfv hlfv x hD X st.A st.Y st.V st.means st.varcs hv C hC

/-! ## Training with an exact inverse -/

/-- The exact inverse of a matrix of size `K` -/
noncomputable def exactInv (K : Nat) (M : Nat → Nat → ℝ) (i j : Nat) : ℝ :=
  if h : i < K ∧ j < K then (Matrix.of fun a b : Fin K => M a b)⁻¹ ⟨i, h.1⟩ ⟨j, h.2⟩ else 0

/-- The matrix of size `K` -/
def mat (K : Nat) (M : Nat → Nat → ℝ) : Matrix (Fin K) (Fin K) ℝ := Matrix.of fun a b => M a b

theorem mat_exactInv (K : Nat) (M : Nat → Nat → ℝ) : mat K (exactInv K M) = (mat K M)⁻¹ := by
  ext i j
  show exactInv K M i j = _
  unfold exactInv
  rw [dif_pos ⟨i.2, j.2⟩]
  rfl

theorem isInv_of_mat (K : Nat) (M N : Nat → Nat → ℝ) (h : mat K M * mat K N = 1) : IsInv K M N := by
  intro i j hi hj
  have := congrFun (congrFun h ⟨i, hi⟩) ⟨j, hj⟩
  rw [Matrix.mul_apply, Matrix.one_apply] at this
  rw [Finset.sum_range]
  simp only [Fin.mk.injEq] at this
  exact this

theorem exactInv_two (K : Nat) (M : Nat → Nat → ℝ) (h : (mat K M).PosDef) : TwoSided K M (exactInv K M) := by
  have hu := h.isUnit
  constructor
  · apply isInv_of_mat
    rw [mat_exactInv]
    exact Matrix.mul_nonsing_inv _ ((Matrix.isUnit_iff_isUnit_det _).mp hu)
  · apply isInv_of_mat
    rw [mat_exactInv]
    exact Matrix.nonsing_inv_mul _ ((Matrix.isUnit_iff_isUnit_det _).mp hu)

theorem exactInv_posDef (K : Nat) (M : Nat → Nat → ℝ) (h : (mat K M).PosDef) : (mat K (exactInv K M)).PosDef := by
  rw [mat_exactInv]
  exact h.inv

theorem quad_eq (K : Nat) (M : Nat → Nat → ℝ) (y : Nat → ℝ) :
    quad K M y = star (fun i : Fin K => y i) ⬝ᵥ (mat K M *ᵥ fun i : Fin K => y i) := by
  unfold quad
  rw [Finset.sum_range]
  refine Finset.sum_congr rfl fun i _ => ?_
  rw [star_trivial, Finset.sum_range]
  rfl

theorem exactInv_symm (K : Nat) (M : Nat → Nat → ℝ) (h : (mat K M).PosDef) (i j : Nat) : exactInv K M i j = exactInv K M j i := by
  by_cases hij : i < K ∧ j < K
  · have h1 := (exactInv_posDef K M h).1
    have := congrFun (congrFun h1 ⟨j, hij.2⟩) ⟨i, hij.1⟩
    rw [Matrix.conjTranspose_apply, star_trivial] at this
    exact this
  · unfold exactInv
    rw [dif_neg hij, dif_neg (fun hh => hij ⟨hh.2, hh.1⟩)]

theorem exactInv_prec (K : Nat) (M : Nat → Nat → ℝ) (h : (mat K M).PosDef) : IsPrec K (exactInv K M) := by
  refine ⟨exactInv_symm K M h, fun y => ?_⟩
  rw [quad_eq]
  exact (exactInv_posDef K M h).posSemidef.dotProduct_mulVec_nonneg _

theorem bohning_posSemidef (K : Nat) : (mat K (bohningA K)).PosSemidef := by
  refine Matrix.PosSemidef.of_dotProduct_mulVec_nonneg ?_ ?_
  · ext i j
    rw [Matrix.conjTranspose_apply, star_trivial]
    exact bohningA_symm K j i
  · intro v
    have h := quad_bohning_nonneg K (fun k => if hk : k < K then v ⟨k, hk⟩ else 0)
    rw [quad_eq] at h
    simpa using h

/-- What training keeps: positive variances and topics without zeros -/
structure Good (p : Params) (x : Data) (st : State) : Prop where
  varcs : ∀ d k, d < x.D → k < p.K → 0 < st.varcs d k
  topics : Topics p.K x.T st.vocab

section
variable (p : Params) (hfv : 0 < p.fv) (hlfv : 0 < p.lfv) (x : Data) (hD : 0 < x.D) (X : Nat → Nat → ℝ) (st : State)
include hD

theorem sigScale_pos : 0 < sigScale p x := by
  unfold sigScale
  have : (0 : ℝ) < x.D := by exact_mod_cast hD
  positivity

include hfv hlfv

theorem cov_posDef (hg : Good p x st) : (mat p.K (covariance p x X st.A st.Y st.V st.means st.varcs)).PosDef :=
  covMatrix_posDef p hfv hlfv x hD X st.A st.Y st.V st.means st.varcs hg.varcs

/-- The scaled covariance -/
theorem scaled_posDef (hg : Good p x st) :
    (mat p.K fun k j => covariance p x X st.A st.Y st.V st.means st.varcs k j * sigScale p x).PosDef := by
  have h := (cov_posDef p hfv hlfv x hD X st hg).smul (sigScale_pos p x hD)
  have he : (mat p.K fun k j => covariance p x X st.A st.Y st.V st.means st.varcs k j * sigScale p x)
      = sigScale p x • mat p.K (covariance p x X st.A st.Y st.V st.means st.varcs) := by
    ext i j
    exact mul_comm _ _
  rw [he]
  exact h

omit hfv hlfv hD in
theorem diag_pos (M : Nat → Nat → ℝ) (h : (mat p.K M).PosDef) (k : Nat) (hk : k < p.K) : 0 < M k k :=
  h.diag_pos (i := ⟨k, hk⟩)

/-- C160: an iteration keeps the variances positive and the topics distributions without zeros. -/
theorem uv_step_good (hK : 0 < p.K) (hT : 0 < x.T) (hprior : 0 < p.prior)
    (update : (Nat → Nat → Nat → ℝ) → (Nat → Nat → ℝ) → (Nat → Nat → ℝ) → Nat → Nat → ℝ) (hg : Good p x st) :
    Good p x (uvStep exactInv update p x X st) := by
  refine ⟨fun d k _ hk => ?_, vocab_dist x p.K p.prior hprior st.means st.vocab hK hT hg.topics⟩
  show 0 < newVarcs p x (exactInv p.K (covariance p x X st.A st.Y st.V st.means st.varcs)) d k
  have h := diag_pos p _ (exactInv_posDef p.K _ (cov_posDef p hfv hlfv x hD X st hg)) k hk
  have hs := sigScale_pos p x hD
  unfold newVarcs
  have h1 : (1 : ℝ) ≤ p.K := by exact_mod_cast hK
  have h2 : (0 : ℝ) ≤ (x.len d : ℝ) * ((p.K : ℝ) - 1) / (p.K : ℝ) := by
    have : (0 : ℝ) ≤ (p.K : ℝ) - 1 := by linarith
    positivity
  positivity

omit hfv hlfv hD in
theorem precision_posDef (M : Nat → Nat → ℝ) (h : (mat p.K M).PosDef) (hAb : p.Ab = bohningA p.K) (c : ℝ) (hc : 0 ≤ c) :
    (mat p.K fun i l => M i l + c * p.Ab i l).PosDef := by
  have he : (mat p.K fun i l => M i l + c * p.Ab i l) = mat p.K M + c • mat p.K (bohningA p.K) := by
    rw [hAb]
    ext i j
    rfl
  rw [he]
  exact h.add_posSemidef ((bohning_posSemidef p.K).smul hc)

/-- C160: the new topic weights of training are those of an iteration of a query with the new parameters and the covariance that training
would return. -/
theorem uv_step_is_query (hAb : p.Ab = bohningA p.K) (hg : Good p x st) (e v : Nat → Nat → ℝ) (d k : Nat) (hd : d < x.D) (hk : k < p.K) :
    let new := uvStep exactInv (own p.K x) p x X st
    new.means d k = (queryStep exactInv p x X new.A (exactInv p.K fun i j => new.sig i j * sigScale p x) new.vocab
      ⟨st.means, e, v⟩).means d k := by
  intro new
  set sig := covariance p x X st.A st.Y st.V st.means st.varcs with hsig
  have hnew : new.sig = sig := rfl
  have hs := sigScale_pos p x hD
  have c1 := cov_posDef p hfv hlfv x hD X st hg
  have c2 := scaled_posDef p hfv hlfv x hD X st hg
  rw [← hsig] at c1 c2
  have i1 := exactInv_posDef p.K _ c1
  have i2 := exactInv_posDef p.K _ c2
  have c3 := precision_posDef p _ i1 hAb (sigScale p x * (x.len d : ℝ)) (by positivity)
  have c4 := precision_posDef p _ i2 hAb (x.len d : ℝ) (by positivity)
  obtain ⟨r1, -, r3⟩ := rescaled exactInv p x hD sig (x.len d) (exactInv_two _ _ c1) (exactInv_two _ _ c2) (exactInv_two _ _ c3)
    (exactInv_two _ _ c4)
  rw [query_step_means exactInv p x X new.A _ new.vocab _ d hd k, hnew]
  have hm : new.means d k = ∑ j ∈ Finset.range p.K, newRhs p x X new.A (exactInv p.K sig) (topicCounts x p.K (expRows p.K st.means) new.vocab)
      st.means d j * newLhs exactInv p x (exactInv p.K sig) (x.len d) j k := rfl
  rw [hm]
  refine Finset.sum_congr rfl fun j hj => ?_
  have hj' := Finset.mem_range.mp hj
  rw [r3 j k hj' hk, exactInv_symm p.K _ c4 j k, mul_comm]
  congr 1
  unfold newRhs
  congr 3
  unfold dot
  rw [Finset.sum_mul]
  refine Finset.sum_congr rfl fun l hl => ?_
  rw [mul_assoc, r1 l j (Finset.mem_range.mp hl) hj']

omit hfv hlfv hD in
theorem docPosterior_congr (K : Nat) (mu : Nat → ℝ) (isig vocab : Nat → Nat → ℝ) (d : Nat) (m m' : Nat → ℝ) (h : ∀ k, k < K → m k = m' k) :
    docPosterior x K mu isig vocab d m = docPosterior x K mu isig vocab d m' := by
  unfold docPosterior wordLik quad Numerics.softmax
  have h1 : ∑ j ∈ Finset.range K, Real.exp (m j) = ∑ j ∈ Finset.range K, Real.exp (m' j) :=
    Finset.sum_congr rfl fun j hj => by rw [h j (Finset.mem_range.mp hj)]
  congr 1
  · refine Finset.sum_congr rfl fun t _ => ?_
    congr 2
    refine Finset.sum_congr rfl fun k hk => ?_
    simp only [h1, h k (Finset.mem_range.mp hk)]
  · congr 1
    refine Finset.sum_congr rfl fun i hi => ?_
    simp only
    rw [h i (Finset.mem_range.mp hi)]
    congr 1
    exact Finset.sum_congr rfl fun j hj => by rw [h j (Finset.mem_range.mp hj)]

/-- C160: an iteration of training never lowers the posterior density of the topic weights of any document, given its words and features,
the new topics, the new feature weights and the new covariance. -/
theorem uv_step_posterior (hK : 0 < p.K) (hT : 0 < x.T) (hprior : 0 < p.prior) (hAb : p.Ab = bohningA p.K) (hg : Good p x st) (d : Nat)
    (hd : d < x.D) :
    let new := uvStep exactInv (own p.K x) p x X st
    let isig := exactInv p.K fun i j => new.sig i j * sigScale p x
    docPosterior x p.K (dotT p.F X new.A d) isig new.vocab d (st.means d)
      ≤ docPosterior x p.K (dotT p.F X new.A d) isig new.vocab d (new.means d) := by
  intro new isig
  have hg' := uv_step_good p hfv hlfv x hD X st hK hT hprior (own p.K x) hg
  have c2 := scaled_posDef p hfv hlfv x hD X st hg
  have i2 := exactInv_posDef p.K _ c2
  have c4 := precision_posDef p _ i2 hAb (x.len d : ℝ) (by positivity)
  have h := query_step_monotone exactInv p hK hAb x X new.A isig new.vocab (exactInv_prec p.K _ c2) hg'.topics
    ⟨st.means, st.means, st.means⟩ d hd (by rw [← hAb]; exact (exactInv_two p.K _ c4).1)
  refine h.trans (le_of_eq (docPosterior_congr x p.K _ _ _ d _ _ fun k hk => ?_))
  exact (uv_step_is_query p hfv hlfv x hD X st hAb hg st.means st.means d k hd hk).symm

end

theorem misfit_congr {K : Nat} (p : Params) (x : Data) (X A Y V m v m' v' : Nat → Nat → ℝ) (C : Matrix (Fin K) (Fin K) ℝ)
    (hm : ∀ d, d < x.D → m d = m' d) (hv : ∀ d, d < x.D → v d = v' d) : misfit p x X A Y V m v C = misfit p x X A Y V m' v' C := by
  unfold misfit
  refine congrArg₂ (· + ·) rfl (Finset.sum_congr rfl fun d hd => ?_)
  rw [hm d (Finset.mem_range.mp hd), hv d (Finset.mem_range.mp hd)]

theorem penalised_congr (x : Data) (K : Nat) (prior : ℝ) (m m' v : Nat → Nat → ℝ) (hm : ∀ d, d < x.D → m d = m' d) :
    penalised x K prior m v = penalised x K prior m' v := by
  unfold penalised wordProb
  refine congrArg₂ (· + ·) (Finset.sum_congr rfl fun d hd => ?_) rfl
  rw [hm d (Finset.mem_range.mp hd)]

/-- Every iteration keeps the state good. -/
theorem uv_iterate_good (p : Params) (hfv : 0 < p.fv) (hlfv : 0 < p.lfv) (hK : 0 < p.K) (hprior : 0 < p.prior) (x : Data) (hD : 0 < x.D)
    (hT : 0 < x.T) (X : Nat → Nat → ℝ) (st : State) (hg : Good p x st) (n : Nat) : Good p x ((uvStep exactInv (own p.K x) p x X)^[n] st) := by
  induction n with
  | zero => exact hg
  | succ n ih =>
    rw [Function.iterate_succ_apply']
    exact uv_step_good p hfv hlfv x hD X _ hK hT hprior _ ih

/-- C160: every iteration of training, whatever happened before: the covariance of the model after the iteration is the best for the state
before it, the topics do not fit the corpus worse and the topic weights of no document fit its words and features worse. -/
theorem uv_train_improves (p : Params) (hfv : 0 < p.fv) (hlfv : 0 < p.lfv) (hK : 0 < p.K) (hprior : 0 < p.prior) (hAb : p.Ab = bohningA p.K)
    (x : Data) (hD : 0 < x.D) (hT : 0 < x.T) (X : Nat → Nat → ℝ) (st : State) (hg : Good p x st) (n : Nat) :
    let old := uvTrain exactInv p x X n st
    let new := uvTrain exactInv p x X (n + 1) st
    let isig := exactInv p.K fun i j => new.sig i j * sigScale p x
    Good p x old ∧
    (∀ C : Matrix (Fin p.K) (Fin p.K) ℝ, C.PosDef →
      misfit p x X old.A old.Y old.V old.means old.varcs (Matrix.of fun i j : Fin p.K => new.sig i j * sigScale p x)
        ≤ misfit p x X old.A old.Y old.V old.means old.varcs C) ∧
    penalised x p.K p.prior old.means old.vocab ≤ penalised x p.K p.prior old.means new.vocab ∧
    ∀ d, d < x.D → docPosterior x p.K (dotT p.F X new.A d) isig new.vocab d (old.means d)
      ≤ docPosterior x p.K (dotT p.F X new.A d) isig new.vocab d (new.means d) := by
  intro old new isig
  obtain ⟨oA, oY, -, oV, -, ovocab, od⟩ := uv_train_spec exactInv p x X n st
  obtain ⟨nA, -, -, -, nsig, nvocab, nd⟩ := uv_train_spec exactInv p x X (n + 1) st
  rw [Function.iterate_succ_apply'] at nA nsig nvocab nd
  set ref := (uvStep exactInv (own p.K x) p x X)^[n] st with href
  have hr : Good p x ref := uv_iterate_good p hfv hlfv hK hprior x hD hT X st hg n
  have e1 : old.A = ref.A := oA
  have e2 : old.Y = ref.Y := oY
  have e3 : old.V = ref.V := oV
  have e4 : old.vocab = ref.vocab := ovocab
  have e5 : ∀ d, d < x.D → old.means d = ref.means d := fun d hd => (od d hd).1
  have e6 : ∀ d, d < x.D → old.varcs d = ref.varcs d := fun d hd => (od d hd).2
  set next := uvStep exactInv (own p.K x) p x X ref with hnext
  have f1 : new.A = next.A := nA
  have f2 : new.sig = next.sig := nsig
  have f3 : new.vocab = next.vocab := nvocab
  have f4 : ∀ d, d < x.D → new.means d = next.means d := fun d hd => (nd d hd).1
  have hmis : ∀ C : Matrix (Fin p.K) (Fin p.K) ℝ, misfit p x X old.A old.Y old.V old.means old.varcs C
      = misfit p x X ref.A ref.Y ref.V ref.means ref.varcs C := by
    intro C
    rw [e1, e2, e3]
    exact misfit_congr p x X _ _ _ _ _ _ _ C e5 e6
  have hpen : ∀ v, penalised x p.K p.prior old.means v = penalised x p.K p.prior ref.means v := by
    exact fun v => penalised_congr x p.K p.prior _ _ v e5
  refine ⟨⟨fun d k hd hk => ?_, ?_⟩, fun C hC => ?_, ?_, fun d hd => ?_⟩
  · rw [e6 d hd]
    exact hr.varcs d k hd hk
  · rw [e4]
    exact hr.topics
  · rw [hmis, hmis, f2]
    exact covariance_optimal p hfv hlfv x hD X ref.A ref.Y ref.V ref.means ref.varcs hr.varcs C hC
  · rw [hpen, hpen, e4, f3]
    exact vocab_monotone x p.K p.prior hprior ref.means ref.vocab hK hT hr.topics
  · show docPosterior x p.K (dotT p.F X new.A d) (exactInv p.K fun i j => new.sig i j * sigScale p x) new.vocab d (old.means d)
      ≤ docPosterior x p.K (dotT p.F X new.A d) (exactInv p.K fun i j => new.sig i j * sigScale p x) new.vocab d (new.means d)
    rw [f1, f2, f3, e5 d hd, f4 d hd]
    exact uv_step_posterior p hfv hlfv x hD X ref hK hT hprior hAb hr d hd

/-! ## The latent feature space -/

/-- C161 is violated by `stm_yv_bohning.py`: the latent features and their weights are returned as they were given, whatever the corpus, the
features and the number of iterations. -/
theorem yv_latent_violation (inv : Nat → (Nat → Nat → ℝ) → Nat → Nat → ℝ) (lsq : (Nat → Nat → ℝ) → (Nat → Nat → ℝ) → Nat → Nat → ℝ)
    (p : Params) (x : Data) (X : Nat → Nat → ℝ) (n : Nat) (st : State) :
    (yvTrain inv lsq p x X n st).Y = st.Y ∧ (yvTrain inv lsq p x X n st).V = st.V ∧ (yvTrain inv lsq p x X n st).RY = st.RY := by
  have hinner : ∀ update (x : Data) (X : Nat → Nat → ℝ) (m : Nat) (a : State), ((yvInner inv update p x X)^[m] a).Y = a.Y ∧
      ((yvInner inv update p x X)^[m] a).V = a.V ∧ ((yvInner inv update p x X)^[m] a).RY = a.RY := by
    intro update x X m
    induction m with
    | zero => exact fun a => ⟨rfl, rfl, rfl⟩
    | succ m ih => exact fun a => ih _
  have hstep : ∀ update (x : Data) (X : Nat → Nat → ℝ) (m : Nat) (a : State), ((yvStep inv lsq update p x X)^[m] a).Y = a.Y ∧
      ((yvStep inv lsq update p x X)^[m] a).V = a.V ∧ ((yvStep inv lsq update p x X)^[m] a).RY = a.RY := by
    intro update x X m
    induction m with
    | zero => exact fun a => ⟨rfl, rfl, rfl⟩
    | succ m ih =>
      intro a
      rw [Function.iterate_succ_apply]
      obtain ⟨h1, h2, h3⟩ := ih (yvStep inv lsq update p x X a)
      obtain ⟨g1, g2, g3⟩ := hinner update x X 10 { a with A := lsq X a.means }
      exact ⟨h1.trans g1, h2.trans g2, h3.trans g3⟩
  exact hstep _ _ _ n _

theorem gramRidge_posDef (p : Params) (hfv : 0 < p.fv) (x : Data) (X : Nat → Nat → ℝ) : (mat p.F (gramRidge p x X)).PosDef := by
  set M : Matrix (Fin x.D) (Fin p.F) ℝ := Matrix.of fun d f => X d f with hM
  have he : mat p.F (gramRidge p x X) = Mᴴ * M + Matrix.diagonal fun _ => 1 / p.fv := by
    ext i j
    show gram x X i j + (if (i : Nat) = j then 1 / p.fv else 0) = (Mᴴ * M) i j + Matrix.diagonal (fun _ => 1 / p.fv) i j
    rw [Matrix.mul_apply, Matrix.diagonal_apply]
    congr 1
    · unfold gram tDot
      rw [Finset.sum_range]
      rfl
    · simp only [Fin.ext_iff]
  rw [he]
  refine Matrix.PosDef.posSemidef_add (Matrix.posSemidef_conjTranspose_mul_self M) ?_
  rw [Matrix.posDef_diagonal_iff]
  exact fun _ => by positivity

theorem latent_posDef (p : Params) (hfv : 0 < p.fv) (hlfv : 0 < p.lfv) (V : Nat → Nat → ℝ) :
    (mat p.P fun i j => (1 / p.lfv * if i = j then 1 else 0) + 1 / p.fv * dotT p.F V V i j).PosDef := by
  set M : Matrix (Fin p.P) (Fin p.F) ℝ := Matrix.of fun i f => V i f with hM
  have he : (mat p.P fun i j => (1 / p.lfv * if i = j then 1 else 0) + 1 / p.fv * dotT p.F V V i j)
      = (Matrix.diagonal fun _ => 1 / p.lfv) + (1 / p.fv) • (M * Mᴴ) := by
    ext i j
    show (1 / p.lfv * if (i : Nat) = j then 1 else 0) + 1 / p.fv * dotT p.F V V i j
      = Matrix.diagonal (fun _ => 1 / p.lfv) i j + (1 / p.fv) * (M * Mᴴ) i j
    rw [Matrix.mul_apply, Matrix.diagonal_apply]
    congr 1
    · simp only [Fin.ext_iff]
      split <;> simp
    · unfold dotT
      rw [Finset.sum_range]
      rfl
  rw [he]
  refine Matrix.PosDef.add_posSemidef ?_ ((Matrix.posSemidef_self_mul_conjTranspose M).smul (by positivity))
  rw [Matrix.posDef_diagonal_iff]
  exact fun _ => by positivity

/-- C161 `_partial`: in `stm_uv_vecy_bohning.py` the new latent position of a topic is the one that explains its weights of the features best,
given the new `V`; and its new weights of the features predict the topic weights of the documents best, given `Y` and `V`. -/
theorem uv_latent_partial (update : (Nat → Nat → Nat → ℝ) → (Nat → Nat → ℝ) → (Nat → Nat → ℝ) → Nat → Nat → ℝ) (p : Params) (hfv : 0 < p.fv)
    (hlfv : 0 < p.lfv) (x : Data) (X : Nat → Nat → ℝ) (st : State) (k : Nat) (y' a' : Nat → ℝ) :
    let new := uvStep exactInv update p x X st
    1 / p.fv * ∑ f ∈ Finset.range p.F, (st.A k f - ∑ i ∈ Finset.range p.P, new.V i f * new.Y k i) ^ 2
        + 1 / p.lfv * ∑ i ∈ Finset.range p.P, (new.Y k i - 0) ^ 2
      ≤ 1 / p.fv * ∑ f ∈ Finset.range p.F, (st.A k f - ∑ i ∈ Finset.range p.P, new.V i f * y' i) ^ 2
        + 1 / p.lfv * ∑ i ∈ Finset.range p.P, (y' i - 0) ^ 2 ∧
    1 * ∑ d ∈ Finset.range x.D, (st.means d k - ∑ f ∈ Finset.range p.F, X d f * new.A k f) ^ 2
        + 1 / p.fv * ∑ f ∈ Finset.range p.F, (new.A k f - ∑ i ∈ Finset.range p.P, new.Y k i * new.V i f) ^ 2
      ≤ 1 * ∑ d ∈ Finset.range x.D, (st.means d k - ∑ f ∈ Finset.range p.F, X d f * a' f) ^ 2
        + 1 / p.fv * ∑ f ∈ Finset.range p.F, (a' f - ∑ i ∈ Finset.range p.P, new.Y k i * new.V i f) ^ 2 := by
  intro new
  exact ⟨Props.StmModel.newY_optimal exactInv p hfv hlfv st.A new.V (exactInv_two p.P _ (latent_posDef p hfv hlfv new.V)) k y',
    Props.StmModel.newA_optimal exactInv p hfv x X new.Y new.V st.means (exactInv_two p.F _ (gramRidge_posDef p hfv x X)) k a'⟩

/-! ## The variances -/

/-- The terms of the bound that depend on the variance `v` of a topic weight: its entropy, its prior with precision `prec`, and Böhning's
bound on the `n` words with coefficient `a` -/
noncomputable def varianceTerms (prec n a v : ℝ) : ℝ := Real.log v / 2 - v * prec / 2 - n * (a * v) / 2

theorem best_variance (prec n a v : ℝ) (h : 0 < prec + n * a) (hv : 0 < v) (hne : v ≠ 1 / (prec + n * a)) :
    varianceTerms prec n a v < varianceTerms prec n a (1 / (prec + n * a)) := by
  have h1 : v * (prec + n * a) ≠ 1 := fun hh => hne (by rw [eq_div_iff h.ne']; exact hh)
  have h2 := Real.log_lt_sub_one_of_pos (mul_pos hv h) h1
  rw [Real.log_mul hv.ne' h.ne'] at h2
  have h3 : varianceTerms prec n a (1 / (prec + n * a)) = - Real.log (prec + n * a) / 2 - 1 / 2 := by
    unfold varianceTerms
    rw [Real.log_div one_ne_zero h.ne', Real.log_one]
    field_simp
    ring
  rw [h3]
  unfold varianceTerms
  linarith

theorem bohning_diag (K k : Nat) : bohningA K k k = (K : ℝ) / (2 * ((K : ℝ) + 1)) := by
  unfold bohningA
  rw [if_pos rfl]
  have : (K : ℝ) + 1 ≠ 0 := by positivity
  field_simp
  ring

/-- No number of topics makes the two coefficients equal. -/
theorem coefficient_ne (K k : Nat) (hK : 0 < K) : ((K : ℝ) - 1) / K ≠ bohningA K k k := by
  rw [bohning_diag]
  have h1 : (K : ℝ) ≠ 0 := by exact_mod_cast hK.ne'
  have h2 : (2 * ((K : ℝ) + 1)) ≠ 0 := by positivity
  rw [ne_eq, div_eq_div_iff h1 h2]
  intro h
  have h3 : (K : ℝ) * K = 2 := by nlinarith
  have h4 : K * K = 2 := by exact_mod_cast h3
  have h5 : K < 2 := by nlinarith
  have : K = 1 := by omega
  subst this
  omega

/-- C162 is violated by every query of the models with features: the variance of no topic weight of a document with words is the best one for
the bound with which the topic weights are computed. -/
theorem query_variance_violation (inv : Nat → (Nat → Nat → ℝ) → Nat → Nat → ℝ) (p : Params) (hK : 0 < p.K) (hAb : p.Ab = bohningA p.K)
    (x : Data) (X A sig vocab : Nat → Nat → ℝ) (perp : (Nat → Nat → ℝ) → ℝ) (atLeast iterations : Nat) (h : 0 < max iterations atLeast)
    (q : Query) (last : ℝ) (d k : Nat) (hd : 0 < x.len d) (hi : 0 < inv p.K sig k k) :
    ∃ v, 0 < v ∧ varianceTerms (inv p.K sig k k) (x.len d) (p.Ab k k) ((query inv p x X A sig vocab perp atLeast iterations q last).2.varcs d k)
      < varianceTerms (inv p.K sig k k) (x.len d) (p.Ab k k) v := by
  rw [query_variances inv p x X A sig vocab perp atLeast iterations h q last d k]
  have hn : (0 : ℝ) < x.len d := by exact_mod_cast hd
  have h1 : (1 : ℝ) ≤ p.K := by exact_mod_cast hK
  have ha : 0 ≤ p.Ab k k := by
    rw [hAb, bohning_diag]
    positivity
  have hb : 0 < inv p.K sig k k + x.len d * p.Ab k k := by positivity
  have hc : 0 ≤ (x.len d : ℝ) * ((p.K : ℝ) - 1) / (p.K : ℝ) := by
    have : (0 : ℝ) ≤ (p.K : ℝ) - 1 := by linarith
    positivity
  refine ⟨1 / (inv p.K sig k k + x.len d * p.Ab k k), by positivity, best_variance _ _ _ _ hb (by positivity) ?_⟩
  intro he
  have h2 := congrArg (fun y => 1 / y) he
  simp only [one_div_one_div] at h2
  have h3 : (x.len d : ℝ) * (((p.K : ℝ) - 1) / p.K) = x.len d * p.Ab k k := by
    rw [← mul_div_assoc]
    linarith
  have h4 := mul_left_cancel₀ hn.ne' h3
  rw [hAb] at h4
  exact coefficient_ne p.K k hK h4

/-- C162 is violated by training with features in the same way. -/
theorem uv_variance_violation (inv : Nat → (Nat → Nat → ℝ) → Nat → Nat → ℝ)
    (update : (Nat → Nat → Nat → ℝ) → (Nat → Nat → ℝ) → (Nat → Nat → ℝ) → Nat → Nat → ℝ) (p : Params) (hK : 0 < p.K)
    (hAb : p.Ab = bohningA p.K) (x : Data) (X : Nat → Nat → ℝ) (st : State) (d k : Nat) (hd : 0 < x.len d)
    (hi : 0 < 1 / sigScale p x * inv p.K (covariance p x X st.A st.Y st.V st.means st.varcs) k k) :
    let prec := 1 / sigScale p x * inv p.K (covariance p x X st.A st.Y st.V st.means st.varcs) k k
    ∃ v, 0 < v ∧ varianceTerms prec (x.len d) (p.Ab k k) ((uvStep inv update p x X st).varcs d k)
      < varianceTerms prec (x.len d) (p.Ab k k) v := by
  intro prec
  have hn : (0 : ℝ) < x.len d := by exact_mod_cast hd
  have h1 : (1 : ℝ) ≤ p.K := by exact_mod_cast hK
  have ha : 0 ≤ p.Ab k k := by
    rw [hAb, bohning_diag]
    positivity
  have hi' : 0 < prec := hi
  have hb : 0 < prec + x.len d * p.Ab k k := by positivity
  have hc : 0 ≤ (x.len d : ℝ) * ((p.K : ℝ) - 1) / (p.K : ℝ) := by
    have : (0 : ℝ) ≤ (p.K : ℝ) - 1 := by linarith
    positivity
  have hv : (uvStep inv update p x X st).varcs d k = 1 / ((x.len d : ℝ) * ((p.K : ℝ) - 1) / (p.K : ℝ) + prec) := rfl
  rw [hv]
  refine ⟨1 / (prec + x.len d * p.Ab k k), by positivity, best_variance _ _ _ _ hb (by positivity) ?_⟩
  intro he
  have h2 := congrArg (fun y => 1 / y) he
  simp only [one_div_one_div] at h2
  have h3 : (x.len d : ℝ) * (((p.K : ℝ) - 1) / p.K) = x.len d * p.Ab k k := by
    rw [← mul_div_assoc]
    linarith
  have h4 := mul_left_cancel₀ hn.ne' h3
  rw [hAb] at h4
  exact coefficient_ne p.K k hK h4

/-- C162 `_partial`: the variances of documents without words are the best ones, those of the prior. -/
theorem query_variance_partial (inv : Nat → (Nat → Nat → ℝ) → Nat → Nat → ℝ) (p : Params)
    (x : Data) (X A sig vocab : Nat → Nat → ℝ) (perp : (Nat → Nat → ℝ) → ℝ) (atLeast iterations : Nat) (h : 0 < max iterations atLeast)
    (q : Query) (last : ℝ) (d k : Nat) (hd : x.len d = 0) (hi : 0 < inv p.K sig k k) (v : ℝ) (hv : 0 < v) :
    varianceTerms (inv p.K sig k k) (x.len d) (p.Ab k k) v
      ≤ varianceTerms (inv p.K sig k k) (x.len d) (p.Ab k k) ((query inv p x X A sig vocab perp atLeast iterations q last).2.varcs d k) := by
  rw [query_variances inv p x X A sig vocab perp atLeast iterations h q last d k, hd]
  have e : (((0 : Nat) : ℝ) * ((p.K : ℝ) - 1) / (p.K : ℝ) + inv p.K sig k k) = inv p.K sig k k + ((0 : Nat) : ℝ) * p.Ab k k := by
    push_cast
    ring
  rw [e]
  by_cases hne : v = 1 / (inv p.K sig k k + ((0 : Nat) : ℝ) * p.Ab k k)
  · rw [hne]
  · exact (best_variance _ _ _ _ (by push_cast; linarith) hv hne).le

/-! ## Examples -/

/-- Two topics, two features and one latent feature -/
noncomputable def exP : Params := ⟨2, 1, 2, 1, 2, 1 / 10, bohningA 2⟩

/-- A state with different topic weights -/
noncomputable def exS : State := ⟨fun k f => k + f, fun k _ => k, fun _ _ => 1, fun _ f => f, fun _ _ => 0, Props.Ctm.exV,
  fun d k => d - k, fun _ _ => 1, fun _ _ => 1, fun _ _ => 0⟩

theorem exS_good : Good exP Props.Ctm.exX exS := ⟨fun _ _ _ _ => one_pos, exV_topics⟩

example (X : Nat → Nat → ℝ) (n : Nat) :=
  uv_train_improves exP one_pos two_pos two_pos (by norm_num [exP]) rfl Props.Ctm.exX (by decide) (by decide) X exS exS_good n

/-- The trained covariance fits at least as well as the identity. -/
example (X : Nat → Nat → ℝ) :
    misfit exP Props.Ctm.exX X exS.A exS.Y exS.V exS.means exS.varcs
        (Matrix.of fun i j : Fin 2 => covariance exP Props.Ctm.exX X exS.A exS.Y exS.V exS.means exS.varcs i j * sigScale exP Props.Ctm.exX)
      ≤ misfit exP Props.Ctm.exX X exS.A exS.Y exS.V exS.means exS.varcs (1 : Matrix (Fin 2) (Fin 2) ℝ) :=
  covariance_optimal exP one_pos two_pos Props.Ctm.exX (by decide) X exS.A exS.Y exS.V exS.means exS.varcs exS_good.varcs 1 Matrix.PosDef.one

example (X : Nat → Nat → ℝ) (perp : (Nat → Nat → ℝ) → ℝ) (q : Query) :
    ∃ v, 0 < v ∧ varianceTerms (exactInv 2 eye 0 0) (Props.Ctm.exX.len 0) (exP.Ab 0 0)
        ((query exactInv exP Props.Ctm.exX X (fun _ _ => 0) eye Props.Ctm.exV perp 0 5 q 0).2.varcs 0 0)
      < varianceTerms (exactInv 2 eye 0 0) (Props.Ctm.exX.len 0) (exP.Ab 0 0) v := by
  have hm : mat 2 eye = 1 := by
    ext i j
    rw [Matrix.one_apply]
    show (if (i : Nat) = j then (1 : ℝ) else 0) = _
    simp only [Fin.ext_iff]
  have hpos : 0 < exactInv 2 eye 0 0 := diag_pos exP _ (exactInv_posDef 2 eye (by rw [hm]; exact Matrix.PosDef.one)) 0 two_pos
  exact query_variance_violation exactInv exP two_pos rfl Props.Ctm.exX X _ eye _ perp 0 5 (by decide) q 0 0 0 (by decide) hpos

/-- The latent features start at `0, 1` and stay there. -/
example (inv : Nat → (Nat → Nat → ℝ) → Nat → Nat → ℝ) (lsq : (Nat → Nat → ℝ) → (Nat → Nat → ℝ) → Nat → Nat → ℝ) (X : Nat → Nat → ℝ) (n : Nat) :
    (yvTrain inv lsq exP Props.Ctm.exX X n exS).Y 1 0 = 1 := by
  rw [(yv_latent_violation inv lsq exP Props.Ctm.exX X n exS).1]
  simp [exS]

end Verif.Props.StmCov
