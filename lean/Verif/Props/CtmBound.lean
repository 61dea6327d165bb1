import Verif.Lemmas.Gauss
import Verif.Lemmas.Dirichlet
import Verif.Model.CtmBound
import Verif.Props.CtmTrain
import Verif.Props.StmCov

/-!
# The bounds of the correlated topic models and the evidence (C210, C211)
-/

namespace Verif.Props.CtmBound

open Verif Verif.Ctm Verif.CtmBound MeasureTheory
open Verif.Mom (Data)
open Verif.Props.Ctm Verif.Props.CtmTrain
open Verif.Props.MomEm (IsDist)
open Verif.Props.StmCov (exactInv mat mat_exactInv)
open scoped NNReal

/-! ## Specification -/

/-- The probability of the words of a document with topic weights `η`: every word comes from the mixture of the topics with proportions
`exp η_k / Σ_j exp η_j`. -/
noncomputable def docProb (K T : Nat) (vocab : Nat → Nat → ℝ) (w : Nat → Nat) (η : Fin K → ℝ) : ℝ :=
  ∏ t ∈ Finset.range T, (∑ k : Fin K, Real.exp (η k) / (∑ j : Fin K, Real.exp (η j)) * vocab k t) ^ w t

/-- The logarithm of the probability of the corpus: the topic weights of every document are a Gaussian vector. -/
noncomputable def evidence (x : Data) (K : Nat) (topicMean : Nat → ℝ) (sig vocab : Nat → Nat → ℝ) : ℝ :=
  ∑ d ∈ Finset.range x.D, Real.log (∫ η, Gauss.density (fun k : Fin K => topicMean k) (mat K sig) η * docProb K x.T vocab (x.words d) η)

/-- The determinant -/
noncomputable def exactDet (K : Nat) (M : Nat → Nat → ℝ) : ℝ := (mat K M).det

/-! ## One document -/

/-- A vector of length `K` as a function of its index -/
def vecAt {K : Nat} (η : Fin K → ℝ) (k : Nat) : ℝ := if h : k < K then η ⟨k, h⟩ else 0

theorem vecAt_fin {K : Nat} (η : Fin K → ℝ) (k : Fin K) : vecAt η k = η k := by
  unfold vecAt
  rw [dif_pos k.2]

theorem vecAt_lt {K : Nat} (η : Fin K → ℝ) (k : Nat) (hk : k < K) : vecAt η k = η ⟨k, hk⟩ := by
  unfold vecAt
  rw [dif_pos hk]

/-- Jensen's inequality for log-sum-exp -/
theorem lse_jensen {Ω : Type} [MeasurableSpace Ω] (μ : Measure Ω) [IsProbabilityMeasure μ] (K : Nat) (hK : 0 < K) (X : Nat → Ω → ℝ) (m : Nat → ℝ)
    (hX : ∀ k, k < K → Integrable (X k) μ) (hm : ∀ k, k < K → ∫ ω, X k ω ∂μ = m k) :
    Real.log (∑ k ∈ Finset.range K, Real.exp (m k)) ≤ ∫ ω, Real.log (∑ k ∈ Finset.range K, Real.exp (X k ω)) ∂μ := by
  have hZ := Props.Numerics.sum_exp_pos K m hK
  obtain ⟨Z, hZd⟩ : ∃ Z, Z = ∑ k ∈ Finset.range K, Real.exp (m k) := ⟨_, rfl⟩
  rw [← hZd] at hZ ⊢
  have hq : ∑ k ∈ Finset.range K, Real.exp (m k) / Z = 1 := by rw [← Finset.sum_div, ← hZd, div_self hZ.ne']
  have hlq : ∀ k, Real.log (Real.exp (m k) / Z) = m k - Real.log Z := fun k => by
    rw [Real.log_div (Real.exp_pos _).ne' hZ.ne', Real.log_exp]
  have hterm : ∀ k, k < K → Integrable (fun ω => Real.exp (m k) / Z * (X k ω - Real.log (Real.exp (m k) / Z))) μ :=
    fun k hk => ((hX k hk).sub (integrable_const _)).const_mul _
  have hle := integral_mono (integrable_finsetSum _ fun k hk => hterm k (Finset.mem_range.1 hk)) (Bouchard.lse_integrable μ K hK X hX) fun ω =>
    Dirichlet.entropy_max K hK (fun k => X k ω) (fun k => Real.exp (m k) / Z) (fun k _ => (div_pos (Real.exp_pos _) hZ).le) hq
  refine le_trans (le_of_eq ?_) hle
  rw [integral_finsetSum _ fun k hk => hterm k (Finset.mem_range.1 hk)]
  have : ∀ k ∈ Finset.range K, ∫ ω, Real.exp (m k) / Z * (X k ω - Real.log (Real.exp (m k) / Z)) ∂μ = Real.exp (m k) / Z * Real.log Z := by
    intro k hk
    have hk := Finset.mem_range.1 hk
    rw [integral_const_mul, integral_sub (hX k hk) (integrable_const _), hm k hk, hlq, integral_const]
    simp
  rw [Finset.sum_congr rfl this, ← Finset.sum_mul, hq, one_mul]

/-- The variances of a document as nonnegative numbers -/
noncomputable def nn (K : Nat) (v : Nat → ℝ) (k : Fin K) : ℝ≥0 := (v k).toNNReal

theorem nn_coe (K : Nat) (v : Nat → ℝ) (hv : ∀ k, k < K → 0 < v k) (k : Fin K) : ((nn K v k : ℝ≥0) : ℝ) = v k :=
  Real.coe_toNNReal _ (hv k k.2).le

theorem nn_ne (K : Nat) (v : Nat → ℝ) (hv : ∀ k, k < K → 0 < v k) (k : Fin K) : nn K v k ≠ 0 := by
  intro h
  have := nn_coe K v hv k
  rw [h, NNReal.coe_zero] at this
  exact (hv k k.2).ne this

/-- The independent Gaussian weights of a document -/
noncomputable abbrev weights (K : Nat) (m v : Nat → ℝ) : Measure (Fin K → ℝ) := Gauss.law (fun k : Fin K => m k) (nn K v)

theorem weights_moments (K : Nat) (m v : Nat → ℝ) (hv : ∀ k, k < K → 0 < v k) :
    Bouchard.Moments (weights K m v) K (fun k η => vecAt η k) m v := by
  have hne := nn_ne K v hv
  have h1 : ∀ k (hk : k < K), (fun η : Fin K → ℝ => vecAt η k) = fun η => η ⟨k, hk⟩ := fun k hk => funext fun η => vecAt_lt η k hk
  have h2 : ∀ k (hk : k < K), (fun η : Fin K → ℝ => vecAt η k ^ 2) = fun η => (η ⟨k, hk⟩ - (fun _ => 0) (⟨k, hk⟩ : Fin K)) * (η ⟨k, hk⟩ - (fun _ => 0) (⟨k, hk⟩ : Fin K)) :=
    fun k hk => funext fun η => by rw [vecAt_lt η k hk]; ring
  refine ⟨fun k hk => ?_, fun k hk => ?_, fun k hk => ?_, fun k hk => ?_⟩
  · rw [h1 k hk]
    exact (Gauss.law_mean _ _ hne _).1
  · rw [h2 k hk]
    exact (Gauss.law_moment _ _ hne (fun _ => 0) _ _).1
  · rw [h1 k hk]
    exact (Gauss.law_mean _ _ hne _).2
  · rw [h2 k hk, (Gauss.law_moment _ _ hne (fun _ => 0) _ _).2, if_pos rfl, nn_coe K v hv]
    ring

/-- The logarithm of the mixture with unnormalised weights -/
noncomputable def logMix (K : Nat) (vocab : Nat → Nat → ℝ) (m : Nat → ℝ) (t : Nat) : ℝ :=
  Real.log (∑ k ∈ Finset.range K, Real.exp (m k) * vocab k t)

theorem docProb_pos (K T : Nat) (hK : 0 < K) (vocab : Nat → Nat → ℝ) (hv : ∀ k t, k < K → t < T → 0 < vocab k t) (w : Nat → Nat) (η : Fin K → ℝ) :
    0 < docProb K T vocab w η := by
  have : Nonempty (Fin K) := ⟨⟨0, hK⟩⟩
  have hZ : 0 < ∑ j : Fin K, Real.exp (η j) := Finset.sum_pos (fun _ _ => Real.exp_pos _) Finset.univ_nonempty
  exact Finset.prod_pos fun t ht => pow_pos (Finset.sum_pos (fun (k : Fin K) _ => mul_pos (div_pos (Real.exp_pos _) hZ)
    (hv k t k.2 (Finset.mem_range.1 ht))) Finset.univ_nonempty) _

theorem docProb_le (K T : Nat) (hK : 0 < K) (vocab : Nat → Nat → ℝ) (hv : ∀ k t, k < K → t < T → 0 < vocab k t)
    (hv1 : ∀ k t, k < K → t < T → vocab k t ≤ 1) (w : Nat → Nat) (η : Fin K → ℝ) : docProb K T vocab w η ≤ 1 := by
  have : Nonempty (Fin K) := ⟨⟨0, hK⟩⟩
  have hZ : 0 < ∑ j : Fin K, Real.exp (η j) := Finset.sum_pos (fun _ _ => Real.exp_pos _) Finset.univ_nonempty
  refine Finset.prod_le_one (fun t ht => pow_nonneg (Finset.sum_nonneg fun (k : Fin K) _ => (mul_pos (div_pos (Real.exp_pos _) hZ)
    (hv k t k.2 (Finset.mem_range.1 ht))).le) _) fun t ht => pow_le_one₀ (Finset.sum_nonneg fun (k : Fin K) _ => (mul_pos (div_pos (Real.exp_pos _) hZ)
    (hv k t k.2 (Finset.mem_range.1 ht))).le) ?_
  calc ∑ k : Fin K, Real.exp (η k) / (∑ j : Fin K, Real.exp (η j)) * vocab k t
      ≤ ∑ k : Fin K, Real.exp (η k) / (∑ j : Fin K, Real.exp (η j)) :=
        Finset.sum_le_sum fun k _ => mul_le_of_le_one_right (div_pos (Real.exp_pos _) hZ).le (hv1 k t k.2 (Finset.mem_range.1 ht))
    _ = 1 := by rw [← Finset.sum_div, div_self hZ.ne']

theorem docProb_continuous (K T : Nat) (hK : 0 < K) (vocab : Nat → Nat → ℝ) (w : Nat → Nat) : Continuous (docProb K T vocab w) := by
  have : Nonempty (Fin K) := ⟨⟨0, hK⟩⟩
  unfold docProb
  refine continuous_finsetProd _ fun t _ => Continuous.pow (continuous_finsetSum _ fun k _ => Continuous.mul (Continuous.div (by fun_prop)
    (by fun_prop) fun η => ?_) continuous_const) _
  exact (Finset.sum_pos (fun _ _ => Real.exp_pos _) Finset.univ_nonempty).ne'

theorem docProb_log (K T : Nat) (hK : 0 < K) (vocab : Nat → Nat → ℝ) (hv : ∀ k t, k < K → t < T → 0 < vocab k t) (w : Nat → Nat) (η : Fin K → ℝ) :
    Real.log (docProb K T vocab w η) = ∑ t ∈ Finset.range T, (w t : ℝ) * logMix K vocab (vecAt η) t
      - (∑ t ∈ Finset.range T, (w t : ℝ)) * Real.log (∑ k ∈ Finset.range K, Real.exp (vecAt η k)) := by
  have : Nonempty (Fin K) := ⟨⟨0, hK⟩⟩
  have hZ : 0 < ∑ j : Fin K, Real.exp (η j) := Finset.sum_pos (fun _ _ => Real.exp_pos _) Finset.univ_nonempty
  have hsum : ∑ k ∈ Finset.range K, Real.exp (vecAt η k) = ∑ j : Fin K, Real.exp (η j) := by
    rw [Finset.sum_range]
    exact Finset.sum_congr rfl fun k _ => by rw [vecAt_fin]
  have hmix : ∀ t ∈ Finset.range T, ∑ k : Fin K, Real.exp (η k) / (∑ j : Fin K, Real.exp (η j)) * vocab k t
      = (∑ k ∈ Finset.range K, Real.exp (vecAt η k) * vocab k t) / ∑ j : Fin K, Real.exp (η j) := by
    intro t _
    rw [Finset.sum_range, Finset.sum_div]
    exact Finset.sum_congr rfl fun k _ => by rw [vecAt_fin]; ring
  have hpos : ∀ t ∈ Finset.range T, 0 < ∑ k ∈ Finset.range K, Real.exp (vecAt η k) * vocab k t := fun t ht =>
    Finset.sum_pos (fun k hk => mul_pos (Real.exp_pos _) (hv k t (Finset.mem_range.1 hk) (Finset.mem_range.1 ht))) ⟨0, Finset.mem_range.2 hK⟩
  unfold docProb
  rw [hsum, Real.log_prod fun t ht => (pow_pos (by rw [hmix t ht]; exact div_pos (hpos t ht) hZ) _).ne', Finset.sum_mul, ← Finset.sum_sub_distrib]
  refine Finset.sum_congr rfl fun t ht => ?_
  rw [Real.log_pow, hmix t ht, Real.log_div (hpos t ht).ne' hZ.ne']
  unfold logMix
  ring

/-- The evidence of a document is at least: the mixtures at the means, minus the expected log-sum-exp, minus the relative entropy of the weights
to their prior. -/
theorem doc_bound (K T : Nat) (hK : 0 < K) (vocab : Nat → Nat → ℝ) (hv : ∀ k t, k < K → t < T → 0 < vocab k t)
    (hv1 : ∀ k t, k < K → t < T → vocab k t ≤ 1) (w : Nat → Nat) (μ : Fin K → ℝ) (S : Matrix (Fin K) (Fin K) ℝ) (hS : S.PosDef)
    (m v : Nat → ℝ) (hvar : ∀ k, k < K → 0 < v k) :
    ∑ t ∈ Finset.range T, (w t : ℝ) * logMix K vocab m t
      - (∑ t ∈ Finset.range T, (w t : ℝ)) * ∫ η, Real.log (∑ k ∈ Finset.range K, Real.exp (vecAt η k)) ∂(weights K m v)
      + Gauss.gaussTerm μ S (fun k : Fin K => m k) (nn K v)
      ≤ Real.log (∫ η, Gauss.density μ S η * docProb K T vocab w η) := by
  have hne := nn_ne K v hvar
  have hp := Gauss.law_probability (fun k : Fin K => m k) (nn K v) hne
  have hM := weights_moments K m v hvar
  have hlse := Bouchard.lse_integrable (weights K m v) K hK (fun k η => vecAt η k) hM.int
  have hX : ∀ t k, k < K → Integrable (fun η : Fin K → ℝ => vecAt η k + Real.log (vocab k t)) (weights K m v) :=
    fun t k hk => (hM.int k hk).add (integrable_const _)
  have hmixEq : ∀ t, t < T → ∀ y : Nat → ℝ, logMix K vocab y t = Real.log (∑ k ∈ Finset.range K, Real.exp (y k + Real.log (vocab k t))) := by
    intro t ht y
    unfold logMix
    congr 1
    refine Finset.sum_congr rfl fun k hk => ?_
    rw [Real.exp_add, Real.exp_log (hv k t (Finset.mem_range.1 hk) ht)]
  have hmixI : ∀ t, t < T → Integrable (fun η : Fin K → ℝ => logMix K vocab (vecAt η) t) (weights K m v) := by
    intro t ht
    simp only [hmixEq t ht]
    exact Bouchard.lse_integrable (weights K m v) K hK (fun k η => vecAt η k + Real.log (vocab k t)) (hX t)
  have hmixJ : ∀ t, t < T → logMix K vocab m t ≤ ∫ η, logMix K vocab (vecAt η) t ∂(weights K m v) := by
    intro t ht
    simp only [hmixEq t ht]
    refine lse_jensen (weights K m v) K hK (fun k η => vecAt η k + Real.log (vocab k t)) (fun k => m k + Real.log (vocab k t)) (hX t) fun k hk => ?_
    rw [integral_add (hM.int k hk) (integrable_const _), hM.mean k hk, integral_const]
    simp
  have hsumI : Integrable (fun η : Fin K → ℝ => ∑ t ∈ Finset.range T, (w t : ℝ) * logMix K vocab (vecAt η) t) (weights K m v) :=
    integrable_finsetSum _ fun t ht => (hmixI t (Finset.mem_range.1 ht)).const_mul _
  have hlogI : Integrable (fun η : Fin K → ℝ => Real.log (docProb K T vocab w η)) (weights K m v) := by
    simp only [docProb_log K T hK vocab hv w]
    exact hsumI.sub (hlse.const_mul _)
  have h := Gauss.evidence_bound μ S hS (fun k : Fin K => m k) (nn K v) hne (docProb K T vocab w) (docProb_pos K T hK vocab hv w)
    (docProb_le K T hK vocab hv hv1 w) (docProb_continuous K T hK vocab w) hlogI
  refine le_trans ?_ h
  have hval : ∫ η, Real.log (docProb K T vocab w η) ∂(weights K m v)
      = ∑ t ∈ Finset.range T, (w t : ℝ) * ∫ η, logMix K vocab (vecAt η) t ∂(weights K m v)
        - (∑ t ∈ Finset.range T, (w t : ℝ)) * ∫ η, Real.log (∑ k ∈ Finset.range K, Real.exp (vecAt η k)) ∂(weights K m v) := by
    simp only [docProb_log K T hK vocab hv w]
    rw [integral_sub hsumI (hlse.const_mul _), integral_const_mul, integral_finsetSum _ fun t ht => (hmixI t (Finset.mem_range.1 ht)).const_mul _]
    congr 1
    exact Finset.sum_congr rfl fun t _ => integral_const_mul _ _
  have hle : ∑ t ∈ Finset.range T, (w t : ℝ) * logMix K vocab m t
      ≤ ∑ t ∈ Finset.range T, (w t : ℝ) * ∫ η, logMix K vocab (vecAt η) t ∂(weights K m v) :=
    Finset.sum_le_sum fun t ht => mul_le_mul_of_nonneg_left (hmixJ t (Finset.mem_range.1 ht)) (Nat.cast_nonneg _)
  rw [hval]
  linarith

/-! ## The bound of `ctm.py` -/

/-- The terms of `var_bound` that belong to the weights of one document, with the logarithm of the determinant and the entropy -/
theorem gaussTerm_eq (K : Nat) (topicMean : Nat → ℝ) (sig : Nat → Nat → ℝ) (m v : Nat → ℝ) (hv : ∀ k, k < K → 0 < v k) :
    Gauss.gaussTerm (fun k : Fin K => topicMean k) (mat K sig) (fun k : Fin K => m k) (nn K v)
      = -(K / 2 * lnOf2Pi) - Real.log (exactDet K sig) / 2
        - (∑ k ∈ Finset.range K, (∑ j ∈ Finset.range K, (m j - topicMean j) * exactInv K sig j k) * (m k - topicMean k)) / 2
        - (∑ k ∈ Finset.range K, v k * exactInv K sig k k) / 2
        + (K / 2 * lnOf2PiE + (∑ k ∈ Finset.range K, Real.log (v k)) / 2) := by
  have hinv : ∀ i j : Fin K, (mat K sig)⁻¹ i j = exactInv K sig i j := fun i j => by rw [← mat_exactInv]; rfl
  have hquad : Gauss.quad (mat K sig)⁻¹ (fun k : Fin K => m k - topicMean k)
      = ∑ k ∈ Finset.range K, (∑ j ∈ Finset.range K, (m j - topicMean j) * exactInv K sig j k) * (m k - topicMean k) := by
    unfold Gauss.quad
    rw [Finset.sum_range, Finset.sum_comm]
    refine Finset.sum_congr rfl fun j _ => ?_
    rw [Finset.sum_range, Finset.sum_mul]
    refine Finset.sum_congr rfl fun i _ => ?_
    rw [hinv]
    ring
  have htr : ∑ k : Fin K, (mat K sig)⁻¹ k k * (nn K v k : ℝ) = ∑ k ∈ Finset.range K, v k * exactInv K sig k k := by
    rw [Finset.sum_range]
    refine Finset.sum_congr rfl fun k _ => ?_
    rw [hinv, nn_coe K v hv, mul_comm]
  have hent : ∑ k : Fin K, (Real.log (2 * Real.pi * (nn K v k : ℝ)) / 2 + 1 / 2) = K / 2 * lnOf2PiE + (∑ k ∈ Finset.range K, Real.log (v k)) / 2 := by
    have h2 : (0 : ℝ) < 2 * Real.pi := by positivity
    rw [Finset.sum_range, Finset.sum_div, lnOf2PiE, Real.log_mul h2.ne' (Real.exp_pos _).ne', Real.log_exp]
    have : ∀ k : Fin K, Real.log (2 * Real.pi * (nn K v k : ℝ)) / 2 + 1 / 2 = (Real.log (2 * Real.pi) + 1) / 2 + Real.log (v k) / 2 := by
      intro k
      rw [nn_coe K v hv, Real.log_mul h2.ne' (hv k k.2).ne']
      ring
    rw [Finset.sum_congr rfl fun k _ => this k, Finset.sum_add_distrib, Finset.sum_const, Finset.card_univ, Fintype.card_fin, nsmul_eq_mul]
    ring
  unfold Gauss.gaussTerm exactDet lnOf2Pi
  rw [hquad, htr, hent]

/-- `var_bound` document by document -/
theorem varBound_eq (inv : (Nat → Nat → ℝ) → Nat → Nat → ℝ) (det : (Nat → Nat → ℝ) → ℝ) (tiny : ℝ) (x : Data) (K : Nat) (st : State) :
    varBound inv det tiny x K st = ∑ d ∈ Finset.range x.D,
      (-(K / 2 * lnOf2Pi) - det st.sig / 2
        - (∑ k ∈ Finset.range K, (∑ j ∈ Finset.range K, (st.means d j - st.topicMean j) * inv st.sig j k) * (st.means d k - st.topicMean k)) / 2
        - (∑ k ∈ Finset.range K, st.varcs d k * inv st.sig k k) / 2
        + (K / 2 * lnOf2PiE + (∑ k ∈ Finset.range K, Real.log (st.varcs d k)) / 2)
        + ∑ t ∈ Finset.range x.T, (x.words d t : ℝ) * SparseKernels.safeLn tiny (∑ k ∈ Finset.range K, expRows K st.means d k * st.vocab k t)
        + boundTerms K (x.len d) (st.means d) (st.varcs d) (st.lxi d) (fun k => deriveXi (st.means d k) (st.varcs d k) (st.s d)) (st.s d)) := by
  unfold varBound quadTerm boundTerms
  simp only [Finset.sum_add_distrib, Finset.sum_sub_distrib, Finset.sum_neg_distrib, Finset.sum_const, Finset.card_range, nsmul_eq_mul,
    ← Finset.sum_div]
  ring

/-- The mixture above the floor of the safe logarithm -/
theorem safeLn_mix (K : Nat) (hK : 0 < K) (tiny : ℝ) (means vocab : Nat → Nat → ℝ) (d t : Nat) (hv : ∀ k, k < K → 0 < vocab k t)
    (h : tiny < ∑ k ∈ Finset.range K, expRows K means d k * vocab k t) :
    SparseKernels.safeLn tiny (∑ k ∈ Finset.range K, expRows K means d k * vocab k t)
      = logMix K vocab (means d) t - Numerics.rowMax K (means d) := by
  unfold SparseKernels.safeLn
  rw [if_pos h]
  have hpos : 0 < ∑ k ∈ Finset.range K, Real.exp (means d k) * vocab k t :=
    Finset.sum_pos (fun k hk => mul_pos (Real.exp_pos _) (hv k (Finset.mem_range.1 hk))) ⟨0, Finset.mem_range.2 hK⟩
  have : ∑ k ∈ Finset.range K, expRows K means d k * vocab k t
      = (∑ k ∈ Finset.range K, Real.exp (means d k) * vocab k t) * Real.exp (-Numerics.rowMax K (means d)) := by
    rw [Finset.sum_mul]
    refine Finset.sum_congr rfl fun k _ => ?_
    unfold expRows
    rw [sub_eq_add_neg, Real.exp_add]
    ring
  rw [this, Real.log_mul hpos.ne' (Real.exp_pos _).ne', Real.log_exp]
  unfold logMix
  ring

/-- A state as `train` and `query` leave it: topics are positive, variances are positive, the covariance is positive definite, and no word that
occurs is rarer than the floor `tiny` of the safe logarithm. -/
structure Valid (tiny : ℝ) (x : Data) (K : Nat) (st : State) : Prop where
  topics : 0 < K
  vocab : ∀ k t, k < K → t < x.T → 0 < st.vocab k t ∧ st.vocab k t ≤ 1
  varcs : ∀ d k, d < x.D → k < K → 0 < st.varcs d k
  sig : (mat K st.sig).PosDef
  floor : ∀ d t, d < x.D → t < x.T → 0 < x.words d t → tiny < ∑ k ∈ Finset.range K, expRows K st.means d k * st.vocab k t

theorem boundTerms_lxi (K : Nat) (n : ℝ) (m v lxi lxi' xi : Nat → ℝ) (s : ℝ) (hxi : ∀ k, k < K → xi k ^ 2 = (m k - s) ^ 2 + v k ^ 2) :
    boundTerms K n m v lxi xi s
      = boundTerms K n m v lxi' xi s - n * ∑ k ∈ Finset.range K, (lxi k - lxi' k) * (v k - v k ^ 2) := by
  rw [Bouchard.boundTerms_eq, Bouchard.boundTerms_eq, neg_mul, neg_mul, sub_eq_add_neg, ← neg_add, ← mul_add, neg_inj]
  congr 1
  rw [add_assoc, ← Finset.sum_add_distrib]
  congr 1
  refine Finset.sum_congr rfl fun k hk => ?_
  rw [hxi k (Finset.mem_range.1 hk)]
  ring

theorem deriveXi_sq (m v s : ℝ) : deriveXi m v s ^ 2 = (m - s) ^ 2 + v ^ 2 := by
  unfold deriveXi
  rw [Real.sq_sqrt (by nlinarith [sq_nonneg (m - s), sq_nonneg v])]
  ring

/-- What separates `var_bound` from a bound, in one document: the largest weight, which the softmax subtracts and the bound does not add again;
the determinant in the place of its logarithm; and the coefficients `lxi` in the place of those of Jaakkola's bound. -/
noncomputable def gap (x : Data) (K : Nat) (st : State) (d : Nat) : ℝ :=
  (x.len d : ℝ) * Numerics.rowMax K (st.means d) + (exactDet K st.sig - Real.log (exactDet K st.sig)) / 2
    + (x.len d : ℝ) * ∑ k ∈ Finset.range K, (st.lxi d k - negJakkola (deriveXi (st.means d k) (st.varcs d k) (st.s d)))
        * (st.varcs d k - st.varcs d k ^ 2)

theorem len_cast (x : Data) (d : Nat) : ∑ t ∈ Finset.range x.T, (x.words d t : ℝ) = (x.len d : ℝ) := by
  unfold Data.len
  rw [Nat.cast_sum]

/-- C210: `var_bound` plus the gaps of the documents never exceeds the logarithm of the probability of the corpus. -/
theorem bound_partial (tiny : ℝ) (x : Data) (K : Nat) (st : State) (h : Valid tiny x K st) :
    varBound (exactInv K) (exactDet K) tiny x K st + ∑ d ∈ Finset.range x.D, gap x K st d ≤ evidence x K st.topicMean st.sig st.vocab := by
  rw [varBound_eq, ← Finset.sum_add_distrib]
  unfold evidence
  refine Finset.sum_le_sum fun d hd => ?_
  have hd := Finset.mem_range.1 hd
  have hvar := fun k hk => h.varcs d k hd hk
  have hK := h.topics
  refine le_trans ?_ (doc_bound K x.T hK st.vocab (fun k t hk ht => (h.vocab k t hk ht).1) (fun k t hk ht => (h.vocab k t hk ht).2) (x.words d)
    (fun k : Fin K => st.topicMean k) (mat K st.sig) h.sig (st.means d) (st.varcs d) hvar)
  have hp := Gauss.law_probability (fun k : Fin K => st.means d k) (nn K (st.varcs d)) (nn_ne K _ hvar)
  have hb := Bouchard.bound_valid_partial (weights K (st.means d) (st.varcs d)) K hK (fun k η => vecAt η k) (x.len d) (Nat.cast_nonneg _)
    (st.means d) (st.varcs d) (fun k => deriveXi (st.means d k) (st.varcs d k) (st.s d)) (fun k hk => (deriveXi_pos _ _ _ (hvar k hk)).ne') (st.s d)
    (weights_moments K _ _ hvar)
  have hl := boundTerms_lxi K (x.len d) (st.means d) (st.varcs d) (st.lxi d)
    (fun k => negJakkola (deriveXi (st.means d k) (st.varcs d k) (st.s d))) (fun k => deriveXi (st.means d k) (st.varcs d k) (st.s d)) (st.s d)
    (fun k _ => deriveXi_sq _ _ _)
  have hw : ∑ t ∈ Finset.range x.T, (x.words d t : ℝ) * SparseKernels.safeLn tiny (∑ k ∈ Finset.range K, expRows K st.means d k * st.vocab k t)
      = ∑ t ∈ Finset.range x.T, (x.words d t : ℝ) * logMix K st.vocab (st.means d) t - (x.len d : ℝ) * Numerics.rowMax K (st.means d) := by
    rw [← len_cast, Finset.sum_mul, ← Finset.sum_sub_distrib]
    refine Finset.sum_congr rfl fun t ht => ?_
    have ht := Finset.mem_range.1 ht
    rcases Nat.eq_zero_or_pos (x.words d t) with h0 | h0
    · rw [h0]
      simp
    · rw [safeLn_mix K hK tiny st.means st.vocab d t (fun k hk => (h.vocab k t hk ht).1) (h.floor d t hd ht h0)]
      ring
  rw [gaussTerm_eq K _ _ _ _ hvar, len_cast, hw, hl]
  unfold gap
  linarith

/-- C210: when moreover every document has a weight that is not negative and the variances are at most one, as after an iteration of `train` with a
prior of variance at most one, `var_bound` is below the evidence, by half a unit per document at least. -/
theorem bound_below_partial (tiny : ℝ) (x : Data) (K : Nat) (st : State) (h : Valid tiny x K st)
    (hmax : ∀ d, d < x.D → ∃ k, k < K ∧ 0 ≤ st.means d k) (hv1 : ∀ d k, d < x.D → k < K → st.varcs d k ≤ 1)
    (hl : ∀ d k, d < x.D → k < K → negJakkola (deriveXi (st.means d k) (st.varcs d k) (st.s d)) ≤ st.lxi d k) :
    varBound (exactInv K) (exactDet K) tiny x K st + x.D / 2 ≤ evidence x K st.topicMean st.sig st.vocab := by
  refine le_trans ?_ (bound_partial tiny x K st h)
  have hgap : ∀ d ∈ Finset.range x.D, (1 / 2 : ℝ) ≤ gap x K st d := by
    intro d hd
    have hd := Finset.mem_range.1 hd
    obtain ⟨k0, hk0, hm⟩ := hmax d hd
    have h1 : 0 ≤ (x.len d : ℝ) * Numerics.rowMax K (st.means d) :=
      mul_nonneg (Nat.cast_nonneg _) (hm.trans ((Props.Numerics.rowMax_spec K (st.means d) h.topics).1 k0 hk0))
    have hdet : 0 < exactDet K st.sig := h.sig.det_pos
    have h2 := Real.log_le_sub_one_of_pos hdet
    have h3 : 0 ≤ (x.len d : ℝ) * ∑ k ∈ Finset.range K, (st.lxi d k - negJakkola (deriveXi (st.means d k) (st.varcs d k) (st.s d)))
        * (st.varcs d k - st.varcs d k ^ 2) := by
      refine mul_nonneg (Nat.cast_nonneg _) (Finset.sum_nonneg fun k hk => ?_)
      have hk := Finset.mem_range.1 hk
      have := h.varcs d k hd hk
      have := hv1 d k hd hk
      exact mul_nonneg (sub_nonneg.2 (hl d k hd hk)) (by nlinarith)
    unfold gap
    linarith
  have := Finset.sum_le_sum hgap
  rw [Finset.sum_const, Finset.card_range, nsmul_eq_mul] at this
  linarith

theorem mat_diag (K : Nat) (sig : Nat → Nat → ℝ) (hd : ∀ k j, k ≠ j → sig k j = 0) : mat K sig = Matrix.diagonal fun k : Fin K => sig k k := by
  ext i j
  by_cases hij : i = j
  · subst hij
    rw [Matrix.diagonal_apply_eq]
    rfl
  · rw [Matrix.diagonal_apply_ne _ hij]
    exact hd i j fun h => hij (Fin.ext h)

/-- C210: in `train`, whenever the prior of the topic weights has variances of at most one, the value logged as the bound is below the logarithm of
the probability of the corpus. -/
theorem train_bound_partial (oas : (Nat → Nat → ℝ) → Nat → Nat → ℝ) (tiny : ℝ) (x : Data) (K : Nat) (ho : IsCov K oas) (prior : ℝ) (hp : 0 < prior)
    (hK : 0 < K) (hT : 0 < x.T) (st : State) (hst : Start x K st) (itr : Nat) (new : State) (hnew : new = (trainStep oas x K prior)^[itr + 1] st)
    (hsig : ∀ k, k < K → new.sig k k ≤ 1)
    (hfl : ∀ d t, d < x.D → t < x.T → 0 < x.words d t → tiny < ∑ k ∈ Finset.range K, expRows K new.means d k * new.vocab k t) :
    varBound (exactInv K) (exactDet K) tiny x K new + x.D / 2 ≤ evidence x K new.topicMean new.sig new.vocab := by
  have hpr : Proper x K new := by rw [hnew]; exact iterate_proper oas x K ho prior hp hK hT itr st hst
  have hlxi : ∀ d k, new.lxi d k = 2 * negJakkola (deriveXi (new.means d k) (new.varcs d k) (new.s d)) := by
    rw [hnew, Function.iterate_succ_apply']
    exact fun d k => rfl
  refine bound_below_partial tiny x K new ⟨hK, fun k t hk ht => ⟨(hpr.vocab k hk).1 t ht, dist_le_one x.T _ (hpr.vocab k hk) t ht⟩,
    fun d k hd hk => (hpr.varcs d k hd hk).1, ?_, hfl⟩ (fun d hd => ⟨0, hK, (hpr.first d).ge⟩)
    (fun d k hd hk => (hpr.varcs d k hd hk).2.trans (hsig k hk)) fun d k hd hk => ?_
  · rw [mat_diag K new.sig hpr.diag, Matrix.posDef_diagonal_iff]
    exact fun k => hpr.sig k k.2
  · rw [hlxi]
    have := (Bouchard.coefficient_spec _ (deriveXi_pos (new.means d k) (new.varcs d k) (new.s d) (hpr.varcs d k hd hk).1).ne').1
    linarith

/-! ## The bound of `ctm.py` can be anything -/

theorem mat_eye (K : Nat) : mat K Bohning.eye = 1 := by
  rw [mat_diag K Bohning.eye fun k j h => if_neg h]
  have : (fun k : Fin K => Bohning.eye k k) = fun _ => 1 := funext fun k => if_pos rfl
  rw [this, Matrix.diagonal_one]

theorem eye_inv (K : Nat) (i j : Nat) (hi : i < K) (hj : j < K) : exactInv K Bohning.eye i j = Bohning.eye i j := by
  have h : (mat K (exactInv K Bohning.eye)) ⟨i, hi⟩ ⟨j, hj⟩ = (mat K Bohning.eye) ⟨i, hi⟩ ⟨j, hj⟩ := by
    rw [mat_exactInv, mat_eye, inv_one]
  exact h

theorem eye_det (K : Nat) : exactDet K Bohning.eye = 1 := by
  unfold exactDet
  rw [mat_eye, Matrix.det_one]

/-- When all topics are the same, the words say nothing about the weights. -/
theorem evidence_same (x : Data) (K : Nat) (hK : 0 < K) (topicMean : Nat → ℝ) (sig vocab : Nat → Nat → ℝ) (hS : (mat K sig).PosDef)
    (row : Nat → ℝ) (hrow : ∀ k t, k < K → t < x.T → vocab k t = row t) (hpos : ∀ t, t < x.T → 0 < row t) :
    evidence x K topicMean sig vocab = ∑ d ∈ Finset.range x.D, ∑ t ∈ Finset.range x.T, (x.words d t : ℝ) * Real.log (row t) := by
  have : Nonempty (Fin K) := ⟨⟨0, hK⟩⟩
  refine Finset.sum_congr rfl fun d _ => ?_
  have hdoc : ∀ η : Fin K → ℝ, docProb K x.T vocab (x.words d) η = ∏ t ∈ Finset.range x.T, row t ^ x.words d t := by
    intro η
    have hZ : 0 < ∑ j : Fin K, Real.exp (η j) := Finset.sum_pos (fun _ _ => Real.exp_pos _) Finset.univ_nonempty
    refine Finset.prod_congr rfl fun t ht => ?_
    rw [Finset.sum_congr rfl fun k _ => by rw [hrow k t k.2 (Finset.mem_range.1 ht)], ← Finset.sum_mul, ← Finset.sum_div, div_self hZ.ne', one_mul]
  simp only [hdoc]
  rw [integral_mul_const, (Gauss.density_one _ _ hS).2, one_mul,
    Real.log_prod fun t ht => (pow_pos (hpos t (Finset.mem_range.1 ht)) _).ne']
  exact Finset.sum_congr rfl fun t _ => Real.log_pow _ _

/-- One document with `N` occurrences of either of two words -/
def vData (N : Nat) : Data := ⟨1, 2, fun _ _ => N⟩

/-- Two equal topics, a standard Gaussian prior, variances one and both weights `-N`; the parameters of Bouchard's bound are consistent. -/
noncomputable def vState (N : Nat) : State :=
  ⟨fun _ => 0, Bohning.eye, fun _ _ => 1 / 2, fun _ _ => -N, fun _ _ => 1, fun _ _ => 1, fun _ _ => negJakkola 1, fun _ => -N⟩

theorem vState_valid (N : Nat) (tiny : ℝ) (h : tiny < 1) : Valid tiny (vData N) 2 (vState N) := by
  refine ⟨two_pos, fun _ _ _ _ => by norm_num [vState], fun _ _ _ _ => by norm_num [vState], ?_, fun d t _ _ _ => ?_⟩
  · show (mat 2 Bohning.eye).PosDef
    rw [mat_eye]
    exact Matrix.PosDef.one
  · have he : ∀ k, expRows 2 (vState N).means d k = 1 := by
      intro k
      obtain ⟨_, j, _, hj⟩ := Props.Numerics.rowMax_spec 2 ((vState N).means d) two_pos
      unfold expRows
      rw [hj]
      simp [vState]
    simp only [he]
    norm_num [vState, Finset.sum_range_succ]
    exact h

/-- C210: `var_bound` exceeds the logarithm of the probability of the corpus, by as much as one likes. -/
theorem bound_violation (tiny : ℝ) (htiny : tiny < 1) (B : ℝ) : ∃ N, Valid tiny (vData N) 2 (vState N) ∧
    (∀ d k, (vState N).lxi d k = negJakkola (deriveXi ((vState N).means d k) ((vState N).varcs d k) ((vState N).s d))) ∧
    evidence (vData N) 2 (vState N).topicMean (vState N).sig (vState N).vocab + B
      < varBound (exactInv 2) (exactDet 2) tiny (vData N) 2 (vState N) := by
  obtain ⟨N, hN⟩ := exists_nat_ge (|B| + 8)
  have hxi : ∀ m : ℝ, deriveXi m 1 m = 1 := by
    intro m
    unfold deriveXi
    rw [show m ^ 2 - 2 * m * m + m ^ 2 + 1 ^ 2 = 1 by ring, Real.sqrt_one]
  refine ⟨N, vState_valid N tiny htiny, fun d k => by simp only [vState, hxi], ?_⟩
  have hev : evidence (vData N) 2 (vState N).topicMean (vState N).sig (vState N).vocab ≤ 0 := by
    rw [evidence_same (vData N) 2 two_pos _ _ (vState N).vocab (vState_valid N tiny htiny).sig (fun _ => 1 / 2) (fun _ _ _ _ => rfl) (fun _ _ => by norm_num)]
    exact Finset.sum_nonpos fun d _ => Finset.sum_nonpos fun t _ =>
      mul_nonpos_of_nonneg_of_nonpos (Nat.cast_nonneg _) (Real.log_nonpos (by norm_num) (by norm_num))
  have hexp : ∀ d k, expRows 2 (vState N).means d k = 1 := by
    intro d k
    obtain ⟨_, j, _, hj⟩ := Props.Numerics.rowMax_spec 2 ((vState N).means d) two_pos
    unfold expRows
    rw [hj]
    simp [vState]
  have hinv : ∀ i j, i < 2 → j < 2 → exactInv 2 (vState N).sig i j = Bohning.eye i j := fun i j hi hj => eye_inv 2 i j hi hj
  have hdet : exactDet 2 (vState N).sig = 1 := eye_det 2
  have hlen : ((vData N).len 0 : ℝ) = 2 * N := by
    unfold Data.len vData
    simp
  have hw : ∀ t, SparseKernels.safeLn tiny (∑ k ∈ Finset.range 2, expRows 2 (vState N).means 0 k * (vState N).vocab k t) = 0 := by
    intro t
    simp only [hexp]
    have : ∑ k ∈ Finset.range 2, 1 * (vState N).vocab k t = 1 := by norm_num [vState, Finset.sum_range_succ]
    rw [this]
    unfold SparseKernels.safeLn
    rw [if_pos htiny, Real.log_one]
  have he : Real.log (1 + Real.exp 1) ≤ 2 := by
    rw [Real.log_le_iff_le_exp (by positivity)]
    have h1 : (2 : ℝ) ≤ Real.exp 1 := by have := Real.add_one_le_exp 1; linarith
    rw [show (2 : ℝ) = 1 + 1 by norm_num, Real.exp_add]
    nlinarith
  have hpi : lnOf2PiE = lnOf2Pi + 1 := by
    unfold lnOf2PiE lnOf2Pi
    rw [Real.log_mul (by positivity) (Real.exp_pos _).ne', Real.log_exp]
  have hb : varBound (exactInv 2) (exactDet 2) tiny (vData N) 2 (vState N)
      = (N : ℝ) ^ 2 - 1 / 2 + 2 * N - 4 * N * Real.log (1 + Real.exp 1) := by
    rw [varBound_eq]
    show ∑ d ∈ Finset.range 1, _ = _
    rw [Finset.sum_range_one, hdet, Bouchard.boundTerms_eq, hlen, hpi]
    simp only [hw, mul_zero, Finset.sum_const_zero]
    simp only [Finset.sum_range_succ, Finset.sum_range_zero, zero_add]
    rw [hinv 0 0 two_pos two_pos, hinv 0 1 two_pos one_lt_two, hinv 1 0 one_lt_two two_pos, hinv 1 1 one_lt_two one_lt_two]
    simp only [vState, hxi, Bohning.eye, Real.log_one]
    norm_num
    ring
  rw [hb]
  have hB := le_abs_self B
  have hB0 := abs_nonneg B
  nlinarith

/-! ## The bound of `ctm_bohning.py` -/

/-- `var_bound` of ctm_bohning.py, document by document -/
theorem bohningBound_eq (inv : (Nat → Nat → ℝ) → Nat → Nat → ℝ) (det : (Nat → Nat → ℝ) → ℝ) (tiny : ℝ) (x : Data) (K : Nat) (A : Nat → Nat → ℝ)
    (st : BState) : bohningBound inv det tiny x K A st = ∑ d ∈ Finset.range x.D,
      (-(K / 2 * lnOf2Pi) - det st.sig / 2
        - (∑ k ∈ Finset.range K, (∑ j ∈ Finset.range K, (st.means d j - st.topicMean j) * inv st.sig j k) * (st.means d k - st.topicMean k)) / 2
        - (∑ k ∈ Finset.range K, st.varcs d k * inv st.sig k k) / 2
        + (x.len d : ℝ) * Real.log (∑ k ∈ Finset.range K, expRows K st.means d k)
        + ∑ t ∈ Finset.range x.T, (x.words d t : ℝ) * SparseKernels.safeLn tiny (∑ k ∈ Finset.range K, expRows K st.means d k * st.vocab k t)
        + ∑ k ∈ Finset.range K, 2 * (x.len d : ℝ) * (∑ j ∈ Finset.range K, st.means d j * A j k) * st.means d k
        - 2 * ∑ k ∈ Finset.range K, softmaxRows K st.means d k * st.means d k
        - (∑ k ∈ Finset.range K, (x.len d : ℝ) * topicCounts x K (expRows K st.means) st.vocab d k * A k k) / 2) := by
  have hs : Numerics.scaledSelfSoftDot x.D K st.means (fun d => (x.len d : ℝ))
      = ∑ d ∈ Finset.range x.D, ∑ k ∈ Finset.range K, softmaxRows K st.means d k * st.means d k := by
    unfold Numerics.scaledSelfSoftDot
    refine Finset.sum_congr rfl fun d _ => Finset.sum_congr rfl fun k _ => ?_
    unfold softmaxRows
    ring
  unfold bohningBound quadTerm
  simp only [hs, Finset.sum_add_distrib, Finset.sum_sub_distrib, Finset.sum_neg_distrib, Finset.sum_const, Finset.card_range, nsmul_eq_mul,
    ← Finset.sum_div, ← Finset.mul_sum]
  ring

/-- What separates `var_bound` of ctm_bohning.py from a bound, in one document: the determinant in the place of its logarithm, the missing entropy,
the normaliser with the wrong sign, the missing variances of the quadratic expansion, and three terms that do not belong there. -/
noncomputable def bohningGap (x : Data) (K : Nat) (A : Nat → Nat → ℝ) (st : BState) (d : Nat) : ℝ :=
  (exactDet K st.sig - Real.log (exactDet K st.sig)) / 2
    + (K / 2 * lnOf2PiE + (∑ k ∈ Finset.range K, Real.log (st.varcs d k)) / 2)
    - 2 * (x.len d : ℝ) * Real.log (∑ k ∈ Finset.range K, expRows K st.means d k)
    - (x.len d : ℝ) / 2 * ∑ k ∈ Finset.range K, A k k * st.varcs d k
    - ∑ k ∈ Finset.range K, 2 * (x.len d : ℝ) * (∑ j ∈ Finset.range K, st.means d j * A j k) * st.means d k
    + 2 * ∑ k ∈ Finset.range K, softmaxRows K st.means d k * st.means d k
    + (∑ k ∈ Finset.range K, (x.len d : ℝ) * topicCounts x K (expRows K st.means) st.vocab d k * A k k) / 2

/-- As `Valid`, for ctm_bohning.py -/
structure BValid (tiny : ℝ) (x : Data) (K : Nat) (st : BState) : Prop where
  topics : 0 < K
  vocab : ∀ k t, k < K → t < x.T → 0 < st.vocab k t ∧ st.vocab k t ≤ 1
  varcs : ∀ d k, d < x.D → k < K → 0 < st.varcs d k
  sig : (mat K st.sig).PosDef
  floor : ∀ d t, d < x.D → t < x.T → 0 < x.words d t → tiny < ∑ k ∈ Finset.range K, expRows K st.means d k * st.vocab k t

/-- The expected log-sum-exp is at most that of the means plus half the variances weighted with Böhning's matrix. -/
theorem lse_expected (K : Nat) (hK : 0 < K) (m v : Nat → ℝ) (hv : ∀ k, k < K → 0 < v k) :
    ∫ η, Real.log (∑ k ∈ Finset.range K, Real.exp (vecAt η k)) ∂(weights K m v)
      ≤ Bohning.lse K m + (∑ k ∈ Finset.range K, bohningA K k k * v k) / 2 := by
  have hne := nn_ne K v hv
  have hp := Gauss.law_probability (fun k : Fin K => m k) (nn K v) hne
  have hM := weights_moments K m v hv
  have hlse := Bouchard.lse_integrable (weights K m v) K hK (fun k η => vecAt η k) hM.int
  have hlin : ∀ k, k < K → Integrable (fun η : Fin K → ℝ => Props.Numerics.softmax K m k * (vecAt η k - m k)) (weights K m v) :=
    fun k hk => ((hM.int k hk).sub (integrable_const _)).const_mul _
  have hlinI : Integrable (fun η : Fin K → ℝ => ∑ k ∈ Finset.range K, Props.Numerics.softmax K m k * (vecAt η k - m k)) (weights K m v) :=
    integrable_finsetSum _ fun k hk => hlin k (Finset.mem_range.1 hk)
  have hlin0 : ∫ η, ∑ k ∈ Finset.range K, Props.Numerics.softmax K m k * (vecAt η k - m k) ∂(weights K m v) = 0 := by
    rw [integral_finsetSum _ fun k hk => hlin k (Finset.mem_range.1 hk)]
    refine Finset.sum_eq_zero fun k hk => ?_
    have hk := Finset.mem_range.1 hk
    rw [integral_const_mul, integral_sub (hM.int k hk) (integrable_const _), hM.mean k hk, integral_const]
    simp
  have hq : ∀ η : Fin K → ℝ, Bohning.quad K (bohningA K) (fun k => vecAt η k - m k)
      = ∑ i : Fin K, ∑ j : Fin K, bohningA K i j * ((η i - m i) * (η j - m j)) := by
    intro η
    unfold Bohning.quad
    rw [Finset.sum_range]
    refine Finset.sum_congr rfl fun i _ => ?_
    rw [Finset.sum_range, Finset.mul_sum]
    refine Finset.sum_congr rfl fun j _ => ?_
    dsimp only
    rw [vecAt_fin, vecAt_fin]
    ring
  have hij : ∀ i j : Fin K, Integrable (fun η : Fin K → ℝ => bohningA K i j * ((η i - m i) * (η j - m j))) (weights K m v) :=
    fun i j => (Gauss.law_moment _ _ hne (fun k : Fin K => m k) i j).1.const_mul _
  have hqI : Integrable (fun η : Fin K → ℝ => Bohning.quad K (bohningA K) (fun k => vecAt η k - m k)) (weights K m v) := by
    simp only [hq]
    exact integrable_finsetSum _ fun i _ => integrable_finsetSum _ fun j _ => hij i j
  have hqv : ∫ η, Bohning.quad K (bohningA K) (fun k => vecAt η k - m k) ∂(weights K m v) = ∑ k ∈ Finset.range K, bohningA K k k * v k := by
    simp only [hq]
    rw [integral_finsetSum _ fun i _ => integrable_finsetSum _ fun j _ => hij i j, Finset.sum_range]
    refine Finset.sum_congr rfl fun i _ => ?_
    rw [integral_finsetSum _ fun j _ => hij i j]
    have : ∀ j : Fin K, ∫ η, bohningA K i j * ((η i - m i) * (η j - m j)) ∂(weights K m v) = if i = j then bohningA K i j * v i else 0 := by
      intro j
      rw [integral_const_mul, (Gauss.law_moment _ _ hne (fun k : Fin K => m k) i j).2, nn_coe K v hv]
      split_ifs <;> simp
    rw [Finset.sum_congr rfl fun j _ => this j, Finset.sum_ite_eq Finset.univ i, if_pos (Finset.mem_univ i)]
  have hUI : Integrable (fun η : Fin K → ℝ => Bohning.lse K m + ∑ k ∈ Finset.range K, Props.Numerics.softmax K m k * (vecAt η k - m k)
      + Bohning.quad K (bohningA K) (fun k => vecAt η k - m k) / 2) (weights K m v) :=
    ((integrable_const _).add hlinI).add (hqI.div_const 2)
  have hle := integral_mono hlse hUI fun η => Bohning.lse_bohning K hK m (fun k => vecAt η k)
  have h1 : Integrable (fun η : Fin K → ℝ => Bohning.lse K m + ∑ k ∈ Finset.range K, Props.Numerics.softmax K m k * (vecAt η k - m k)) (weights K m v) :=
    (integrable_const _).add hlinI
  rw [integral_add h1 (hqI.div_const 2), integral_add (integrable_const _) hlinI, hlin0, integral_div, hqv, integral_const] at hle
  simpa using hle

/-- C211: `var_bound` of ctm_bohning.py plus the gaps never exceeds the logarithm of the probability of the corpus. -/
theorem bohning_bound_partial (tiny : ℝ) (x : Data) (K : Nat) (st : BState) (h : BValid tiny x K st) :
    bohningBound (exactInv K) (exactDet K) tiny x K (bohningA K) st + ∑ d ∈ Finset.range x.D, bohningGap x K (bohningA K) st d
      ≤ evidence x K st.topicMean st.sig st.vocab := by
  rw [bohningBound_eq, ← Finset.sum_add_distrib]
  unfold evidence
  refine Finset.sum_le_sum fun d hd => ?_
  have hd := Finset.mem_range.1 hd
  have hvar := fun k hk => h.varcs d k hd hk
  have hK := h.topics
  refine le_trans ?_ (doc_bound K x.T hK st.vocab (fun k t hk ht => (h.vocab k t hk ht).1) (fun k t hk ht => (h.vocab k t hk ht).2) (x.words d)
    (fun k : Fin K => st.topicMean k) (mat K st.sig) h.sig (st.means d) (st.varcs d) hvar)
  have hb := mul_le_mul_of_nonneg_left (lse_expected K hK (st.means d) (st.varcs d) hvar) (Nat.cast_nonneg (α := ℝ) (x.len d))
  have hw : ∑ t ∈ Finset.range x.T, (x.words d t : ℝ) * SparseKernels.safeLn tiny (∑ k ∈ Finset.range K, expRows K st.means d k * st.vocab k t)
      = ∑ t ∈ Finset.range x.T, (x.words d t : ℝ) * logMix K st.vocab (st.means d) t - (x.len d : ℝ) * Numerics.rowMax K (st.means d) := by
    rw [← len_cast, Finset.sum_mul, ← Finset.sum_sub_distrib]
    refine Finset.sum_congr rfl fun t ht => ?_
    have ht := Finset.mem_range.1 ht
    rcases Nat.eq_zero_or_pos (x.words d t) with h0 | h0
    · rw [h0]
      simp
    · rw [safeLn_mix K hK tiny st.means st.vocab d t (fun k hk => (h.vocab k t hk ht).1) (h.floor d t hd ht h0)]
      ring
  have hn : Real.log (∑ k ∈ Finset.range K, expRows K st.means d k) = Bohning.lse K (st.means d) - Numerics.rowMax K (st.means d) := by
    have hpos := Props.Numerics.sum_exp_pos K (st.means d) hK
    have : ∑ k ∈ Finset.range K, expRows K st.means d k = (∑ k ∈ Finset.range K, Real.exp (st.means d k)) * Real.exp (-Numerics.rowMax K (st.means d)) := by
      rw [Finset.sum_mul]
      refine Finset.sum_congr rfl fun k _ => ?_
      unfold expRows
      rw [sub_eq_add_neg, Real.exp_add]
    rw [this, Real.log_mul hpos.ne' (Real.exp_pos _).ne', Real.log_exp]
    rfl
  rw [gaussTerm_eq K _ _ _ _ hvar, len_cast, hw]
  unfold bohningGap
  rw [hn]
  linarith

/-! ## The bound of `ctm_bohning.py` exceeds the evidence after every iteration -/

/-- One document with two occurrences of either of two words -/
def bData : Data := ⟨1, 2, fun _ _ => 2⟩

/-- Four equal topics with equal weights -/
structure Same (st : BState) : Prop where
  means : ∀ d k, st.means d k = 0
  vocab : ∀ k t, st.vocab k t = 1 / 2

theorem zero_exp (K : Nat) (hK : 0 < K) (means : Nat → Nat → ℝ) (h : ∀ d k, means d k = 0) (d k : Nat) : expRows K means d k = 1 := by
  obtain ⟨_, j, _, hj⟩ := Props.Numerics.rowMax_spec K (means d) hK
  unfold expRows
  rw [hj, h, h, sub_zero, Real.exp_zero]

theorem same_counts (st : BState) (h : Same st) (d k : Nat) : topicCounts bData 4 (expRows 4 st.means) st.vocab d k = 1 := by
  unfold topicCounts quotient
  simp only [zero_exp 4 (by norm_num) st.means h.means, h.vocab]
  norm_num [bData, Finset.sum_range_succ]

theorem same_step (cov : (Nat → Nat → ℝ) → (Nat → Nat → ℝ) → Nat → Nat → ℝ) (prior : ℝ) (hp : 0 < prior) (fast : Bool) (st : BState) (h : Same st) :
    Same (bohningStep (exactInv 4) cov bData 4 prior (bohningA 4) fast st) ∧
      (bohningStep (exactInv 4) cov bData 4 prior (bohningA 4) fast st).sig = Bohning.eye ∧
      (∀ k, (bohningStep (exactInv 4) cov bData 4 prior (bohningA 4) fast st).topicMean k = 0) ∧
      (∀ d k, (bohningStep (exactInv 4) cov bData 4 prior (bohningA 4) fast st).varcs d k = 1 / 4) := by
  have hvocab : ∀ k t, newVocab bData 4 prior (expRows 4 st.means) st.vocab k t = 1 / 2 := by
    intro k t
    unfold newVocab vocabWith normalizeRows quotient
    simp only [zero_exp 4 (by norm_num) st.means h.means, h.vocab]
    norm_num [bData, Finset.sum_range_succ]
    field_simp
  have hrhs : ∀ isig d k, bohningRhs bData 4 (bohningA 4) isig (fun k => (∑ d ∈ Finset.range bData.D, st.means d k) / (bData.D : ℝ))
      (topicCounts bData 4 (expRows 4 st.means) (newVocab bData 4 prior (expRows 4 st.means) st.vocab)) st.means d k = 0 := by
    intro isig d k
    have hc := same_counts { st with vocab := newVocab bData 4 prior (expRows 4 st.means) st.vocab } ⟨h.means, hvocab⟩ d k
    unfold bohningRhs
    rw [show topicCounts bData 4 (expRows 4 st.means) (newVocab bData 4 prior (expRows 4 st.means) st.vocab) d k = 1 from hc, softmaxRows_eq]
    unfold Props.Numerics.softmax
    simp only [h.means]
    norm_num [bData, Data.len, Finset.sum_range_succ]
  refine ⟨⟨fun d k => ?_, hvocab⟩, rfl, fun k => ?_, fun d k => ?_⟩
  · unfold bohningStep bohningMeans
    simp only [hrhs]
    simp
  · unfold bohningStep
    simp only [h.means]
    simp
  · unfold bohningStep
    norm_num [bData, Data.len, Finset.sum_range_succ]

/-- C211: from equal topics and weights, the value that `train` of ctm_bohning.py logs as the bound exceeds the logarithm of the probability of the
corpus after every iteration. -/
theorem bohning_bound_violation (cov : (Nat → Nat → ℝ) → (Nat → Nat → ℝ) → Nat → Nat → ℝ) (prior : ℝ) (hp : 0 < prior) (fast : Bool) (tiny : ℝ)
    (htiny : tiny < 1) (st : BState) (h : Same st) (itr : Nat) (new : BState)
    (hnew : new = (bohningStep (exactInv 4) cov bData 4 prior (bohningA 4) fast)^[itr + 1] st) :
    BValid tiny bData 4 new ∧
    evidence bData 4 new.topicMean new.sig new.vocab + 2 < bohningBound (exactInv 4) (exactDet 4) tiny bData 4 (bohningA 4) new := by
  have hit : ∀ i, Same ((bohningStep (exactInv 4) cov bData 4 prior (bohningA 4) fast)^[i] st) := by
    intro i
    induction i with
    | zero => exact h
    | succ i ih =>
      rw [Function.iterate_succ_apply']
      exact (same_step cov prior hp fast _ ih).1
  rw [Function.iterate_succ_apply'] at hnew
  obtain ⟨hs, hsig, htm, hvc⟩ := same_step cov prior hp fast _ (hit itr)
  rw [← hnew] at hs hsig htm hvc
  have hexp : ∀ d k, expRows 4 new.means d k = 1 := zero_exp 4 (by norm_num) new.means hs.means
  have hmix : ∀ d t, ∑ k ∈ Finset.range 4, expRows 4 new.means d k * new.vocab k t = 2 := by
    intro d t
    simp only [hexp, hs.vocab]
    norm_num [Finset.sum_range_succ]
  have hpd : (mat 4 new.sig).PosDef := by
    rw [hsig, mat_eye]
    exact Matrix.PosDef.one
  refine ⟨⟨by norm_num, fun k t _ _ => by rw [hs.vocab]; norm_num, fun d k _ _ => by rw [hvc]; norm_num, hpd, fun d t _ _ _ => ?_⟩, ?_⟩
  · rw [hmix]
    linarith
  have hev : evidence bData 4 new.topicMean new.sig new.vocab = -(4 * Real.log 2) := by
    rw [evidence_same bData 4 (by norm_num) _ _ _ hpd (fun _ => 1 / 2) (fun k t _ _ => hs.vocab k t) (fun _ _ => by norm_num)]
    show ∑ d ∈ Finset.range 1, ∑ t ∈ Finset.range 2, ((2 : ℕ) : ℝ) * Real.log (1 / 2) = _
    rw [one_div, Real.log_inv]
    norm_num [Finset.sum_range_succ]
    ring
  have hlen : (bData.len 0 : ℝ) = 4 := by norm_num [bData, Data.len, Finset.sum_range_succ]
  have hsafe : SparseKernels.safeLn tiny 2 = Real.log 2 := by
    unfold SparseKernels.safeLn
    rw [if_pos (by linarith)]
  have hinv : ∀ k, k < 4 → exactInv 4 new.sig k k = 1 := by
    intro k hk
    rw [hsig, eye_inv 4 k k hk hk]
    exact if_pos rfl
  have hlog4 : Real.log 4 = 2 * Real.log 2 := by
    rw [show (4 : ℝ) = 2 ^ 2 by norm_num, Real.log_pow]
    norm_num
  have hA : ∀ k, bohningA 4 k k = 2 / 5 := by
    intro k
    unfold bohningA
    norm_num
  have hb : bohningBound (exactInv 4) (exactDet 4) tiny bData 4 (bohningA 4) new = 12 * Real.log 2 - 2 * lnOf2Pi - 21 / 5 := by
    rw [bohningBound_eq]
    show ∑ d ∈ Finset.range 1, _ = _
    rw [Finset.sum_range_one, hlen, hsig, eye_det, ← hsig]
    have hcounts : ∀ k, topicCounts bData 4 (expRows 4 new.means) new.vocab 0 k = 1 := same_counts new hs 0
    have htr : ∑ k ∈ Finset.range 4, new.varcs 0 k * exactInv 4 new.sig k k = ∑ k ∈ Finset.range 4, (1 / 4 : ℝ) :=
      Finset.sum_congr rfl fun k hk => by rw [hinv k (Finset.mem_range.1 hk), hvc, mul_one]
    rw [htr]
    simp only [hmix, hsafe]
    simp only [hexp, hcounts, hs.means, htm, hA]
    norm_num [Finset.sum_range_succ, hlog4, bData]
    ring
  have h2pi : lnOf2Pi ≤ 3 * Real.log 2 := by
    unfold lnOf2Pi
    rw [show 3 * Real.log 2 = Real.log (2 ^ 3) by rw [Real.log_pow]; norm_num]
    exact Real.log_le_log (by positivity) (by have := Real.pi_le_four; norm_num; linarith)
  have hl2 := Real.log_two_gt_d9
  rw [hev, hb]
  linarith

/-! ## Examples -/

/-- Two documents, two topics, equal weights -/
noncomputable def exS : State :=
  ⟨fun _ => 0, Bohning.eye, exV, fun _ _ => 0, fun _ _ => 1, fun _ _ => 1 / 2, fun _ _ => 2 * negJakkola (1 / 2), fun _ => 0⟩

theorem exS_valid : Valid (1 / 10 ^ 30) exX 2 exS := by
  refine ⟨two_pos, fun k t _ _ => ?_, fun _ _ _ _ => by norm_num [exS], ?_, fun d t _ ht _ => ?_⟩
  · simp only [exS, exV]
    split <;> norm_num
  · show (mat 2 Bohning.eye).PosDef
    rw [mat_eye]
    exact Matrix.PosDef.one
  · have he := zero_exp 2 two_pos exS.means (fun _ _ => rfl) d
    simp only [he]
    simp only [exS, exV, Finset.sum_range_succ, Finset.sum_range_zero]
    split <;> split <;> norm_num

/-- The reported bound of this state is a bound. -/
example : varBound (exactInv 2) (exactDet 2) (1 / 10 ^ 30) exX 2 exS + 1 ≤ evidence exX 2 exS.topicMean exS.sig exS.vocab := by
  have h := bound_below_partial (1 / 10 ^ 30) exX 2 exS exS_valid (fun _ _ => ⟨0, two_pos, le_rfl⟩) (fun _ _ _ _ => by norm_num [exS]) fun d k _ _ => by
    have hxi : deriveXi (exS.means d k) (exS.varcs d k) (exS.s d) = 1 / 2 := by
      simp only [exS]
      unfold deriveXi
      rw [show (0 : ℝ) ^ 2 - 2 * 0 * 0 + 0 ^ 2 + (1 / 2) ^ 2 = (1 / 2) ^ 2 by ring, Real.sqrt_sq (by norm_num)]
    rw [hxi]
    have := (Bouchard.coefficient_spec (1 / 2) (by norm_num)).1
    show negJakkola (1 / 2) ≤ 2 * negJakkola (1 / 2)
    linarith
  simpa [exX] using h

/-- One iteration from this state with no spread of the means keeps the prior variances below one. -/
example : varBound (exactInv 2) (exactDet 2) 0 exX 2 (trainStep (fun _ _ _ => 0) exX 2 1 exS) + exX.D / 2
    ≤ evidence exX 2 (trainStep (fun _ _ _ => 0) exX 2 1 exS).topicMean (trainStep (fun _ _ _ => 0) exX 2 1 exS).sig
      (trainStep (fun _ _ _ => 0) exX 2 1 exS).vocab := by
  have hst : Start exX 2 exS := ⟨exV_topics, fun _ _ _ _ => by norm_num [exS], fun _ _ _ _ => by
    have := (Bouchard.coefficient_spec (1 / 2) (by norm_num)).1
    show 0 < 2 * negJakkola (1 / 2)
    linarith⟩
  have ho : IsCov 2 fun _ _ _ => 0 := fun _ _ _ => le_rfl
  have hpr := step_proper (fun _ _ _ => 0) exX 2 ho 1 one_pos two_pos (by decide) exS hst
  refine train_bound_partial (fun _ _ _ => 0) 0 exX 2 ho 1 one_pos two_pos (by decide) exS hst 0 _ rfl (fun k _ => ?_) fun d t _ ht _ => ?_
  · simp only [trainStep, exS, exX]
    norm_num [Finset.sum_range_succ]
  · refine Finset.sum_pos (fun k hk => mul_pos (Real.exp_pos _) ((hpr.vocab k (Finset.mem_range.1 hk)).1 t ht)) ⟨0, by simp⟩

/-- The four equal topics stay equal. -/
example : ∃ st, Same st := ⟨⟨fun _ => 0, Bohning.eye, fun _ _ => 1 / 2, fun _ _ => 0, fun _ _ => 1, fun _ _ => 1⟩, fun _ _ => rfl, fun _ _ => rfl⟩

end Verif.Props.CtmBound
