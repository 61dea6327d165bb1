import Verif.Model.StmBound
import Verif.Props.CtmBound
import Verif.Props.MtmBound

/-!
# The bounds of the topic models with features and the evidence (C268)
-/

namespace Verif.Props.StmBound

open Verif Verif.Ctm Verif.Stm Verif.CtmBound Verif.StmBound MeasureTheory
open Verif.Mom (Data)
open Verif.Props.CtmBound (docProb exactDet bohningGap docProb_le docProb_pos docProb_continuous zero_exp mat_eye eye_inv)
open Verif.Props.StmCov (exactInv mat mat_exactInv)

/-! ## Specification -/

/-- The logarithm of the probability of the corpus, given the weights of the features: the topic weights of document `d` are a Gaussian vector
around `X_d A^T`. -/
noncomputable def evidence (p : Params) (x : Data) (X A sig vocab : Nat → Nat → ℝ) : ℝ :=
  ∑ d ∈ Finset.range x.D, Real.log (∫ η, Gauss.density (fun k : Fin p.K => ∑ f ∈ Finset.range p.F, X d f * A k f) (mat p.K sig) η
    * docProb p.K x.T vocab (x.words d) η)

/-- A state as `train` leaves it: topics are positive, variances are positive, the covariance is positive definite, and no word that occurs is
rarer than the floor `tiny` of the safe logarithm. -/
structure Valid (tiny : ℝ) (p : Params) (x : Data) (st : BoundState) : Prop where
  topics : 0 < p.K
  vocab : ∀ k t, k < p.K → t < x.T → 0 < st.vocab k t ∧ st.vocab k t ≤ 1
  varcs : ∀ d k, d < x.D → k < p.K → 0 < st.varcs d k
  sig : (mat p.K st.sig).PosDef
  floor : ∀ d t, d < x.D → t < x.T → 0 < x.words d t → tiny < ∑ k ∈ Finset.range p.K, expRows p.K st.means d k * st.vocab k t

/-! ## The evidence is not positive -/

theorem docProb_le_pow (K T : Nat) (hK : 0 < K) (vocab : Nat → Nat → ℝ) (b : ℝ) (hv : ∀ k t, k < K → t < T → 0 < vocab k t ∧ vocab k t ≤ b)
    (w : Nat → Nat) (η : Fin K → ℝ) : docProb K T vocab w η ≤ b ^ (∑ t ∈ Finset.range T, w t) := by
  have : Nonempty (Fin K) := ⟨⟨0, hK⟩⟩
  have hZ : 0 < ∑ j : Fin K, Real.exp (η j) := Finset.sum_pos (fun _ _ => Real.exp_pos _) Finset.univ_nonempty
  unfold docProb
  rw [← Finset.prod_pow_eq_pow_sum]
  have hnn : ∀ t ∈ Finset.range T, 0 ≤ ∑ k : Fin K, Real.exp (η k) / (∑ j : Fin K, Real.exp (η j)) * vocab k t := fun t ht =>
    Finset.sum_nonneg fun (k : Fin K) _ => (mul_pos (div_pos (Real.exp_pos _) hZ) (hv k t k.2 (Finset.mem_range.1 ht)).1).le
  refine Finset.prod_le_prod (fun t ht => pow_nonneg (hnn t ht) _) fun t ht => pow_le_pow_left₀ (hnn t ht) ?_ _
  calc ∑ k : Fin K, Real.exp (η k) / (∑ j : Fin K, Real.exp (η j)) * vocab k t
      ≤ ∑ k : Fin K, Real.exp (η k) / (∑ j : Fin K, Real.exp (η j)) * b :=
        Finset.sum_le_sum fun k _ => mul_le_mul_of_nonneg_left (hv k t k.2 (Finset.mem_range.1 ht)).2 (div_pos (Real.exp_pos _) hZ).le
    _ = b := by rw [← Finset.sum_mul, ← Finset.sum_div, div_self hZ.ne', one_mul]

theorem doc_evidence_le (K T : Nat) (hK : 0 < K) (vocab : Nat → Nat → ℝ) (b : ℝ) (hb : 0 < b)
    (hv : ∀ k t, k < K → t < T → 0 < vocab k t ∧ vocab k t ≤ b) (hb1 : b ≤ 1) (w : Nat → Nat) (μ : Fin K → ℝ) (S : Matrix (Fin K) (Fin K) ℝ)
    (hS : S.PosDef) : Real.log (∫ η, Gauss.density μ S η * docProb K T vocab w η) ≤ ((∑ t ∈ Finset.range T, w t : Nat) : ℝ) * Real.log b := by
  have hd := Gauss.density_one μ S hS
  have hpos := docProb_pos K T hK vocab (fun k t hk ht => (hv k t hk ht).1) w
  have hle := docProb_le_pow K T hK vocab b hv w
  have hden : ∀ η, 0 ≤ Gauss.density μ S η := fun η => (Gauss.density_pos μ S hS η).le
  have hint : ∫ η, Gauss.density μ S η * docProb K T vocab w η ≤ b ^ (∑ t ∈ Finset.range T, w t) := by
    have : ∫ η, Gauss.density μ S η * docProb K T vocab w η ≤ ∫ η, Gauss.density μ S η * b ^ (∑ t ∈ Finset.range T, w t) := by
      refine integral_mono_of_nonneg (Filter.Eventually.of_forall fun η => mul_nonneg (hden η) (hpos η).le) (hd.1.mul_const _)
        (Filter.Eventually.of_forall fun η => mul_le_mul_of_nonneg_left (hle η) (hden η))
    rwa [integral_mul_const, hd.2, one_mul] at this
  rw [← Real.log_pow]
  have hi : Integrable (fun η => Gauss.density μ S η * docProb K T vocab w η) := by
    refine hd.1.mul_bdd (c := 1) (docProb_continuous K T hK vocab w).aestronglyMeasurable (Filter.Eventually.of_forall fun η => ?_)
    rw [Real.norm_of_nonneg (hpos η).le]
    exact (hle η).trans (pow_le_one₀ hb.le hb1)
  have hfp : ∀ η, 0 < Gauss.density μ S η * docProb K T vocab w η := fun η => mul_pos (Gauss.density_pos μ S hS η) (hpos η)
  refine Real.log_le_log ?_ hint
  rw [integral_pos_iff_support_of_nonneg (fun η => (hfp η).le) hi]
  have : Function.support (fun η => Gauss.density μ S η * docProb K T vocab w η) = Set.univ := Set.eq_univ_of_forall fun η => (hfp η).ne'
  rw [this]
  exact Measure.measure_univ_pos.2 (NeZero.ne _)

/-- The probability of the corpus, with the weights of the features drawn from `prior` -/
noncomputable def marginal (prior : Measure (Nat → Nat → ℝ)) (p : Params) (x : Data) (X sig vocab : Nat → Nat → ℝ) : ℝ :=
  ∫ A, Real.exp (evidence p x X A sig vocab) ∂prior

theorem evidence_le (tiny : ℝ) (p : Params) (x : Data) (X A : Nat → Nat → ℝ) (st : BoundState) (h : Valid tiny p x st) (b : ℝ) (hb0 : 0 < b) (hb1 : b ≤ 1)
    (hb : ∀ k t, k < p.K → t < x.T → st.vocab k t ≤ b) :
    evidence p x X A st.sig st.vocab ≤ (∑ d ∈ Finset.range x.D, (x.len d : ℝ)) * Real.log b := by
  unfold evidence
  rw [Finset.sum_mul]
  refine Finset.sum_le_sum fun d _ => ?_
  exact doc_evidence_le p.K x.T h.topics st.vocab b hb0 (fun k t hk ht => ⟨(h.vocab k t hk ht).1, hb k t hk ht⟩) hb1 (x.words d) _ _ h.sig

theorem evidence_nonpos (tiny : ℝ) (p : Params) (x : Data) (X A : Nat → Nat → ℝ) (st : BoundState) (h : Valid tiny p x st) :
    evidence p x X A st.sig st.vocab ≤ 0 := by
  have := evidence_le tiny p x X A st h 1 one_pos le_rfl fun k t hk ht => (h.vocab k t hk ht).2
  rwa [Real.log_one, mul_zero] at this

theorem marginal_le (tiny : ℝ) (p : Params) (x : Data) (X : Nat → Nat → ℝ) (st : BoundState) (h : Valid tiny p x st) (prior : Measure (Nat → Nat → ℝ))
    [IsProbabilityMeasure prior] : Real.log (marginal prior p x X st.sig st.vocab) ≤ 0 := by
  refine Real.log_nonpos (integral_nonneg fun A => (Real.exp_pos _).le) ?_
  have : marginal prior p x X st.sig st.vocab ≤ ∫ _, (1 : ℝ) ∂prior :=
    integral_mono_of_nonneg (Filter.Eventually.of_forall fun A => (Real.exp_pos _).le) (integrable_const _)
      (Filter.Eventually.of_forall fun A => Real.exp_le_one_iff.2 (evidence_nonpos tiny p x X A st h))
  simpa using this

/-! ## The bound has no upper limit -/

/-- Small covariances: `s` times the identity; equal topics; all weights and factors zero; the parameters of Bouchard's bound are consistent. -/
noncomputable def small (x : Data) (s : ℝ) : BoundState :=
  ⟨fun _ _ => 0, Bohning.eye, fun _ _ => 0, Bohning.eye, fun _ _ => 0, fun i j => s * Bohning.eye i j, fun _ _ => 1 / x.T, fun _ _ => 0,
    fun _ _ => s, fun _ _ => negJakkola s, fun _ => 0⟩

theorem small_sig (K : Nat) (s : ℝ) (hs : 0 < s) : (mat K fun i j => s * Bohning.eye i j).PosDef := by
  rw [MtmBound.mat_scale, mat_eye]
  exact Matrix.PosDef.one.smul hs

theorem small_valid (tiny : ℝ) (p : Params) (x : Data) (s : ℝ) (hK : 0 < p.K) (hs : 0 < s) (ht : tiny * x.T < p.K) : Valid tiny p x (small x s) := by
  refine ⟨hK, fun k t _ ht => ?_, fun d k _ _ => hs, small_sig p.K s hs, fun d t _ htT _ => ?_⟩
  · have h1 : (1 : ℝ) ≤ x.T := by exact_mod_cast (show 1 ≤ x.T by omega)
    exact ⟨by show (0 : ℝ) < 1 / x.T; positivity, by show 1 / (x.T : ℝ) ≤ 1; rw [div_le_one (by linarith)]; exact h1⟩
  · have h1 : (0 : ℝ) < x.T := by exact_mod_cast (show 0 < x.T by omega)
    rw [Finset.sum_congr rfl fun k _ => by rw [zero_exp p.K hK (small x s).means (fun _ _ => rfl) d k]]
    simp only [small, Finset.sum_const, Finset.card_range, nsmul_eq_mul, one_mul]
    rw [mul_one_div, lt_div_iff₀ h1]
    exact ht

theorem small_withWords (single : Bool) (det : Nat → (Nat → Nat → ℝ) → ℝ) (p : Params) (x : Data) (X : Nat → Nat → ℝ) (s : ℝ) (hs : 0 < s) (w : ℝ) :
    withWords single exactInv det p x X (small x s) w
      = withWords single exactInv det p x X (small x 1) 0 + w - ((p.P : ℝ) + p.F) * p.K / 2 * Real.log s := by
  have hdiag : ∀ s : ℝ, lnDetOfDiagMat p.K (fun i j => s * Bohning.eye i j) = p.K * Real.log s := by
    intro s
    unfold lnDetOfDiagMat
    simp [Bohning.eye]
  have hinv : ∀ s : ℝ, 0 < s → ∀ k, k < p.K → exactInv p.K (fun i j => s * Bohning.eye i j) k k = 1 / s := by
    intro s hs k hk
    rw [MtmBound.scale_inv p.K s hs Bohning.eye (by rw [mat_eye]; exact Matrix.PosDef.one) k k hk hk, eye_inv p.K k k hk hk]
    simp [Bohning.eye]
  have hv : ∀ s : ℝ, 0 < s → ∑ d ∈ Finset.range x.D, ∑ k ∈ Finset.range p.K, s * exactInv p.K (fun i j => s * Bohning.eye i j) k k = x.D * p.K := by
    intro s hs
    rw [Finset.sum_congr rfl fun d _ => Finset.sum_congr rfl fun k hk => by
      rw [hinv s hs k (Finset.mem_range.1 hk), mul_one_div, div_self hs.ne']]
    simp
  unfold withWords Stm.varBound
  simp only [small, hdiag, hv s hs, hv 1 one_pos, dot, dotT]
  simp
  ring

theorem small_words_bouchard (tiny : ℝ) (p : Params) (x : Data) (s : ℝ) (hs : 0 < s) (hs1 : s ≤ 1) :
    -(∑ d ∈ Finset.range x.D, (x.len d : ℝ) * p.K * (1 / 8 + Real.log (1 + Real.exp 1)))
        + ∑ d ∈ Finset.range x.D, ∑ t ∈ Finset.range x.T,
          (x.words d t : ℝ) * SparseKernels.safeLn tiny (∑ k ∈ Finset.range p.K, expRows p.K (fun _ _ => 0) d k * (1 / x.T))
      ≤ bouchardWords tiny x p.K (small x s).means (small x s).varcs (small x s).lxi (small x s).vocab (small x s).s := by
  have hxi : deriveXi 0 s 0 = s := by
    unfold deriveXi
    norm_num
    exact Real.sqrt_sq hs.le
  have hl := Bouchard.coefficient_spec s hs.ne'
  have hlog : Real.log (1 + Real.exp s) ≤ Real.log (1 + Real.exp 1) :=
    Real.log_le_log (by positivity) (by have := Real.exp_le_exp.2 hs1; linarith)
  unfold bouchardWords
  simp only [small, hxi]
  simp only [mul_zero, zero_mul, Finset.sum_const_zero, add_zero, zero_add, Finset.sum_const, Finset.card_range, nsmul_eq_mul, zero_sub, sub_zero,
    sub_neg_eq_add]
  have hsum : -(∑ d ∈ Finset.range x.D, (x.len d : ℝ) * p.K * (1 / 8 + Real.log (1 + Real.exp 1)))
      ≤ -(∑ d ∈ Finset.range x.D, (p.K : ℝ) * (s * x.len d * negJakkola s)) - ∑ d ∈ Finset.range x.D, (p.K : ℝ) * (x.len d * negJakkola s * -(s * s))
        + ∑ d ∈ Finset.range x.D, (p.K : ℝ) * (0.5 * x.len d * s) - ∑ d ∈ Finset.range x.D, (p.K : ℝ) * (x.len d * Real.log (1 + Real.exp s)) := by
    rw [← Finset.sum_neg_distrib, ← Finset.sum_neg_distrib, ← Finset.sum_sub_distrib, ← Finset.sum_add_distrib, ← Finset.sum_sub_distrib]
    refine Finset.sum_le_sum fun d _ => ?_
    have hn : 0 ≤ (x.len d : ℝ) * p.K := by positivity
    have h1 : s * negJakkola s ≤ 1 / 8 := by nlinarith [hl.1, hl.2.1]
    have h2 : 0 ≤ negJakkola s * (s * s) := by nlinarith [hl.1, mul_pos hs hs]
    have h3 : -(1 / 8 + Real.log (1 + Real.exp 1)) ≤ -(s * negJakkola s) + negJakkola s * (s * s) + 0.5 * s - Real.log (1 + Real.exp s) := by linarith
    nlinarith [mul_le_mul_of_nonneg_left h3 hn]
  linarith

/-- C268: violated.  With at least one feature or hidden factor and at least one topic, for every corpus and all features, `var_bound` has no upper
limit on valid states, although the logarithm of the probability of the corpus is at most zero, whatever the prior of the weights of the features. -/
theorem bound_violation (kind : Kind) (hkind : kind ≠ .online) (single : Bool) (det : Nat → (Nat → Nat → ℝ) → ℝ) (tiny : ℝ) (p : Params) (x : Data)
    (X : Nat → Nat → ℝ) (hK : 0 < p.K) (hPF : 0 < p.P + p.F) (ht : tiny * x.T < p.K) (B : ℝ) : ∃ st, Valid tiny p x st ∧
      (∀ d k, st.lxi d k = negJakkola (deriveXi (st.means d k) (st.varcs d k) (st.s d))) ∧
      B < varBound kind single exactInv det tiny p x X st ∧
      ∀ prior : Measure (Nat → Nat → ℝ), IsProbabilityMeasure prior → Real.log (marginal prior p x X st.sig st.vocab) ≤ 0 := by
  have hc : (0 : ℝ) < ((p.P : ℝ) + p.F) * p.K / 2 := by
    have h1 : (0 : ℝ) < (p.P : ℝ) + p.F := by exact_mod_cast hPF
    have h2 : (0 : ℝ) < p.K := by exact_mod_cast hK
    positivity
  have key : ∃ w : ℝ, ∀ s : ℝ, 0 < s → s ≤ 1 →
      withWords single exactInv det p x X (small x 1) 0 + w - ((p.P : ℝ) + p.F) * p.K / 2 * Real.log s
        ≤ varBound kind single exactInv det tiny p x X (small x s) := by
    cases kind with
    | bohning =>
      refine ⟨bohningWords tiny x p.K p.Ab (small x 1).means (small x 1).vocab, fun s hs _ => ?_⟩
      exact (small_withWords single det p x X s hs _).symm.le
    | bouchard =>
      obtain ⟨w, hw⟩ : ∃ w, ∀ s, 0 < s → s ≤ 1 →
          w ≤ bouchardWords tiny x p.K (small x s).means (small x s).varcs (small x s).lxi (small x s).vocab (small x s).s :=
        ⟨_, fun s hs hs1 => small_words_bouchard tiny p x s hs hs1⟩
      refine ⟨w, fun s hs hs1 => ?_⟩
      have h := hw s hs hs1
      show _ ≤ withWords single exactInv det p x X (small x s) _
      rw [small_withWords single det p x X s hs _]
      linarith
    | online => exact absurd rfl hkind
  obtain ⟨w, hw⟩ := key
  obtain ⟨c, hcdef⟩ : ∃ c, c = withWords single exactInv det p x X (small x 1) 0 + w := ⟨_, rfl⟩
  rw [← hcdef] at hw
  obtain ⟨t, htdef⟩ : ∃ t, t = (|B - c| + 1) / (((p.P : ℝ) + p.F) * p.K / 2) := ⟨_, rfl⟩
  have ht0 : 0 < t := by rw [htdef]; positivity
  have hs : 0 < Real.exp (-t) := Real.exp_pos _
  have hv := small_valid tiny p x (Real.exp (-t)) hK hs ht
  refine ⟨small x (Real.exp (-t)), hv, fun d k => ?_, ?_, fun prior hp => marginal_le tiny p x X _ hv prior⟩
  · have : deriveXi 0 (Real.exp (-t)) 0 = Real.exp (-t) := by
      unfold deriveXi
      norm_num
      exact Real.sqrt_sq hs.le
    simp only [small, this]
  · refine lt_of_lt_of_le ?_ (hw (Real.exp (-t)) hs (Real.exp_le_one_iff.2 (by linarith)))
    rw [Real.log_exp, htdef, mul_neg, sub_neg_eq_add, mul_div_cancel₀ _ hc.ne']
    linarith [le_abs_self (B - c)]

/-- C268: violated.  The bound of stm_yv_bohning_fake_online.py is always zero, so above the evidence of every corpus with a word, when no word is certain. -/
theorem online_violation (single : Bool) (inv : Nat → (Nat → Nat → ℝ) → Nat → Nat → ℝ) (det : Nat → (Nat → Nat → ℝ) → ℝ) (tiny : ℝ) (p : Params) (x : Data)
    (X A : Nat → Nat → ℝ) (st : BoundState) (h : Valid tiny p x st) (b : ℝ) (hb0 : 0 < b) (hb1 : b < 1)
    (hb : ∀ k t, k < p.K → t < x.T → st.vocab k t ≤ b) (hw : ∃ d, d < x.D ∧ 0 < x.len d) :
    evidence p x X A st.sig st.vocab < varBound .online single inv det tiny p x X st := by
  refine lt_of_le_of_lt (evidence_le tiny p x X A st h b hb0 hb1.le hb) ?_
  show _ < (0 : ℝ)
  obtain ⟨d, hd, hn⟩ := hw
  have hpos : 0 < ∑ d ∈ Finset.range x.D, (x.len d : ℝ) :=
    Finset.sum_pos' (fun _ _ => Nat.cast_nonneg _) ⟨d, Finset.mem_range.2 hd, by exact_mod_cast hn⟩
  exact mul_neg_of_pos_of_neg hpos (Real.log_neg hb0 hb1)

/-! ## The part about the documents -/

/-- What `var_bound` says about a corpus without documents: the part about the features and factors -/
noncomputable def withoutDocs (single : Bool) (det : Nat → (Nat → Nat → ℝ) → ℝ) (p : Params) (x : Data) (X : Nat → Nat → ℝ) (st : BoundState) : ℝ :=
  Stm.varBound p ⟨0, x.T, x.words⟩ X lnOf2Pi lnOf2PiE (Real.log (Numerics.safeDet single (det p.P st.RY))) (Real.log (Numerics.safeDet single (det p.F st.RA)))
    0 st.A st.RA st.Y st.RY st.V st.sig (exactInv p.K st.sig) st.means st.varcs (ownGram x X)

/-- What separates the bound from the evidence, in one document: the product of the variances in the place of the determinant, and
the errors about the words, which are those of `ctm_bohning.py` and `ctm.py`. -/
noncomputable def docGap (kind : Kind) (p : Params) (x : Data) (st : BoundState) (d : Nat) : ℝ :=
  (∑ k ∈ Finset.range p.K, Real.log (st.sig k k) - Real.log (exactDet p.K st.sig)) / 2
    + match kind with
      | .bohning => -(2 * (x.len d : ℝ) * Real.log (∑ k ∈ Finset.range p.K, expRows p.K st.means d k))
          - (x.len d : ℝ) / 2 * ∑ k ∈ Finset.range p.K, p.Ab k k * st.varcs d k
          - ∑ k ∈ Finset.range p.K, 2 * (x.len d : ℝ) * (∑ j ∈ Finset.range p.K, st.means d j * p.Ab j k) * st.means d k
          + 2 * ∑ k ∈ Finset.range p.K, softmaxRows p.K st.means d k * st.means d k
          + (∑ k ∈ Finset.range p.K, (x.len d : ℝ) * topicCounts x p.K (expRows p.K st.means) st.vocab d k * p.Ab k k) / 2
      | .bouchard => (x.len d : ℝ) * Numerics.rowMax p.K (st.means d)
          + (x.len d : ℝ) * ∑ k ∈ Finset.range p.K, (st.lxi d k - negJakkola (deriveXi (st.means d k) (st.varcs d k) (st.s d)))
              * (st.varcs d k - st.varcs d k ^ 2)
      | .online => 0

/-- The corpus of one of the documents -/
def only (x : Data) (d : Nat) : Data := ⟨1, x.T, fun _ => x.words d⟩

theorem withWords_eq (single : Bool) (det : Nat → (Nat → Nat → ℝ) → ℝ) (p : Params) (x : Data) (X : Nat → Nat → ℝ) (st : BoundState) (w : ℝ) :
    withWords single exactInv det p x X st w - withoutDocs single det p x X st = ∑ d ∈ Finset.range x.D,
      (-((p.K : ℝ) / 2 * lnOf2Pi) - (∑ k ∈ Finset.range p.K, Real.log (st.sig k k)) / 2
        - (∑ k ∈ Finset.range p.K, (∑ j ∈ Finset.range p.K, (st.means d j - ∑ f ∈ Finset.range p.F, X d f * st.A j f) * exactInv p.K st.sig j k)
            * (st.means d k - ∑ f ∈ Finset.range p.F, X d f * st.A k f)) / 2
        - (∑ k ∈ Finset.range p.K, st.varcs d k * exactInv p.K st.sig k k) / 2
        + ((p.K : ℝ) / 2 * lnOf2PiE + (∑ k ∈ Finset.range p.K, Real.log (st.varcs d k)) / 2)) + w := by
  unfold withWords withoutDocs Stm.varBound
  simp only [Finset.sum_add_distrib, Finset.sum_sub_distrib, Finset.sum_neg_distrib, Finset.sum_const, Finset.card_range, nsmul_eq_mul,
    ← Finset.sum_div, Finset.sum_range_zero, dot, dotT, lnDetOfDiagMat]
  push_cast
  ring

theorem one_sum (f : Nat → ℝ) : ∑ d ∈ Finset.range 1, f d = f 0 := by simp

/-- The words of `bohningWords`, document by document -/
theorem bohningWords_eq (tiny : ℝ) (x : Data) (K : Nat) (Ab means vocab : Nat → Nat → ℝ) : bohningWords tiny x K Ab means vocab
    = ∑ d ∈ Finset.range x.D, ((x.len d : ℝ) * Real.log (∑ k ∈ Finset.range K, expRows K means d k)
        + ∑ t ∈ Finset.range x.T, (x.words d t : ℝ) * SparseKernels.safeLn tiny (∑ k ∈ Finset.range K, expRows K means d k * vocab k t)
        + ∑ k ∈ Finset.range K, 2 * (x.len d : ℝ) * (∑ j ∈ Finset.range K, means d j * Ab j k) * means d k
        - 2 * ∑ k ∈ Finset.range K, softmaxRows K means d k * means d k
        - (∑ k ∈ Finset.range K, (x.len d : ℝ) * topicCounts x K (expRows K means) vocab d k * Ab k k) / 2) := by
  have hs : Numerics.scaledSelfSoftDot x.D K means (fun d => (x.len d : ℝ))
      = ∑ d ∈ Finset.range x.D, ∑ k ∈ Finset.range K, softmaxRows K means d k * means d k := by
    unfold Numerics.scaledSelfSoftDot
    refine Finset.sum_congr rfl fun d _ => Finset.sum_congr rfl fun k _ => ?_
    unfold softmaxRows
    ring
  unfold bohningWords
  simp only [hs, Finset.sum_add_distrib, Finset.sum_sub_distrib, ← Finset.sum_div, ← Finset.mul_sum]
  ring

/-- The words of `bouchardWords`, document by document -/
theorem bouchardWords_eq (tiny : ℝ) (x : Data) (K : Nat) (means varcs lxi vocab : Nat → Nat → ℝ) (s : Nat → ℝ) :
    bouchardWords tiny x K means varcs lxi vocab s = ∑ d ∈ Finset.range x.D,
      (∑ t ∈ Finset.range x.T, (x.words d t : ℝ) * SparseKernels.safeLn tiny (∑ k ∈ Finset.range K, expRows K means d k * vocab k t)
        + boundTerms K (x.len d) (means d) (varcs d) (lxi d) (fun k => deriveXi (means d k) (varcs d k) (s d)) (s d)) := by
  unfold bouchardWords boundTerms
  simp only [Finset.sum_add_distrib, Finset.sum_sub_distrib, Finset.sum_const_zero]
  ring

/-- C268: with Böhning's bound, the part of `var_bound` about the documents plus the gaps of the documents never exceeds the logarithm of the
probability of the corpus with the mean weights of the features. -/
theorem bohning_docs_partial (single : Bool) (det : Nat → (Nat → Nat → ℝ) → ℝ) (tiny : ℝ) (p : Params) (x : Data) (X : Nat → Nat → ℝ) (st : BoundState)
    (h : Valid tiny p x st) (hA : p.Ab = bohningA p.K) :
    varBound .bohning single exactInv det tiny p x X st - withoutDocs single det p x X st + ∑ d ∈ Finset.range x.D, docGap .bohning p x st d
      ≤ evidence p x X st.A st.sig st.vocab := by
  show withWords single exactInv det p x X st _ - _ + _ ≤ _
  rw [withWords_eq, bohningWords_eq, ← Finset.sum_add_distrib, ← Finset.sum_add_distrib]
  unfold evidence
  refine Finset.sum_le_sum fun d hd => ?_
  have hd := Finset.mem_range.1 hd
  have hb := Props.CtmBound.bohning_bound_partial tiny (only x d) p.K
    ⟨fun k => ∑ f ∈ Finset.range p.F, X d f * st.A k f, st.sig, st.vocab, fun _ => st.means d, fun _ _ => 0, fun _ => st.varcs d⟩
    ⟨h.topics, h.vocab, fun _ k _ hk => h.varcs d k hd hk, h.sig, fun _ t _ ht hw => h.floor d t hd ht hw⟩
  rw [Props.CtmBound.bohningBound_eq] at hb
  unfold Props.CtmBound.evidence at hb
  rw [show (only x d).D = 1 from rfl, one_sum, one_sum, one_sum] at hb
  refine le_trans (le_of_eq ?_) hb
  unfold docGap bohningGap
  rw [hA]
  have hlen : (only x d).len 0 = x.len d := rfl
  have hcounts : ∀ k, topicCounts (only x d) p.K (expRows p.K fun _ => st.means d) st.vocab 0 k = topicCounts x p.K (expRows p.K st.means) st.vocab d k :=
    fun k => rfl
  have hexp : ∀ k, expRows p.K (fun _ => st.means d) 0 k = expRows p.K st.means d k := fun k => rfl
  have hsoft : ∀ k, softmaxRows p.K (fun _ => st.means d) 0 k = softmaxRows p.K st.means d k := fun k => rfl
  have hw : ∀ t, (only x d).words 0 t = x.words d t := fun t => rfl
  simp only [hlen, hcounts, hexp, hsoft, hw, show (only x d).T = x.T from rfl]
  ring

/-- C268: the same with Bouchard's bound. -/
theorem bouchard_docs_partial (single : Bool) (det : Nat → (Nat → Nat → ℝ) → ℝ) (tiny : ℝ) (p : Params) (x : Data) (X : Nat → Nat → ℝ) (st : BoundState)
    (h : Valid tiny p x st) :
    varBound .bouchard single exactInv det tiny p x X st - withoutDocs single det p x X st + ∑ d ∈ Finset.range x.D, docGap .bouchard p x st d
      ≤ evidence p x X st.A st.sig st.vocab := by
  show withWords single exactInv det p x X st _ - _ + _ ≤ _
  rw [withWords_eq, bouchardWords_eq, ← Finset.sum_add_distrib, ← Finset.sum_add_distrib]
  unfold evidence
  refine Finset.sum_le_sum fun d hd => ?_
  have hd := Finset.mem_range.1 hd
  have hb := Props.CtmBound.bound_partial tiny (only x d) p.K
    ⟨fun k => ∑ f ∈ Finset.range p.F, X d f * st.A k f, st.sig, st.vocab, fun _ => st.means d, fun _ _ => 0, fun _ => st.varcs d, fun _ => st.lxi d,
      fun _ => st.s d⟩
    ⟨h.topics, h.vocab, fun _ k _ hk => h.varcs d k hd hk, h.sig, fun _ t _ ht hw => h.floor d t hd ht hw⟩
  rw [Props.CtmBound.varBound_eq] at hb
  unfold Props.CtmBound.evidence at hb
  rw [show (only x d).D = 1 from rfl, one_sum, one_sum, one_sum] at hb
  refine le_trans (le_of_eq ?_) hb
  unfold docGap Props.CtmBound.gap
  have hlen : (only x d).len 0 = x.len d := rfl
  have hexp : ∀ k, expRows p.K (fun _ => st.means d) 0 k = expRows p.K st.means d k := fun k => rfl
  have hw : ∀ t, (only x d).words 0 t = x.words d t := fun t => rfl
  simp only [hlen, hexp, hw, show (only x d).T = x.T from rfl]
  ring

/-- C268: with a diagonal covariance, weights that are not all negative, variances at most one and the coefficients of the last iteration, the part of
the bound about the documents is below the evidence in stm_yv.py. -/
theorem bouchard_below_partial (single : Bool) (det : Nat → (Nat → Nat → ℝ) → ℝ) (tiny : ℝ) (p : Params) (x : Data) (X : Nat → Nat → ℝ) (st : BoundState)
    (h : Valid tiny p x st) (hdiag : ∀ k j, k ≠ j → st.sig k j = 0) (hmax : ∀ d, d < x.D → ∃ k, k < p.K ∧ 0 ≤ st.means d k)
    (hv1 : ∀ d k, d < x.D → k < p.K → st.varcs d k ≤ 1)
    (hl : ∀ d k, d < x.D → k < p.K → negJakkola (deriveXi (st.means d k) (st.varcs d k) (st.s d)) ≤ st.lxi d k) :
    varBound .bouchard single exactInv det tiny p x X st ≤ withoutDocs single det p x X st + evidence p x X st.A st.sig st.vocab := by
  have hb := bouchard_docs_partial single det tiny p x X st h
  have hg : 0 ≤ ∑ d ∈ Finset.range x.D, docGap .bouchard p x st d := by
    refine Finset.sum_nonneg fun d hd => ?_
    have hd := Finset.mem_range.1 hd
    have hdet : Real.log (exactDet p.K st.sig) = ∑ k ∈ Finset.range p.K, Real.log (st.sig k k) := by
      have hp := h.sig
      unfold exactDet
      rw [Props.CtmBound.mat_diag p.K st.sig hdiag] at hp ⊢
      rw [Matrix.det_diagonal, Real.log_prod fun k _ => ?_, Finset.sum_range]
      have := hp.diag_pos (i := k)
      simp only [Matrix.diagonal_apply_eq] at this
      exact this.ne'
    obtain ⟨k, hk, h0⟩ := hmax d hd
    have hrow : 0 ≤ Numerics.rowMax p.K (st.means d) := h0.trans ((Props.Numerics.rowMax_spec p.K (st.means d) h.topics).1 k hk)
    unfold docGap
    rw [hdet, sub_self, zero_div, zero_add]
    refine add_nonneg (mul_nonneg (Nat.cast_nonneg _) hrow) (mul_nonneg (Nat.cast_nonneg _) (Finset.sum_nonneg fun k hk => ?_))
    have hk := Finset.mem_range.1 hk
    refine mul_nonneg (sub_nonneg.2 (hl d k hd hk)) ?_
    nlinarith [hv1 d k hd hk, h.varcs d k hd hk]
  linarith

/-! ## Examples -/

/-- Two documents over two words -/
def exX : Data := ⟨2, 2, fun d t => d + t⟩

/-- Two topics, one feature and one hidden factor -/
noncomputable def exP : Params := ⟨1, 1, 2, 1, 1, 1, bohningA 2⟩

theorem ex_valid : Valid (1 / 10) exP exX (small exX (1 / 2)) :=
  small_valid _ _ _ _ (by decide) (by norm_num) (by norm_num [exX, exP])

example : ∃ st, Valid (1 / 10) exP exX st ∧ (∀ d k, st.lxi d k = negJakkola (deriveXi (st.means d k) (st.varcs d k) (st.s d))) ∧
    1000 < varBound .bohning true exactInv exactDet (1 / 10) exP exX (fun d _ => d) st ∧
    ∀ prior : Measure (Nat → Nat → ℝ), IsProbabilityMeasure prior → Real.log (marginal prior exP exX (fun d _ => d) st.sig st.vocab) ≤ 0 :=
  bound_violation .bohning (by decide) true exactDet (1 / 10) exP exX _ (by decide) (by decide) (by norm_num [exX, exP]) 1000

example : evidence exP exX (fun d _ => d) (fun _ _ => 3) (small exX (1 / 2)).sig (small exX (1 / 2)).vocab
    < varBound .online true exactInv exactDet (1 / 10) exP exX (fun d _ => d) (small exX (1 / 2)) :=
  online_violation true exactInv exactDet (1 / 10) exP exX _ _ _ ex_valid (1 / 2) (by norm_num) (by norm_num)
    (fun _ _ _ _ => by norm_num [small, exX]) ⟨0, by decide, by decide⟩

example : varBound .bohning false exactInv exactDet (1 / 10) exP exX (fun d _ => d) (small exX (1 / 2))
    - withoutDocs false exactDet exP exX (fun d _ => d) (small exX (1 / 2)) + ∑ d ∈ Finset.range 2, docGap .bohning exP exX (small exX (1 / 2)) d
    ≤ evidence exP exX (fun d _ => d) (small exX (1 / 2)).A (small exX (1 / 2)).sig (small exX (1 / 2)).vocab :=
  bohning_docs_partial false exactDet (1 / 10) exP exX _ _ ex_valid rfl

example : varBound .bouchard false exactInv exactDet (1 / 10) exP exX (fun d _ => d) (small exX (1 / 2))
    ≤ withoutDocs false exactDet exP exX (fun d _ => d) (small exX (1 / 2))
      + evidence exP exX (fun d _ => d) (small exX (1 / 2)).A (small exX (1 / 2)).sig (small exX (1 / 2)).vocab := by
  refine bouchard_below_partial false exactDet (1 / 10) exP exX _ _ ex_valid (fun k j h => ?_) (fun d _ => ⟨0, by decide, le_rfl⟩)
    (fun _ _ _ _ => by norm_num [small]) (fun _ _ _ _ => ?_)
  · simp [small, Bohning.eye, h]
  · have : deriveXi 0 (1 / 2) 0 = 1 / 2 := by
      unfold deriveXi
      rw [show (0 : ℝ) ^ 2 - 2 * 0 * 0 + 0 ^ 2 + (1 / 2) ^ 2 = (1 / 2) ^ 2 by norm_num]
      exact Real.sqrt_sq (by norm_num)
    simp only [small, this, le_refl]

end Verif.Props.StmBound
