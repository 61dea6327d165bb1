import Mathlib.Tactic.NormNum
import Mathlib.Tactic.Positivity
import Verif.Lemmas.Stm
import Verif.Props.Bohning
import Verif.Props.Stm

/-!
# The parameters, the bound and the batches of the topic models with document features (C151, C152, C155, C156, C158)
-/

namespace Verif.Props.StmModel

open Verif Verif.Stm
open Verif.Ctm hiding State train
open Verif.Mom (Data)
open Verif.Props.Bohning
open Verif.Props.Stm

/-! ## Penalised least squares -/

/-- `w` times the squared error of the prediction `Z a` of `m`, plus `r` times the squared distance between `a` and `c` -/
noncomputable def ridge (nObs nFeat : Nat) (w r : ℝ) (Z : Nat → Nat → ℝ) (m c a : Nat → ℝ) : ℝ :=
  w * ∑ o ∈ Finset.range nObs, (m o - ∑ i ∈ Finset.range nFeat, Z o i * a i) ^ 2 + r * ∑ i ∈ Finset.range nFeat, (a i - c i) ^ 2

/-- The matrix of the normal equations -/
noncomputable def normalMatrix (nObs : Nat) (w r : ℝ) (Z : Nat → Nat → ℝ) (i j : Nat) : ℝ :=
  w * ∑ o ∈ Finset.range nObs, Z o i * Z o j + if i = j then r else 0

theorem normal_mul (nObs nFeat : Nat) (w r : ℝ) (Z : Nat → Nat → ℝ) (a : Nat → ℝ) (i : Nat) (hi : i < nFeat) :
    ∑ j ∈ Finset.range nFeat, normalMatrix nObs w r Z i j * a j
      = w * (∑ o ∈ Finset.range nObs, Z o i * ∑ j ∈ Finset.range nFeat, Z o j * a j) + r * a i := by
  unfold normalMatrix
  have h : ∀ j ∈ Finset.range nFeat, (w * ∑ o ∈ Finset.range nObs, Z o i * Z o j + if i = j then r else 0) * a j
      = w * (∑ o ∈ Finset.range nObs, Z o i * (Z o j * a j)) + if i = j then r * a j else 0 := by
    intro j _
    rw [add_mul, mul_assoc, Finset.sum_mul]
    congr 1
    · congr 1
      exact Finset.sum_congr rfl fun o _ => by ring
    · split <;> simp
  rw [Finset.sum_congr rfl h, Finset.sum_add_distrib, Finset.sum_ite_eq (Finset.range nFeat) i, if_pos (Finset.mem_range.mpr hi),
    ← Finset.mul_sum, Finset.sum_comm]
  simp only [Finset.mul_sum]

/-- The normal equations give a minimiser. -/
theorem ridge_optimal (nObs nFeat : Nat) (w r : ℝ) (hw : 0 ≤ w) (hr : 0 ≤ r) (Z : Nat → Nat → ℝ) (m c a : Nat → ℝ)
    (ha : ∀ i, i < nFeat → ∑ j ∈ Finset.range nFeat, normalMatrix nObs w r Z i j * a j
      = w * (∑ o ∈ Finset.range nObs, Z o i * m o) + r * c i) (a' : Nat → ℝ) :
    ridge nObs nFeat w r Z m c a ≤ ridge nObs nFeat w r Z m c a' := by
  set u := fun o => ∑ i ∈ Finset.range nFeat, Z o i * a i with hu
  set δ := fun i => a' i - a i with hδ
  set v := fun o => ∑ i ∈ Finset.range nFeat, Z o i * δ i with hv
  have h0 : ∀ i, i < nFeat → w * (∑ o ∈ Finset.range nObs, Z o i * (u o - m o)) + r * (a i - c i) = 0 := by
    intro i hi
    have h1 := ha i hi
    rw [normal_mul nObs nFeat w r Z a i hi] at h1
    simp only [mul_sub, Finset.sum_sub_distrib]
    linarith
  -- the cross term vanishes
  have hcross : w * ∑ o ∈ Finset.range nObs, (u o - m o) * v o + r * ∑ i ∈ Finset.range nFeat, (a i - c i) * δ i = 0 := by
    have h2 : ∑ o ∈ Finset.range nObs, (u o - m o) * v o
        = ∑ i ∈ Finset.range nFeat, (∑ o ∈ Finset.range nObs, Z o i * (u o - m o)) * δ i := by
      simp only [hv, Finset.mul_sum, Finset.sum_mul]
      rw [Finset.sum_comm]
      exact Finset.sum_congr rfl fun i _ => Finset.sum_congr rfl fun o _ => by ring
    rw [h2, Finset.mul_sum, Finset.mul_sum, ← Finset.sum_add_distrib]
    refine Finset.sum_eq_zero fun i hi => ?_
    have h3 := h0 i (Finset.mem_range.mp hi)
    have : w * ((∑ o ∈ Finset.range nObs, Z o i * (u o - m o)) * δ i) + r * ((a i - c i) * δ i)
        = (w * (∑ o ∈ Finset.range nObs, Z o i * (u o - m o)) + r * (a i - c i)) * δ i := by ring
    rw [this, h3, zero_mul]
  have e1 : ∑ o ∈ Finset.range nObs, (m o - ∑ i ∈ Finset.range nFeat, Z o i * a' i) ^ 2
      = ∑ o ∈ Finset.range nObs, (m o - u o) ^ 2 + 2 * ∑ o ∈ Finset.range nObs, (u o - m o) * v o
        + ∑ o ∈ Finset.range nObs, v o ^ 2 := by
    rw [Finset.mul_sum, ← Finset.sum_add_distrib, ← Finset.sum_add_distrib]
    refine Finset.sum_congr rfl fun o _ => ?_
    have : ∑ i ∈ Finset.range nFeat, Z o i * a' i = u o + v o := by
      simp only [hu, hv, hδ]
      rw [← Finset.sum_add_distrib]
      exact Finset.sum_congr rfl fun i _ => by ring
    rw [this]
    ring
  have e2 : ∑ i ∈ Finset.range nFeat, (a' i - c i) ^ 2
      = ∑ i ∈ Finset.range nFeat, (a i - c i) ^ 2 + 2 * ∑ i ∈ Finset.range nFeat, (a i - c i) * δ i + ∑ i ∈ Finset.range nFeat, δ i ^ 2 := by
    rw [Finset.mul_sum, ← Finset.sum_add_distrib, ← Finset.sum_add_distrib]
    exact Finset.sum_congr rfl fun i _ => by simp only [hδ]; ring
  unfold ridge
  rw [e1, e2]
  have p1 : 0 ≤ ∑ o ∈ Finset.range nObs, v o ^ 2 := Finset.sum_nonneg fun o _ => sq_nonneg _
  have p2 : 0 ≤ ∑ i ∈ Finset.range nFeat, δ i ^ 2 := Finset.sum_nonneg fun i _ => sq_nonneg _
  have p3 := mul_nonneg hw p1
  have p4 := mul_nonneg hr p2
  show w * ∑ o ∈ Finset.range nObs, (m o - u o) ^ 2 + _ ≤ _
  nlinarith

/-- A row vector times the inverse of a symmetric matrix solves the linear system. -/
theorem row_solves (n : Nat) (M N : Nat → Nat → ℝ) (hs : ∀ i j, M i j = M j i) (h : IsInv n N M) (b : Nat → ℝ) (i : Nat) (hi : i < n) :
    ∑ j ∈ Finset.range n, M i j * ∑ l ∈ Finset.range n, b l * N l j = b i := by
  simp only [Finset.mul_sum]
  rw [Finset.sum_comm]
  have : ∀ l ∈ Finset.range n, ∑ j ∈ Finset.range n, M i j * (b l * N l j) = if l = i then b l else 0 := by
    intro l hl
    have h1 := h l i (Finset.mem_range.mp hl) hi
    have h2 : ∑ j ∈ Finset.range n, M i j * (b l * N l j) = b l * ∑ j ∈ Finset.range n, N l j * M j i := by
      rw [Finset.mul_sum]
      exact Finset.sum_congr rfl fun j _ => by rw [hs i j]; ring
    rw [h2, h1]
    split <;> simp
  rw [Finset.sum_congr rfl this, Finset.sum_ite_eq' (Finset.range n) i, if_pos (Finset.mem_range.mpr hi)]

theorem normalMatrix_symm (nObs : Nat) (w r : ℝ) (Z : Nat → Nat → ℝ) (i j : Nat) : normalMatrix nObs w r Z i j = normalMatrix nObs w r Z j i := by
  unfold normalMatrix
  have : ∑ o ∈ Finset.range nObs, Z o i * Z o j = ∑ o ∈ Finset.range nObs, Z o j * Z o i := Finset.sum_congr rfl fun o _ => mul_comm _ _
  rw [this]
  by_cases h : i = j
  · rw [if_pos h, if_pos h.symm]
  · rw [if_neg h, if_neg (Ne.symm h)]

/-- C151: for every topic the new weights of the features are the best ridge regression of the topic weights of the documents on their
features, shrunk towards `Y V` with strength `1 / fv`. -/
theorem newA_optimal (inv : Nat → (Nat → Nat → ℝ) → Nat → Nat → ℝ) (p : Params) (hfv : 0 < p.fv) (x : Data) (X Y V means : Nat → Nat → ℝ)
    (h : TwoSided p.F (gramRidge p x X) (inv p.F (gramRidge p x X))) (k : Nat) (a' : Nat → ℝ) :
    ridge x.D p.F 1 (1 / p.fv) X (fun d => means d k) (fun f => dot p.P Y V k f) (newA p x X Y V (newRA inv p x X) means k)
      ≤ ridge x.D p.F 1 (1 / p.fv) X (fun d => means d k) (fun f => dot p.P Y V k f) a' := by
  refine ridge_optimal x.D p.F 1 (1 / p.fv) zero_le_one (by positivity) X _ _ _ (fun i hi => ?_) a'
  have hG : normalMatrix x.D 1 (1 / p.fv) X = gramRidge p x X := by
    funext f g
    unfold normalMatrix gramRidge gram tDot
    rw [one_mul]
  rw [hG]
  refine (row_solves p.F (gramRidge p x X) _ (fun i j => ?_) h.2 (fun f => 1 / p.fv * dot p.P Y V k f + tDot x.D X means f k) i hi).trans ?_
  · rw [← hG]
    exact normalMatrix_symm _ _ _ _ i j
  · unfold tDot
    rw [one_mul]
    ring

/-- C151: for every topic the new latent position is the best ridge regression of the weights of the features on the rows of `V`, shrunk
towards zero with strength `1 / lfv`. -/
theorem newY_optimal (inv : Nat → (Nat → Nat → ℝ) → Nat → Nat → ℝ) (p : Params) (hfv : 0 < p.fv) (hlfv : 0 < p.lfv)
    (A V : Nat → Nat → ℝ)
    (h : TwoSided p.P (fun i j => (1 / p.lfv * if i = j then 1 else 0) + 1 / p.fv * dotT p.F V V i j) (newRY inv p V)) (k : Nat)
    (a' : Nat → ℝ) :
    ridge p.F p.P (1 / p.fv) (1 / p.lfv) (fun f i => V i f) (fun f => A k f) (fun _ => 0) (newY p A V (newRY inv p V) k)
      ≤ ridge p.F p.P (1 / p.fv) (1 / p.lfv) (fun f i => V i f) (fun f => A k f) (fun _ => 0) a' := by
  refine ridge_optimal p.F p.P (1 / p.fv) (1 / p.lfv) (by positivity) (by positivity) _ _ _ _ (fun i hi => ?_) a'
  have hG : normalMatrix p.F (1 / p.fv) (1 / p.lfv) (fun f i => V i f)
      = fun i j => (1 / p.lfv * if i = j then 1 else 0) + 1 / p.fv * dotT p.F V V i j := by
    funext i j
    unfold normalMatrix dotT
    rw [add_comm]
    congr 1
    split <;> simp
  rw [hG]
  refine (row_solves p.P _ _ (fun i j => ?_) h.2 (fun i => 1 / p.fv * dotT p.F A V k i) i hi).trans ?_
  · have := normalMatrix_symm p.F (1 / p.fv) (1 / p.lfv) (fun f i => V i f) i j
    rw [hG] at this
    exact this
  · rw [mul_zero, add_zero]
    unfold dotT
    congr 1
    exact Finset.sum_congr rfl fun f _ => mul_comm _ _

/-- The penalised error of `V` in the column of a feature: the error of `Y v` as a prediction of the weights of the feature, measured with the
precision of the topics, plus the penalty -/
noncomputable def columnError (K P : Nat) (scale : ℝ) (isig RY Y : Nat → Nat → ℝ) (a v : Nat → ℝ) : ℝ :=
  quad K isig (fun k => a k - ∑ i ∈ Finset.range P, Y k i * v i) + scale * quad P RY v

/-- C151: every column of the new `V` minimises the penalised error. -/
theorem newV_optimal (inv : Nat → (Nat → Nat → ℝ) → Nat → Nat → ℝ) (p : Params) (scale : ℝ) (hsc : 0 ≤ scale)
    (isig A Y RY : Nat → Nat → ℝ) (hisig : IsPrec p.K isig) (hRY : IsPrec p.P RY)
    (h : IsInv p.P (fun i j => scale * RY i j + dot p.K (tDot p.K Y isig) Y i j)
      (inv p.P fun i j => scale * RY i j + dot p.K (tDot p.K Y isig) Y i j)) (f : Nat) (v' : Nat → ℝ) :
    columnError p.K p.P scale isig RY Y (fun k => A k f) (fun i => newV inv p scale isig A Y RY i f)
      ≤ columnError p.K p.P scale isig RY Y (fun k => A k f) v' := by
  set v := fun i => newV inv p scale isig A Y RY i f with hv
  set δ := fun i => v' i - v i with hδ
  set e := fun k => A k f - ∑ i ∈ Finset.range p.P, Y k i * v i with he
  set y := fun k => -∑ i ∈ Finset.range p.P, Y k i * δ i with hy
  have hsol : ∀ i, i < p.P → ∑ j ∈ Finset.range p.P, (scale * RY i j + dot p.K (tDot p.K Y isig) Y i j) * v j
      = dot p.K (tDot p.K Y isig) A i f := by
    intro i hi
    exact mul_of_isInv p.P _ _ h (fun i => dot p.K (tDot p.K Y isig) A i f) i hi
  have h1 : (fun k => A k f - ∑ i ∈ Finset.range p.P, Y k i * v' i) = fun k => e k + y k := by
    funext k
    simp only [he, hy, hδ, mul_sub, Finset.sum_sub_distrib]
    ring
  have h2 : v' = fun i => v i + δ i := by
    funext i
    simp only [hδ]
    ring
  -- the cross terms cancel
  have hT : ∀ i, (∑ k ∈ Finset.range p.K, Y k i * ∑ j ∈ Finset.range p.K, isig k j * e j)
      = dot p.K (tDot p.K Y isig) A i f - ∑ j ∈ Finset.range p.P, dot p.K (tDot p.K Y isig) Y i j * v j := by
    intro i
    have a1 : ∀ b : Nat → ℝ, (∑ k ∈ Finset.range p.K, Y k i * ∑ j ∈ Finset.range p.K, isig k j * b j)
        = ∑ j ∈ Finset.range p.K, tDot p.K Y isig i j * b j := by
      intro b
      unfold tDot
      simp only [Finset.mul_sum, Finset.sum_mul]
      rw [Finset.sum_comm]
      exact Finset.sum_congr rfl fun j _ => Finset.sum_congr rfl fun k _ => by ring
    rw [a1]
    simp only [he, mul_sub, Finset.sum_sub_distrib]
    congr 1
    unfold dot
    simp only [Finset.mul_sum, Finset.sum_mul]
    rw [Finset.sum_comm]
    exact Finset.sum_congr rfl fun j _ => Finset.sum_congr rfl fun k _ => by ring
  have hc : ∑ k ∈ Finset.range p.K, y k * ∑ j ∈ Finset.range p.K, isig k j * e j
      + scale * ∑ i ∈ Finset.range p.P, δ i * ∑ j ∈ Finset.range p.P, RY i j * v j = 0 := by
    have a2 : ∑ k ∈ Finset.range p.K, y k * ∑ j ∈ Finset.range p.K, isig k j * e j
        = -∑ i ∈ Finset.range p.P, δ i * ∑ k ∈ Finset.range p.K, Y k i * ∑ j ∈ Finset.range p.K, isig k j * e j := by
      rw [← Finset.sum_neg_distrib]
      simp only [hy]
      generalize hw : (fun k => ∑ j ∈ Finset.range p.K, isig k j * e j) = w
      have hw' : ∀ k, ∑ j ∈ Finset.range p.K, isig k j * e j = w k := fun k => congrFun hw k
      simp only [hw', neg_mul, Finset.sum_mul, Finset.mul_sum, Finset.sum_neg_distrib]
      rw [Finset.sum_comm]
      congr 1
      exact Finset.sum_congr rfl fun i _ => Finset.sum_congr rfl fun k _ => by ring
    rw [a2, Finset.mul_sum, neg_add_eq_sub, sub_eq_zero]
    refine Finset.sum_congr rfl fun i hi => ?_
    have h3 := hsol i (Finset.mem_range.mp hi)
    rw [hT i, ← h3]
    simp only [add_mul, Finset.sum_add_distrib]
    have : ∑ j ∈ Finset.range p.P, scale * RY i j * v j = scale * ∑ j ∈ Finset.range p.P, RY i j * v j := by
      rw [Finset.mul_sum]
      exact Finset.sum_congr rfl fun j _ => by ring
    rw [this]
    ring
  unfold columnError
  rw [h1, quad_shift p.K isig hisig.symm e y]
  conv_rhs => rw [h2, quad_shift p.P RY hRY.symm v δ]
  have p1 := hisig.nonneg y
  have p2 := mul_nonneg hsc (hRY.nonneg δ)
  show quad p.K isig e + scale * quad p.P RY v ≤ _
  linarith

/-! ## The bound that is logged -/

/-- C152: with dense features the logged bound is lower than the bound that `var_bound` computes by itself by `K / fv` times half the trace of
the covariance of the weights of the features; with sparse features they agree. -/
theorem logged_bound (kind : FeatKind) (p : Params) (x : Data) (X : Nat → Nat → ℝ) (L LE lnDetRY lnDetRA rest : ℝ)
    (A RA Y RY V sig isig means varcs : Nat → Nat → ℝ) :
    varBound p x X L LE lnDetRY lnDetRA rest A RA Y RY V sig isig means varcs (loggedGram kind p x X)
      = varBound p x X L LE lnDetRY lnDetRA rest A RA Y RY V sig isig means varcs (ownGram x X)
        - match kind with
          | .dense => 0.5 * p.K * (1 / p.fv * ∑ f ∈ Finset.range p.F, RA f f)
          | .sparse => 0 := by
  cases kind with
  | sparse =>
    simp only [sub_zero]
    rfl
  | dense =>
    have h : ∑ f ∈ Finset.range p.F, dot p.F (gramRidge p x X) RA f f
        = ∑ f ∈ Finset.range p.F, dot p.F (gram x X) RA f f + 1 / p.fv * ∑ f ∈ Finset.range p.F, RA f f := by
      rw [Finset.mul_sum, ← Finset.sum_add_distrib]
      refine Finset.sum_congr rfl fun f hf => ?_
      unfold dot gramRidge
      simp only [add_mul, Finset.sum_add_distrib]
      congr 1
      have : ∀ g ∈ Finset.range p.F, (if f = g then 1 / p.fv else 0) * RA g f = if f = g then 1 / p.fv * RA g f else 0 := fun g _ => by
        split <;> simp
      rw [Finset.sum_congr rfl this, Finset.sum_ite_eq (Finset.range p.F) f, if_pos hf]
    unfold varBound
    simp only [loggedGram, ownGram]
    rw [h]
    ring

/-- C152 is violated: with dense features the logged bound always differs from the bound of the model, unless the weights have no variance. -/
theorem logged_bound_violation (p : Params) (hK : 0 < p.K) (hfv : 0 < p.fv) (x : Data) (X : Nat → Nat → ℝ) (L LE lnDetRY lnDetRA rest : ℝ)
    (A RA Y RY V sig isig means varcs : Nat → Nat → ℝ) (hRA : 0 < ∑ f ∈ Finset.range p.F, RA f f) :
    varBound p x X L LE lnDetRY lnDetRA rest A RA Y RY V sig isig means varcs (loggedGram .dense p x X)
      < varBound p x X L LE lnDetRY lnDetRA rest A RA Y RY V sig isig means varcs (ownGram x X) := by
  rw [logged_bound]
  have : (0 : ℝ) < p.K := by exact_mod_cast hK
  have h : 0 < 0.5 * (p.K : ℝ) * (1 / p.fv * ∑ f ∈ Finset.range p.F, RA f f) := by positivity
  simp only
  linarith

/-- C152: with sparse features the logged bound is the bound of the model. -/
theorem logged_bound_partial (p : Params) (x : Data) (X : Nat → Nat → ℝ) (L LE lnDetRY lnDetRA rest : ℝ)
    (A RA Y RY V sig isig means varcs : Nat → Nat → ℝ) :
    varBound p x X L LE lnDetRY lnDetRA rest A RA Y RY V sig isig means varcs (loggedGram .sparse p x X)
      = varBound p x X L LE lnDetRY lnDetRA rest A RA Y RY V sig isig means varcs (ownGram x X) := rfl

/-! ## Dense features -/

/-- C156 is violated: `stm_uv_vecy_bohning.py` and `stm_yv_bohning_fake_online.py` cannot be trained with dense features. -/
theorem dense_features_violation : uvPrepare .dense = .error .attributeError := rfl

/-- C156: with sparse features the preparation succeeds. -/
theorem dense_features_partial : uvPrepare .sparse = .ok () := rfl

/-! ## Measuring the bound -/

/-- C158: what `stm_yv.py` leaves in the topic weights after measuring the bound: minus infinity for weights so far below the largest weight of
the document that their exponential underflows, and the weight itself otherwise. -/
theorem restored_spec (u : ℝ) (K : Nat) (means : Nat → Nat → ℝ) (d k : Nat) :
    restored u K means d k = if means d k - Numerics.rowMax K (means d) < u then none else some (means d k) := by
  unfold restored floatExp
  by_cases h : means d k - Numerics.rowMax K (means d) < u
  · rw [if_pos h, if_pos h]
    unfold floatLog
    rw [if_pos rfl]
    rfl
  · rw [if_neg h, if_neg h]
    unfold floatLog
    rw [if_neg (Real.exp_ne_zero _), Real.log_exp]
    simp

/-- C158 is violated: measuring the bound changes the topic weights. -/
theorem measure_violation : ∃ means : Nat → Nat → ℝ, restored (-746) 2 means 0 1 = none := by
  refine ⟨fun _ k => if k = 0 then 0 else -1000, ?_⟩
  rw [restored_spec, if_pos]
  have : Numerics.rowMax 2 (fun k => if k = 0 then (0 : ℝ) else -1000) = 0 := by
    norm_num [Numerics.rowMax, List.range_succ]
  rw [this]
  norm_num

/-- C158: the weights survive when they are within range of the largest one. -/
theorem measure_partial (u : ℝ) (K : Nat) (means : Nat → Nat → ℝ) (d k : Nat) (h : u ≤ means d k - Numerics.rowMax K (means d)) :
    restored u K means d k = some (means d k) := by
  rw [restored_spec, if_neg (not_lt.mpr h)]

/-! ## Batches -/

section
variable (p : Params) (x : Data) (lhs : Nat → Nat → Nat → ℝ) (base vocab means : Nat → Nat → ℝ)

theorem online_skip (gs : List (Nat × Nat × Nat)) (st : (Nat → Row) × (Nat → Row)) (d : Nat)
    (h : ∀ g ∈ gs, ¬ (g.2.1 ≤ d ∧ d < g.2.2)) : (gs.foldl (onlineGroup p x lhs base vocab means) st).2 d = st.2 d := by
  induction gs generalizing st with
  | nil => rfl
  | cons g gs ih =>
    rw [List.foldl_cons, ih _ (fun g' hg' => h g' (List.mem_cons_of_mem _ hg'))]
    show (if g.2.1 ≤ d ∧ d < g.2.2 then _ else st.2 d) = _
    rw [if_neg (h g List.mem_cons_self)]

theorem online_buffer (st : (Nat → Row) × (Nat → Row)) (g : Nat × Nat × Nat) (r : Nat) (h : g.2.2 - g.2.1 ≤ r) :
    (onlineGroup p x lhs base vocab means st g).1 r = st.1 r := by
  show (if r < g.2.2 - g.2.1 then _ else (if r < g.2.2 - g.2.1 then _ else st.1 r)) = _
  rw [if_neg (by omega), if_neg (by omega)]

theorem online_zero (st : (Nat → Row) × (Nat → Row)) (g : Nat × Nat × Nat) (d : Nat) (hin : g.2.1 ≤ d ∧ d < g.2.2) (hr : g.2.2 - g.2.1 ≤ d)
    (hb : st.1 d = some fun _ => 0) (hw : ∃ t, t < x.T ∧ x.words d t ≠ 0) : (onlineGroup p x lhs base vocab means st g).2 d = none := by
  obtain ⟨t, ht, hwt⟩ := hw
  have hf : ¬ FiniteQuotient x p.K vocab d fun _ => 0 := by
    intro h
    exact h t ht hwt (by simp)
  unfold onlineGroup
  simp only
  rw [if_pos hin, if_neg (by omega), hb]
  simp only
  rw [if_neg hf]

end

theorem groups_get (l : List Nat) (i : Nat) (hi : i + 1 < (groups l).length) : ((groups l)[i]).2.2 = ((groups l)[i + 1]).2.1 := by
  have h : ∀ j (hj : j < (groups l).length), (groups l)[j] = (((uniqueIdx l).getD j (0, 0)).1,
      ((uniqueIdx l).map Prod.snd ++ [l.length]).getD j 0, ((uniqueIdx l).map Prod.snd ++ [l.length]).getD (j + 1) 0) := by
    intro j hj
    exact (List.getElem_map (l := List.range (uniqueIdx l).length) _).trans (by rw [List.getElem_range])
  rw [h, h]

theorem groups_end_le (l : List Nat) (g : Nat × Nat × Nat) (hg : g ∈ groups l) : g.2.2 ≤ l.length := by
  unfold groups at hg
  obtain ⟨i, hi, rfl⟩ := List.mem_map.mp hg
  simp only
  set inds := (uniqueIdx l).map Prod.snd ++ [l.length] with hinds
  have hlen : i + 1 < inds.length := by
    rw [hinds, List.length_append, List.length_map]
    simpa using hi
  rw [List.getD_eq_getElem _ _ hlen]
  have hm : inds[i + 1] ∈ inds := List.getElem_mem hlen
  generalize inds[i + 1] = e at hm
  rw [hinds] at hm
  rcases List.mem_append.mp hm with h | h
  · obtain ⟨⟨v, w⟩, hvw, rfl⟩ := List.mem_map.mp h
    unfold uniqueIdx at hvw
    obtain ⟨v', -, hv'⟩ := List.mem_map.mp hvw
    rw [← (Prod.mk.inj hv').2]
    exact List.idxOf_le_length
  · rw [List.mem_singleton.mp h]

theorem exists_word (x : Data) (d : Nat) (h : x.len d ≠ 0) : ∃ t, t < x.T ∧ x.words d t ≠ 0 := by
  by_contra hc
  push Not at hc
  exact h (Finset.sum_eq_zero fun t ht => hc t (Finset.mem_range.mp ht))

/-- C155 is violated: when documents (sorted by length, none empty) have at least two different lengths, the first iteration of
`stm_yv_bohning_fake_online.py` divides by zero for one of them, so that its topic weights are not finite. -/
theorem online_violation (p : Params) (x : Data) (hx : (docLens x).Pairwise (· ≤ ·)) (hpos : ∀ d, d < x.D → x.len d ≠ 0)
    (hdiff : ∃ i j, i < x.D ∧ j < x.D ∧ x.len i ≠ x.len j) (lhs : Nat → Nat → Nat → ℝ) (base vocab means : Nat → Nat → ℝ) :
    ∃ d, d < x.D ∧ onlinePass p x lhs base vocab means d = none := by
  obtain ⟨h1, h2, h3⟩ := groups_spec (docLens x) hx
  have hlen : (docLens x).length = x.D := docLens_length x
  -- every group contains a document
  have hne : ∀ g ∈ groups (docLens x), ∃ d, d < x.D ∧ g.2.1 ≤ d ∧ d < g.2.2 := by
    intro g hg
    have hm : g.1 ∈ docLens x := (h3 g.1).mp (List.mem_map.mpr ⟨g, hg, rfl⟩)
    obtain ⟨d, hd, hdl⟩ := List.getElem_of_mem hm
    refine ⟨d, by omega, (h1 g hg d hd).mpr ?_⟩
    rw [List.getD_eq_getElem _ _ hd, hdl]
  -- there are two groups
  obtain ⟨i, j, hi, hj, hij⟩ := hdiff
  have hmem : ∀ i, i < x.D → ∃ g ∈ groups (docLens x), g.1 = x.len i := by
    intro i hi
    have : x.len i ∈ docLens x := by
      rw [← docLens_getD x i hi, List.getD_eq_getElem _ _ (by omega)]
      exact List.getElem_mem _
    obtain ⟨g, hg, he⟩ := List.mem_map.mp ((h3 _).mpr this)
    exact ⟨g, hg, he⟩
  rcases hgs : groups (docLens x) with _ | ⟨g1, _ | ⟨g2, rest⟩⟩
  · obtain ⟨g, hg, -⟩ := hmem i hi
    rw [hgs] at hg
    simp at hg
  · obtain ⟨g, hg, he⟩ := hmem i hi
    obtain ⟨g', hg', he'⟩ := hmem j hj
    rw [hgs, List.mem_singleton] at hg hg'
    rw [hg] at he
    rw [hg'] at he'
    exact absurd (he.symm.trans he') hij
  · have hg1 : g1 ∈ groups (docLens x) := by rw [hgs]; exact List.mem_cons_self
    have hg2 : g2 ∈ groups (docLens x) := by rw [hgs]; exact List.mem_cons_of_mem _ List.mem_cons_self
    have h12 : g1.2.2 = g2.2.1 := by
      have := groups_get (docLens x) 0 (by rw [hgs]; simp)
      simpa [hgs] using this
    obtain ⟨d1, hd1, hd1a, hd1b⟩ := hne g1 hg1
    obtain ⟨d2, hd2, hd2a, hd2b⟩ := hne g2 hg2
    have hend := groups_end_le (docLens x) g2 hg2
    rw [hlen] at hend
    have hd : g2.2.2 - 1 < x.D := by omega
    refine ⟨g2.2.2 - 1, hd, ?_⟩
    unfold onlinePass
    rw [hgs, List.foldl_cons, List.foldl_cons, online_skip]
    · refine online_zero p x lhs base vocab means _ g2 _ ⟨by omega, by omega⟩ (by omega) ?_ (exists_word x _ (hpos _ hd))
      rw [online_buffer p x lhs base vocab means _ g1 _ (by omega)]
    · intro g hg hcon
      have hgm : g ∈ groups (docLens x) := by rw [hgs]; exact List.mem_cons_of_mem _ (List.mem_cons_of_mem _ hg)
      have e1 := (h1 g hgm _ (by rw [hlen]; exact hd)).mp hcon
      have e2 := (h1 g2 hg2 _ (by rw [hlen]; exact hd)).mp ⟨by omega, by omega⟩
      rw [hgs, List.map_cons, List.map_cons, List.nodup_cons, List.nodup_cons] at h2
      exact h2.2.1 (List.mem_map.mpr ⟨g, hg, e1.symm.trans e2⟩)

theorem groups_const (n m : Nat) (hm : 0 < m) : groups (List.replicate m n) = [(n, 0, m)] := by
  have hd : (List.replicate m n).dedup = [n] := by
    obtain ⟨k, rfl⟩ : ∃ k, m = k + 1 := ⟨m - 1, by omega⟩
    clear hm
    induction k with
    | zero => rfl
    | succ k ih =>
      rw [List.replicate_succ, List.dedup_cons_of_mem (by rw [List.replicate_succ]; exact List.mem_cons_self), ih]
  have hi : (List.replicate m n).idxOf n = 0 := by
    obtain ⟨k, rfl⟩ : ∃ k, m = k + 1 := ⟨m - 1, by omega⟩
    rw [List.replicate_succ, List.idxOf_cons_self]
  unfold groups uniqueIdx
  rw [hd]
  simp [hi]

/-- C155: when all documents have the same length the iteration gives every document the solution of its linear system. -/
theorem online_partial (p : Params) (hK : 0 < p.K) (x : Data) (n : Nat) (hx : ∀ d, d < x.D → x.len d = n) (lhs : Nat → Nat → Nat → ℝ)
    (base vocab means : Nat → Nat → ℝ) (hv : ∀ k t, k < p.K → t < x.T → 0 < vocab k t) (d : Nat) (hd : d < x.D) :
    onlinePass p x lhs base vocab means d = some fun k => ∑ j ∈ Finset.range p.K,
      (base d j + topicCounts x p.K (expRows p.K means) vocab d j + (x.len d : ℝ) * dot p.K means p.Ab d j
        - (x.len d : ℝ) * softmaxRows p.K means d j) * lhs (x.len d) j k := by
  have hl : docLens x = List.replicate x.D n := by
    rw [List.eq_replicate_iff]
    refine ⟨docLens_length x, fun b hb => ?_⟩
    obtain ⟨i, hi, rfl⟩ := List.getElem_of_mem hb
    have hi' : i < x.D := by rw [docLens_length] at hi; exact hi
    rw [← List.getD_eq_getElem _ 0 hi, docLens_getD x i hi', hx i hi']
  have hf : FiniteQuotient x p.K vocab d (expRows p.K means d) := by
    intro t ht _
    exact ne_of_gt (Finset.sum_pos (fun k hk => mul_pos (Real.exp_pos _) (hv k t (Finset.mem_range.mp hk) ht)) ⟨0, Finset.mem_range.mpr hK⟩)
  unfold onlinePass
  rw [hl, groups_const n x.D (by omega), List.foldl_cons, List.foldl_nil]
  unfold onlineGroup
  simp only [Nat.zero_add, Nat.sub_zero]
  rw [if_pos ⟨Nat.zero_le _, hd⟩, if_pos hd]
  simp only
  rw [if_pos hf, hx d hd]
  rfl

/-! ## Examples -/

/-- One word and two words -/
def exX : Data := ⟨2, 2, fun d t => if d = 1 then 1 else if t = 0 then 1 else 0⟩

example (p : Params) (lhs : Nat → Nat → Nat → ℝ) (base vocab means : Nat → Nat → ℝ) :
    ∃ d, d < 2 ∧ onlinePass p exX lhs base vocab means d = none :=
  online_violation p exX (by decide) (by decide) ⟨0, 1, by decide, by decide, by decide⟩ lhs base vocab means

/-- One document with one feature of value one, `fv = 1`: the weight of the feature is half the topic weight of the document. -/
example : ridge 1 1 1 1 (fun _ _ => 1) (fun _ => 6) (fun _ => 0) (fun _ => 3) ≤ ridge 1 1 1 1 (fun _ _ => 1) (fun _ => 6) (fun _ => 0) (fun _ => 4) := by
  refine ridge_optimal 1 1 1 1 zero_le_one zero_le_one _ _ _ _ (fun i hi => ?_) _
  obtain rfl : i = 0 := by omega
  norm_num [normalMatrix]

example (p : Params) (hK : 0 < p.K) (hfv : 0 < p.fv) (hF : p.F = 1) (x : Data) (X A Y RY V sig isig means varcs : Nat → Nat → ℝ) :
    varBound p x X 0 0 0 0 0 A (fun _ _ => 1) Y RY V sig isig means varcs (loggedGram .dense p x X)
      < varBound p x X 0 0 0 0 0 A (fun _ _ => 1) Y RY V sig isig means varcs (ownGram x X) :=
  logged_bound_violation p hK hfv x X 0 0 0 0 0 A _ Y RY V sig isig means varcs (by rw [hF]; norm_num)

end Verif.Props.StmModel
