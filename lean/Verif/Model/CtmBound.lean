import Verif.Model.Ctm

/-!
# The variational bounds of the correlated topic models

`var_bound` of `model/ctm.py` (Bouchard's bound) and of `model/ctm_bohning.py` (Böhning's bound), statement by statement.  The matrix
inverse `inv` and the determinant `det` of numpy are arbitrary functions.  The buffer `expMeans`, which both overwrite, is a local variable.
-/

namespace Verif.CtmBound

open Verif Verif.Ctm
open Verif.Mom (Data)

/-- `LN_OF_2_PI` (ctm.py:43, ctm_bohning.py:43) -/
noncomputable def lnOf2Pi : ℝ := Real.log (2 * Real.pi)

/-- `LN_OF_2_PI_E` (ctm.py:44, ctm_bohning.py:44) -/
noncomputable def lnOf2PiE : ℝ := Real.log (2 * Real.pi * Real.exp 1)

/-- `np.sum(diff.dot(isigT) * diff)` with `diff = means - topicMean` (ctm.py:429-430, ctm_bohning.py:426-427) -/
noncomputable def quadTerm (D K : Nat) (isig means : Nat → Nat → ℝ) (topicMean : Nat → ℝ) : ℝ :=
  ∑ d ∈ Finset.range D, ∑ k ∈ Finset.range K,
    (∑ j ∈ Finset.range K, (means d j - topicMean j) * isig j k) * (means d k - topicMean k)

/-- `var_bound` (ctm.py:407-457).  `x.len` is `queryState.docLens`. -/
noncomputable def varBound (inv : (Nat → Nat → ℝ) → Nat → Nat → ℝ) (det : (Nat → Nat → ℝ) → ℝ) (tiny : ℝ) (x : Data) (K : Nat) (st : State) : ℝ :=
  let n : Nat → ℝ := fun d => x.len d
  let xi := fun d k => deriveXi (st.means d k) (st.varcs d k) (st.s d)
  let isig := inv st.sig
  let bound : ℝ := 0
  let bound := bound - (x.D : ℝ) * K / 2 * lnOf2Pi
  let bound := bound - (x.D : ℝ) / 2 * det st.sig
  let bound := bound - 0.5 * quadTerm x.D K isig st.means st.topicMean
  let bound := bound - 0.5 * ∑ d ∈ Finset.range x.D, ∑ k ∈ Finset.range K, st.varcs d k * isig k k
  let bound := bound + (0.5 * x.D * K * lnOf2PiE + 0.5 * ∑ d ∈ Finset.range x.D, ∑ k ∈ Finset.range K, Real.log (st.varcs d k))
  let bound := bound - ∑ d ∈ Finset.range x.D, ∑ k ∈ Finset.range K, (st.means d k * st.means d k + st.varcs d k) * n d * st.lxi d k
  let bound := bound + ∑ d ∈ Finset.range x.D, ∑ k ∈ Finset.range K, st.means d k * 2 * n d * st.s d * st.lxi d k
  let bound := bound + ∑ d ∈ Finset.range x.D, ∑ k ∈ Finset.range K, st.means d k * -0.5 * n d
  let expMeans := expRows K st.means
  let bound := bound - -(∑ d ∈ Finset.range x.D, ∑ t ∈ Finset.range x.T,
    (x.words d t : ℝ) * SparseKernels.safeLn tiny (∑ k ∈ Finset.range K, expMeans d k * st.vocab k t))
  let bound := bound - ∑ d ∈ Finset.range x.D, ∑ k ∈ Finset.range K, n d * st.lxi d k * (st.s d * st.s d - xi d k * xi d k)
  let bound := bound + ∑ d ∈ Finset.range x.D, ∑ k ∈ Finset.range K, 0.5 * n d * (st.s d + xi d k)
  let bound := bound - ∑ d ∈ Finset.range x.D, ∑ k ∈ Finset.range K, n d * Real.log (1 + Real.exp (xi d k))
  bound - ∑ d ∈ Finset.range x.D, st.s d * n d

/-- `var_bound` (ctm_bohning.py:383-447) with `USE_NIW_PRIOR = False` -/
noncomputable def bohningBound (inv : (Nat → Nat → ℝ) → Nat → Nat → ℝ) (det : (Nat → Nat → ℝ) → ℝ) (tiny : ℝ) (x : Data) (K : Nat)
    (A : Nat → Nat → ℝ) (st : BState) : ℝ :=
  let n : Nat → ℝ := fun d => x.len d
  let isig := inv st.sig
  let bound : ℝ := 0
  let bound := bound - (x.D : ℝ) * K / 2 * lnOf2Pi
  let bound := bound - (x.D : ℝ) / 2 * det st.sig
  let bound := bound - 0.5 * quadTerm x.D K isig st.means st.topicMean
  let bound := bound - 0.5 * ∑ d ∈ Finset.range x.D, ∑ k ∈ Finset.range K, st.varcs d k * isig k k
  let expMeans := expRows K st.means
  let V := topicCounts x K expMeans st.vocab
  let bound := bound + ∑ d ∈ Finset.range x.D, n d * Real.log (∑ k ∈ Finset.range K, expMeans d k)
  let bound := bound + ∑ d ∈ Finset.range x.D, ∑ t ∈ Finset.range x.T,
    (x.words d t : ℝ) * SparseKernels.safeLn tiny (∑ k ∈ Finset.range K, expMeans d k * st.vocab k t)
  let bound := bound + ∑ d ∈ Finset.range x.D, ∑ k ∈ Finset.range K, st.means d k * V d k
  let bound := bound + ∑ d ∈ Finset.range x.D, ∑ k ∈ Finset.range K,
    2 * n d * (∑ j ∈ Finset.range K, st.means d j * A j k) * st.means d k
  let bound := bound - 2 * Numerics.scaledSelfSoftDot x.D K st.means n
  let bound := bound - 0.5 * ∑ d ∈ Finset.range x.D, ∑ k ∈ Finset.range K, n d * V d k * A k k
  bound - ∑ d ∈ Finset.range x.D, ∑ k ∈ Finset.range K, st.means d k * V d k

end Verif.CtmBound
