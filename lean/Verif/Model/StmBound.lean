import Verif.Model.Stm
import Verif.Model.CtmBound

/-!
# The variational bounds of the topic models with features

`var_bound` of `model/stm_yv_bohning.py` (and, with the same text, of `model/stm_uv_vecy_bohning.py`), of `model/stm_yv.py` and of
`model/stm_yv_bohning_fake_online.py`.  The part about features and topic weights is `Verif.Stm.varBound`; here are the words.
The matrix inverse `inv` and the determinant `det` of numpy are arbitrary functions.
-/

namespace Verif.StmBound

open Verif Verif.Ctm Verif.Stm Verif.CtmBound
open Verif.Mom (Data)

/-- The words in `var_bound` (stm_yv_bohning.py:489-506, stm_uv_vecy_bohning.py:498-515) -/
noncomputable def bohningWords (tiny : ℝ) (x : Data) (K : Nat) (Ab means vocab : Nat → Nat → ℝ) : ℝ :=
  let n : Nat → ℝ := fun d => x.len d
  let expMeans := expRows K means
  let S := topicCounts x K expMeans vocab
  let bound : ℝ := 0
  let bound := bound + ∑ d ∈ Finset.range x.D, n d * Real.log (∑ k ∈ Finset.range K, expMeans d k)
  let bound := bound + ∑ d ∈ Finset.range x.D, ∑ t ∈ Finset.range x.T,
    (x.words d t : ℝ) * SparseKernels.safeLn tiny (∑ k ∈ Finset.range K, expMeans d k * vocab k t)
  let bound := bound + ∑ d ∈ Finset.range x.D, ∑ k ∈ Finset.range K, means d k * S d k
  let bound := bound + ∑ d ∈ Finset.range x.D, ∑ k ∈ Finset.range K,
    2 * n d * (∑ j ∈ Finset.range K, means d j * Ab j k) * means d k
  let bound := bound - 2 * Numerics.scaledSelfSoftDot x.D K means n
  let bound := bound - 0.5 * ∑ d ∈ Finset.range x.D, ∑ k ∈ Finset.range K, n d * S d k * Ab k k
  bound - ∑ d ∈ Finset.range x.D, ∑ k ∈ Finset.range K, means d k * S d k

/-- The words in `var_bound` (stm_yv.py:425, 474-494) -/
noncomputable def bouchardWords (tiny : ℝ) (x : Data) (K : Nat) (means varcs lxi vocab : Nat → Nat → ℝ) (s : Nat → ℝ) : ℝ :=
  let n : Nat → ℝ := fun d => x.len d
  let xi := fun d k => deriveXi (means d k) (varcs d k) (s d)
  let bound : ℝ := 0
  let bound := bound - ∑ d ∈ Finset.range x.D, ∑ k ∈ Finset.range K, (means d k * means d k + varcs d k) * n d * lxi d k
  let bound := bound + ∑ d ∈ Finset.range x.D, ∑ k ∈ Finset.range K, means d k * 2 * n d * s d * lxi d k
  let bound := bound + ∑ d ∈ Finset.range x.D, ∑ k ∈ Finset.range K, means d k * -0.5 * n d
  let expMeans := expRows K means
  let bound := bound - -(∑ d ∈ Finset.range x.D, ∑ t ∈ Finset.range x.T,
    (x.words d t : ℝ) * SparseKernels.safeLn tiny (∑ k ∈ Finset.range K, expMeans d k * vocab k t))
  let bound := bound - ∑ d ∈ Finset.range x.D, ∑ k ∈ Finset.range K, n d * lxi d k * (s d * s d - xi d k * xi d k)
  let bound := bound + ∑ d ∈ Finset.range x.D, ∑ k ∈ Finset.range K, 0.5 * n d * (s d + xi d k)
  let bound := bound - ∑ d ∈ Finset.range x.D, ∑ k ∈ Finset.range K, n d * Real.log (1 + Real.exp (xi d k))
  bound - ∑ d ∈ Finset.range x.D, s d * n d

/-- The arrays of a model and a query state that `var_bound` reads: `A`, `R_A`, `Y`, `R_Y`, `V`, `sigT`, `vocab`, `means`, `varcs`, and
`lxi`, `s` in stm_yv.py (stm_yv_bohning.py:442-443, stm_yv.py:423-424) -/
structure BoundState where
  A : Nat → Nat → ℝ
  RA : Nat → Nat → ℝ
  Y : Nat → Nat → ℝ
  RY : Nat → Nat → ℝ
  V : Nat → Nat → ℝ
  sig : Nat → Nat → ℝ
  vocab : Nat → Nat → ℝ
  means : Nat → Nat → ℝ
  varcs : Nat → Nat → ℝ
  lxi : Nat → Nat → ℝ
  s : Nat → ℝ

/-- The part before the words with the numbers that `var_bound` computes itself: `LN_OF_2_PI`, `safeDet` of `R_Y` and `R_A` (`single` for
single precision), the inverse of `sigT`, and `XTX` (stm_yv_bohning.py:445-487, stm_yv.py:426-472) -/
noncomputable def withWords (single : Bool) (inv : Nat → (Nat → Nat → ℝ) → Nat → Nat → ℝ) (det : Nat → (Nat → Nat → ℝ) → ℝ) (p : Params)
    (x : Data) (X : Nat → Nat → ℝ) (st : BoundState) (words : ℝ) : ℝ :=
  Stm.varBound p x X lnOf2Pi lnOf2PiE (Real.log (Numerics.safeDet single (det p.P st.RY))) (Real.log (Numerics.safeDet single (det p.F st.RA)))
    words st.A st.RA st.Y st.RY st.V st.sig (inv p.K st.sig) st.means st.varcs (ownGram x X)

/-- The implementations (stm_yv_bohning.py:432-506, stm_uv_vecy_bohning.py:441-515; stm_yv.py:416-499;
stm_yv_bohning_fake_online.py:456-532) -/
inductive Kind
  | bohning | bouchard | online
  deriving DecidableEq

/-- `var_bound`, called without `XTX` (stm_yv_bohning.py:432-506, stm_uv_vecy_bohning.py:441-515, stm_yv.py:416-499); that of
stm_yv_bohning_fake_online.py:532 returns zero, the rest of it is commented out. -/
noncomputable def varBound (kind : Kind) (single : Bool) (inv : Nat → (Nat → Nat → ℝ) → Nat → Nat → ℝ) (det : Nat → (Nat → Nat → ℝ) → ℝ)
    (tiny : ℝ) (p : Params) (x : Data) (X : Nat → Nat → ℝ) (st : BoundState) : ℝ :=
  match kind with
  | .bohning => withWords single inv det p x X st (bohningWords tiny x p.K p.Ab st.means st.vocab)
  | .bouchard => withWords single inv det p x X st (bouchardWords tiny x p.K st.means st.varcs st.lxi st.vocab st.s)
  | .online => 0

end Verif.StmBound
