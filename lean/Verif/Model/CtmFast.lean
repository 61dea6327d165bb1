import Verif.Model.Ctm
import Verif.Model.Py

/-!
# The "fast" correlated topic model

`model/ctm_bohning_fast.py`.  The file equals `ctm_bohning.py` except for `train`: the right hand side is written into an array
made in advance (lines 214 and 276-278), and before the means of the documents are computed one by one, `isigT.dot(rhs)` is
assigned to them (line 284; `isigT` is `K×K`, `rhs` is `D×K`).
-/

namespace Verif.CtmFast

open Verif
open Verif.Ctm
open Verif.Mom (Data)

/-- The product of line 284 (ctm_bohning_fast.py:284): numpy multiplies a `K×K` by a `D×K` matrix only when `K = D`. -/
def shapesAgree (D K : Nat) : Py Unit := if K = D then .ok () else .error .valueError

/-- One iteration of `train` (ctm_bohning_fast.py:218-289).  Where the product of line 284 can be formed, its rows are overwritten
by the means of the documents (lines 288-289), which are those of ctm_bohning.py:279-281. -/
noncomputable def fastStep (inv : (Nat → Nat → ℝ) → Nat → Nat → ℝ) (cov : (Nat → Nat → ℝ) → (Nat → Nat → ℝ) → Nat → Nat → ℝ)
    (x : Data) (K : Nat) (prior : ℝ) (H : Nat → Nat → ℝ) (fast : Bool) (st : BState) : Py BState := do
  if fast then .ok (bohningStep inv cov x K prior H true st)
  else
    shapesAgree x.D K
    .ok (bohningStep inv cov x K prior H false st)

/-- `train` (ctm_bohning_fast.py:173-317): any number of iterations up to the requested one -/
noncomputable def fastTrain (inv : (Nat → Nat → ℝ) → Nat → Nat → ℝ) (cov : (Nat → Nat → ℝ) → (Nat → Nat → ℝ) → Nat → Nat → ℝ)
    (x : Data) (K : Nat) (prior : ℝ) (H : Nat → Nat → ℝ) (fast : Bool) : Nat → BState → Py BState
  | 0, st => .ok st
  | n + 1, st => do
    let st' ← fastStep inv cov x K prior H fast st
    fastTrain inv cov x K prior H fast n st'

/-- The contents of the array `queryState.means` handed to `train` (ctm_bohning_fast.py:278-289): the first iteration overwrites
it with its softmax (line 278) before `means` is bound to another array (line 282 or 284); this happens before line 284 fails. -/
noncomputable def callerMeans (K : Nat) (means : Nat → Nat → ℝ) : Nat → Nat → Nat → ℝ
  | 0 => means
  | _ + 1 => softmaxRows K means

end Verif.CtmFast
