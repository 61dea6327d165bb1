import Verif.Model.Numerics
import Verif.Model.SparseKernels

/-!
# More numerical helpers

`util/overflow_safe.py` (the careful logarithms) and `util/sparse_elementwise.py`, `util/se_fast.pyx` (the entropy of a product of distributions, the
output argument of the sparse products and their behaviour by element type).  Floating point numbers are real numbers.
-/

namespace Verif.LogUtils

open Verif

variable {α : Type}

/-- `w` of `safe_log_one_plus` (overflow_safe.py:145-160) as a function of `t2` -/
noncomputable def ratio (s : ℝ) : ℝ :=
  (((-0.0178874546012214 * s + 0.405303492862024) * s + -1.29418923021993) * s + 1)
    / (((-0.0845104217945565 * s + 0.747811014037616) * s + -1.62752256355323) * s + 1)

/-- `safe_log_one_plus` (overflow_safe.py:126-164): one element. -/
noncomputable def logOnePlus (x : ℝ) : ℝ :=
  if 0.375 < x then Real.log (1 + x) else 2 * (x / (x + 2)) * ratio (x / (x + 2) * (x / (x + 2)))

/-- `DBL_EPSILON` (overflow_safe.py:107) -/
noncomputable def dblEpsilon : ℝ := 2.2204460492503131 / 10 ^ 16

/-- `_very_safe_log_one_plus_exp_of` (overflow_safe.py:88-124): one element.  Later assignments win. -/
noncomputable def logOnePlusExp (x : ℝ) : ℝ :=
  if x ≤ Real.log 0.25 then logOnePlus (Real.exp x)
  else if -Real.log dblEpsilon < x then x
  else Real.log (1 + Real.exp x)

/-! ## The entropy of a product -/

/-- `result -= z_dtk * log (z_dtk)` in C (se_fast.pyx:188-189): `none` is NaN, which is what zero times minus infinity, and the logarithm of a
negative number, give. -/
noncomputable def subZLogZ (z : ℝ) : Option ℝ → Option ℝ
  | none => none
  | some r => if 0 < z then some (r - z * Real.log z) else none

/-- `entropyOfDot_f8` (se_fast.pyx:145-192) and `entropyOfDot_f4` (197-244), for topics whose rows do not add up to zero. -/
noncomputable def entropyOfDot (D K T : Nat) (topics vocab : Nat → Nat → ℝ) : Option ℝ :=
  (List.range D).foldl (fun acc d =>
    let denom := (List.range K).foldl (fun s k => s + topics d k) 0
    (List.range K).foldl (fun acc k => (List.range T).foldl (fun acc t => subZLogZ (topics d k / denom * vocab k t) acc) acc) acc) (some 0)

/-- `entropyOfDot_py` (sparse_elementwise.py:93-125), which `entropyOfDot` (74-90) uses for every other element type: the logarithm is of
`vocab[d,k]`, not of `vocab[k,t]`; `math.log` raises for numbers which are not positive. -/
noncomputable def entropyOfDotPy (D K T : Nat) (topics vocab : Nat → Nat → ℝ) : Py ℝ :=
  (List.range D).foldlM (fun acc d =>
    let denom := (List.range K).foldl (fun s k => s + topics d k) 0
    (List.range K).foldlM (fun acc k => (List.range T).foldlM (fun acc t =>
      if K ≤ d ∨ T ≤ k then .error .indexError
      else if 0 < topics d k / denom * vocab d k then
        .ok (acc - topics d k / denom * vocab k t * Real.log (topics d k / denom * vocab d k))
      else .error .valueError) acc) acc) (0 : ℝ)

/-! ## The output argument -/

/-- Element types of the sparse matrix (sparse_elementwise.py:158-163); `int` stands for the integer types. -/
inductive DType where
  | f8
  | f4
  | int
  deriving DecidableEq, Repr

/-- What a call leaves behind (sparse_elementwise.py:128-164, 248-296): the data of the matrix returned, the data of the matrix given as `out`
after the call, and whether the two are one object. -/
structure Written (α : Type) where
  returned : List α
  buffer : Option (List α)
  same : Bool

/-- `sparseScalarQuotientOfDot` (sparse_elementwise.py:128-164) with an `out` argument. -/
def quotientInto [Zero α] (dt : DType) (A : Csr α) (val : α → Nat → Nat → α) (start stop : Nat) (out : Option (List α)) : Py (Written α) :=
  match dt with
  | .int => .error .valueError
  | _ =>
    let o := (SparseKernels.kernelLoop A val 0 start stop (out.getD (SparseKernels.sliceRows A start stop).data)).2.2
    .ok ⟨o, out.map (fun _ => o), out.isSome⟩

/-- `sparseScalarProductOfSafeLnDot` (sparse_elementwise.py:248-296) with an `out` argument: for double precision and the full range of rows the
argument is replaced with a copy of the matrix (283).  For integers `_sparseScalarProductOfSafeLnDot_py` (299-325) demands the same type of all
three matrices, and then multiplies integers in place with floating point numbers, which numpy refuses. -/
def safeLnInto [Zero α] (dt dtB dtC : DType) (A : Csr α) (val : α → Nat → Nat → α) (start stop : Nat) (out : Option (List α)) : Py (Written α) :=
  match dt with
  | .int => if dtB = .int ∧ dtC = .int ∧ (out.getD (SparseKernels.sliceRows A start stop).data).length = A.data.length then .error .typeError
      else .error .valueError
  | .f8 =>
    if start = 0 ∧ stop = A.rows then
      .ok ⟨(SparseKernels.kernelLoop A val 0 0 A.rows A.data).2.2, out, false⟩
    else
      let o := (SparseKernels.kernelLoop A val 0 start stop (out.getD (SparseKernels.sliceRows A start stop).data)).2.2
      .ok ⟨o, out.map (fun _ => o), out.isSome⟩
  | .f4 =>
      let o := (SparseKernels.kernelLoop A val 0 start stop (out.getD (SparseKernels.sliceRows A start stop).data)).2.2
      .ok ⟨o, out.map (fun _ => o), out.isSome⟩

/-- `_sparseScalarProductOfDot_py` (sparse_elementwise.py:226-245) on integer data, which `sparseScalarProductOfDot` (198-224) comes to; the in place
product with a floating point matrix is refused. -/
def productOfDotInt (floating : Bool) (A : Csr Int) (B C : Mat Int) : Py (Csr Int) :=
  let rc := SparseKernels.csrIndices A.indptr A.indices
  if B.cols ≠ C.rows then .error .valueError
  else if (rc.1.zip rc.2).any (fun p => decide (B.rows ≤ p.1 ∨ C.cols ≤ p.2)) then .error .indexError
  else if floating then .error .typeError
  else .ok { A with data := List.zipWith (fun v p => v * SparseKernels.dotProduct B C p.1 p.2) A.data (rc.1.zip rc.2) }

end Verif.LogUtils
