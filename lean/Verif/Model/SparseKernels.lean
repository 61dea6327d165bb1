import Mathlib.Analysis.SpecialFunctions.Log.Basic
import Verif.Model.Csr

/-!
# Model of the element-wise kernels of `sidetopics/util/se_fast.pyx`
-/

namespace Verif.SparseKernels

open Verif

variable {α : Type}

/-- `dotProduct_f8` (se_fast.pyx:610-627) and `dotProduct_f4` (631-648). -/
def dotProduct [AddMonoid α] [Mul α] (B C : Mat α) (r c : Nat) : α :=
  (List.range B.cols).foldl (fun acc i => acc + B.get r i * C.get i c) 0

/-- `dotProductNormed_f8` (se_fast.pyx:651-668) and `dotProductNormed_f4` (671-689). -/
def dotProductNormed [AddMonoid α] [Mul α] [Div α] (B C : Mat α) (d : Nat → α) (r c : Nat) : α :=
  (List.range B.cols).foldl (fun acc i => acc + B.get r i * C.get i c / d i) 0

/-- The inner loop over the elements of a row (se_fast.pyx:284-288, 521-526): `i` runs through
`A_data`/`A_indices` and the output alike; `bRow` is the row of the dense product.
`val` combines the stored value with the row and column.  Returns `i` and the output. -/
def elems (A : Csr α) (val : α → Nat → Nat → α) (d : α) (bRow : Nat) :
    Nat → Nat × List α → Nat × List α
  | 0, s => s
  | e + 1, (i, out) =>
    elems A val d bRow e (i + 1, out.set i (val (A.data.getD i d) bRow (A.indices.getD i 0)))

/-- The outer loop (se_fast.pyx:279-291, 515-529): rows `0 … stop-1`, of which those before `start` are
skipped *without advancing `i`*.  State: `i`, `B_row`, output. -/
def kernelLoop (A : Csr α) (val : α → Nat → Nat → α) (d : α) (start stop : Nat) (out : List α) :
    Nat × Nat × List α :=
  (List.range stop).foldl (fun (s : Nat × Nat × List α) aRow =>
    let elemCount := A.ptr (aRow + 1) - A.ptr aRow
    if start ≤ aRow then
      let (i, o) := elems A val d s.2.1 elemCount (s.1, s.2.2)
      (i, s.2.1 + 1, o)
    else s) (0, 0, out)

/-- `A[start:end, :].copy()` (sparse_elementwise.py:156, 278): the rows `start … stop-1`. -/
def sliceRows (A : Csr α) (start stop : Nat) : Csr α :=
  ⟨stop - start, A.cols, (List.range (stop - start + 1)).map (fun r => A.ptr (start + r) - A.ptr start),
    (A.indices.drop (A.ptr start)).take (A.ptr stop - A.ptr start),
    (A.data.drop (A.ptr start)).take (A.ptr stop - A.ptr start)⟩

/-- `sparseScalarQuotientOfDot` (sparse_elementwise.py:130-165 with se_fast.pyx:250-339),
`sparseScalarProductOfSafeLnDot` (sparse_elementwise.py:250-297 with se_fast.pyx:486-605), and with
`start = 0`, `stop = rows` also `sparseScalarProductOfDot` (198-225, se_fast.pyx:416-481) and
`sparseScalarQuotientOfNormedDot` (167-196, se_fast.pyx:345-410): `val v r c` is the stored value combined
with the dense product at `(r, c)`.  The default `out` is a copy of the rows.
`d` is a placeholder for out-of-range reads, which the theorems exclude. -/
def kernel (A : Csr α) (val : α → Nat → Nat → α) (d : α) (start stop : Nat) : Csr α :=
  let out := sliceRows A start stop
  { out with data := (kernelLoop A val d start stop out.data).2.2 }

/-- `sparseScalarQuotientOfDot`: `A / (B C)` (sparse_elementwise.py:130-164) -/
def quotientOfDot [AddMonoid α] [Mul α] [Div α] (A : Csr α) (B C : Mat α) (start stop : Nat) : Csr α :=
  kernel A (fun v r c => v / dotProduct B C r c) 0 start stop

/-- `sparseScalarProductOfDot`: `A * (B C)` (sparse_elementwise.py:198-224) -/
def productOfDot [AddMonoid α] [Mul α] (A : Csr α) (B C : Mat α) : Csr α :=
  kernel A (fun v r c => v * dotProduct B C r c) 0 0 A.rows

/-- `sparseScalarQuotientOfNormedDot` (sparse_elementwise.py:167-195) -/
def quotientOfNormedDot [AddMonoid α] [Mul α] [Div α] (A : Csr α) (B C : Mat α) (nrm : Nat → α) : Csr α :=
  kernel A (fun v r c => v / dotProductNormed B C nrm r c) 0 0 A.rows

/-- the guarded logarithm of `sparseScalarProductOfSafeLnDot_f8` (se_fast.pyx:523-525): `tiny` is
`DBL_MIN` (`FLT_MIN` for the 32 bit version, 598-600). -/
noncomputable def safeLn (tiny x : ℝ) : ℝ := if tiny < x then Real.log x else Real.log tiny

/-- `sparseScalarProductOfSafeLnDot`: `A * log(B C)` (sparse_elementwise.py:250-296) -/
noncomputable def productOfSafeLnDot (tiny : ℝ) (A : Csr ℝ) (B C : Mat ℝ) (start stop : Nat) : Csr ℝ :=
  kernel A (fun v r c => v * safeLn tiny (dotProduct B C r c)) 0 start stop

/-- `csr_indices` (sparse_elementwise.py:378-393): the rows list, by slice assignment. -/
def csrIndices (ptr ind : List Nat) : List Nat × List Nat :=
  let rowCount := ptr.length - 1
  let st := (List.range rowCount).foldl (fun (s : List Nat × Nat) r =>
    let elemCount := ptr.getD (r + 1) 0 - ptr.getD r 0
    let rows := if 0 < elemCount then
        s.1.take s.2 ++ List.replicate elemCount r ++ s.1.drop (s.2 + elemCount)
      else s.1
    (rows, s.2 + elemCount)) (List.replicate ind.length 0, 0)
  (st.1, ind)

end Verif.SparseKernels
