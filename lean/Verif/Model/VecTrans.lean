import Verif.Model.LinkSplit

/-!
# Model of `sidetopics/util/vectrans.py` and `sidetopics/util/vt_fast.pyx`
-/

namespace Verif.VecTrans

open Verif

/-- An output array being filled: `none` marks memory not yet written (`np.ndarray` allocates without
initialising). (vt_fast.pyx:131-150) -/
structure OutArr (α : Type) where
  rows : Nat
  cols : Nat
  cell : Nat → Nat → Option α

/-- `out[r, c] = v`.  A write outside the array is an error here (`boundscheck` is off in the
compiled code, which would silently corrupt memory). (vt_fast.pyx:160-168) -/
def OutArr.write {α : Type} (o : OutArr α) (r c : Nat) (v : α) : Py (OutArr α) :=
  if r < o.rows ∧ c < o.cols then
    .ok { o with cell := fun i j => if i = r ∧ j = c then some v else o.cell i j }
  else .error .indexError

/-- `vec_transpose_f8r` (vt_fast.pyx:131-168) and `vec_transpose_f4r` (172-208), called by
`vec_transpose` (vectrans.py:106-120).  Division by `p = 0` is an error. -/
def dense {α : Type} (A : Mat α) (p : Nat) : Py (OutArr α) :=
  if p = 0 then .error .zeroDivisionError
  else
    (List.range A.rows).foldlM (fun o oldRow =>
      (List.range A.cols).foldlM (fun o oldCol =>
        o.write (oldCol * p + oldRow % p) (oldRow / p) (A.get oldRow oldCol)) o)
      ⟨A.cols * p, A.rows / p, fun _ _ => none⟩

/-- `while indptr[oldRow + 1] <= dataPtr: oldRow += 1` (vt_fast.pyx:44-45 and the copies at 81-82,
118-119; vectrans.py:93-94).  `fuel` bounds the rounds; running out of it (or of the pointer array)
is reported as an `IndexError`. -/
def walk (indptr : List Nat) (dataPtr : Nat) : Nat → Nat → Py Nat
  | 0, _ => .error .indexError
  | fuel + 1, oldRow =>
    match indptr[oldRow + 1]? with
    | none => .error .indexError
    | some x => if x ≤ dataPtr then walk indptr dataPtr fuel (oldRow + 1) else .ok oldRow

/-- The loop over stored entries (vt_fast.pyx:43-51): the new coordinates with their values; `oldRow` is
carried from one entry to the next. -/
def sparseLoop {α : Type} (indptr : List Nat) (p : Nat) : Nat → Nat → List (Nat × α) →
    Py (List (Nat × Nat × α))
  | _, _, [] => .ok []
  | dataPtr, oldRow, (oldCol, v) :: rest => do
    let oldRow ← walk indptr dataPtr indptr.length oldRow
    let tail ← sparseLoop indptr p (dataPtr + 1) oldRow rest
    return (oldCol * p + oldRow % p, oldRow / p, v) :: tail

/-- `sparse_vec_transpose_f8r`, `_i4r`, `_f4r` (vt_fast.pyx:19-54, 56-90, 93-127), called by
`vec_transpose_csr` (vectrans.py:49-68): shape and coordinates handed to `coo_matrix`, which rejects coordinates
outside the shape (`ValueError`). -/
def sparse {α : Type} (A : Csr α) (p : Nat) : Py (Nat × Nat × List (Nat × Nat × α)) :=
  if p = 0 then .error .zeroDivisionError
  else do
    let c ← sparseLoop A.indptr p 0 0 A.pairs
    if c.all (fun e => e.1 < A.cols * p ∧ e.2.1 < A.rows / p) then
      return (A.cols * p, A.rows / p, c)
    else throw .valueError

/-- The element types the code distinguishes. (vectrans.py:60-68, 115-121) -/
inductive DType where
  | float64
  | float32
  | int32
  | other

/-- `vec_transpose_csr` (vectrans.py:49-69).  The fallback for other element types
(`_vec_transpose_csr_jit`, 72-104) computes the shape with `/`, a float, which `coo_matrix` rejects
(`TypeError` of scipy's `check_shape`, scipy ≥ 1.1), after the division by `p`. -/
def vecTransposeCsr {α : Type} (t : DType) (A : Csr α) (p : Nat) : Py (Nat × Nat × List (Nat × Nat × α)) :=
  match t with
  | .other => if p = 0 then .error .zeroDivisionError else .error .typeError
  | _ => sparse A p

/-- `vec_transpose` (vectrans.py:106-135).  For other element types `A.order` (121) is evaluated;
numpy arrays have no such attribute. -/
def vecTranspose {α : Type} (t : DType) (A : Mat α) (p : Nat) : Py (OutArr α) :=
  match t with
  | .float64 | .float32 => dense A p
  | _ => .error .attributeError

/-- `vec` (vectrans.py:41-47): columns stacked on top of each other. -/
def vec {α : Type} (A : Mat α) : List α :=
  (List.range (A.cols * A.rows)).map (fun k => A.get (k % A.rows) (k / A.rows))

/-- the transpose `A.T` (numpy; vectrans.py:41-47) -/
def transpose {α : Type} (A : Mat α) : Mat α := ⟨A.cols, A.rows, fun i j => A.get j i⟩

/-- `sp_vec_trans_matrix` (vectrans.py:139-166): `floor(r / cols)` is integer division for
non-negative integers (float rounding not modelled). -/
def transMatrix (rows cols : Nat) : Csr ℚ :=
  let size := rows * cols
  ⟨size, size, List.range (size + 1),
    (List.range size).map (fun r => r / cols + (r % cols) * rows), List.replicate size 1⟩

/-- `T.dot(x)` for a CSR matrix and a vector (scipy; vectrans.py:147) -/
def matVec (T : Csr ℚ) (x : List ℚ) : List ℚ :=
  (List.range T.rows).map (fun r => ((T.row r).map (fun p => p.2 * x.getD p.1 0)).sum)

end Verif.VecTrans
