import Mathlib.Data.Rat.Defs
import Verif.Model.DataSet

/-!
# CSR matrices

The array layout of `scipy.sparse.csr_matrix`, for the functions which work on
`indptr`, `indices` and `data` directly.
-/

namespace Verif

/-- `scipy.sparse.csr_matrix`: row `r` stores the positions `indptr[r] … indptr[r+1]-1` of
`indices` (column ids) and `data` (values).
(scipy's class, as the code takes it apart in sparse_elementwise.py:159, vectrans.py:62, common.py:702-743, rtm.py:795) -/
structure Csr (α : Type) where
  rows : Nat
  cols : Nat
  indptr : List Nat
  indices : List Nat
  data : List α

namespace Csr

variable {α : Type}

/-- `indptr[r]` (as read in rtm.py:805-806, common.py:702) -/
def ptr (m : Csr α) (r : Nat) : Nat := m.indptr.getD r 0

/-- the stored (column, value) pairs, in storage order (as in evals.py:59-61, sparse_elementwise.py:378-393) -/
def pairs (m : Csr α) : List (Nat × α) := m.indices.zip m.data

/-- the stored (column, value) pairs of one row, `zip(indices[ptr r : ptr (r+1)], data[…])`
(as `W[d,:]` in rtm.py:95-96, lda_vb_python.py:299) -/
def row (m : Csr α) (r : Nat) : List (Nat × α) :=
  (m.pairs.drop (m.ptr r)).take (m.ptr (r + 1) - m.ptr r)

/-- Well-formedness of the arrays. (what scipy guarantees of the matrices the code is given, common.py:38-49) -/
structure WF (m : Csr α) : Prop where
  len : m.indptr.length = m.rows + 1
  zero : m.ptr 0 = 0
  mono : ∀ r, r < m.rows → m.ptr r ≤ m.ptr (r + 1)
  last : m.ptr m.rows = m.indices.length
  data : m.data.length = m.indices.length
  cols : ∀ c ∈ m.indices, c < m.cols

/-- The value of the matrix at a position: stored values at the same position are added up,
as scipy does. (scipy; used for the matrices made in common.py:623-624, 648) -/
def entry [AddMonoid α] (m : Csr α) (r c : Nat) : α :=
  (((m.row r).filter (fun p => p.1 = c)).map Prod.snd).sum

/-- The dense view of a CSR matrix. (`todense`, as in stm_yv_bohning.py:219-225) -/
def toMat [AddMonoid α] (m : Csr α) : Mat α := ⟨m.rows, m.cols, m.entry⟩

end Csr

end Verif
