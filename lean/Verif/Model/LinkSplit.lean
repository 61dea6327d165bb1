import Mathlib.Data.List.Sort
import Verif.Model.DataSetOps

/-!
# Model of the link splits of `sidetopics/model/common.py`
-/

namespace Verif

/-- A Python number used as a slice bound. (common.py:617-620) -/
inductive PyNum where
  | int (n : Nat)
  | float (x : ℚ)

/-- Python 3's `/` on integers is a float (common.py:617, 668). -/
def trueDiv (a b : Nat) : PyNum := .float ((a : ℚ) / b)

/-- Python's `//` (what the code would need at common.py:617, 668). -/
def floorDiv (a b : Nat) : PyNum := .int (a / b)

/-- `l[:k]` and `l[k:]` on a numpy array: floats are not accepted as bounds (`TypeError`). (common.py:619-620, 670-671) -/
def sliceAt {α : Type} (l : List α) (k : PyNum) : Py (List α × List α) :=
  match k with
  | .int k => .ok (l.take k, l.drop k)
  | .float _ => .error .typeError

/-- `np.sort` (common.py:619-620) -/
def npSort (l : List Nat) : List Nat := l.insertionSort (· ≤ ·)

/-- `_split` (common.py:601-624).  `X` are the coordinates of the links (`X.tocoo()`), the result
are the coordinates handed to `coo_matrix`; `div` is the division used at line 617 (`trueDiv` in the
code); `shuffle` is `rng.shuffle`. -/
def splitDirected (div : Nat → Nat → PyNum) (X : Coo) (shuffle : List Nat → List Nat) :
    Py (Coo × Coo) := do
  let ind := shuffle (List.range X.length)
  let (l, r) ← sliceAt ind (div X.length 2)
  let left ← selList X (npSort l)
  let right ← selList X (npSort r)
  return (left, right)

/-- `_symm_csr` (common.py:627-648): the coordinates followed by the mirrored coordinates. -/
def symmCsr (c : Coo) : Coo := c ++ c.map (fun e => (e.2.1, e.1, e.2.2))

/-- `_split_symm` (common.py:651-675). -/
def splitSymm (div : Nat → Nat → PyNum) (X : Coo) (shuffle : List Nat → List Nat) :
    Py (Coo × Coo) := do
  let low := (List.range X.length).filter (fun i =>
    match X[i]? with
    | some e => e.2.1 ≤ e.1
    | none => false)
  let ind := shuffle low
  let (l, r) ← sliceAt ind (div ind.length 2)
  let left ← selList X (npSort l)
  let right ← selList X (npSort r)
  return (symmCsr left, symmCsr right)

/-- the matrix with the given shape and coordinates (common.py:623-624) -/
def Coo.toMat (rows cols : Nat) (c : Coo) : Mat ℚ := ⟨rows, cols, c.entry⟩

namespace DataSet

/-- `link_prediction_split` (common.py:502-523).  `X` are the coordinates of `ds.links`. -/
def linkPredictionSplit {κ : Type} (div : Nat → Nat → PyNum) (ds : DataSet κ) (X : Coo)
    (symmetric : Bool) (shuffle : List Nat → List Nat) : Py (DataSet κ × DataSet κ) :=
  match ds.links with
  | none => .error .assertionError
  | some links => do
    let (lt, lq) ← if symmetric then splitSymm div X shuffle else splitDirected div X shuffle
    let train ← mk' ds.words ds.feats (some (lt.toMat links.rows links.cols)) ds.wordDict ds.cats none 0
    let query ← mk' ds.words ds.feats (some (lq.toMat links.rows links.cols)) ds.wordDict ds.cats none 0
    return (train, query)

end DataSet

/-- `l[a:b]` for non-negative bounds (common.py:715-730) -/
def pySlice {α : Type} (l : List α) (a b : Nat) : List α := (l.drop a).take (b - a)

/-- The local variables of `_folded_split` (common.py:695-699). -/
structure FoldState (α : Type) where
  lptr : List Nat
  lind : List Nat
  ldat : List α
  rptr : List Nat
  rind : List Nat
  rdat : List α
  docSubset : List Nat
  start : Nat

/-- One round of the loop over rows (common.py:702-734). -/
def foldRow {α : Type} (X : Csr α) (foldId foldCount : Nat) (minLinks : Int) (s : FoldState α)
    (row : Nat) : Py (FoldState α) :=
  let colCount := X.ptr (row + 1) - X.ptr row
  let stop := s.start + colCount
  if (colCount : Int) < minLinks then
    let cols := pySlice X.indices s.start stop
    let vals := pySlice X.data s.start stop
    .ok { lind := s.lind ++ cols
          ldat := s.ldat ++ vals
          lptr := s.lptr ++ [s.lptr.getLastD 0 + cols.length]
          rind := s.rind ++ cols
          rdat := s.rdat ++ vals
          rptr := s.rptr ++ [s.rptr.getLastD 0 + cols.length]
          docSubset := s.docSubset
          start := stop }
  else if foldCount = 0 then .error .zeroDivisionError
  else
    let querySize := colCount / foldCount
    let queryStart := s.start + querySize * foldId
    let queryEnd := min (queryStart + querySize) stop
    .ok { lind := s.lind ++ pySlice X.indices s.start queryStart ++ pySlice X.indices queryEnd stop
          ldat := s.ldat ++ pySlice X.data s.start queryStart ++ pySlice X.data queryEnd stop
          lptr := s.lptr ++ [s.lptr.getLastD 0 + (colCount - querySize)]
          rind := s.rind ++ pySlice X.indices queryStart queryEnd
          rdat := s.rdat ++ pySlice X.data queryStart queryEnd
          rptr := s.rptr ++ [s.rptr.getLastD 0 + querySize]
          docSubset := s.docSubset ++ [row]
          start := stop }

/-- The checks of scipy's `csr_matrix((data, indices, indptr), shape)`: lengths of the arrays, last
pointer within the data, column ids within the shape.  Surplus data would be dropped. (common.py:737-742) -/
def mkCsr {α : Type} (rows cols : Nat) (indptr indices : List Nat) (data : List α) : Py (Csr α) :=
  if indptr.length = rows + 1 ∧ indptr.getD 0 0 = 0 ∧ data.length = indices.length ∧
      indptr.getD rows 0 ≤ indices.length ∧ (∀ c ∈ indices, c < cols) then
    .ok ⟨rows, cols, indptr, indices.take (indptr.getD rows 0), data.take (indptr.getD rows 0)⟩
  else .error .valueError

/-- `_folded_split` (common.py:678-743). -/
def foldedSplit {α : Type} (X : Csr α) (foldId foldCount : Nat) (minLinks : Int) :
    Py (Csr α × Csr α × List Nat) := do
  let s ← (List.range X.rows).foldlM (foldRow X foldId foldCount minLinks)
    ⟨[0], [], [], [0], [], [], [], 0⟩
  let l ← mkCsr X.rows X.cols s.lptr s.lind s.ldat
  let r ← mkCsr X.rows X.cols s.rptr s.rind s.rdat
  return (l, r, s.docSubset)

/-- `folded_link_prediction_split` (common.py:526-547).  `X` is the CSR form of `ds.links`. -/
def DataSet.foldedLinkPredictionSplit {κ : Type} (ds : DataSet κ) (X : Csr ℚ) (minLinks : Int)
    (foldId foldCount : Nat) (symmetric : Bool) : Py (DataSet κ × DataSet κ × List Nat) :=
  match ds.links with
  | none => .error .assertionError
  | some _ =>
    if symmetric then .error .valueError
    else do
      let (l, r, sub) ← foldedSplit X foldId foldCount minLinks
      let train ← DataSet.mk' ds.words ds.feats (some l.toMat) ds.wordDict ds.cats none 0
      let query ← DataSet.mk' ds.words ds.feats (some r.toMat) ds.wordDict ds.cats none 0
      return (train, query, sub)

end Verif
