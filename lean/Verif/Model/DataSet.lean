import Mathlib.Data.Rat.Defs
import Mathlib.Algebra.Order.Ring.Rat
import Verif.Model.Py

/-!
# Model of `sidetopics/model/common.py`, class `DataSet`

Matrices (numpy arrays, scipy CSR matrices) are modelled by their shape and entry
function, i.e. storage format is abstracted away here; functions which depend on the
CSR layout are modelled on the CSR arrays in `Verif/Model/Csr.lean`.  Entries are exact rationals:
every finite float is a rational, rounding is not modelled.
-/

namespace Verif

/-- A two-dimensional matrix: shape and entries (numpy `ndarray`, scipy `csr_matrix`).
Entries outside the shape are meaningless. (the matrices of `DataSet`, common.py:51-53) -/
structure Mat (α : Type) where
  rows : Nat
  cols : Nat
  get : Nat → Nat → α

/-- Per-document categories.  `DataSet` accepts `None`, a plain Python list
(what `from_files`, common.py:104-114, builds) or a numpy object array.  The difference matters
because `x[list(ids)]` works only for the array. -/
inductive Cats (κ : Type) where
  | none
  | pyList (l : List κ)
  | array (l : List κ)

/-- The fields of `DataSet` (common.py:51-67).  `word_dict` is a numpy array of words
when present. -/
structure DataSet (κ : Type) where
  words : Mat ℚ
  feats : Option (Mat ℚ)
  links : Option (Mat ℚ)
  wordDict : Option (List String)
  cats : Cats κ
  order : List Nat

namespace Mat

/-- `m[idx, :]` / `m[idx]`: row selection, `IndexError` if an index is out of range.
(Negative indices never occur in the modelled code.) (as in common.py:303, 419-421) -/
def selRows {α : Type} (m : Mat α) (idx : List Nat) : Py (Mat α) :=
  if idx.all (· < m.rows) then
    .ok { rows := idx.length, cols := m.cols, get := fun i j => m.get (idx.getD i 0) j }
  else .error .indexError

/-- `m[:, idx]`: column selection. (as in common.py:168, 566, 756) -/
def selCols {α : Type} (m : Mat α) (idx : List Nat) : Py (Mat α) :=
  if idx.all (· < m.cols) then
    .ok { rows := m.rows, cols := idx.length, get := fun i j => m.get i (idx.getD j 0) }
  else .error .indexError

/-- `m.sum(axis=1)[i]`. (common.py:216, 344, 364) -/
def rowSum (m : Mat ℚ) (i : Nat) : ℚ := ((List.range m.cols).map (m.get i)).sum

/-- `m.sum()`. (common.py:212, 240) -/
def total (m : Mat ℚ) : ℚ := ((List.range m.rows).map m.rowSum).sum

/-- `m.astype(bool).sum(axis=1)[i]`: number of non-zero entries in a row
(common.py:342-344, 482). -/
def rowNnz (m : Mat ℚ) (i : Nat) : Nat := (List.range m.cols).countP (fun j => m.get i j ≠ 0)

/-- `m.astype(bool).sum(axis=0)[j]`: number of non-zero entries in a column
(common.py:165). -/
def colNnz (m : Mat ℚ) (j : Nat) : Nat := (List.range m.rows).countP (fun i => m.get i j ≠ 0)

end Mat

/-- `l[idx]` on a one-dimensional numpy array. (as in common.py:169) -/
def selList {α : Type} (l : List α) (idx : List Nat) : Py (List α) :=
  idx.mapM (fun i => match l[i]? with
    | some x => .ok x
    | none => .error .indexError)

/-- `None if m is None else m[idx]` (common.py:420-421). -/
def selOptRows {α : Type} (m : Option (Mat α)) (idx : List Nat) : Py (Option (Mat α)) :=
  match m with
  | none => .ok none
  | some m => do return some (← m.selRows idx)

namespace Cats

/-- `len(doc_categories)` where present. (common.py:34) -/
def len? {κ : Type} : Cats κ → Option Nat
  | none => Option.none
  | pyList l => some l.length
  | array l => some l.length

/-- `c[list(idx)]`, evaluated unconditionally as in `_reorder` (common.py:304):
`None[...]` and `list[list]` are `TypeError`s. -/
def sel {κ : Type} (c : Cats κ) (idx : List Nat) : Py (Cats κ) :=
  match c with
  | none => .error .typeError
  | pyList _ => .error .typeError
  | array l => do return array (← selList l idx)

/-- `None if c is None else c[list(idx)]` (common.py:423). -/
def selOpt {κ : Type} (c : Cats κ) (idx : List Nat) : Py (Cats κ) :=
  match c with
  | none => .ok none
  | c => c.sel idx

end Cats

namespace DataSet

variable {κ : Type}

/-- `DataSet.__init__` (common.py:14-67).  `order = none` is Python's `None`.  The checks on
the storage format (lines 37-48) are not modelled: storage is abstracted. -/
def mk' (words : Mat ℚ) (feats links : Option (Mat ℚ)) (wordDict : Option (List String))
    (cats : Cats κ) (order : Option (List Nat)) (limit : Nat) : Py (DataSet κ) := do
  pyAssert (0 < words.rows)
  pyAssert (feats.all (fun m => m.rows = words.rows))
  pyAssert (links.all (fun m => m.rows = words.rows))
  pyAssert (cats.len?.all (· = words.rows))
  let (order, numDocs) :=
    if 0 < limit ∧ limit < words.rows then
      (some (match order with
        | none => List.range limit
        | some o => o.take limit), limit)
    else (order, words.rows)
  return { words, feats, links, wordDict, cats,
           order := match order with
             | some o => o
             | none => List.range numDocs }

/-- `doc_count` (common.py:205-207) and `__len__` (256-257). -/
def docCount (ds : DataSet κ) : Nat := ds.words.rows

/-- `word_count` (common.py:210-212). -/
def wordCount (ds : DataSet κ) : ℚ := ds.words.total

/-- `np.arange(a, b) % n` for `b ≥ a` (common.py:400-401); numpy's `%` is non-negative for
positive `n`. -/
def arangeMod (a b : Int) (n : Nat) : List Nat :=
  (List.range (b - a).toNat).map (fun i : Nat => ((a + (i : Int)) % (n : Int)).toNat)

/-- `cross_valid_split_indices` (common.py:380-403).  Returns (train, query).
`ceil(doc_count / num_folds)` is computed exactly, i.e. without the float division.
Fold ids may be negative in Python, hence `Int`. -/
def crossValidSplitIndices (docCount : Nat) (testFoldId numFolds : Int) :
    Py (List Nat × List Nat) := do
  pyAssert (testFoldId < numFolds)
  pyAssert (1 < numFolds)
  let querySize : Int := (docCount + numFolds - 1) / numFolds
  let trainSize : Int := docCount - querySize
  let start := querySize * testFoldId
  let stop := start + querySize
  let queryRange := arangeMod start stop docCount
  let trainRange := arangeMod stop (stop + trainSize) docCount
  return (trainRange, queryRange)

/-- The `DataSet(...)` call made twice in `cross_valid_split` (common.py:418-426, 427-435). -/
def subset (ds : DataSet κ) (idx : List Nat) : Py (DataSet κ) := do
  let words ← ds.words.selRows idx
  let feats ← selOptRows ds.feats idx
  let links ← selOptRows ds.links idx
  let cats ← ds.cats.selOpt idx
  let order ← selList ds.order idx
  mk' words feats links ds.wordDict cats (some order) 0

/-- `cross_valid_split` (common.py:406-437). -/
def crossValidSplit (ds : DataSet κ) (testFoldId numFolds : Int) :
    Py (DataSet κ × DataSet κ) := do
  let (trainRange, queryRange) ← crossValidSplitIndices ds.docCount testFoldId numFolds
  let train ← ds.subset trainRange
  let query ← ds.subset queryRange
  return (train, query)

/-- `_reorder_link_matrix` (common.py:746-758). -/
def reorderLinks (m : Option (Mat ℚ)) (order : List Nat) : Py (Option (Mat ℚ)) :=
  match m with
  | none => .ok none
  | some m =>
    if m.rows = m.cols then do
      let r ← m.selRows order
      return some (← r.selCols order)
    else do return some (← m.selRows order)

/-- `_reorder` (common.py:295-306): in-place, so the state reached is returned together with
the exception raised, if any. -/
def reorder (ds : DataSet κ) (order : List Nat) : DataSet κ × Py Unit :=
  match ds.words.selRows order with
  | .error e => (ds, .error e)
  | .ok w =>
    let ds := { ds with words := w }
    match ds.cats.sel order with
    | .error e => (ds, .error e)
    | .ok c =>
      let ds := { ds with cats := c }
      match selOptRows ds.feats order with
      | .error e => (ds, .error e)
      | .ok f =>
        let ds := { ds with feats := f }
        match reorderLinks ds.links order with
        | .error e => (ds, .error e)
        | .ok l => ({ ds with links := l }, .ok ())

/-- `np.where(link_counts >= min_link_count)[0]` (common.py:364-365, 370-371).
(For a single document numpy squeezes the counts to a 0-d array; the model does not.) -/
def sufficientDocs (links : Mat ℚ) (minLinkCount : ℚ) : List Nat :=
  (List.range links.rows).filter (fun d => minLinkCount ≤ links.rowSum d)

/-- The `while` loop of `prune_and_shuffle` (common.py:364-371), on the state reached.
`fuel` bounds the number of rounds; `none` means it was used up (the theorems show that
one round per document is enough, i.e. that the loop terminates). -/
def linkLoop (minLinkCount : ℚ) : Nat → DataSet κ → Option (DataSet κ × Py Unit)
  | 0, _ => none
  | fuel + 1, ds =>
    match ds.links with
    | none => some (ds, .ok ())
    | some links =>
      let suff := sufficientDocs links minLinkCount
      if suff.length < links.rows then
        match ds.reorder suff with
        | (ds', .error e) => some (ds', .error e)
        | (ds', .ok ()) =>
          match selList ds'.order suff with
          | .error e => some (ds', .error e)
          | .ok o => linkLoop minLinkCount fuel { ds' with order := o }
      else some (ds, .ok ())

/-- The rows kept by the unique-word test (common.py:344-354). -/
def goodRows (words : Mat ℚ) (minUnique : ℚ) : List Nat :=
  if (List.range words.rows).any (fun d => (words.rowNnz d : ℚ) < minUnique) then
    (List.range words.rows).filter (fun d => minUnique ≤ (words.rowNnz d : ℚ))
  else List.range words.rows

/-- `prune_and_shuffle` (common.py:326-377).  `shuffle` stands for `rng.shuffle`, an arbitrary
function here.  In-place: the state reached is returned with the exception, if any; the
returned order is the `order` field of that state (line 377). -/
def pruneAndShuffle (ds : DataSet κ) (minUnique : ℚ) (minLinkCount : ℚ)
    (shuffle : List Nat → List Nat) : Option (DataSet κ × Py Unit) :=
  let ds := { ds with order := shuffle (goodRows ds.words minUnique) }
  match ds.reorder ds.order with
  | (ds', .error e) => some (ds', .error e)
  | (ds', .ok ()) =>
    match ds'.links with
    | none => some (ds', .ok ())
    | some links =>
      if minLinkCount = 0 then some (ds', .ok ())
      else linkLoop minLinkCount (links.rows + 1) ds'

end DataSet

end Verif
