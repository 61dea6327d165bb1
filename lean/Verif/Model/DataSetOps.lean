import Mathlib.Algebra.Order.Floor.Ring
import Mathlib.Data.Rat.Floor
import Mathlib.Data.List.Dedup
import Verif.Model.Csr

/-!
# Model of further operations of `sidetopics/model/common.py`
-/

namespace Verif

namespace DataSet

variable {κ : Type}

/-- `np.around` to zero decimals: round to nearest, halves to even. (common.py:472) -/
def roundHalfEven (x : ℚ) : ℤ :=
  let f := ⌊x⌋
  let r := x - f
  if r < 1/2 then f else if 1/2 < r then f + 1 else if f % 2 = 0 then f else f + 1

/-- The estimation part of one stored count (common.py:471-472). -/
def estimated (estProp : ℚ) (dat jitter : ℚ) : ℚ := roundHalfEven ((dat + jitter) * estProp)

/-- `est` of common.py:469-475: one jitter value per stored entry. -/
def estData (estProp : ℚ) (dat jitter : List ℚ) : List ℚ :=
  List.zipWith (estimated estProp) dat jitter

/-- `doc_completion_split` (common.py:440-499).  `w` is the CSR form of the words; `jitter` is
what `rng.normal` returns (line 470).  The conversion to the matrix' dtype (475-476) is the
identity on the integral values involved, unless the dtype is unsigned (not modelled).
Line 491 formats three placeholders with one argument, which is a `TypeError`; it is reached
whenever some document is removed.  Stored entries are assumed to be at distinct positions when
counting unique words (482-483). -/
def docCompletionSplit (ds : DataSet κ) (w : Csr ℚ) (jitter : List ℚ) (estProp : ℚ)
    (minUnique : Int) : Py (DataSet κ × DataSet κ) :=
  match ds.feats with
  | some _ => .ok (ds, ds)
  | none => do
    let est := estData estProp w.data jitter
    let evl := List.zipWith (· - ·) w.data est
    let wordsTrain := { w with data := est }.toMat
    let wordsQuery := { w with data := evl }.toMat
    if 0 < minUnique then
      let good := (List.range wordsTrain.rows).filter (fun d =>
        minUnique ≤ (wordsTrain.rowNnz d : Int) ∧ minUnique ≤ (wordsQuery.rowNnz d : Int))
      if good.length ≠ wordsTrain.rows then
        throw .typeError
    let train ← mk' wordsTrain ds.feats ds.links ds.wordDict ds.cats none 0
    let query ← mk' wordsQuery ds.feats ds.links ds.wordDict ds.cats none 0
    return (train, query)

/-- The loop over category labels in `from_files` (common.py:104-114).  A label is its list of
characters; `current` is the group being collected. -/
def parseCats (flat : List (List Char)) : List (List (List Char)) :=
  let step := fun (acc : List (List (List Char)) × List (List Char)) (cat : List Char) =>
    if cat.getLast? = some '\n' then (acc.1 ++ [acc.2 ++ [cat.dropLast]], [])
    else (acc.1, acc.2 ++ [cat])
  let (groups, current) := flat.foldl step ([], [])
  if 0 < current.length then groups ++ [current] else groups

/-- `self._word_dict[list(retain_word_ids)]` (common.py:169); a missing dictionary cannot be indexed. -/
def dictSel (dict : Option (List String)) (retain : List Nat) : Py (List String) :=
  match dict with
  | none => .error .typeError
  | some d => selList d retain

/-- `words_with_min_freq` (common.py:164-178). -/
def wordsWithMinFreq (ds : DataSet κ) (minDocCount : ℚ) : Py (DataSet κ) := do
  let retain := (List.range ds.words.cols).filter (fun j => minDocCount ≤ (ds.words.colNnz j : ℚ))
  let pruned ← ds.words.selCols retain
  let dict ← dictSel ds.wordDict retain
  mk' pruned ds.feats ds.links (some dict) ds.cats (some ds.order) 0

/-- `self._feats.mean(axis=0)[j]` (common.py:287). -/
def colMean (m : Mat ℚ) (j : Nat) : ℚ := ((List.range m.rows).map (fun i => m.get i j)).sum / m.rows

/-- `add_intercept_to_feats_if_required` (common.py:276-292).  Returns the dataset and the
reported flag (`none` for Python's `None` when there are no features).
`1-1E-30` equals `1.0` in double precision.  The maximum over zero columns is a `ValueError`. -/
def addIntercept (ds : DataSet κ) : Py (DataSet κ × Option Bool) :=
  match ds.feats with
  | none => .ok (ds, none)
  | some f =>
    if f.cols = 0 then .error .valueError
    else if ∀ j, j < f.cols → colMean f j < 1 then
      let f' : Mat ℚ := ⟨f.rows, f.cols + 1, fun i j => if j < f.cols then f.get i j else 1⟩
      .ok ({ ds with feats := some f' }, some true)
    else .ok (ds, some false)

/-- One part of the feature split (common.py:570-575 for the training part, 576-581 for the query
part): rows `docs`, links to `linkCols`; categories are passed on whole. -/
def splitPart (ds : DataSet κ) (f links : Mat ℚ) (linkCols docs : List Nat) : Py (DataSet κ) := do
  let w ← ds.words.selRows docs
  let f ← f.selRows docs
  let l ← (← links.selRows docs).selCols linkCols
  let o ← selList ds.order docs
  mk' w (some f) (some l) ds.wordDict ds.cats (some o) 0

/-- `split_on_feature` (common.py:549-582): (train, query, trainDocs). -/
def splitOnFeature (ds : DataSet κ) (features : List Nat) :
    Py (DataSet κ × DataSet κ × List Nat) := do
  let eps : ℚ := 1 / 10 ^ 30
  match ds.feats, features with
  | none, _ => throw .assertionError
  | some _, [] => throw .assertionError
  | some f, first :: _ =>
    let sub ← f.selCols features
    let trainDocs := (List.range f.rows).filter (fun d => |sub.rowSum d| < eps)
    let queryDocs := (List.range f.rows).filter (fun d => eps < f.get d first)
    match ds.links with
    | none => throw .typeError
    | some links =>
      let train ← splitPart ds f links trainDocs trainDocs
      let query ← splitPart ds f links trainDocs queryDocs
      return (train, query, trainDocs)

end DataSet

/-! ## Link conversion: the stored pattern matters -/

/-- A sparse matrix as shape and stored values (`none`: position not stored). (the links, common.py:309-323) -/
abbrev SMat := Mat (Option ℚ)

namespace SMat

/-- value at a position (as read by common.py:311-315) -/
def val (m : SMat) (i j : Nat) : ℚ := (m.get i j).getD 0

/-- `convert_to_undirected_graph` (common.py:309-315): `links + links.T`; scipy stores only the
non-zero results.  Matrices that are not square cannot be added (`ValueError`). -/
def toUndirected (m : Option SMat) : Py SMat :=
  match m with
  | none => .error .assertionError
  | some m =>
    if m.rows ≠ m.cols then .error .valueError
    else .ok ⟨m.rows, m.cols, fun i j =>
      let v := val m i j + val m j i
      if v = 0 then none else some v⟩

/-- `convert_to_binary_link_matrix` (common.py:318-323): every stored value becomes one. -/
def toBinary (m : Option SMat) : Py SMat :=
  match m with
  | none => .error .assertionError
  | some m => .ok ⟨m.rows, m.cols, fun i j => (m.get i j).map (fun _ => 1)⟩

end SMat

/-! ## Dropping columns -/

/-- `dropcols_fancy` (common.py:585-588). -/
def dropcolsFancy (m : Mat ℚ) (idx : List Nat) : Mat ℚ :=
  let keep := (List.range m.cols).filter (fun c => !idx.contains c)
  { rows := m.rows, cols := keep.length, get := fun r c => m.get r (keep.getD c 0) }

/-- Coordinate format: list of (row, column, value). (common.py:593-598, 610-624) -/
abbrev Coo := List (Nat × Nat × ℚ)

/-- value at a position: duplicates add up (`tocsr`) (common.py:598, 623-624) -/
def Coo.entry (c : Coo) (r k : Nat) : ℚ :=
  ((c.filter (fun e => e.1 = r ∧ e.2.1 = k)).map (fun e => e.2.2)).sum

/-- `dropcols_coo` (common.py:591-598): number of columns and entries of the result.
`np.unique` is `dedup` here; `searchsorted` on the sorted unique ids counts the smaller ones. -/
def dropcolsCoo (cols : Nat) (c : Coo) (idx : List Nat) : Nat × Coo :=
  let idx := idx.dedup
  (cols - idx.length,
   (c.filter (fun e => !idx.contains e.2.1)).map
    (fun e => (e.1, e.2.1 - idx.countP (· < e.2.1), e.2.2)))

end Verif
