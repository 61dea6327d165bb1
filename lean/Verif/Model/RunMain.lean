import Mathlib.Analysis.SpecialFunctions.Exp
import Verif.Model.Evals
import Verif.Model.DataSetOps
import Verif.Lemmas.Csr

/-!
# Model of parts of `sidetopics/run/__main__.py` (and `perplexity_from_like` of `model/evals.py`)
-/

namespace Verif.RunMain

open Verif Verif.Evals

/-- `perplexity_from_like` (evals.py:24-27) for a numeric token count (float division; the theorems take
a positive count). -/
noncomputable def perplexityFromLike (logLikely tokenCount : ℝ) : ℝ := Real.exp (-logLikely / tokenCount)

/-! ## combine_map -/

/-- A Python dictionary keyed by groups, as an association list in insertion order.
(the dictionaries of run/__main__.py:1176-1194) -/
abbrev Dict (β : Type) := List (Group × β)

/-- `d[g]` (run/__main__.py:1189-1192) -/
def Dict.get {β : Type} (d : Dict β) (g : Group) : Py β :=
  match d.find? (fun p => p.1 = g) with
  | some p => .ok p.2
  | none => .error .keyError

/-- `a / b`: `ZeroDivisionError` for a zero divisor. (run/__main__.py:1190) -/
def pyDiv (a b : ℚ) : Py ℚ := if b = 0 then .error .zeroDivisionError else .ok (a / b)

/-- One entry of `upd_counts` (`__main__.py`:1189). -/
def updCount (newCounts : Dict Nat) (p : Group × Nat) : Py (Group × Nat) := do
  return (p.1, p.2 + (← newCounts.get p.1))

/-- One entry of `upd_avgs` (`__main__.py`:1190-1192). -/
def updAvg (oldCounts : Dict Nat) (newAvgs : Dict (List ℚ)) (newCounts updCounts : Dict Nat)
    (p : Group × List ℚ) : Py (Group × List ℚ) := do
  let news ← newAvgs.get p.1
  let oc ← oldCounts.get p.1
  let nc ← newCounts.get p.1
  let uc ← updCounts.get p.1
  let l ← (p.2.zip news).mapM (fun on => pyDiv (on.1 * oc + on.2 * nc) uc)
  return (p.1, l)

/-- `combine_map` (`__main__.py`:1176-1194).  The lookups of the counts are made once per group
instead of once per element (a group with an empty list of averages makes no lookup in Python).
With only one of the old maps present Python fails on `None.items()`. -/
def combineMap (oldAvgs : Option (Dict (List ℚ))) (oldCounts : Option (Dict Nat))
    (newAvgs : Dict (List ℚ)) (newCounts : Dict Nat) : Py (Dict (List ℚ) × Dict Nat) :=
  match oldAvgs, oldCounts with
  | none, none => .ok (newAvgs, newCounts)
  | some oa, some oc => do
    let updCounts ← oc.mapM (updCount newCounts)
    let updAvgs ← oa.mapM (updAvg oc newAvgs newCounts updCounts)
    return (updAvgs, updCounts)
  | _, _ => .error .attributeError

/-- How the drivers use it, for one kind of average (`__main__.py`:654-655, 1119-1120): starting from
nothing, each fold's results are combined with what is there. -/
def combineAll (folds : List (Dict (List ℚ) × Dict Nat)) :
    Py (Option (Dict (List ℚ)) × Option (Dict Nat)) :=
  folds.foldlM (fun acc f => do
    let r ← combineMap acc.1 acc.2 f.1 f.2
    return (some r.1, some r.2)) (none, none)

/-! ## Splitting columns out of a matrix -/

/-- `eliminate_zeros()` of a CSR matrix (scipy; used in run/__main__.py:735, 741) -/
def eliminateZeros (m : Csr ℚ) : Csr ℚ :=
  Csr.ofRows m.cols ((List.range m.rows).map (fun r => (m.row r).filter (fun p => p.2 ≠ 0)))

/-- the list comprehension `di` (`__main__.py`:724-733) as (left value, right value) per stored entry.
`rand` is the stream of random numbers; one is consumed per entry in a chosen column. -/
def splitVals (cols : List Nat) (removal : ℚ) (rand : Nat → ℚ) : Nat → List (Nat × ℚ) → List (ℚ × ℚ)
  | _, [] => []
  | k, (i, d) :: rest =>
    if 99999999 / 100000000 ≤ removal then
      (if i ∈ cols then (0, d) else (d, 0)) :: splitVals cols removal rand k rest
    else if i ∈ cols then
      (if rand k < removal then (0, d) else (d, 0)) :: splitVals cols removal rand (k + 1) rest
    else (d, 0) :: splitVals cols removal rand k rest

/-- `soft_split_on_indices` (`__main__.py`:705-743; the two-argument version at 692-702 is
overwritten by it). -/
def softSplit (m : Csr ℚ) (cols : List Nat) (rand : Nat → ℚ) (removal : ℚ) : Csr ℚ × Csr ℚ :=
  let di := splitVals cols removal rand 0 m.pairs
  (eliminateZeros { m with data := di.map Prod.fst }, eliminateZeros { m with data := di.map Prod.snd })

/-! ## Popular words -/

/-- `popular_indices` (`__main__.py`:335-349) for `count ≥ 0`.  `argsort` returns the positions in
ascending order of count.  `np.squeeze` of a single candidate is not modelled. Candidates out of
range are an `IndexError`. -/
def popularIndices (argsort : List ℚ → List Nat) (words : Mat ℚ) (candidates : List Nat) (count : Nat) :
    Py (List Nat) := do
  let sel ← words.selCols candidates
  let counts := (List.range sel.cols).map (fun j => ((List.range sel.rows).map (fun i => sel.get i j)).sum)
  let order := argsort counts
  let top := (if count = 0 then order else order.drop (order.length - count)).reverse
  top.mapM (fun i => match candidates[i]? with
    | some c => .ok c
    | none => .error .indexError)

/-- `w[0] == '#'` (run/__main__.py:330) -/
def isHashtag (w : List Char) : Py Bool :=
  match w with
  | [] => .error .indexError
  | c :: _ => .ok (c = '#')

/-- the candidates of `popular_hashtag_indices` (`__main__.py`:330-331): `word_dict.index(h)` is the
first position of the word. -/
def hashtagIndices (dict : List (List Char)) : Py (List Nat) := do
  let flags ← dict.mapM isHashtag
  let tags := ((dict.zip flags).filter (fun p => p.2)).map Prod.fst
  return tags.map (fun h => dict.idxOf h)

/-! ## The cross-validation drivers -/

/-- What happens in one fold: an exception before the totals are updated, or scores (training and query
log-likelihood and word counts), after which saving may still raise. (run/__main__.py:426-471) -/
inductive Outcome where
  | failed
  | scored (trainLike trainCount queryLike queryCount : ℚ) (saveFails : Bool)

/-- The variables of the loop (`__main__.py`:418-424), and two records of what was done: the folds
attempted and the files saved (by fold). -/
structure LoopState where
  fold : Nat
  finished : Nat
  trainLike : ℚ
  trainCount : ℚ
  queryLike : ℚ
  queryCount : ℚ
  attempted : List Nat
  saved : List Nat

/-- the initial values (run/__main__.py:418-424) -/
def LoopState.init : LoopState := ⟨0, 0, 0, 0, 0, 0, [], []⟩

/-- One round of the `try … except … finally` (`__main__.py`:426-471).  `save` says whether a model
directory was given. -/
def perplexityRound (outcome : Nat → Outcome) (save : Bool) (s : LoopState) : LoopState :=
  let s := { s with attempted := s.attempted ++ [s.fold] }
  let s := match outcome s.fold with
    | .failed => s
    | .scored tl tc ql qc saveFails =>
      let s := { s with
        trainLike := s.trainLike + tl, trainCount := s.trainCount + tc
        queryLike := s.queryLike + ql, queryCount := s.queryCount + qc
        finished := s.finished + 1 }
      if save ∧ ¬ saveFails then { s with saved := s.saved ++ [s.fold] } else s
  { s with fold := s.fold + 1 }

/-- A `while fold < num_folds and folds_finished < fold_run_count` loop around a round that advances `fold`
(`__main__.py`:425, 514); `fuel` bounds the rounds. -/
def foldLoop (round : LoopState → LoopState) (numFolds runCount : Nat) : Nat → LoopState → Option LoopState
  | 0, _ => none
  | fuel + 1, s =>
    if s.fold < numFolds ∧ s.finished < runCount then foldLoop round numFolds runCount fuel (round s)
    else some s

/-- `if fold_run_count < 1: fold_run_count = num_folds` (`__main__.py`:401-402, 507-508) -/
def effectiveRuns (numFolds : Nat) (runCount : Int) : Nat :=
  if runCount < 1 then numFolds else runCount.toNat

/-- `cross_val_and_eval_perplexity` (`__main__.py`:382-478) for more than one fold: the state after
the loop; then the final totals are printed (473-474), which divides by the token counts: the
integer zero when no fold has finished. -/
def crossValPerplexity (outcome : Nat → Outcome) (save : Bool) (numFolds : Nat) (runCount : Int) :
    Option (LoopState × Py Unit) := do
  let s ← foldLoop (perplexityRound outcome save) numFolds (effectiveRuns numFolds runCount)
    (numFolds + 1) .init
  return (s, if s.finished = 0 then .error .zeroDivisionError else .ok ())

/-- One round of the hashtag driver (`__main__.py`:515-567): `folds_finished` is never changed. -/
def hashtagRound (outcome : Nat → Outcome) (save : Bool) (s : LoopState) : LoopState :=
  let s := { s with attempted := s.attempted ++ [s.fold] }
  let s := match outcome s.fold with
    | .failed => s
    | .scored _ _ _ _ saveFails =>
      if save ∧ ¬ saveFails then { s with saved := s.saved ++ [s.fold] } else s
  { s with fold := s.fold + 1 }

/-- `cross_val_and_eval_hashtag_prec_at_m` (`__main__.py`:481-571): the order of folds. -/
def crossValHashtag (outcome : Nat → Outcome) (save : Bool) (numFolds : Nat) (runCount : Int) :
    Option (Py LoopState) :=
  if numFolds ≤ 1 then some (.error .valueError)
  else (foldLoop (hashtagRound outcome save) numFolds (effectiveRuns numFolds runCount)
    (numFolds + 1) .init).map .ok

/-- `cross_val_and_eval_tag_prec_rec_at_m` (`__main__.py`:577-684): the folds attempted, and
whether an exception (of the given class) ended the run; exceptions are not caught here.  A fold number
not below the number of folds fails in `cross_valid_split` (common.py:391). -/
def crossValTag (outcome : Nat → Py Unit) (numFolds : Nat) (target : Option Nat) : List Nat × Py Unit :=
  if numFolds ≤ 1 then ([], .error .assertionError)
  else
    let rec go : List Nat → List Nat → List Nat × Py Unit
      | done, [] => (done, .ok ())
      | done, f :: fs =>
        if numFolds ≤ f then (done ++ [f], .error .assertionError)
        else match outcome f with
          | .error e => (done ++ [f], .error e)
          | .ok () => go (done ++ [f]) fs
    go [] (List.range (target.getD numFolds))

/-! ## Tag evaluation -/

/-- `csr_clip` (`__main__.py`:687-688) -/
def csrClip (m : Csr ℚ) (lo hi : ℚ) : Csr ℚ := { m with data := m.data.map (fun v => min (max v lo) hi) }

/-- The documents as the evaluation functions see them: the stored column ids of the expected matrix and
the stored (column, score) pairs of the predictions. (evals.py:53-61, 135-145, 215-224) -/
def evalDocs (expected predicted : Csr ℚ) : List Doc :=
  (List.range expected.rows).map (fun d => ⟨(expected.row d).map Prod.fst, predicted.row d⟩)

end Verif.RunMain
