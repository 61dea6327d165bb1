import Verif.Model.RunMain

/-!
# The folds that each evaluation runs

`run/__main__.py`: the evaluations that can be chosen with `--eval`, with the options `--folds` and `--truncate-folds`.  The outcome of
a fold is arbitrary: `.ok ()` if it gets to its end, an exception otherwise.  A run is the list of folds it has started, in order, and
the exception which ended it, if one did.  The averages over all folds are printed after the last fold: without any fold they are
`None`, and printing them fails; no other failure of the final output is modelled.
-/

namespace Verif.FoldRuns

open Verif Verif.RunMain

/-- The evaluations with folds (run/__main__.py:261-290) -/
inductive Eval where
  | perplexity
  | hashtags
  | tags
  | linksMap
  | linksPrecRec
  | linksInSample

/-- The default of `--truncate-folds` (run/__main__.py:124) -/
def truncateDefault : Int := -1

/-- A loop over fold numbers in which exceptions are not caught (run/__main__.py:621-675, 815-832, 881-918) -/
def runAll (outcome : Nat → Py Unit) : List Nat → List Nat → List Nat × Py Unit
  | done, [] => (done, .ok ())
  | done, f :: fs =>
    match outcome f with
    | .error e => (done ++ [f], .error e)
    | .ok () => runAll outcome (done ++ [f]) fs

/-- The averages over all folds are `None` if there was no fold, and have no `keys` then (run/__main__.py:678, 919, 1035, 1203). -/
def final (run : List Nat × Py Unit) : List Nat × Py Unit :=
  match run.2 with
  | .error e => (run.1, .error e)
  | .ok () => if run.1 = [] then (run.1, .error .attributeError) else (run.1, .ok ())

/-- The outcome of a fold in terms of `RunMain.Outcome`, with likelihood 0 of a single word, nothing being saved (run/__main__.py:426-471) -/
def toOutcome (outcome : Nat → Py Unit) (f : Nat) : Outcome :=
  match outcome f with
  | .ok () => .scored 0 1 0 1 false
  | .error _ => .failed

/-- The perplexity (run/__main__.py:401-478): a single fold is trained and measured on all the data (404-416), otherwise exceptions are
caught; without a finished fold the totals divide by zero. -/
def perplexityRun (outcome : Nat → Py Unit) (folds : Nat) (truncate : Int) : Option (List Nat × Py Unit) :=
  if folds = 1 then some ([0], outcome 0)
  else (crossValPerplexity (toOutcome outcome) false folds truncate).map fun r => (r.1.attempted, r.2)

/-- The tags (run/__main__.py:612-682): `range` of a negative number is empty. -/
def tagsRun (outcome : Nat → Py Unit) (folds : Nat) (truncate : Int) : List Nat × Py Unit :=
  if folds ≤ 1 then ([], .error .assertionError)
  else final (runAll (fun f => if folds ≤ f then .error .assertionError else outcome f) [] (List.range truncate.toNat))

/-- The hashtags (run/__main__.py:263-272): first the tags, then `cross_val_and_eval_hashtag_prec_at_m`, which never leaves its loop
early (see `RunMain.crossValHashtag`). -/
def hashtagsRun (outcome outcome' : Nat → Py Unit) (folds : Nat) (truncate : Int) : Option (List Nat × List Nat × Py Unit) :=
  match tagsRun outcome folds truncate with
  | (done, .error e) => some (done, [], .error e)
  | (done, .ok ()) =>
    (crossValHashtag (toOutcome outcome') false folds truncate).map fun r =>
        match r with
        | .error e => (done, [], .error e)
        | .ok s => (done, s.attempted, .ok ())

/-- The average precision of links (run/__main__.py:286, 805-834): `--truncate-folds` is not passed on. -/
def linksMapRun (outcome : Nat → Py Unit) (folds : Nat) (_truncate : Int) : List Nat × Py Unit :=
  if folds ≤ 1 then ([], .error .assertionError) else runAll outcome [] (List.range folds)

/-- Precision and recall of links (run/__main__.py:288, 861-923): the loop is over `range(target_folds)`. -/
def linksPrecRecRun (outcome : Nat → Py Unit) (folds : Nat) (truncate : Int) : List Nat × Py Unit :=
  if folds ≤ 1 then ([], .error .assertionError) else final (runAll outcome [] (List.range truncate.toNat))

/-- The loop of `insample_lro_style_prec_rec` over `range(folds)` (run/__main__.py:976-1030), `count` being `fold_count` -/
def inSampleLoop (outcome : Nat → Py Unit) (truncate : Int) : Nat → List Nat → List Nat → List Nat × Py Unit
  | _, done, [] => (done, .ok ())
  | count, done, f :: fs =>
    match outcome f with
    | .error e => (done ++ [f], .error e)
    | .ok () =>
      if ((count + 1 : Nat) : Int) = truncate then (done ++ [f], .ok ())
      else inSampleLoop outcome truncate (count + 1) (done ++ [f]) fs

/-- Precision and recall of links in the training documents (run/__main__.py:290, 960-1040) -/
def linksInSampleRun (outcome : Nat → Py Unit) (folds : Nat) (truncate : Int) : List Nat × Py Unit :=
  if folds ≤ 1 then ([], .error .assertionError) else final (inSampleLoop outcome truncate 0 [] (List.range folds))

/-- What the evaluation chosen with `--eval` runs (run/__main__.py:261-290).  For hashtags the folds of the second part are listed if it
is reached, those of the first part otherwise. -/
def run (eval : Eval) (outcome : Nat → Py Unit) (folds : Nat) (truncate : Int) : Option (List Nat × Py Unit) :=
  match eval with
  | .perplexity => perplexityRun outcome folds truncate
  | .hashtags => (hashtagsRun outcome outcome folds truncate).map fun r => (if r.2.1 = [] then r.1 else r.2.1, r.2.2)
  | .tags => some (tagsRun outcome folds truncate)
  | .linksMap => some (linksMapRun outcome folds truncate)
  | .linksPrecRec => some (linksPrecRecRun outcome folds truncate)
  | .linksInSample => some (linksInSampleRun outcome folds truncate)

end Verif.FoldRuns
