import Mathlib.Data.Rat.Defs
import Mathlib.Algebra.BigOperators.Group.Finset.Basic
import Verif.Model.Py

/-!
# The self-linked LDA model

`model/self_lda_vb_python.py`: `newModelAtRandom`, `newQueryState`, `train` up to the first call of `_update_topics_at_d`,
`topicDists`.  Floating point numbers are rational numbers.  Data sets have at least one document (common.py:28).
-/

namespace Verif.SelfLda

open Verif

/-- The argument `topicPrior` of `newModelAtRandom` (self_lda_vb_python.py:54, 77-78) -/
inductive Prior where
  | default
  | scalar (c : ℚ)
  | vector (v : List ℚ)

/-- The `ModelState` (self_lda_vb_python.py:36-39) with a scalar `vocabPrior`; `float64` tells whether `dtype` is `np.float64` -/
structure Model where
  K : Nat
  topicPrior : List ℚ
  vocabPrior : ℚ
  wordDists : Nat → Nat → ℚ
  float64 : Bool

/-- The `QueryState` (self_lda_vb_python.py:31-34) -/
structure Query where
  docLens : List Nat
  topicDists : Nat → Nat → ℚ

/-- `topicPrior[K] = 0` (self_lda_vb_python.py:77-82): numbers cannot be indexed, arrays only within their bounds -/
def makePrior (K : Nat) : Prior → Py (List ℚ)
  | .default => .ok ((List.replicate (K + 1) (5 / (K : ℚ) + 1 / 2)).set K 0)
  | .scalar _ => .error .typeError
  | .vector v => if K < v.length then .ok (v.set K 0) else .error .indexError

/-- `newModelAtRandom` (self_lda_vb_python.py:54-91): `words` is the randomly initialised word table -/
def newModel (K : Nat) (prior : Prior) (vocabPrior : ℚ) (words : Nat → Nat → ℚ) (float64 : Bool) : Py Model := do
  pyAssert (decide (1 < K))
  pyAssert (decide (K < 255))
  let a ← makePrior K prior
  .ok ⟨K, a, vocabPrior, words, float64⟩

/-- `newQueryState` (self_lda_vb_python.py:94-117): `draw` is what `rd.dirichlet` returns when all its parameters are positive; it
raises a ValueError otherwise. -/
def newQueryState (docLens : List Nat) (m : Model) (draw : Nat → Nat → ℚ) : Py Query := do
  if m.topicPrior.any (fun a => decide (a ≤ 0)) then .error .valueError
  else if m.K < m.topicPrior.length then
    .ok ⟨docLens, fun d k => if k = m.K then (docLens.getD d 0 : ℚ)
      else draw d k * (docLens.getD d 0 : ℚ) + m.topicPrior.getD k 0⟩
  else .error .indexError

/-- `_convertDirichletParamToMeans` (self_lda_vb_python.py:182-189) -/
def toMeans (q : Query) (m : Model) (t : Nat → Nat → ℚ) (d k : Nat) : ℚ :=
  (t d k - m.topicPrior.getD k 0) / (q.docLens.getD d 0 : ℚ)

/-- `_convertMeansToDirichletParam` (self_lda_vb_python.py:192-199) -/
def toDirichlet (q : Query) (m : Model) (t : Nat → Nat → ℚ) (d k : Nat) : ℚ :=
  t d k * (q.docLens.getD d 0 : ℚ) + m.topicPrior.getD k 0

/-- What a call of `train` leaves behind: its result, and the contents of the arrays `model.wordDists` and `query.topicDists` of
the caller (self_lda_vb_python.py:350-352: both are changed in place) -/
structure Outcome where
  result : Py (Model × Query)
  words : Nat → Nat → ℚ
  topics : Nat → Nat → ℚ

/-- `train` (self_lda_vb_python.py:343-429).  The first iteration overwrites the word table with the prior when `updateVocab`
holds (398), then calls `_update_topics_at_d` (self_lda_vb_python.py:243, eight parameters) with seven arguments (401, 423). -/
def train (iterations : Nat) (updateVocab : Bool) (m : Model) (q : Query) : Outcome :=
  if q.docLens.any (fun n => decide (n < 1)) then ⟨.error .valueError, m.wordDists, q.topicDists⟩
  else if !m.float64 then ⟨.error .assertionError, m.wordDists, q.topicDists⟩
  else
    let means := toMeans q m q.topicDists
    match iterations with
    | 0 =>
      let topics := toDirichlet q m means
      ⟨.ok (m, ⟨q.docLens, topics⟩), m.wordDists, topics⟩
    | _ + 1 => ⟨.error .typeError, if updateVocab then fun _ _ => m.vocabPrior else m.wordDists, means⟩

/-- `query` (self_lda_vb_python.py:510-530) -/
def query (iterations : Nat) (m : Model) (q : Query) : Outcome := train iterations false m q

/-- `topicDists` (self_lda_vb_python.py:144-154) of a table with `cols` columns -/
def topicDists (cols : Nat) (q : Query) (d k : Nat) : ℚ :=
  q.topicDists d k / ∑ j ∈ Finset.range (cols - 1), q.topicDists d j

end Verif.SelfLda
