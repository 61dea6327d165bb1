import Verif.Model.Dmr

/-!
# The estimates of Dirichlet-multinomial regression

What `train` and `query` of `model/dmr.py` return, and the functions that read distributions off it.
-/

namespace Verif.DmrEstimates

open Verif Verif.Gibbs Verif.Dmr

/-- The fields of `QueryState` that the estimates are read from (dmr.py:57-60) -/
structure Query where
  topicSum : Nat → Nat → ℚ
  numSamples : Nat

/-- The model and the query state that `train` returns: the sums over all rounds with `sample_count` (dmr.py:225-228) -/
def trained (l : Loop) : Model × Query := (⟨l.st.vocabSum, l.sampleCount⟩, ⟨l.st.topicSum, l.sampleCount⟩)

/-- The model and the query state that `query` returns: `vocabSum` is the model's, `sample_count` the query's
(dmr.py:348-354) -/
def queried (r : State × Buffer) : Model × Query := (⟨r.1.vocabSum, r.1.count⟩, ⟨r.1.topicSum, r.1.count⟩)

/-- `topicDists` (dmr.py:358-364); with no samples numpy gives undefined values. -/
def topicDists (q : Query) : Option (Nat → Nat → ℚ) :=
  if q.numSamples = 0 then none else some (fun d k => q.topicSum d k / q.numSamples)

/-- `wordDists` (dmr.py:366-372) -/
def wordDists (m : Model) : Option (Nat → Nat → ℚ) :=
  if m.numSamples = 0 then none else some (fun k v => m.vocabSum k v / m.numSamples)

/-- `query` from a model (dmr.py:315-354): the counts it begins with come from `wordDists(model)`; without samples they are
undefined, which is not modelled further. -/
def queryModel (p : Params) (F : Nat) (X : Nat → Nat → ℚ) (m : Model) (plan : Dmr.Plan) (z : Nat → Nat) (W : Nat → Nat → ℚ)
    (rnd1 rnd2 : Nat → Rand) : Option (Py (Except Fault (Model × Query))) :=
  (wordDists m).map fun φ => (Dmr.query p F X φ m.vocabSum plan z W rnd1 rnd2).map fun r => r.map queried

end Verif.DmrEstimates
