import Mathlib.Analysis.SpecialFunctions.Gamma.Basic
import Mathlib.Analysis.SpecialFunctions.Log.Basic
import Verif.Model.Py
import Verif.Model.Numerics

/-!
# Mixtures of multinomials

`model/mom_em.py` (EM) and `model/mom_gibbs.py` (Gibbs sampling).  Floating point numbers are real numbers, the digamma
function is an arbitrary function `psi`.  Random draws are arbitrary inputs.  Tables are functions of their indices.
-/

namespace Verif.Mom

open Verif

/-- The data: the document × word counts. (`data.words` in mom_em.py:192-270, mom_gibbs.py:228-297) -/
structure Data where
  D : Nat
  T : Nat
  words : Nat → Nat → Nat

/-- `docLens` (mom_em.py:130, mom_gibbs.py:116) -/
def Data.len (x : Data) (d : Nat) : Nat := ∑ t ∈ Finset.range x.T, x.words d t

/-! ## EM -/

/-- `K`, `topicPrior` and `vocabPrior` (a vector, mom_em.py:92-97) -/
structure EmParams where
  K : Nat
  a : Nat → ℝ
  b : Nat → ℝ

/-- `corpusTopicDistParam`, `wordDistParam` and the `topicDists` of the query state. (mom_em.py:38-46) -/
structure EmState where
  topic : Nat → ℝ
  word : Nat → Nat → ℝ
  resp : Nat → Nat → ℝ

/-- `data.words @ lnWordDist.T + lnCorpusTopicDist` (mom_em.py:226-227, 233-234; 293-297, 303) -/
noncomputable def logJoint (psi : ℝ → ℝ) (p : EmParams) (x : Data) (s : EmState) (d k : Nat) : ℝ :=
  ∑ t ∈ Finset.range x.T, (x.words d t : ℝ) * (psi (s.word k t) - psi (∑ t' ∈ Finset.range x.T, s.word k t'))
    + (psi (s.topic k) - psi (∑ k' ∈ Finset.range p.K, s.topic k'))

/-- Subtract the maximum, exponentiate, normalise (mom_em.py:235-237; 304-306) -/
noncomputable def eStep (psi : ℝ → ℝ) (p : EmParams) (x : Data) (s : EmState) (d k : Nat) : ℝ :=
  Real.exp (logJoint psi p x s d k - Numerics.rowMax p.K (logJoint psi p x s d))
    / ∑ j ∈ Finset.range p.K, Real.exp (logJoint psi p x s d j - Numerics.rowMax p.K (logJoint psi p x s d))

/-- The new parameters (mom_em.py:243, 248-249) -/
noncomputable def mStep (p : EmParams) (x : Data) (s : EmState) : EmState where
  topic := fun k => ∑ d ∈ Finset.range x.D, s.resp d k + p.a k
  word := fun k t => ∑ d ∈ Finset.range x.D, (x.words d t : ℝ) * s.resp d k + p.b t
  resp := s.resp

/-- `CHANGE_TOLERANCE` (mom_em.py:24) -/
noncomputable def tolerance : ℝ := 1 / 1000

/-- `np.abs(oldTopicDist - topicDist).sum() < CHANGE_TOLERANCE * D * K` (mom_em.py:239; 308-309) -/
def Settled (p : EmParams) (x : Data) (old new : Nat → Nat → ℝ) : Prop :=
  ∑ d ∈ Finset.range x.D, ∑ k ∈ Finset.range p.K, |old d k - new d k| < tolerance * x.D * p.K

/-- Iterations, log frequency and debug flag of the `TrainPlan` (mom_em.py:34-36) -/
structure EmPlan where
  iterations : Nat
  logFrequency : Nat
  debug : Bool

/-- `debug or (logFrequency > 0 and itr % logFrequency == 0)` (mom_em.py:253; mom_gibbs.py:279) -/
def logging (debug : Bool) (lf itr : Nat) : Bool := debug || (decide (0 < lf) && decide (itr % lf = 0))

open Classical in
/-- The loop of `train` (mom_em.py:230-267), from iteration `itr` on.  Measuring calls `var_bound`, which reads the attribute
`wordDists` that the model does not have (mom_em.py:43-46, 400-401). -/
noncomputable def emLoop (psi : ℝ → ℝ) (p : EmParams) (x : Data) (plan : EmPlan) : Nat → Nat → EmState → Py EmState
  | 0, _, s => .ok s
  | fuel + 1, itr, s =>
    let s' := { s with resp := eStep psi p x s }
    if Settled p x s.resp s'.resp then .ok s'
    else if logging plan.debug plan.logFrequency itr then .error .attributeError
    else emLoop psi p x plan fuel (itr + 1) (mStep p x s')

/-- `train` (mom_em.py:192-271), in double precision. -/
noncomputable def emTrain (psi : ℝ → ℝ) (p : EmParams) (x : Data) (plan : EmPlan) (s : EmState) : Py EmState :=
  if (List.range x.D).any (fun d => decide (x.len d < 1)) then .error .valueError
  else emLoop psi p x plan plan.iterations 0 s

open Classical in
/-- The loop of `query` (mom_em.py:301-311); the parameters stay as they are. -/
noncomputable def emQueryLoop (psi : ℝ → ℝ) (p : EmParams) (x : Data) : Nat → EmState → EmState
  | 0, s => s
  | fuel + 1, s =>
    let s' := { s with resp := eStep psi p x s }
    if Settled p x s'.resp s.resp then s' else emQueryLoop psi p x fuel s'

/-- `query` (mom_em.py:274-314): the last statement but one reads the loop variable. -/
noncomputable def emQuery (psi : ℝ → ℝ) (p : EmParams) (x : Data) (iterations : Nat) (s : EmState) : Py EmState :=
  if iterations = 0 then .error .unboundLocalError else .ok (emQueryLoop psi p x iterations s)

/-! ## The expected likelihood -/

/-- `fns.loggamma` on the positive numbers (mom_em.py:333-357) -/
noncomputable def loggamma (v : ℝ) : ℝ := Real.log (Real.Gamma v)

/-- `lls` before the sum over the topics (mom_em.py:332-357), with the topic parameters `alpha` of the model. -/
noncomputable def expectedLls (p : EmParams) (x : Data) (s : EmState) (d k : Nat) : ℝ :=
  0 + loggamma (∑ j ∈ Finset.range p.K, s.topic j) - loggamma (∑ j ∈ Finset.range p.K, s.topic j + 1)
    + ∑ j ∈ Finset.range p.K, loggamma ((if j = k then 1 else 0) + s.topic j)
    - ∑ j ∈ Finset.range p.K, loggamma (s.topic j)
    + loggamma (∑ t ∈ Finset.range x.T, s.word k t)
    - loggamma (x.len d + ∑ t ∈ Finset.range x.T, s.word k t)
    + ∑ t ∈ Finset.range x.T, loggamma (x.words d t + s.word k t)
    - ∑ t ∈ Finset.range x.T, loggamma (s.word k t)

/-- `log_likelihood_expected` (mom_em.py:317-365).  With a query state, `alpha` is the vector of the model's topic parameters
and `alpha.sum(axis=1)` raises an `AxisError` (a `ValueError`, 329-330).  With a single document `docLens` has no dimension
left (346, 352: `IndexError`). -/
noncomputable def expectedLikelihood (p : EmParams) (x : Data) (s : EmState) (withQuery : Bool) : Py ℝ :=
  if withQuery then .error .valueError
  else if x.D = 1 then .error .indexError
  else .ok (∑ d ∈ Finset.range x.D,
    (Numerics.rowMax p.K (expectedLls p x s d)
      + Real.log (∑ k ∈ Finset.range p.K,
          Real.exp (expectedLls p x s d k - Numerics.rowMax p.K (expectedLls p x s d)))))

/-! ## Gibbs sampling -/

/-- `K` and `topicPrior` (mom_gibbs.py:36-39) -/
structure GibbsParams where
  K : Nat
  a : Nat → ℝ

/-- The state of a sweep: `priorNum`, `memberships`, and (for the record) the values of `priorNum` each document was drawn
with. (mom_gibbs.py:183-204) -/
structure Sweep where
  num : Nat → ℝ
  mem : Nat → Nat → ℝ
  used : List (Nat → ℝ)

/-- `rd.multinomial(1, …)` with the outcome `i` (mom_gibbs.py:200) -/
noncomputable def oneHot (i k : Nat) : ℝ := if k = i then 1 else 0

/-- One document (mom_gibbs.py:190-202): its own membership is removed, topic `draw` is drawn from
`sampleDist`, and the new membership is added. -/
noncomputable def sweepDoc (draw : Nat → Nat) (s : Sweep) (d : Nat) : Sweep :=
  let num := fun k => s.num k - s.mem d k
  { num := fun k => num k + oneHot (draw d) k
    mem := fun d' k => if d' = d then oneHot (draw d) k else s.mem d' k
    used := s.used ++ [num] }

/-- The distribution that a topic is drawn from (mom_gibbs.py:188, 192-199), given `priorNum`. -/
noncomputable def sampleDist (p : GibbsParams) (x : Data) (word : Nat → Nat → ℝ) (num : Nat → ℝ) (d k : Nat) : ℝ :=
  let l := fun k => ∑ t ∈ Finset.range x.T, (x.words d t : ℝ) * Numerics.safeLogOut false (word k t)
    + Numerics.safeLogOut false (num k / ∑ j ∈ Finset.range p.K, num j)
  Real.exp (l k - Numerics.rowMax p.K l
    - Real.log (∑ j ∈ Finset.range p.K, Real.exp (l j - Numerics.rowMax p.K l)))

/-- `sample_memberships` (mom_gibbs.py:183-204) -/
noncomputable def sampleMemberships (p : GibbsParams) (x : Data) (draw : Nat → Nat) (mem : Nat → Nat → ℝ) : Sweep :=
  (List.range x.D).foldl (sweepDoc draw)
    { num := fun k => ∑ d ∈ Finset.range x.D, mem d k + p.a k - 1, mem := mem, used := [] }

/-- The fields of the `TrainPlan` that matter (mom_gibbs.py:27-29) -/
structure GibbsPlan where
  iterations : Nat
  logFrequency : Nat
  debug : Bool
  burnIn : Nat
  thinning : Nat

/-- `newTrainPlan` with the default burn-in and thinning (mom_gibbs.py:130-145) -/
def newTrainPlan (iterations logFrequency : Nat) (debug : Bool) : GibbsPlan :=
  ⟨iterations, logFrequency, debug, iterations / 4, min 1 (iterations / 10)⟩

/-- `is_sampling_iteration` (mom_gibbs.py:222-225) -/
def isSampling (plan : GibbsPlan) (itr : Nat) : Py Bool :=
  if 0 < itr ∧ plan.burnIn < itr then
    if plan.thinning = 0 then .error .zeroDivisionError else .ok (decide (itr % plan.thinning = 0))
  else .ok false

/-- The state of `train` and `query`: memberships, word distributions, the accumulated samples and their number.
(mom_gibbs.py:228-297, 300-334) -/
structure GibbsState where
  mem : Nat → Nat → ℝ
  word : Nat → Nat → ℝ
  memSum : Nat → Nat → ℝ
  wordSum : Nat → Nat → ℝ
  count : Nat

/-- Accumulate a sample (mom_gibbs.py:273-276; 329-331) -/
noncomputable def accumulate (s : GibbsState) : GibbsState :=
  { s with
    memSum := fun d k => s.memSum d k + s.mem d k
    wordSum := fun k t => s.wordSum k t + s.word k t
    count := s.count + 1 }

/-- One iteration of `train` (mom_gibbs.py:268-285): `draws itr d` are the topics drawn, `words itr` is the result of
`sample_dirichlet`.  Measuring uses the undefined name `log_likelihood` (285). -/
noncomputable def gibbsTrainStep (p : GibbsParams) (x : Data) (plan : GibbsPlan) (draws : Nat → Nat → Nat)
    (words : Nat → Nat → Nat → ℝ) (s : GibbsState) (itr : Nat) : Py GibbsState :=
  let s1 := { s with mem := (sampleMemberships p x (draws itr) s.mem).mem, word := words itr }
  match isSampling plan itr with
  | .error e => .error e
  | .ok b =>
    if logging plan.debug plan.logFrequency itr then .error .nameError
    else .ok (if b then accumulate s1 else s1)

/-- `train` (mom_gibbs.py:228-297), in double precision: the state at the end, of which `mem` and `word` are returned. -/
noncomputable def gibbsTrain (p : GibbsParams) (x : Data) (plan : GibbsPlan) (draws : Nat → Nat → Nat)
    (words : Nat → Nat → Nat → ℝ) (mem word : Nat → Nat → ℝ) : Py GibbsState :=
  if (List.range x.D).any (fun d => decide (x.len d < 1)) then .error .valueError
  else (List.range (plan.iterations + plan.burnIn)).foldlM (gibbsTrainStep p x plan draws words)
    ⟨mem, word, fun _ _ => 0, fun _ _ => 0, 0⟩

/-- One iteration of `query` (mom_gibbs.py:327-331) -/
noncomputable def gibbsQueryStep (p : GibbsParams) (x : Data) (plan : GibbsPlan) (draws : Nat → Nat → Nat)
    (s : GibbsState) (itr : Nat) : Py GibbsState :=
  let s1 := { s with mem := (sampleMemberships p x (draws itr) s.mem).mem }
  match isSampling plan itr with
  | .error e => .error e
  | .ok b => .ok (if b then accumulate s1 else s1)

/-- `query` (mom_gibbs.py:300-334): `none` is the matrix of NaNs that the division by zero samples gives. -/
noncomputable def gibbsQuery (p : GibbsParams) (x : Data) (plan : GibbsPlan) (draws : Nat → Nat → Nat)
    (mem word : Nat → Nat → ℝ) : Py (Option (Nat → Nat → ℝ)) :=
  match (List.range plan.iterations).foldlM (gibbsQueryStep p x plan draws) ⟨mem, word, fun _ _ => 0, fun _ _ => 0, 0⟩ with
  | .error e => .error e
  | .ok s => .ok (if s.count = 0 then none else some (fun d k => s.memSum d k / s.count))

end Verif.Mom
