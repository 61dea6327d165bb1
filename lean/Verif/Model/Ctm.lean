import Mathlib.Analysis.SpecialFunctions.Log.Basic
import Mathlib.Analysis.SpecialFunctions.Sqrt
import Verif.Model.Py
import Verif.Model.Numerics
import Verif.Model.Mom
import Verif.Model.SparseKernels

/-!
# Correlated topic models

`model/ctm.py` (Bouchard's bound) and `model/ctm_bohning.py` (Böhning's bound).  Floating point numbers are real numbers.
Tables are functions of their indices; the word matrix has no duplicate entries, so it is a function too (a word that does not
occur in a document contributes nothing to any of the sums).  Library routines that are not modelled are arbitrary functions:
the shrunk covariance `oas` of scikit-learn (only its diagonal is used) and the matrix inverse `inv`.  Printing, the debug
functions (except where stated) and conversions between the two floating point types are left out.
-/

namespace Verif.Ctm

open Verif
open Verif.Mom (Data)

/-! ## Building blocks shared by all the models -/

/-- `np.exp(means - means.max(axis=1)[:,np.newaxis])` (ctm.py:242, ctm_bohning.py:252, stm_yv_bohning.py:290) -/
noncomputable def expRows (K : Nat) (means : Nat → Nat → ℝ) (d k : Nat) : ℝ :=
  Real.exp (means d k - Numerics.rowMax K (means d))

/-- `rowwise_softmax(means)` (ctm_bohning.py:276, sigmoid_utils.py:14-26) when there is at least one topic -/
noncomputable def softmaxRows (K : Nat) (means : Nat → Nat → ℝ) (d k : Nat) : ℝ :=
  Real.exp (means d k - Numerics.rowMax K (means d)) /
    ∑ j ∈ Finset.range K, Real.exp (means d j - Numerics.rowMax K (means d))

/-- `sparseScalarQuotientOfDot(W, expMeans, vocab)` (sparse_elementwise.py:130-164) -/
noncomputable def quotient (x : Data) (K : Nat) (e vocab : Nat → Nat → ℝ) (d t : Nat) : ℝ :=
  (x.words d t : ℝ) / ∑ k ∈ Finset.range K, e d k * vocab k t

/-- `normalizerows_ip` (array_utils.py:13-19) -/
noncomputable def normalizeRows (T : Nat) (m : Nat → Nat → ℝ) (k t : Nat) : ℝ :=
  m k t / ∑ t' ∈ Finset.range T, m k t'

/-- The update of the vocabulary with the (sparse) matrix `r` of quotients (ctm.py:247-249, ctm_bohning.py:256-258,
stm_yv_bohning.py:258-260) -/
noncomputable def vocabWith (x : Data) (prior : ℝ) (r e vocab : Nat → Nat → ℝ) : Nat → Nat → ℝ :=
  normalizeRows x.T (fun k t => vocab k t * ∑ d ∈ Finset.range x.D, r d t * e d k + prior)

/-- The update of the vocabulary (ctm.py:243-249, ctm_bohning.py:253-258) -/
noncomputable def newVocab (x : Data) (K : Nat) (prior : ℝ) (e vocab : Nat → Nat → ℝ) : Nat → Nat → ℝ :=
  vocabWith x prior (quotient x K e vocab) e vocab

/-- `S = expMeans * R.dot(vocab.T)` with `R` the quotient (ctm.py:251-252, ctm_bohning.py:261-262) -/
noncomputable def topicCounts (x : Data) (K : Nat) (e vocab : Nat → Nat → ℝ) (d k : Nat) : ℝ :=
  e d k * ∑ t ∈ Finset.range x.T, quotient x K e vocab d t * vocab k t

/-- `log_likelihood` (ctm.py:393-405, ctm_bohning.py:369-381) with `sparseScalarProductOfSafeLnDot`
(sparse_elementwise.py:250-296), whose logarithm is guarded against values below `tiny` -/
noncomputable def logLikelihood (x : Data) (K : Nat) (tiny : ℝ) (means vocab : Nat → Nat → ℝ) : ℝ :=
  ∑ d ∈ Finset.range x.D, ∑ t ∈ Finset.range x.T,
    (x.words d t : ℝ) * SparseKernels.safeLn tiny (∑ k ∈ Finset.range K, softmaxRows K means d k * vocab k t)

/-! ## Random initialisation of the vocabulary -/

/-- The loop `while docLenSum < 1000` (ctm.py:99-104) for one topic: `draws i` is the `i`-th random document, `v` the row of
the vocabulary.  `none`: the loop has not ended after `fuel` draws. -/
noncomputable def sampleDocs (x : Data) (draws : Nat → Nat) : Nat → Nat → Nat → (Nat → ℝ) → Option (Nat → ℝ)
  | 0, _, sum, v => if sum < 1000 then none else some v
  | fuel + 1, i, sum, v =>
    if sum < 1000 then
      sampleDocs x draws fuel (i + 1) (sum + x.len (draws i)) (fun t => v t + (x.words (draws i) t : ℝ))
    else some v

/-- A row of the initial vocabulary (ctm.py:97-105) -/
noncomputable def randomRow (x : Data) (draws : Nat → Nat) (fuel : Nat) : Option (Nat → ℝ) :=
  (sampleDocs x draws fuel 0 0 (fun _ => 1)).map (fun v t => v t / ∑ t' ∈ Finset.range x.T, v t')

/-- The first row of the initial vocabulary of ctm_bohning.py:124-125 ("stop-word vocab") -/
noncomputable def stopWordRow (x : Data) (t : Nat) : ℝ :=
  (∑ d ∈ Finset.range x.D, (x.words d t : ℝ)) / ∑ t' ∈ Finset.range x.T, ∑ d ∈ Finset.range x.D, (x.words d t' : ℝ)

/-! ## Bouchard's bound -/

/-- `negJakkola` (ctm.py:472-481) -/
noncomputable def negJakkola (v : ℝ) : ℝ := 0.5 / v * (1 / (1 + Real.exp (-v)) - 0.5)

/-- `_deriveXi` (ctm.py:565-570) and the `vec` of ctm.py:511, 546, one element -/
noncomputable def deriveXi (m v s : ℝ) : ℝ := Real.sqrt (m ^ 2 - 2 * m * s + s ^ 2 + v ^ 2)

/-- `negJakkolaOfDerivedXi` (ctm.py:483-515) without `d` -/
noncomputable def negJakkolaOfDerivedXi (means varcs : Nat → Nat → ℝ) (s : Nat → ℝ) (d k : Nat) : ℝ :=
  negJakkola (deriveXi (means d k) (varcs d k) (s d))

/-- `negJakkolaOfDerivedXi` (ctm.py:510-512) with `d` -/
noncomputable def negJakkolaOfDerivedXiAt (means varcs : Nat → Nat → ℝ) (s : Nat → ℝ) (d k : Nat) : ℝ :=
  0.5 / deriveXi (means d k) (varcs d k) (s d) * (1 / (1 + Real.exp (-deriveXi (means d k) (varcs d k) (s d))) - 0.5)

/-- `jakkolaOfDerivedXi` (ctm.py:518-550) without `d` -/
noncomputable def jakkolaOfDerivedXi (means varcs : Nat → Nat → ℝ) (s : Nat → ℝ) (d k : Nat) : ℝ :=
  0.5 / deriveXi (means d k) (varcs d k) (s d) * (0.5 - 1 / (1 + Real.exp (-deriveXi (means d k) (varcs d k) (s d))))

/-- `jakkolaOfDerivedXi` (ctm.py:545-547) with `d` -/
noncomputable def jakkolaOfDerivedXiAt (means varcs : Nat → Nat → ℝ) (s : Nat → ℝ) (d k : Nat) : ℝ :=
  0.5 / deriveXi (means d k) (varcs d k) (s d) * (1 / (1 + Real.exp (-deriveXi (means d k) (varcs d k) (s d))) - 0.5)

/-- The terms of `var_bound` that stand for `-n_d E[log Σ_k exp η_dk]` (ctm.py:440-442, 449-454; stm_yv.py:478-495) in one
document.  `scaledSumOfLnOnePlusExp` (property C48) is taken to be exact. -/
noncomputable def boundTerms (K : Nat) (n : ℝ) (m v lxi xi : Nat → ℝ) (s : ℝ) : ℝ :=
  (((((0 - ∑ k ∈ Finset.range K, (m k * m k + v k) * n * lxi k)
    + ∑ k ∈ Finset.range K, m k * 2 * n * s * lxi k)
    + ∑ k ∈ Finset.range K, m k * -0.5 * n)
    - ∑ k ∈ Finset.range K, n * lxi k * (s * s - xi k * xi k))
    + ∑ k ∈ Finset.range K, 0.5 * n * (s + xi k))
    - ∑ k ∈ Finset.range K, n * Real.log (1 + Real.exp (xi k))
    - s * n

/-! ## Training with Bouchard's bound -/

/-- The variables of `train` (ctm.py:181-182); `sig` is the covariance `sigT`. -/
structure State where
  topicMean : Nat → ℝ
  sig : Nat → Nat → ℝ
  vocab : Nat → Nat → ℝ
  means : Nat → Nat → ℝ
  expMeans : Nat → Nat → ℝ
  varcs : Nat → Nat → ℝ
  lxi : Nat → Nat → ℝ
  s : Nat → ℝ

/-- One iteration of `train` (ctm.py:209-276) with `USE_NIW_PRIOR = True` -/
noncomputable def trainStep (oas : (Nat → Nat → ℝ) → Nat → Nat → ℝ) (x : Data) (K : Nat) (prior : ℝ) (st : State) : State :=
  let kappa : ℝ := (K : ℝ) + 2
  let topicMean := fun k => (∑ d ∈ Finset.range x.D, st.means d k) / ((x.D : ℝ) + kappa)
  let diag := fun k => oas st.means k k + (∑ d ∈ Finset.range x.D, st.varcs d k) / (x.D : ℝ) + 0.1
    + kappa * (x.D : ℝ) / (kappa + (x.D : ℝ)) * (topicMean k * topicMean k)
  let sig := fun k j => if k = j then diag k else 0
  let e := expRows K st.means
  let vocab := newVocab x K prior e st.vocab
  let S := topicCounts x K e vocab
  let varcs := fun d k => 1 / ((x.len d : ℝ) * st.lxi d k + 1 / diag k)
  let rhs := fun d k => (st.s d * st.lxi d k - 0.5) * (x.len d : ℝ) + S d k + 1 / diag k * topicMean k
  let means := fun d k => varcs d k * rhs d k - varcs d 0 * rhs d 0
  { st with
    topicMean := topicMean, sig := sig, vocab := vocab, expMeans := e, varcs := varcs, means := means
    lxi := fun d k => 2 * negJakkolaOfDerivedXi means varcs st.s d k }

/-- The variables at the start of `train` (ctm.py:196-203): `s` is filled with zeros, `expMeans` is a copy of the means. -/
noncomputable def begin (st : State) : State := { st with s := fun _ => 0, expMeans := st.means }

/-! ## The log of a training run -/

/-- The arrays `boundIters`, `boundValues`, `likelyValues` and the index `bvIdx` (ctm.py:185-188) -/
structure Log where
  iters : List Nat
  values : List ℝ
  likes : List ℝ
  idx : Nat

/-- What the logging code does with the early stop: return the arrays clamped (ctm.py:303-304), return only the first two
clamped (stm_yv.py:316-317, stm_uv_vecy_bohning.py:345-346, stm_yv_bohning_fake_online.py:360-361: the third clamped array is
assigned to a name that is not used). -/
inductive Clamp
  | all
  | firstTwo
  deriving DecidableEq

/-- `clamp` (misc.py:58-69) as used by each of the callers -/
def Log.clamp (c : Clamp) (l : Log) (n : Nat) : Log :=
  match c with
  | .all => { l with iters := l.iters.take n, values := l.values.take n, likes := l.likes.take n }
  | .firstTwo => { l with iters := l.iters.take n, values := l.values.take n }

/-- `(iterations, logFrequency, minimal iteration of the early stop)` and the kind of clamp (ctm.py:56-58, 185-187) -/
structure LogPlan where
  iterations : Nat
  logFrequency : Int
  minIter : Nat
  clamp : Clamp

/-- The main loop with its log (ctm.py:204, 285-305; stm_yv.py:299-318; stm_uv_vecy_bohning.py:328-347;
stm_yv_bohning_fake_online.py:343-362), for any computation `step` of an iteration on a state of type `σ`, any measurements
`bound` and `like`, and any perplexity `perp` of a likelihood.  `fuel` is the number of iterations still to run.  The early stop
is `boundIters[bvIdx] >= minIter` (ctm.py:300 has 30; the others have `> 50` and `> 20`, that is `>= 51` and `>= 21`). -/
noncomputable def loop {σ : Type} (step : σ → σ) (bound like : σ → ℝ) (perp : ℝ → ℝ) (p : LogPlan) :
    Nat → Nat → σ → Log → Py (σ × Log)
  | 0, _, st, l => .ok (st, l)
  | fuel + 1, itr, st, l =>
    let st := step st
    if p.logFrequency > 0 ∧ (itr : Int) % p.logFrequency = 0 then
      if l.idx < l.values.length then
        let l := { l with
          iters := l.iters.set l.idx itr, values := l.values.set l.idx (bound st), likes := l.likes.set l.idx (like st) }
        if 1 < l.idx ∧ p.minIter ≤ itr ∧ perp (l.likes.getD (l.idx - 1) 0) - perp (like st) < 1 then
          .ok (st, l.clamp p.clamp l.idx)
        else loop step bound like perp p fuel (itr + 1) st { l with idx := l.idx + 1 }
      else .error .indexError
    else loop step bound like perp p fuel (itr + 1) st l

/-- `train` as far as the log is concerned (ctm.py:185-188, 204-311): `iterations // logFrequency` places.  A negative
number of places is a `ValueError`. -/
noncomputable def train {σ : Type} (step : σ → σ) (bound like : σ → ℝ) (perp : ℝ → ℝ) (p : LogPlan) (st : σ) : Py (σ × Log) :=
  if p.logFrequency = 0 then .error .zeroDivisionError
  else
    let size := Int.fdiv (p.iterations : Int) p.logFrequency
    if size < 0 then .error .valueError
    else
      let n := size.toNat
      loop step bound like perp p p.iterations 0 st ⟨List.replicate n 0, List.replicate n 0, List.replicate n 0, 0⟩

/-! ## Böhning's bound -/

/-- `A` (ctm_bohning.py:134) -/
noncomputable def bohningA (K : Nat) (i j : Nat) : ℝ := 0.5 * ((if i = j then 1 else 0) - 1 / ((K : ℝ) + 1))

/-- The fields of the `QueryState` (ctm_bohning.py:66-69, ctm_bohning_fast.py:66-69) -/
def queryFields : List String := ["means", "expMeans", "varcs", "docLens"]

/-- Reading an attribute of a named tuple (the tuples are those of ctm_bohning.py:66-74 and their like) -/
def readAttr (fields : List String) (name : String) : Py Unit :=
  if name ∈ fields then .ok () else .error .attributeError

/-- `topicDists` (ctm_bohning.py:83-86): the first thing it does is to read `query.topicMean`; the rest is a function of the
values read. -/
def topicDists {α β : Type} (query : String → α) (rest : α → β) : Py β := do
  readAttr queryFields "topicMean"
  .ok (rest (query "topicMean"))

/-- The variables of `train` in ctm_bohning.py:197-198 -/
structure BState where
  topicMean : Nat → ℝ
  sig : Nat → Nat → ℝ
  vocab : Nat → Nat → ℝ
  means : Nat → Nat → ℝ
  expMeans : Nat → Nat → ℝ
  varcs : Nat → Nat → ℝ

/-- The right hand side of the update of the means (ctm_bohning.py:274-276, 349-351) -/
noncomputable def bohningRhs (x : Data) (K : Nat) (A isig : Nat → Nat → ℝ) (topicMean : Nat → ℝ)
    (V means : Nat → Nat → ℝ) (d k : Nat) : ℝ :=
  V d k + ((x.len d : ℝ) * ∑ j ∈ Finset.range K, means d j * A j k + ∑ j ∈ Finset.range K, isig k j * topicMean j)
    - (x.len d : ℝ) * softmaxRows K means d k

/-- The new means (ctm_bohning.py:277-281, 352-356) -/
noncomputable def bohningMeans (inv : (Nat → Nat → ℝ) → Nat → Nat → ℝ) (x : Data) (K : Nat) (fast : Bool)
    (A isig : Nat → Nat → ℝ) (varcs rhs : Nat → Nat → ℝ) (d k : Nat) : ℝ :=
  if fast then varcs d k * rhs d k
  else ∑ j ∈ Finset.range K, inv (fun i l => isig i l + (x.len d : ℝ) * A i l) k j * rhs d j

/-- One iteration of `train` (ctm_bohning.py:220-281) with `USE_NIW_PRIOR = False`.  The covariance estimated in lines 233-241
(`cov`, any function of means and variances) is replaced by the identity (lines 243-245). -/
noncomputable def bohningStep (inv : (Nat → Nat → ℝ) → Nat → Nat → ℝ)
    (_cov : (Nat → Nat → ℝ) → (Nat → Nat → ℝ) → Nat → Nat → ℝ) (x : Data) (K : Nat) (prior : ℝ) (A : Nat → Nat → ℝ) (fast : Bool)
    (st : BState) : BState :=
  let topicMean := fun k => (∑ d ∈ Finset.range x.D, st.means d k) / (x.D : ℝ)
  let sig := fun k j : Nat => if k = j then (1 : ℝ) else 0
  let isig := inv sig
  let e := expRows K st.means
  let vocab := newVocab x K prior e st.vocab
  let V := topicCounts x K e vocab
  let varcs := fun d k => 1 / ((x.len d : ℝ) * ((K : ℝ) - 1) / (K : ℝ) + sig k k)
  let rhs := bohningRhs x K A isig topicMean V st.means
  { topicMean := topicMean, sig := sig, vocab := vocab, expMeans := e, varcs := varcs
    means := bohningMeans inv x K fast A isig varcs rhs }

/-- `train` (ctm_bohning.py:215-308): any number of iterations up to the requested one (the loop may stop early) -/
noncomputable def bohningTrain (inv : (Nat → Nat → ℝ) → Nat → Nat → ℝ)
    (cov : (Nat → Nat → ℝ) → (Nat → Nat → ℝ) → Nat → Nat → ℝ) (x : Data) (K : Nat) (prior : ℝ) (A : Nat → Nat → ℝ) (fast : Bool) :
    Nat → BState → BState
  | 0, st => st
  | n + 1, st => bohningTrain inv cov x K prior A fast n (bohningStep inv cov x K prior A fast st)

/-- The variables of `query` (ctm_bohning.py:326): `held` is the contents of the array `queryState.means`, `means` that of the
local variable, `aliased` tells whether the two are the same array. `expMeans` is updated in place, so it is always the array of
`queryState`. -/
structure BQuery where
  held : Nat → Nat → ℝ
  means : Nat → Nat → ℝ
  aliased : Bool
  expMeans : Nat → Nat → ℝ
  lastPerp : ℝ

/-- The loop of `query` (ctm_bohning.py:343-364): `perp means` is the perplexity of the means.  In the fast variant
`rowwise_softmax(means, out=means)` overwrites the array, then a new array is made (352-353); otherwise the array is filled in
place (355-356). -/
noncomputable def bohningQueryLoop (inv : (Nat → Nat → ℝ) → Nat → Nat → ℝ) (x : Data) (K : Nat) (A isig : Nat → Nat → ℝ)
    (topicMean : Nat → ℝ) (vocab varcs : Nat → Nat → ℝ) (perp : (Nat → Nat → ℝ) → ℝ) (fast : Bool) :
    Nat → Nat → BQuery → BQuery
  | 0, _, q => q
  | fuel + 1, itr, q =>
    let e := expRows K q.means
    let V := topicCounts x K e vocab
    let rhs := bohningRhs x K A isig topicMean V q.means
    let soft := softmaxRows K q.means
    let new := bohningMeans inv x K fast A isig varcs rhs
    let q' : BQuery :=
      { held := if fast then (if q.aliased then soft else q.held) else (if q.aliased then new else q.held)
        means := new
        aliased := if fast then false else q.aliased
        expMeans := e
        lastPerp := perp new }
    if 20 < itr ∧ q.lastPerp - perp new < 1 then q'
    else bohningQueryLoop inv x K A isig topicMean vocab varcs perp fast fuel (itr + 1) q'

/-- `query` (ctm_bohning.py:310-366): the means, `expMeans` and variances of the state returned. -/
noncomputable def bohningQuery (inv : (Nat → Nat → ℝ) → Nat → Nat → ℝ) (x : Data) (K : Nat) (A sig : Nat → Nat → ℝ)
    (topicMean : Nat → ℝ) (vocab : Nat → Nat → ℝ) (perp : (Nat → Nat → ℝ) → ℝ) (fast : Bool) (iterations : Nat)
    (means expMeans varcs : Nat → Nat → ℝ) (lastPerp : ℝ) : (Nat → Nat → ℝ) × (Nat → Nat → ℝ) × (Nat → Nat → ℝ) :=
  let isig := inv sig
  let localVarcs := fun d k => 1 / ((x.len d : ℝ) * ((K : ℝ) - 1) / (K : ℝ) + isig k k)
  let q := bohningQueryLoop inv x K A isig topicMean vocab localVarcs perp fast iterations 0 ⟨means, means, true, expMeans, lastPerp⟩
  (q.held, q.expMeans, varcs)

end Verif.Ctm
