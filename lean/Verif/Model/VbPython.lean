import Mathlib.Analysis.SpecialFunctions.Pow.Real
import Verif.Model.Py
import Verif.Model.Numerics
import Verif.Model.Mom

/-!
# Variational Bayes for LDA in Python

`model/lda_vb_python.py`.  Floating point numbers are real numbers, the digamma function is an arbitrary function `psi`, the
value of the variational bound is an arbitrary function `bound` of word parameters and topic parameters.  Tables are functions
of their indices; the rows of the word matrix have no duplicate column ids, so they are functions too (words that do not occur
in a document contribute nothing).  `model.dtype` is `float64`.  Printing is left out.
-/

namespace Verif.VbPython

open Verif
open Verif.Mom (Data)

/-- `K`, `topicPrior` and (scalar) `vocabPrior` of the `ModelState` (lda_vb_python.py:48-51) -/
structure Params where
  K : Nat
  a : Nat → ℝ
  v : ℝ

/-- `_convertDirichletParamToMeans` (lda_vb_python.py:211-218; the same function in rtm.py:214-221) -/
noncomputable def toMeans (p : Params) (x : Data) (topics : Nat → Nat → ℝ) (d k : Nat) : ℝ :=
  (topics d k - p.a k) / (x.len d : ℝ)

/-- `_convertMeansToDirichletParam` (lda_vb_python.py:221-228; the same function in rtm.py:224-231) -/
noncomputable def toDirichlet (p : Params) (x : Data) (means : Nat → Nat → ℝ) (d k : Nat) : ℝ :=
  means d k * (x.len d : ℝ) + p.a k

/-- `_log_likelihood_internal` and `_var_bound_internal` (lda_vb_python.py:188-193, 762-767): the measured value, and the
contents of the topic table afterwards. -/
noncomputable def measureInternal (p : Params) (x : Data) (f : (Nat → Nat → ℝ) → ℝ) (means : Nat → Nat → ℝ) :
    ℝ × (Nat → Nat → ℝ) :=
  (f (toDirichlet p x means), toMeans p x (toDirichlet p x means))

/-- `min_link_probs` and `link_probs` of the relational topic model (rtm.py:823-850, 858-901), as far as the topic table is
concerned: the result, computed from the means, and the contents of the table afterwards. -/
noncomputable def predictFromMeans {α : Type} (p : Params) (x : Data) (f : (Nat → Nat → ℝ) → α) (topics : Nat → Nat → ℝ) :
    α × (Nat → Nat → ℝ) :=
  (f (toMeans p x topics), toDirichlet p x (toMeans p x topics))

/-- The score of topic `k` for word `t` in document `d` (lda_vb_python.py:322-330) -/
noncomputable def score (psi : ℝ → ℝ) (p : Params) (x : Data) (word means : Nat → Nat → ℝ) (d t k : Nat) : ℝ :=
  psi (word k t) - psi (∑ t' ∈ Finset.range x.T, word k t') + psi (p.a k + (x.len d : ℝ) * means d k)

/-- `_infer_topics_at_d` (lda_vb_python.py:303-334), with `_inplace_softmax_colwise` (236-256) -/
noncomputable def inferTopics (psi : ℝ → ℝ) (p : Params) (x : Data) (word means : Nat → Nat → ℝ) (d t k : Nat) : ℝ :=
  Real.exp (score psi p x word means d t k - Numerics.rowMax p.K (score psi p x word means d t))
    / ∑ j ∈ Finset.range p.K, Real.exp (score psi p x word means d t j - Numerics.rowMax p.K (score psi p x word means d t))

/-- The `TrainPlan` without `epsilon`, `logFrequency`, `fastButInaccurate` and `debug`, which have no effect
(lda_vb_python.py:39-41) -/
structure Plan where
  iterations : Nat
  batchSize : Nat
  rateDelay : ℝ
  forgettingRate : ℝ
  rateA : ℝ
  rateB : ℝ
  rateAlgor : String

/-- `newTrainPlan` (lda_vb_python.py:146-161) -/
noncomputable def newTrainPlan (iterations batchSize : Nat) (rateDelay forgettingRate rateA rateB : ℝ) (rateAlgor : String) : Plan :=
  { iterations, batchSize, rateDelay, forgettingRate, rateA, rateB
    rateAlgor := if batchSize > 0 then "kappa" else rateAlgor }

/-- The next document: `d = d + 1 if (d + 1) < D else 0` (lda_vb_python.py:405) -/
def nextDoc (D : Nat) (d : Int) : Int := if d + 1 < (D : Int) then d + 1 else 0

/-- `topicMeans`, `d` and `grad` in the inner loop.  `visits` lists the documents visited so far; the program does not have
it. (lda_vb_python.py:402-408) -/
structure Batch where
  means : Nat → Nat → ℝ
  d : Int
  grad : Nat → Nat → ℝ
  visits : List Nat

/-- The body of the inner loop (lda_vb_python.py:405-408), with `_update_topics_at_d` (279-300) -/
noncomputable def visit (psi : ℝ → ℝ) (p : Params) (x : Data) (word : Nat → Nat → ℝ) (s : Batch) : Py Batch :=
  let d := (nextDoc x.D s.d).toNat
  if d < x.D then
    let z := inferTopics psi p x word s.means d
    .ok { means := fun d' k => if d' = d then (∑ t ∈ Finset.range x.T, z t k * (x.words d t : ℝ)) / (x.len d : ℝ) else s.means d' k
          d := nextDoc x.D s.d
          grad := fun k t => s.grad k t + (x.words d t : ℝ) * z t k
          visits := s.visits ++ [d] }
  else .error .indexError

/-- The variables of the outer loop. (lda_vb_python.py:375-401) -/
structure Run where
  word : Nat → Nat → ℝ
  means : Nat → Nat → ℝ
  d : Int
  step : Nat → ℝ
  gradStep : Nat → ℝ
  exGrad : Nat → Nat → ℝ
  expGtg : Nat → ℝ
  visits : List Nat

/-- The inner loop (lda_vb_python.py:402-408) -/
noncomputable def batch (psi : ℝ → ℝ) (p : Params) (x : Data) (batchSize : Nat) (r : Run) : Py Batch :=
  (List.range batchSize).foldlM (fun s _ => visit psi p x r.word s) ⟨r.means, r.d, fun _ _ => p.v, r.visits⟩

/-- `update_inplace_v` (lda_vb_python.py:464-467): the new value of `old`. -/
noncomputable def mix (step : Nat → ℝ) (old change : Nat → Nat → ℝ) (k t : Nat) : ℝ :=
  old k t * (1 - step k) + change k t * step k

/-- The body of the outer loop (lda_vb_python.py:402-451) -/
noncomputable def trainStep (psi : ℝ → ℝ) (bound : (Nat → Nat → ℝ) → (Nat → Nat → ℝ) → ℝ) (p : Params) (x : Data) (plan : Plan)
    (batchSize : Nat) (r : Run) (b : Nat) : Py Run :=
  match batch psi p x batchSize r with
  | .error e => .error e
  | .ok g =>
    let r := { r with means := g.means, d := g.d, visits := g.visits }
    if plan.rateAlgor = "batch" then
      .ok { r with word := g.grad }
    else if plan.rateAlgor = "kappa" then
      let step := fun _ => ((b : ℝ) + plan.rateDelay) ^ (-plan.forgettingRate)
      .ok { r with step := step, word := mix step r.word g.grad }
    else if plan.rateAlgor = "variance" then
      -- `update_inplace_v` and `update_inplace_s` also scale `grad` and `gtg` in place
      let exGrad := mix r.gradStep r.exGrad g.grad
      let grad := fun k t => g.grad k t * r.gradStep k
      let gtg := fun k => ∑ t ∈ Finset.range x.T, grad k t * grad k t
      let expGtg := fun k => r.expGtg k * (1 - r.gradStep k) + gtg k * r.gradStep k
      let step := fun k => (∑ t ∈ Finset.range x.T, exGrad k t * exGrad k t) / expGtg k
      .ok { r with
            exGrad := exGrad, expGtg := expGtg, step := step
            gradStep := fun k => r.gradStep k * (1 - step k) + 1
            word := mix step r.word grad }
    else if plan.rateAlgor = "amari" then
      let topics := toDirichlet p x g.means
      let s := r.step 0 * Real.exp (plan.rateA * (plan.rateB * -bound r.word topics - r.step 0))
      let step := fun _ => s
      .ok { r with step := step, means := toDirichlet p x topics, word := mix step r.word g.grad }
    else .error .valueError

/-- `batchSize` as used by `train` (lda_vb_python.py:376-381) -/
def usedBatchSize (x : Data) (plan : Plan) : Nat := if plan.rateAlgor = "batch" then x.D else plan.batchSize

/-- `batchCount` (lda_vb_python.py:376-381) -/
def batchCount (x : Data) (plan : Plan) : Nat := if plan.rateAlgor = "batch" then 1 else x.D / plan.batchSize + 1

/-- The rate algorithms known to `_sgd_desc` (lda_vb_python.py:641-658), which is called before training starts. -/
def Known (a : String) : Prop := a = "batch" ∨ a = "kappa" ∨ a = "amari" ∨ a = "variance"

instance (a : String) : Decidable (Known a) := by unfold Known; infer_instance

/-- `train` (lda_vb_python.py:337-457).  The result has the contents of the tables afterwards; `means` holds the Dirichlet
parameters again.  The division by the batch size fails for size zero (381, 383). -/
noncomputable def train (psi : ℝ → ℝ) (bound : (Nat → Nat → ℝ) → (Nat → Nat → ℝ) → ℝ) (p : Params) (x : Data) (plan : Plan)
    (word topics : Nat → Nat → ℝ) : Py Run :=
  if (List.range x.D).any (fun d => decide (x.len d < 1)) then .error .valueError
  else if usedBatchSize x plan = 0 then .error .zeroDivisionError
  else if ¬ Known plan.rateAlgor then .error .valueError
  else
    match (List.range (batchCount x plan * plan.iterations)).foldlM (trainStep psi bound p x plan (usedBatchSize x plan))
      { word := word, means := toMeans p x topics, d := -1, step := fun _ => 1
        gradStep := fun _ => 1 / (usedBatchSize x plan : ℝ), exGrad := fun _ _ => 0, expGtg := fun _ => 0, visits := [] } with
    | .error e => .error e
    | .ok r => .ok { r with means := toDirichlet p x r.means }

/-- `query` (lda_vb_python.py:739-759): `updateVocab=False` is passed to `train`, which ignores it.  The result has the
contents of the model's word table and the query's topic table afterwards. -/
noncomputable def query (psi : ℝ → ℝ) (bound : (Nat → Nat → ℝ) → (Nat → Nat → ℝ) → ℝ) (p : Params) (x : Data) (plan : Plan)
    (word topics : Nat → Nat → ℝ) : Py ((Nat → Nat → ℝ) × (Nat → Nat → ℝ)) :=
  match train psi bound p x plan word topics with
  | .error e => .error e
  | .ok r => .ok (r.word, r.means)

end Verif.VbPython
