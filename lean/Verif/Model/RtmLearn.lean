import Verif.Model.Rtm
import Verif.Model.VbBound

/-!
# Learning of weights and priors, and the bound, of the relational topic model

`_infer_weights`, `_updateTopicHyperParamsFromMeans` and `var_bound` of `model/rtm.py`, with the conventions of `Verif.Model.Rtm`.  Entry `K` of
weights, means and prior is that of the intercept.
-/

namespace Verif.RtmLearn

open Verif Verif.Rtm
open Verif.Mom (Data loggamma)
open Verif.VbPython (Params toMeans toDirichlet dirichletEntropy probTopics probVocabs)

/-! ## Weights -/

/-- `weights.dot(…)` (rtm.py:512, 533): the last entry is that of the intercept. -/
noncomputable def dot (K : Nat) (w v : Nat → ℝ) : ℝ := ∑ i ∈ Finset.range (K + 1), w i * v i

/-- `pseudoDoc` (rtm.py:506-507) -/
noncomputable def pseudoDoc (K : Nat) (prior : Nat → ℝ) (i : Nat) : ℝ :=
  if i = K then 1 else prior i * prior i / ∑ j ∈ Finset.range (K + 1), prior j

/-- One row of `doc_diffs` (rtm.py:532) -/
def pairDoc (means : Nat → Nat → ℝ) (d j i : Nat) : ℝ := means d i * means j i

/-- The pairs that the loop over the documents sees (rtm.py:527-530) -/
def pairs (D : Nat) (links : Nat → List Nat) : List (Nat × Nat) :=
  (List.range D).flatMap fun d => (linksUpTo d (links d)).map fun j => (d, j)

/-- `grad` (rtm.py:512-542): `rho` is the number of invented negative examples, `reg` the strength of the regularisation.  The replacement of
probabilities that are exactly zero (rtm.py:536) has no effect on real numbers. -/
noncomputable def grad (e : Env) (rho reg : ℝ) (means : Nat → Nat → ℝ) (prior w : Nat → ℝ) (i : Nat) : ℝ :=
  reg * w i
    + -rho * (e.pdf (dot e.K w (pseudoDoc e.K prior)) / (e.cdf (dot e.K w (pseudoDoc e.K prior)) + 1 / 10 ^ 50)) * pseudoDoc e.K prior i
    + ((pairs e.x.D e.links).map fun p =>
        e.pdf (dot e.K w (pairDoc means p.1 p.2)) / e.cdf (dot e.K w (pairDoc means p.1 p.2)) * pairDoc means p.1 p.2 i).sum

/-- `step_size` (rtm.py:517): `t_0` is 5 and `kappa` is 0.75. -/
noncomputable def stepSize (t : Nat) : ℝ := ((5 : ℝ) + t) ^ (-(3 / 4 : ℝ))

/-- The update of the weights (rtm.py:545-547) -/
noncomputable def weightStep (e : Env) (rho reg : ℝ) (means : Nat → Nat → ℝ) (prior : Nat → ℝ) (step : ℝ) (w : Nat → ℝ) (i : Nat) : ℝ :=
  w i * (1 - step) + grad e rho reg means prior w i * step

open Classical in
/-- The loop of `_infer_weights` (rtm.py:511-550), of which `left` iterations are left -/
noncomputable def weightLoop (e : Env) (rho reg : ℝ) (means : Nat → Nat → ℝ) (prior : Nat → ℝ) : Nat → Nat → (Nat → ℝ) → Nat → ℝ
  | 0, _, w => w
  | left + 1, t, w =>
    let w' := weightStep e rho reg means prior (stepSize t) w
    if ∑ i ∈ Finset.range (e.K + 1), |w' i - w i| < 1 / 100 / (e.K : ℝ) then w' else weightLoop e rho reg means prior left (t + 1) w'

/-- `_infer_weights` (rtm.py:481-550): `max_iters` is 100. -/
noncomputable def inferWeights (e : Env) (rho reg : ℝ) (s : State) : Nat → ℝ := weightLoop e rho reg s.means s.prior 100 0 s.weights

/-! ## Prior -/

/-- One update of the topic prior (rtm.py:628-635).  `doc_topic_counts`, which is kept up to date by adding the changes of the prior, is written
out. -/
noncomputable def priorStep (psi : ℝ → ℝ) (K : Nat) (x : Data) (means : Nat → Nat → ℝ) (a : Nat → ℝ) (k : Nat) : ℝ :=
  a k * ((∑ d ∈ Finset.range x.D, psi (means d k * (x.len d : ℝ) + a k) - (x.D : ℝ) * psi (a k))
    / (∑ d ∈ Finset.range x.D, psi ((x.len d : ℝ) + ∑ j ∈ Finset.range K, a j) - (x.D : ℝ) * psi (a k)))

open Classical in
/-- The loop of `_updateTopicHyperParamsFromMeans` (rtm.py:627-639), of which `left` iterations are left -/
noncomputable def priorLoop (psi : ℝ → ℝ) (K : Nat) (x : Data) (means : Nat → Nat → ℝ) : Nat → (Nat → ℝ) → Nat → ℝ
  | 0, a => a
  | left + 1, a =>
    let a' := priorStep psi K x means a
    if ∑ k ∈ Finset.range K, |a k - a' k| < 1 / 1000 * (K : ℝ) then a' else priorLoop psi K x means left a'

/-- `_updateTopicHyperParamsFromMeans` (rtm.py:579-645): `max_iters` is 100. -/
noncomputable def priorUpdate (psi : ℝ → ℝ) (K : Nat) (x : Data) (s : State) : Nat → ℝ := priorLoop psi K x s.means 100 s.prior

/-- What training computes in its numerical parts (rtm.py:451, 460, 466); when it has converged is arbitrary here. -/
noncomputable def learn (e : Env) (rho reg : ℝ) (conv : Nat → State → Bool) : Rtm.Numerics :=
  ⟨fun _ s => .ok (inferWeights e rho reg s), conv, fun _ s => priorUpdate e.psi e.K e.x s⟩

/-! ## Bound -/

/-- The topics of the tokens as the bound estimates them (rtm.py:744) -/
noncomputable def boundTopics (e : Env) (s : State) (d t k : Nat) : ℝ :=
  inferTopics e s.word { s with means := toMeans ⟨e.K, s.prior, e.v⟩ e.x s.means } d t k

/-- `prob_z`, `ent_z` and `prob_words` of document `d` (rtm.py:740-756) -/
noncomputable def tokenTerm (e : Env) (s : State) (d : Nat) : ℝ :=
  ∑ t ∈ Finset.range e.x.T, ∑ k ∈ Finset.range e.K,
      boundTopics e s d t k * (e.psi (s.means d k) - e.psi (∑ j ∈ Finset.range e.K, s.means d j)) * (e.x.words d t : ℝ)
    + -∑ t ∈ Finset.range e.x.T, ∑ k ∈ Finset.range e.K,
        boundTopics e s d t k * Numerics.safeLogOut false (boundTopics e s d t k) * (e.x.words d t : ℝ)
    + ∑ t ∈ Finset.range e.x.T, ∑ k ∈ Finset.range e.K,
        (e.x.words d t : ℝ) * boundTopics e s d t k * (e.psi (s.word k t) - e.psi (∑ u ∈ Finset.range e.x.T, s.word k u))

/-- The part of the bound for the links, `means` being means (rtm.py:758-769) -/
noncomputable def linkTerm (e : Env) (means : Nat → Nat → ℝ) (weights : Nat → ℝ) : ℝ :=
  ((pairs e.x.D e.links).map fun p => Real.log (e.cdf (dot e.K weights (pairDoc means p.1 p.2)) + 1 / 10 ^ 300)).sum

/-- `var_bound` (rtm.py:687-772): `s.means` holds Dirichlet parameters. -/
noncomputable def varBound (e : Env) (s : State) : ℝ :=
  let p : Params := ⟨e.K, s.prior, e.v⟩
  probTopics e.psi p e.x s.means + dirichletEntropy e.psi e.x.D e.K s.means + probVocabs e.psi p e.x s.word
    + dirichletEntropy e.psi e.K e.x.T s.word + ∑ d ∈ Finset.range e.x.D, tokenTerm e s d
    + linkTerm e (toMeans p e.x s.means) s.weights

end Verif.RtmLearn
