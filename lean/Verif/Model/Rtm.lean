import Verif.Model.VbPython

/-!
# The relational topic model

`model/rtm.py`.  As in `Verif.Model.VbPython`, floating point numbers are real numbers, `psi` is the digamma function, and word
counts are functions of document and word.  The normal density `pdf` and the probit function `cdf` are arbitrary functions.
What `_infer_weights` and the update of the hyperparameters compute is arbitrary here and modelled in `Verif.Model.RtmLearn`.  The
topic tables have `K + 1` columns, the last one being for the intercept.
-/

namespace Verif.Rtm

open Verif
open Verif.Mom (Data)
open Verif.VbPython (Params toMeans toDirichlet)

/-! ## Links to earlier documents -/

/-- The `while` loop of `_links_up_to_csr` (rtm.py:807-811) over the rest of a row -/
def linksUpTo (d : Nat) : List Nat → List Nat
  | [] => []
  | c :: cs => if d ≤ c then [] else c :: linksUpTo d cs

/-! ## Making models and query states -/

/-- The argument `topicPrior` of `newModelAtRandom` (rtm.py:57, 72) -/
inductive PriorArg where
  | default
  | scalar (x : ℝ)
  | vector (xs : List ℝ)

/-- The vector that `newModelAtRandom` uses as topic prior (rtm.py:79-88), which is changed in place -/
noncomputable def newPrior (K : Nat) (arg : PriorArg) : Py (List ℝ) :=
  if ¬ (1 < K ∧ K < 255) then .error .assertionError
  else match arg with
  | .default => .ok ((List.replicate (K + 1) (5 / (K : ℝ) + 1 / 2)).set K 0)
  | .scalar _ => .error .typeError
  | .vector xs => if K < xs.length then .ok (xs.set K 0) else .error .indexError

open Classical in
/-- `newQueryState` (rtm.py:107-130): the topic table.  NumPy's `dirichlet` rejects parameters that are not positive; `checked`
says whether its version does so.  `draw` is the drawn table. -/
noncomputable def newQueryState (checked : Bool) (K : Nat) (x : Data) (prior : List ℝ) (draw : Nat → Nat → ℝ) :
    Py (Nat → Nat → ℝ) :=
  if checked ∧ ∃ a ∈ prior, a ≤ 0 then .error .valueError
  else .ok (fun d k => if k = K then (x.len d : ℝ) else draw d k * (x.len d : ℝ) + prior.getD k 0)

/-! ## Training -/

/-- What is fixed during training: the special functions, sizes, the scalar vocabulary prior, the corpus, the rows of its link
matrix, and `logFrequency`. (rtm.py:388-421) -/
structure Env where
  psi : ℝ → ℝ
  pdf : ℝ → ℝ
  cdf : ℝ → ℝ
  K : Nat
  v : ℝ
  x : Data
  links : Nat → List Nat
  logFrequency : Nat

/-- The tables that are changed in place: `wordDists`, `topicMeans`, `weights`, `topicPrior` (rtm.py:412-421) -/
structure State where
  word : Nat → Nat → ℝ
  means : Nat → Nat → ℝ
  weights : Nat → ℝ
  prior : Nat → ℝ

/-- `_sum_of_scores_at_d` (rtm.py:367-384), one topic -/
noncomputable def linkScore (e : Env) (s : State) (d k : Nat) : ℝ :=
  ((e.links d).map (fun j =>
    let θ := ∑ i ∈ Finset.range (e.K + 1), s.means d i * s.means j i * s.weights i
    e.pdf θ / (e.cdf θ + 1 / 10 ^ 30) / (e.x.len d : ℝ) * (s.weights k * s.means j k))).sum

/-- The score of topic `k` for word `t` in document `d` (rtm.py:349-360), `word0` being the word parameters at the start of the
iteration -/
noncomputable def score (e : Env) (word0 : Nat → Nat → ℝ) (s : State) (d t k : Nat) : ℝ :=
  e.psi (word0 k t) - e.psi (∑ t' ∈ Finset.range e.x.T, word0 k t') + e.psi (s.prior k + (e.x.len d : ℝ) * s.means d k)
    + linkScore e s d k

/-- `_infer_topics_at_d` (rtm.py:330-364) -/
noncomputable def inferTopics (e : Env) (word0 : Nat → Nat → ℝ) (s : State) (d t k : Nat) : ℝ :=
  Real.exp (score e word0 s d t k - Numerics.rowMax e.K (score e word0 s d t))
    / ∑ j ∈ Finset.range e.K, Real.exp (score e word0 s d t j - Numerics.rowMax e.K (score e word0 s d t))

/-- `_update_topics_at_d` and the update of the word parameters (rtm.py:302-327, 448-449) -/
noncomputable def visit (e : Env) (word0 : Nat → Nat → ℝ) (s : State) (d : Nat) : State :=
  let z := inferTopics e word0 s d
  { s with
    means := fun d' k => if d' = d ∧ k < e.K then (∑ t ∈ Finset.range e.x.T, z t k * (e.x.words d t : ℝ)) / (e.x.len d : ℝ)
                         else s.means d' k
    word := fun k t => s.word k t + (e.x.words d t : ℝ) * z t k }

/-- The loop over the documents (rtm.py:444-449) -/
noncomputable def sweep (e : Env) (s : State) : State :=
  (List.range e.x.D).foldl (visit e s.word) { s with word := fun _ _ => e.v }

/-- What the numerical routines compute: new weights (or an exception), whether training has converged, and new
hyperparameters. (rtm.py:451, 460, 466, which call 481-552, misc.py:33-57, 579-641) -/
structure Numerics where
  weights : Nat → State → Py (Nat → ℝ)
  converged : Nat → State → Bool
  hyper : Nat → State → Nat → ℝ

/-- Measuring the bound and the likelihood leaves behind the means converted to Dirichlet parameters and back, twice
(rtm.py:454-457, 170-175, 678-683). -/
noncomputable def measured (e : Env) (s : State) : State :=
  let p : Params := ⟨e.K, s.prior, e.v⟩
  let once := fun m => toMeans p e.x (toDirichlet p e.x m)
  { s with means := once (once s.means) }

/-- The update of the hyperparameters (rtm.py:465-468, 579-645): `HyperParamUpdateInterval` is 5, the entry of the intercept is
set to zero in the end. -/
noncomputable def hyperUpdate (e : Env) (n : Numerics) (itr : Nat) (s : State) : State :=
  if 0 < itr ∧ itr % 5 = 0 then { s with prior := fun k => if k = e.K then 0 else n.hyper itr s k } else s

/-- One iteration with `updateVocab=True` (rtm.py:435-468); the flag says whether the loop is left. -/
noncomputable def iteration (e : Env) (n : Numerics) (itr : Nat) (s : State) : Py (State × Bool) :=
  let s := sweep e s
  match n.weights itr s with
  | .error err => .error err
  | .ok w =>
    let s := { s with weights := w }
    if e.logFrequency = 0 then .error .zeroDivisionError
    else if itr % e.logFrequency = 0 then
      let s := measured e s
      if n.converged itr s then .ok (s, true) else .ok (hyperUpdate e n itr s, false)
    else .ok (hyperUpdate e n itr s, false)

/-- The loop over the iterations (rtm.py:435), of which `left` are left -/
noncomputable def loop (e : Env) (n : Numerics) : Nat → Nat → State → Py State
  | 0, _, s => .ok s
  | left + 1, itr, s =>
    match iteration e n itr s with
    | .error err => .error err
    | .ok (s', true) => .ok s'
    | .ok (s', false) => loop e n left (itr + 1) s'

/-- `train` (rtm.py:388-477): `means` holds the Dirichlet parameters before and after. -/
noncomputable def train (e : Env) (n : Numerics) (iterations : Nat) (s : State) : Py State :=
  if (List.range e.x.D).any (fun d => decide (e.x.len d < 1)) then .error .valueError
  else
    match loop e n iterations 0 { s with means := toMeans ⟨e.K, s.prior, e.v⟩ e.x s.means } with
    | .error err => .error err
    | .ok s' => .ok { s' with means := toDirichlet ⟨e.K, s'.prior, e.v⟩ e.x s'.means }

/-- `query` (rtm.py:655-675) calls `train` with `updateVocab=False`, where `_update_topics_at_d` is called with seven of its
eight arguments (rtm.py:469-471).  The second component is the topic table afterwards. -/
noncomputable def query (e : Env) (iterations : Nat) (s : State) : Py Unit × (Nat → Nat → ℝ) :=
  let p : Params := ⟨e.K, s.prior, e.v⟩
  if (List.range e.x.D).any (fun d => decide (e.x.len d < 1)) then (.error .valueError, s.means)
  else if 0 < iterations ∧ 0 < e.x.D then (.error .typeError, toMeans p e.x s.means)
  else (.ok (), toDirichlet p e.x (toMeans p e.x s.means))

end Verif.Rtm
