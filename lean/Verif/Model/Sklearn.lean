import Verif.Model.Py

/-!
# The scikit-learn wrapper `TopicModel`

`model/sklearn/lda_cvb.py`, lines 54-120 and 129-585.  The functions of the wrapped modules are arbitrary functions that may
fail (`Module`); what is modelled exactly is which of them exist and accept the wrapper's arguments, in which order they are
called, and how the wrapper's state changes, also when a call fails.  Objects have identities (`Obj`), because datasets are
compared by `is`.  Query states are values: changes that a module makes to a query state in place before it fails are left
out.  Logging, metrics and `bound_` are left out.
-/

namespace Verif.Sklearn

open Verif

/-- `TopicModelType` (lda_cvb.py:89-97) -/
inductive Kind where
  | ldaCvb0 | ldaCvb | ldaVb | ldaVbPython | ldaSvb | ldaGibbs | momVb | momGibbs
  deriving DecidableEq, Repr

/-- Whether the module's `newQueryState` takes the argument `debug` (lda_cvb0.py:119, lda_cvb.py:124, lda_vb.py:117,
lda_vb_python.py:111, lda_gibbs.py:123, mom_em.py:113, mom_gibbs.py:100; not lda_svb.py:121). -/
def Kind.queryTakesDebug : Kind → Bool
  | .ldaSvb => false
  | _ => true

/-- Whether the module has a function `log_likelihood_expected` (lda_cvb0.py:395, mom_em.py:317, no other). -/
def Kind.hasExpected : Kind → Bool
  | .ldaCvb0 => true
  | .momVb => true
  | _ => false

/-- Whether the module has the name `perplexity_from_like` (imported by all modules but lda_gibbs.py).
(lda_cvb0.py:30, lda_cvb.py:28, lda_vb.py:32, lda_vb_python.py:20, lda_svb.py:32, mom_em.py:17, mom_gibbs.py:13; lda_gibbs.py:20-29 has none) -/
def Kind.hasPerplexity : Kind → Bool
  | .ldaGibbs => false
  | _ => true

/-- Whether the module's `QueryState` has a field `topicDists` or `n_dk` (lda_cvb0.py:58, lda_cvb.py:56, lda_vb.py:58,
lda_vb_python.py:45, lda_svb.py:58, mom_em.py:40, mom_gibbs.py:33; not lda_gibbs.py:55). -/
def Kind.amendable : Kind → Bool
  | .ldaGibbs => false
  | _ => true

/-- `ScoreMethod` (lda_cvb.py:54-60) -/
inductive Method where
  | logLikelihoodPoint | logLikelihoodBoundOrSampled | perplexityPoint | perplexityBoundOrSampled
  | docCompletionLogLikelihoodPoint | docCompletionPerplexityPoint
  deriving DecidableEq, Repr

/-- The members in the order of their definition (lda_cvb.py:55-60) -/
def Method.all : List Method :=
  [.logLikelihoodPoint, .logLikelihoodBoundOrSampled, .perplexityPoint, .perplexityBoundOrSampled,
    .docCompletionLogLikelihoodPoint, .docCompletionPerplexityPoint]

/-- The values of the members (lda_cvb.py:55-60) -/
def Method.value : Method → List Char
  | .logLikelihoodPoint => "log_likelihood_point".toList
  | .logLikelihoodBoundOrSampled => "log_likelihood_expectation".toList
  | .perplexityPoint => "perplexity_point".toList
  | .perplexityBoundOrSampled => "perplexity_expectation".toList
  | .docCompletionLogLikelihoodPoint => "doc_completion_log_likelihood_point".toList
  | .docCompletionPerplexityPoint => "doc_completion_perplexity_point".toList

/-- White space among ASCII characters, as in Python's `str.isspace` (inside `strip`, sklearn/lda_cvb.py:62-68) -/
def isSpace (c : Char) : Bool := (9 ≤ c.toNat && c.toNat ≤ 13) || (28 ≤ c.toNat && c.toNat ≤ 32)

/-- `str.strip()` for ASCII text (sklearn/lda_cvb.py:62-68) -/
def strip (s : List Char) : List Char := ((s.dropWhile isSpace).reverse.dropWhile isSpace).reverse

/-- `ScoreMethod.from_str` (lda_cvb.py:62-68), for ASCII text -/
def Method.fromStr (s : List Char) : Py Method :=
  match Method.all.find? (fun m => (strip s).map Char.toLower == m.value) with
  | some m => .ok m
  | none => .error .valueError

/-- `is_point_estimate` (lda_cvb.py:70-75) -/
def Method.isPoint : Method → Bool
  | .logLikelihoodPoint | .perplexityPoint | .docCompletionLogLikelihoodPoint | .docCompletionPerplexityPoint => true
  | _ => false

/-- `is_perplexity` (lda_cvb.py:77-81) -/
def Method.isPerplexity : Method → Bool
  | .perplexityBoundOrSampled | .perplexityPoint | .docCompletionPerplexityPoint => true
  | _ => false

/-- `is_doc_completion` (lda_cvb.py:83-86) -/
def Method.isDocCompletion : Method → Bool
  | .docCompletionLogLikelihoodPoint | .docCompletionPerplexityPoint => true
  | _ => false

/-- `EpochMetrics.from_ibl_tuple` (lda_cvb.py:114-120) -/
def fromIblTuple {α : Type} (vals : List α) : Py (Option α × Option α × Option α) :=
  let get (i : Nat) : Py (Option α) := match vals[i]? with
    | some v => .ok (some v)
    | none => .error .indexError
  do
    let iters ← if vals.length = 0 then pure none else get 0
    let bounds ← if vals.length = 1 then pure none else get 1
    let likes ← if vals.length = 2 then pure none else get 2
    pure (iters, bounds, likes)

/-- The functions of a module, on data `X`, model states `M`, query states `Q`, topic tables `Y` and scores `R`.
(as called in sklearn/lda_cvb.py:284-505) -/
structure Module (X M Q Y R : Type) where
  /-- `newModelAtRandom` -/
  newModel : X → Py M
  /-- `newQueryState` -/
  newQuery : X → Option M → Py Q
  /-- `train`, with the number of iterations -/
  train : X → M → Q → Nat → Py (M × Q)
  /-- `query`, with the number of iterations -/
  query : X → M → Q → Nat → Py (M × Q)
  /-- `topicDists` -/
  topicDists : Q → Y
  /-- `log_likelihood_score_point(X, y).sum()` (lda_cvb.py:493-505) -/
  point : X → Y → Option M → Py R
  /-- `log_likelihood_expected(...).sum()` -/
  expected : X → Option M → Q → Py R
  /-- `perplexity_from_like(log_prob, X.word_count)` -/
  perplexity : R → X → R
  /-- `doc_completion_split()` of the data -/
  split : X → X × X

/-- An object with its identity. (compared in sklearn/lda_cvb.py:387-397) -/
structure Obj (X : Type) where
  id : Nat
  val : X

/-- The argument `X` of the methods: a `DataSet` object or a plain matrix. (sklearn/lda_cvb.py:255-290, 340-381) -/
inductive Input (X : Type) where
  | dataset (o : Obj X)
  | plain (v : X)

/-- The state of a `TopicModel` (lda_cvb.py:189-200), and the next unused object identity. -/
structure Wrapper (X M Q : Type) where
  kind : Kind
  model : Option M
  lastQ : Option Q
  lastX : Option (Obj X)
  next : Nat
  iterations : Nat
  queryIterations : Nat

/-- The arguments `iterations`, `resume` and `persist_query_state`. (sklearn/lda_cvb.py:284-290, 372-381) -/
structure Kwargs where
  iterations : Option Nat := none
  resume : Bool := false
  persist : Bool := false

/-- `value or default` for numbers (sklearn/lda_cvb.py:200, 284, 374) -/
def orDefault (o : Option Nat) (default : Nat) : Nat :=
  match o with
  | some n => if n = 0 then default else n
  | none => default

/-- `TopicModel(...)` (lda_cvb.py:163-218) -/
def newWrapper {X M Q : Type} (kind : Kind) (next iterations : Nat) (queryIterations : Option Nat) : Wrapper X M Q :=
  { kind, model := none, lastQ := none, lastX := none, next, iterations
    queryIterations := orDefault queryIterations (iterations / 10) }

variable {X M Q Y R : Type}

/-- `if type(X) is not DataSet: X = DataSet(words=X)` (lda_cvb.py:270-271, 364-365, 439-440) -/
def wrap (w : Wrapper X M Q) : Input X → Obj X × Wrapper X M Q
  | .dataset o => (o, w)
  | .plain v => (⟨w.next, v⟩, { w with next := w.next + 1 })

/-- `make_or_resume_query_state` (lda_cvb.py:387-398).  `_last_query_state` is never `None` if `_last_X` is not. -/
def makeOrResume (md : Module X M Q Y R) (w : Wrapper X M Q) (o : Obj X) (resume : Bool) : Py Q :=
  if resume then
    match w.lastX, w.lastQ with
    | some o', some q => if o'.id = o.id then .ok q else .error .valueError
    | some o', none => if o'.id = o.id then .error .attributeError else .error .valueError
    | none, _ => .error .valueError
  else if w.kind.queryTakesDebug then md.newQuery o.val w.model
  else .error .typeError

/-- `_set_or_clear_last_query_state` (lda_cvb.py:296-304) -/
def setOrClear (w : Wrapper X M Q) (o : Obj X) (q : Q) (persist : Bool) : Wrapper X M Q :=
  if persist then { w with lastX := some o, lastQ := some q }
  else { w with lastX := none, lastQ := none }

/-- The model that `fit` starts with (lda_cvb.py:275-276) -/
def startModel (md : Module X M Q Y R) (w : Wrapper X M Q) (x : X) : Py M :=
  match w.model with
  | some m => .ok m
  | none => md.newModel x

/-- `fit` (lda_cvb.py:252-294) -/
def fit (md : Module X M Q Y R) (w : Wrapper X M Q) (inp : Input X) (kw : Kwargs) : Py Unit × Wrapper X M Q :=
  let (o, w) := wrap w inp
  match startModel md w o.val with
  | .error e => (.error e, w)
  | .ok m =>
    let w := { w with model := some m }
    let iters := orDefault kw.iterations w.iterations
    match makeOrResume md w o kw.resume with
    | .error e => (.error e, w)
    | .ok q =>
      match md.train o.val m q iters with
      | .error e => (.error e, w)
      | .ok (m', q') => (.ok (), setOrClear { w with model := some m' } o q' kw.persist)

/-- `transform` (lda_cvb.py:339-385) -/
def transform (md : Module X M Q Y R) (w : Wrapper X M Q) (inp : Input X) (kw : Kwargs) : Py Y × Wrapper X M Q :=
  let (o, w) := wrap w inp
  match w.model with
  | none => (.error .valueError, w)
  | some m =>
    match makeOrResume md w o kw.resume with
    | .error e => (.error e, w)
    | .ok q =>
      match md.query o.val m q (orDefault kw.iterations w.queryIterations) with
      | .error e => (.error e, w)
      | .ok (m', q') =>
        (.ok (md.topicDists q'), setOrClear { w with model := some m' } o q' kw.persist)

/-- `fit_transform` (lda_cvb.py:241-250) -/
def fitTransform (md : Module X M Q Y R) (w : Wrapper X M Q) (inp : Input X) (kw : Kwargs) : Py Y × Wrapper X M Q :=
  match fit md w inp { kw with persist := true } with
  | (.error e, w) => (.error e, w)
  | (.ok _, w) => transform md w inp { kw with resume := true }

/-- The end of `score` (lda_cvb.py:477-491); `q` is `none` if the variable `query_state` is not assigned.  Python looks up the
function before its arguments. -/
def finish (md : Module X M Q Y R) (w : Wrapper X M Q) (x : X) (y : Y) (q : Option Q) (method : Method) : Py R :=
  let logProb : Py R :=
    if method.isPoint then md.point x y w.model
    else if w.kind.hasExpected then
      match q with
      | none => .error .unboundLocalError
      | some q => md.expected x w.model q
    else .error .attributeError
  match logProb with
  | .error e => .error e
  | .ok r =>
    if method.isPerplexity then
      if w.kind.hasPerplexity then .ok (md.perplexity r x) else .error .attributeError
    else .ok r

/-- `score` (lda_cvb.py:409-491) for a given method -/
def score (md : Module X M Q Y R) (w : Wrapper X M Q) (inp : Input X) (y : Option Y) (yq : Option Q) (method : Method) :
    Py R × Wrapper X M Q :=
  let (o, w) := wrap w inp
  match y, yq with
  | some _, some _ => (.error .valueError, w)
  | none, none =>
    if method.isDocCompletion then
      let infer : Obj X := ⟨w.next, (md.split o.val).1⟩
      let w := { w with next := w.next + 2 }
      match transform md w (.dataset infer) {} with
      | (.error e, w) => (.error e, w)
      | (.ok y, w) => (finish md w (md.split o.val).2 y none method, w)
    else
      match transform md w (.dataset o) {} with
      | (.error e, w) => (.error e, w)
      | (.ok y, w) => (finish md w o.val y none method, w)
  | some y, none =>
    if method.isPoint then
      match makeOrResume md w o false with
      | .error e => (.error e, w)
      | .ok q => if w.kind.amendable then (finish md w o.val y (some q) method, w) else (.error .valueError, w)
    else (.error .valueError, w)
  | none, some q =>
    (finish md w o.val (md.topicDists q) (some q) method, w)

/-- `find_query_state_via_transform` (lda_cvb.py:569-585) -/
def findQueryState (md : Module X M Q Y R) (w : Wrapper X M Q) (inp : Input X) (kw : Kwargs) (persist : Bool) :
    Py (Option Q) × Wrapper X M Q :=
  let backup := if ¬ persist ∧ w.lastQ.isSome then (w.lastQ, w.lastX) else (none, none)
  match transform md w inp { kw with persist := true } with
  | (.error e, w) => (.error e, w)
  | (.ok _, w') =>
    (.ok w'.lastQ, if persist then w' else { w' with lastQ := backup.1, lastX := backup.2 })

end Verif.Sklearn
