import Verif.Model.LogUtils
import Verif.Model.RunMain
import Verif.Model.Sklearn

/-!
# The wrapped models of other libraries

`model/sklearn/lda_cvb.py`, lines 589-926: `WrappedSckitLda` and `WrappedScikitHdp`.  The base classes belong to scikit-learn and gensim.  Of them
are modelled the names of the parameters of the constructor of `LatentDirichletAllocation`, and that its `fit` calls `_init_latent_vars` once and then
estimates from what is there; estimation, initialisation and `transform` are arbitrary functions.  Logging is left out.
-/

namespace Verif.SkWrapped

open Verif LogUtils

/-- `PyErr` with the exception that only this file raises (sklearn/lda_cvb.py:723, 894) -/
inductive Err where
  | py (e : PyErr)
  | notImplemented
  deriving DecidableEq, Repr

/-! ## The constructor -/

/-- The parameters of `LatentDirichletAllocation.__init__` (the base class called in sklearn/lda_cvb.py:612-637) -/
def ldaParams : List String :=
  ["n_components", "doc_topic_prior", "topic_word_prior", "learning_method", "learning_decay", "learning_offset", "max_iter", "batch_size",
    "evaluate_every", "total_samples", "perp_tol", "mean_change_tol", "max_doc_update_iter", "n_jobs", "verbose", "random_state"]

/-- The keywords passed when `batchSize == 0` (sklearn/lda_cvb.py:613-622) -/
def batchKeywords : List String :=
  ["n_components", "doc_topic_prior", "topic_word_prior", "learning_method", "max_iter", "random_state", "verbose", "perp_tol"]

/-- The keywords passed otherwise (sklearn/lda_cvb.py:624-636) -/
def onlineKeywords : List String :=
  ["n_components", "doc_topic_prior", "topic_word_prior", "learning_method", "learning_decay", "learning_offsetfloat", "batch_size", "max_iter",
    "random_state", "verbose", "perp_tol"]

/-- Python's check of keyword arguments (at the calls in sklearn/lda_cvb.py:613, 624) -/
def callWith (params keywords : List String) : Py Unit :=
  if keywords.all (fun k => params.contains k) then .ok () else .error .typeError

/-- `WrappedSckitLda.__init__` (sklearn/lda_cvb.py:591-637) as far as it may fail -/
def construct (batchSize : Int) : Py Unit :=
  if batchSize = 0 then callWith ldaParams batchKeywords else callWith ldaParams onlineKeywords

/-! ## Fitting -/

/-- The base class, on words `X`, topics `C` and states `R` of the random numbers (the calls in sklearn/lda_cvb.py:643, 660, 679). -/
structure Base (X C R Y : Type) where
  /-- `_init_latent_vars`: new topics, drawn from the random state -/
  init : R → X → C × R
  /-- what `fit` does after it: the topics it leaves behind, and whether it fails -/
  estimate : C → X → C × Py Unit
  /-- `transform` -/
  transform : C → X → Py Y

/-- The attributes of the object: `components_`, `random_state`, `skip_init` (sklearn/lda_cvb.py:636-637) -/
structure State (C R : Type) where
  comps : Option C
  rng : R
  skipInit : Bool

variable {X C R Y : Type}

/-- `WrappedSckitLda._init_latent_vars` (sklearn/lda_cvb.py:639-643) -/
def initVars (b : Base X C R Y) (s : State C R) (x : X) : State C R :=
  if s.skipInit then s else { s with comps := some (b.init s.rng x).1, rng := (b.init s.rng x).2 }

/-- `super().fit(X, y)` (sklearn/lda_cvb.py:660): initialises and estimates; without topics reading `components_` fails. -/
def superFit (b : Base X C R Y) (s : State C R) (x : X) : Py Unit × State C R :=
  match (initVars b s x).comps with
  | none => (.error .attributeError, initVars b s x)
  | some c => ((b.estimate c x).2, { initVars b s x with comps := some (b.estimate c x).1 })

/-- `WrappedSckitLda.fit` (sklearn/lda_cvb.py:645-663): the `finally` clause runs in every case. -/
def fit (b : Base X C R Y) (s : State C R) (x : X) (resume : Bool) : Py Unit × State C R :=
  let r := superFit b { s with skipInit := if resume then true else s.skipInit } x
  (r.1, { r.2 with skipInit := false })

/-- A new object (sklearn/lda_cvb.py:636): `skip_init` is false and there are no topics. -/
def fresh (r : R) : State C R := ⟨none, r, false⟩

/-- `fit` again and again (sklearn/lda_cvb.py:645-663), each call with its words and with or without `resume`; exceptions are caught by the caller. -/
def fitAll (b : Base X C R Y) (s : State C R) (calls : List (X × Bool)) : State C R :=
  calls.foldl (fun s c => (fit b s c.1 c.2).2) s

/-! ## Scoring -/

/-- Words as a sparse matrix with their element type (sklearn/lda_cvb.py:705-706) -/
structure Words where
  dt : DType
  m : Csr ℝ

/-- A matrix with its element type (sklearn/lda_cvb.py:744-745, 910-914) -/
structure Typed where
  dt : DType
  m : Mat ℝ

/-- `components_ / components_.sum(axis=1)[:, np.newaxis]` (sklearn/lda_cvb.py:744, 909) -/
noncomputable def componentDists (c : Mat ℝ) : Mat ℝ :=
  ⟨c.rows, c.cols, fun k t => c.get k t / ∑ u ∈ Finset.range c.cols, c.get k u⟩

/-- `X.words.sum()` (common.py:230-232, read in sklearn/lda_cvb.py:756) -/
noncomputable def wordCount (w : Csr ℝ) : ℝ := w.data.sum

/-- The last part of `score` (sklearn/lda_cvb.py:745-759, 915-926): the logarithmic product summed by rows and in total, and the perplexity. In double
and single precision the compiled code demands that all matrices have the same type.  `tiny` is the smallest positive number of the type. -/
noncomputable def finish (tiny : ℝ) (w : Words) (y dists : Typed) (method : Sklearn.Method) : Except Err ℝ :=
  if w.dt ≠ .int ∧ (y.dt ≠ w.dt ∨ dists.dt ≠ w.dt) then .error (.py .valueError) else
  match safeLnInto w.dt y.dt dists.dt w.m (fun v r c => v * SparseKernels.safeLn tiny (SparseKernels.dotProduct y.m dists.m r c)) 0 w.m.rows none with
  | .error e => .error (.py e)
  | .ok r =>
    if method.isPerplexity then .ok (RunMain.perplexityFromLike r.returned.sum (wordCount w.m)) else .ok r.returned.sum

/-- The arguments of `score` (sklearn/lda_cvb.py:727-742, 896-908): the words to score and their topics, or an exception.  `infer` is `transform`,
`split` is `doc_completion_split`. -/
def target (infer : Words → Py Typed) (split : Words → Words × Words) (x : Words) (y : Option Typed) (state : Bool) (method : Sklearn.Method) :
    Except Err (Words × Typed) :=
  if method.isPoint = false then .error .notImplemented else
  match y, state with
  | some _, true => .error (.py .valueError)
  | none, true => .error (.py .valueError)
  | some y, false => .ok (x, y)
  | none, false =>
    if method.isDocCompletion then
      match infer (split x).1 with
      | .error e => .error (.py e)
      | .ok y => .ok ((split x).2, y)
    else
      match infer x with
      | .error e => .error (.py e)
      | .ok y => .ok (x, y)

/-- `WrappedSckitLda.score` (sklearn/lda_cvb.py:680-759); `state` says whether `y_query_state` is given. -/
noncomputable def scoreLda (tiny : ℝ) (infer : Words → Py Typed) (split : Words → Words × Words) (comps : Typed) (x : Words) (y : Option Typed)
    (state : Bool) (method : Sklearn.Method) : Except Err ℝ :=
  match target infer split x y state method with
  | .error e => .error e
  | .ok (x, y) => finish tiny x y ⟨comps.dt, componentDists comps.m⟩ method

/-- `astype` of a matrix (sklearn/lda_cvb.py:910-914): `cast` is what the element type makes of a number. -/
def astype (cast : DType → ℝ → ℝ) (dt : DType) (a : Typed) : Typed :=
  if a.dt = dt then a else ⟨dt, ⟨a.m.rows, a.m.cols, fun i j => cast dt (a.m.get i j)⟩⟩

/-- `WrappedScikitHdp.components_` (sklearn/lda_cvb.py:809-811): `lambda` divided by the row sums that gensim keeps. -/
noncomputable def hdpComponents (lam : Typed) (sums : Nat → ℝ) : Typed := ⟨lam.dt, ⟨lam.m.rows, lam.m.cols, fun k t => lam.m.get k t / sums k⟩⟩

/-- `WrappedScikitHdp.score` (sklearn/lda_cvb.py:850-926) -/
noncomputable def scoreHdp (cast : DType → ℝ → ℝ) (tiny : ℝ) (infer : Words → Py Typed) (split : Words → Words × Words) (lam : Typed) (sums : Nat → ℝ)
    (x : Words) (y : Option Typed) (state : Bool) (method : Sklearn.Method) : Except Err ℝ :=
  match target infer split x y state method with
  | .error e => .error e
  | .ok (x, y) => finish tiny x (astype cast x.dt y) (astype cast x.dt ⟨lam.dt, componentDists (hdpComponents lam sums).m⟩) method

end Verif.SkWrapped
