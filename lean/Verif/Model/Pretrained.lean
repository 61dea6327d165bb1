import Mathlib.Analysis.SpecialFunctions.Log.Basic
import Mathlib.Algebra.BigOperators.Group.Finset.Basic
import Verif.Model.Py

/-!
# Topic models trained before

The use of a saved topic model by the recommenders: `load_and_adapt_lda_model`, `subsetLda` and the beginnings of the evaluations of
links in `run/__main__.py`, and what `lro_vb.py`, `sim_based_rec.py` and `mtm3.py` do with the model and the topics they are given.
A topic model is described by the fields of its tuple; reading a field that does not exist is an `AttributeError`.
-/

namespace Verif.Pretrained

open Verif

/-! ## Loading -/

/-- `np.all(a == b)` for one-dimensional arrays, with NumPy's broadcasting of arrays of one element; for other lengths the comparison
is `False` (or raises `ValueError` itself, in newer versions, which ends in the same error). (run/__main__.py:310) -/
def allEqual (a b : List Nat) : Bool :=
  if a.length = b.length then a == b
  else match a, b with
    | [x], b => b.all (· == x)
    | a, [y] => a.all (· == y)
    | _, _ => false

/-- `load_and_adapt_lda_model` (run/__main__.py:299-313) -/
def load {α : Type} (savedOrder desiredOrder : List Nat) (saved : α) : Py α :=
  if allEqual savedOrder desiredOrder then .ok saved else .error .valueError

/-! ## Models and topics -/

/-- The implementations (lda_gibbs.py, lda_vb_python.py) -/
inductive Kind where
  | gibbs | vb
  deriving DecidableEq

/-- The fields of `ModelState` (lda_gibbs.py:58-61, lda_vb_python.py:48-51) -/
def modelFields : Kind → List String
  | .gibbs => ["K", "T", "topicPrior", "vocabPrior", "topicSum", "vocabSum", "numSamples", "processed", "dtype", "name"]
  | .vb => ["K", "topicPrior", "vocabPrior", "wordDists", "processed", "dtype", "name"]

/-- The fields of `QueryState` (lda_gibbs.py:53-56, lda_vb_python.py:43-46) -/
def queryFields : Kind → List String
  | .gibbs => ["w_list", "z_list", "docLens", "topicSum", "numSamples", "processed"]
  | .vb => ["docLens", "topicDists", "processed"]

/-- The name of a trained model (lda_gibbs.py:40, 104, 219; lda_vb_python.py:396, 455); `desc` is `_sgd_desc(plan)`. -/
def trainedName (desc : String) : Kind → String
  | .gibbs => "lda/gibbs"
  | .vb => "lda/svbp/" ++ desc

/-- Reading attributes one after the other (lro_vb.py:179-191 and the like) -/
def attrs (fields names : List String) : Py Unit :=
  if names.all fields.contains then .ok () else .error .attributeError

/-! ## Recommenders -/

/-- The recommenders that use a topic model (run/__main__.py:1148-1151) -/
inductive Rec where
  | lro | sim | mtm3
  deriving DecidableEq

/-- `lda_vocab` (mtm3.py:157-163): the names are compared with those of untrained models. (lda_gibbs.py:40, lda_vb_python.py:24) -/
def ldaVocab (desc : String) (k : Kind) : Py Unit :=
  if trainedName desc k = "lda/gibbs" then attrs (modelFields k) ["vocabSum", "numSamples"]
  else if trainedName desc k = "lda/vbp" then attrs (modelFields k) ["wordDists"]
  else .error .valueError

/-- `lda_topics` (mtm3.py:165-169, lda_gibbs.py:261-268, lda_vb_python.py:174-183) -/
def ldaTopics (k : Kind) : Py Unit :=
  if (queryFields k).contains "numSamples" then attrs (queryFields k) ["topicSum", "numSamples"]
  else attrs (queryFields k) ["topicDists"]

/-- Making and starting to train a recommender with a trained model and its topics, until the topics are used (lro_vb.py:61-77,
118-135, 179-191; sim_based_rec.py:58-72, 112-130, 173, 194-196; mtm3.py:103-116, 204-234, 254-257): `ok true` means that they are
used. -/
def startWith (desc : String) (k : Kind) : Rec → Py Bool
  | .lro => do
    attrs (modelFields k) ["K", "processed"]
    attrs (queryFields k) ["topicDists"]
    return true
  | .sim => do
    attrs (modelFields k) ["K"]
    attrs (queryFields k) ["processed", "topicDists"]
    return true
  | .mtm3 => do
    ldaVocab desc k
    ldaTopics k
    return true

/-- `insample_lro_style_prec_rec` up to the use of the topics (run/__main__.py:986-996); without a saved model the recommender trains
its own. -/
def insample (desc : String) (pre : Option Kind) (r : Rec) : Py Bool :=
  match pre with
  | none => .ok false
  | some k => startWith desc k r

/-- `subsetLda` (run/__main__.py:1155-1173) and the unpacking of its result (run/__main__.py:1091), for the names compared with:
run/__main__.py:49-52 -/
def subset (desc : String) : Option Kind → Py Kind
  | none => .error .typeError
  | some k =>
    if trainedName desc k = "lda/gibbs" ∨ trainedName desc k = "lda/vbp" then .ok k else .error .valueError

/-- `outsample_lro_style_prec_rec` up to the use of the topics (run/__main__.py:1090-1099) -/
def outsample (desc : String) (pre : Option Kind) (r : Rec) : Py Bool := do
  let k ← subset desc pre
  startWith desc k r

/-- `link_split_prec_rec` up to the use of the topics (run/__main__.py:873-888): the model is unpacked as if it were the contents of
the file; what is then used as a model is its fifth field, a flag, which has no fields. Only `lro` is given it. (lro_vb.py:131-132,
lda_vb_python.py:129) -/
def linkSplit (pre : Option Kind) (r : Rec) : Py Bool :=
  match pre with
  | none => .ok false
  | some k =>
    if (modelFields k).length ≠ 7 then .error .valueError
    else match r with
      | .lro => do
        attrs [] ["topicPrior"]
        return true
      | _ => .ok false

/-! ## Pruning -/

/-- `pruneQueryState` (lda_gibbs.py:152-163, lda_vb_python.py:139-143): the rows of an array at the indices, which are those of the
training documents. -/
def prune {α : Type} (rows : List α) (indices : List Nat) : Py (List α) :=
  indices.mapM fun i => match rows[i]? with
    | some r => .ok r
    | none => .error .indexError

/-! ## Starting the matrix topic model -/

/-- The query state and the mean of the model (mtm3.py:222-234); the covariance `np.cov` is left out: it is replaced before it is
used. (mtm3.py:353-359) -/
structure Start where
  outMeans : Nat → Nat → ℝ
  outVarcs : Nat → Nat → ℝ
  inMeans : Nat → Nat → ℝ
  inVarcs : Nat → Nat → ℝ
  topicMean : Nat → ℝ

/-- The mean of all logarithms (mtm3.py:222-223) -/
noncomputable def overall (D K : Nat) (topics : Nat → Nat → ℝ) : ℝ :=
  (∑ d ∈ Finset.range D, ∑ k ∈ Finset.range K, Real.log (topics d k)) / (D * K)

/-- `_newQueryStateFromLda` (mtm3.py:204-236), for the topics of the documents; `noise` is what `rd.random` gives. -/
noncomputable def fromLda (D K : Nat) (topics noise : Nat → Nat → ℝ) : Start where
  outMeans d k := Real.log (topics d k) - overall D K topics
  outVarcs _ _ := |1 * overall D K topics / 10|
  inMeans d k := Real.log (topics d k) - overall D K topics + overall D K topics / 10 * noise d k
  inVarcs _ _ := |1 * overall D K topics / 10|
  topicMean k := (∑ d ∈ Finset.range D, (Real.log (topics d k) - overall D K topics)) / D

/-! ## Fresh query states -/

/-- The flag `processed` of the query state that `newQueryState` returns for the argument `debug` (lda_vb_python.py:111, 136;
lda_gibbs.py:123, 149) -/
def freshProcessed (k : Kind) (debug : Bool) : Bool :=
  match k with
  | .gibbs => false
  | .vb => debug

/-- Whether the recommender by similarity trains its topics, rather than use the ones of the query state as they are
(sim_based_rec.py:194) -/
def simTrains (ldaTopics : Option Bool) : Bool :=
  match ldaTopics with
  | none => true
  | some processed => !processed

end Verif.Pretrained
