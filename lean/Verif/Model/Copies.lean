import Verif.Model.Py
import Mathlib.Data.Rat.Defs

/-!
# Copies of models and datasets

Arrays live in a heap, the fields of a model (a named tuple) hold numbers, `None` or references to arrays.  A whole nested model or a list of words counts
as one array here.
-/

namespace Verif.Copies

open Verif

/-- What a field holds: `None`, a number, text or type (all immutable), or an array (ctm.py:65-68) -/
inductive Val where
  | none
  | num (q : ℚ)
  | ref (loc : Nat)
  deriving DecidableEq

/-- The arrays in memory (ctm.py:78): those below `next` have been made. -/
structure Heap where
  next : Nat
  arr : Nat → List ℚ

/-- A model: its fields by name (ctm.py:65-68) -/
abbrev State := List (String × Val)

/-- `model.name` (ctm.py:78) -/
def getField (s : State) (name : String) : Py Val :=
  match s.lookup name with
  | some v => .ok v
  | none => .error .attributeError

/-- `x.copy()` (ctm.py:78): numbers and `None` have no such method. -/
def copyVal (h : Heap) : Val → Py (Heap × Val)
  | .ref l => .ok (⟨h.next + 1, fun i => if i = h.next then h.arr l else h.arr i⟩, .ref h.next)
  | _ => .error .attributeError

/-- How `newModelFromExisting` fills a field: with the value itself; with a copy; or with `None` if the field is `None` and otherwise with a copy of the
field `src` (lda_cvb.py:72-83, where `src` is another field for the variances). -/
inductive Rule where
  | share
  | copy
  | copyOr (src : String)
  deriving DecidableEq

/-- One field (lda_cvb.py:72-83) -/
def copyField (s : State) (h : Heap) (name : String) : Rule → Py (Heap × Val)
  | .share => do return (h, ← getField s name)
  | .copy => do copyVal h (← getField s name)
  | .copyOr src => do
    match ← getField s name with
    | .none => return (h, .none)
    | _ => copyVal h (← getField s src)

/-- `newModelFromExisting` of a module (ctm.py:74-78, lda_cvb.py:68-83): the fields in order. -/
def copyState (s : State) : List (String × Rule) → Heap → Py (Heap × State)
  | [], h => .ok (h, [])
  | (n, r) :: rs, h => do
    let (h1, v) ← copyField s h n r
    let (h2, vs) ← copyState s rs h1
    return (h2, (n, v) :: vs)

/-- ctm.py:74-78 -/
def ctmRules : List (String × Rule) :=
  [("K", .share), ("topicMean", .copy), ("sigT", .copy), ("vocab", .copy), ("vocabPrior", .share), ("dtype", .share), ("name", .share)]

/-- ctm_bohning.py:88-92, ctm_bohning_fast.py:88-92 -/
def bohningRules : List (String × Rule) :=
  [("K", .share), ("topicMean", .copy), ("sigT", .copy), ("vocab", .copy), ("vocabPrior", .share), ("A", .copy), ("dtype", .share), ("name", .share)]

/-- dmr.py:111-126 -/
def dmrRules : List (String × Rule) :=
  [("K", .share), ("T", .share), ("weights", .copy), ("topicPrior", .copyOr "topicPrior"), ("vocabPrior", .share), ("n_dk_samples", .copyOr "n_dk_samples"),
    ("topicSum", .copyOr "topicSum"), ("vocabSum", .copyOr "vocabSum"), ("numSamples", .share), ("dtype", .share), ("name", .share)]

/-- lda_cvb0.py:70-82 -/
def cvb0Rules : List (String × Rule) :=
  [("K", .share), ("topicPrior", .copyOr "topicPrior"), ("vocabPrior", .share), ("n_dk", .copyOr "n_dk"), ("n_kt", .copyOr "n_kt"), ("n_k", .copyOr "n_k"),
    ("dtype", .share), ("name", .share)]

/-- lda_cvb.py:68-83: the variances are copied from the counts. -/
def cvbRules : List (String × Rule) :=
  [("K", .share), ("topicPrior", .copyOr "topicPrior"), ("vocabPrior", .share), ("n_dk", .copyOr "n_dk"), ("n_kt", .copyOr "n_kt"), ("n_k", .copyOr "n_k"),
    ("v_dk", .copyOr "n_dk"), ("v_kt", .copyOr "n_kt"), ("v_k", .copyOr "n_k"), ("dtype", .share), ("name", .share)]

/-- lda_gibbs.py:107-121 -/
def gibbsRules : List (String × Rule) :=
  [("K", .share), ("T", .share), ("topicPrior", .copyOr "topicPrior"), ("vocabPrior", .share), ("topicSum", .copyOr "topicSum"),
    ("vocabSum", .copyOr "vocabSum"), ("numSamples", .share), ("processed", .share), ("dtype", .share), ("name", .share)]

/-- lda_vb.py:70-80, lda_svb.py:70-80, self_lda_vb_python.py:41-52 -/
def vbRules : List (String × Rule) :=
  [("K", .share), ("topicPrior", .copy), ("vocabPrior", .share), ("wordDists", .copyOr "wordDists"), ("dtype", .share), ("name", .share)]

/-- lda_vb_python.py:53-65 -/
def vbPythonRules : List (String × Rule) :=
  [("K", .share), ("topicPrior", .copy), ("vocabPrior", .share), ("wordDists", .copyOr "wordDists"), ("processed", .share), ("dtype", .share),
    ("name", .share)]

/-- mom_em.py:49-62 -/
def momEmRules : List (String × Rule) :=
  [("K", .share), ("topicPrior", .share), ("vocabPrior", .share), ("wordDistParam", .copyOr "wordDistParam"),
    ("corpusTopicDistParam", .copyOr "corpusTopicDistParam"), ("processed", .share), ("dtype", .share), ("name", .share)]

/-- mom_gibbs.py:42-54 -/
def momGibbsRules : List (String × Rule) :=
  [("K", .share), ("topicPrior", .share), ("vocabPrior", .share), ("wordDists", .copyOr "wordDists"), ("processed", .share), ("dtype", .share),
    ("name", .share)]

/-- mtm.py:42-55: the covariance is not copied. -/
def mtmRules : List (String × Rule) :=
  [("K", .share), ("Q", .share), ("topicPrior", .copy), ("vocabPrior", .share), ("wordDists", .copyOr "wordDists"), ("topicCov", .share), ("dtype", .share),
    ("name", .share)]

/-- mtm2.py:89-101 -/
def mtm2Rules : List (String × Rule) :=
  [("K", .share), ("topicMean", .copy), ("topicCov", .copy), ("vocab", .copy), ("A", .copy), ("dtype", .share), ("name", .share)]

/-- mtm3.py:102-117, without another model for the words -/
def mtm3Rules : List (String × Rule) :=
  [("K", .share), ("topicMean", .copy), ("topicCov", .copy), ("outDocCov", .share), ("vocab", .copy), ("A", .copy), ("trained", .share), ("dtype", .share),
    ("name", .share)]

/-- rtm.py:41-55 -/
def rtmRules : List (String × Rule) :=
  [("K", .share), ("topicPrior", .copy), ("vocabPrior", .share), ("wordDists", .copyOr "wordDists"), ("weights", .copyOr "weights"),
    ("pseudoNegCount", .share), ("regularizer", .share), ("dtype", .share), ("name", .share)]

/-- stm_uv_vec_y_bohning.py:98-120 -/
def vecYRules : List (String × Rule) :=
  [("K", .share), ("A", .copyOr "A"), ("U", .copyOr "U"), ("Y", .copyOr "Y"), ("V", .copyOr "V"), ("covA", .copyOr "covA"), ("tv", .share), ("ltv", .share),
    ("fv", .share), ("lfv", .share), ("vocab", .copyOr "vocab"), ("vocabPrior", .share), ("dtype", .share), ("name", .share)]

/-- stm_yv.py:73-90 -/
def stmRules : List (String × Rule) :=
  [("F", .share), ("P", .share), ("K", .share), ("A", .copyOr "A"), ("R_A", .copyOr "R_A"), ("fv", .share), ("Y", .copyOr "Y"), ("R_Y", .copyOr "R_Y"),
    ("lfv", .share), ("V", .copyOr "V"), ("sigT", .copyOr "sigT"), ("vocab", .copyOr "vocab"), ("vocabPrior", .share), ("dtype", .share), ("name", .share)]

/-- stm_yv_bohning.py:71-85, stm_uv_vecy_bohning.py:70-84, stm_yv_bohning_fake_online.py:73-87 -/
def stmBohningRules : List (String × Rule) :=
  [("F", .share), ("P", .share), ("K", .share), ("A", .copyOr "A"), ("R_A", .copyOr "R_A"), ("fv", .share), ("Y", .copyOr "Y"), ("R_Y", .copyOr "R_Y"),
    ("lfv", .share), ("V", .copyOr "V"), ("sigT", .copyOr "sigT"), ("vocab", .copyOr "vocab"), ("vocabPrior", .share), ("Ab", .copyOr "Ab"),
    ("dtype", .share), ("name", .share)]

/-- `TopicModel.__init__` (sklearn/lda_cvb.py:162-218): `kind` is the only parameter without a default; the other settings are not modelled. -/
def construct (args : State) : Py State :=
  match args.lookup "kind" with
  | some k => .ok (("kind", k) :: args)
  | none => .error .typeError

/-- `TopicModel.copy` (sklearn/lda_cvb.py:228-237): begins with `TopicModel()`; what would follow is not modelled. -/
def wrapperCopy (_ : State) : Py State := construct []

/-! ## Datasets -/

/-- A dataset (common.py:51-55, 64-67): the fields hold references; the words are always there. -/
structure Data where
  words : Nat
  feats : Val
  links : Val
  wordDict : Val
  categories : Val
  order : Val
  deriving DecidableEq

/-- `copy` (common.py:144-161): a deep copy calls `self._words.copy(deep=True)`, but `copy` of a scipy matrix has no such parameter.  The assertions of the
constructor hold as they held for the original. -/
def dataCopy (d : Data) (deep : Bool) : Py Data := if deep then .error .typeError else .ok d

/-- `copy_with_changes` (common.py:134-142).  The assertions on the numbers of rows are not modelled. -/
def copyWithChanges (d : Data) (words : Option Nat) (feats links wordDict categories : Val) : Data :=
  let pick := fun (new old : Val) => if new = .none then old else new
  ⟨words.getD d.words, pick feats d.feats, pick links d.links, pick wordDict d.wordDict, pick categories d.categories, d.order⟩

/-- `astype` of a matrix (common.py:271-273): a new array with the numbers `f` makes of the old. -/
def castVal (h : Heap) (f : ℚ → ℚ) : Val → Heap × Val
  | .ref l => (⟨h.next + 1, fun i => if i = h.next then (h.arr l).map f else h.arr i⟩, .ref h.next)
  | v => (h, v)

/-- `convert_to_dtypes` (common.py:267-273) -/
def convertToDtypes (h : Heap) (d : Data) (fw ff fl : ℚ → ℚ) : Heap × Data :=
  let h1 : Heap := ⟨h.next + 1, fun i => if i = h.next then (h.arr d.words).map fw else h.arr i⟩
  let (h2, feats) := castVal h1 ff d.feats
  let (h3, links) := castVal h2 fl d.links
  (h3, { d with words := h.next, feats := feats, links := links })

/-- `convert_to_binary_link_matrix` (common.py:318-323): the stored numbers are overwritten where they are. -/
def convertToBinary (h : Heap) (d : Data) : Py Heap :=
  match d.links with
  | .ref l => .ok { h with arr := fun i => if i = l then (h.arr l).map (fun _ => 1) else h.arr i }
  | _ => .error .assertionError

/-- `convert_to_undirected_graph` (common.py:309-315): a new matrix, `add` of the old one. -/
def convertToUndirected (h : Heap) (d : Data) (add : List ℚ → List ℚ) : Py (Heap × Data) :=
  match d.links with
  | .ref l => .ok (⟨h.next + 1, fun i => if i = h.next then add (h.arr l) else h.arr i⟩, { d with links := .ref h.next })
  | _ => .error .assertionError

end Verif.Copies
