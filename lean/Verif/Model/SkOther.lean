import Verif.Model.Py
import Verif.Model.SkWrapped

/-!
# The arguments of the wrapped models, and the dictionary for gensim

`WrappedSckitLda.__init__` and `WrappedScikitHdp.__init__` of `model/sklearn/lda_cvb.py` as far as they pass on and keep their
arguments, and `gensim_dictionary` of `model/common.py`.  The base classes belong to scikit-learn and gensim; of them are modelled the
names of the parameters, that the constructors store each under its own name, that `get_params` reads the parameters of the
constructor of the class as attributes, and `Dictionary.from_corpus`.
-/

namespace Verif.SkOther

open Verif

/-! ## The constructors -/

/-- The parameters of `WrappedSckitLda.__init__` (sklearn/lda_cvb.py:591-610) -/
def ldaArgs : List String :=
  ["n_components", "doc_topic_prior", "topic_word_prior", "iterations", "query_iterations", "perp_tolerance", "use_approximations",
    "log_frequency", "batchSize", "rate_delay", "forgetting_rate", "rate_a", "rate_b", "rate_algor", "burn_in", "thin",
    "default_scoring_method", "debug", "seed"]

/-- The parameters of `WrappedScikitHdp.__init__` (sklearn/lda_cvb.py:761-782) -/
def hdpArgs : List String :=
  ["dictionary", "n_components", "doc_topic_prior", "topic_word_prior", "iterations", "query_iterations", "perp_tolerance",
    "use_approximations", "log_frequency", "batchSize", "rate_delay", "forgetting_rate", "rate_a", "rate_b", "rate_algor", "burn_in",
    "thin", "default_scoring_method", "debug", "expected_corpus_size", "seed"]

/-- The parameters of gensim's `HdpTransformer.__init__` (the base class called in sklearn/lda_cvb.py:785-805) -/
def hdpParams : List String :=
  ["id2word", "max_chunks", "max_time", "chunksize", "kappa", "tau", "K", "T", "alpha", "gamma", "eta", "scale", "var_converge", "outputdir",
    "random_state"]

/-- Where the value of a keyword comes from: an argument as it is, an argument inside a call (`RandomState(seed)`, `int(debug)`), or a
constant (sklearn/lda_cvb.py:612-635, 785-805) -/
inductive Source where
  | arg (name : String)
  | call (f name : String)
  | const (s : String)
  deriving DecidableEq

/-- The call of the base class in `WrappedSckitLda.__init__` when `batchSize == 0` (sklearn/lda_cvb.py:612-621) -/
def ldaBatch : List (String × Source) :=
  [("n_components", .arg "n_components"), ("doc_topic_prior", .arg "doc_topic_prior"), ("topic_word_prior", .arg "topic_word_prior"),
    ("learning_method", .const "batch"), ("max_iter", .arg "iterations"), ("random_state", .call "RandomState" "seed"),
    ("verbose", .call "int" "debug"), ("perp_tol", .arg "perp_tolerance")]

/-- The call of the base class in `WrappedSckitLda.__init__` otherwise (sklearn/lda_cvb.py:623-635) -/
def ldaOnline : List (String × Source) :=
  [("n_components", .arg "n_components"), ("doc_topic_prior", .arg "doc_topic_prior"), ("topic_word_prior", .arg "topic_word_prior"),
    ("learning_method", .const "online"), ("learning_decay", .arg "rate_b"), ("learning_offsetfloat", .arg "rate_a"),
    ("batch_size", .arg "batchSize"), ("max_iter", .arg "iterations"), ("random_state", .call "RandomState" "seed"),
    ("verbose", .call "int" "debug"), ("perp_tol", .arg "perp_tolerance")]

/-- The call of the base class in `WrappedScikitHdp.__init__` (sklearn/lda_cvb.py:785-805); the two branches differ in `chunksize`. -/
def hdpCall (batch : Bool) : List (String × Source) :=
  [("id2word", .arg "dictionary"), ("T", .arg "n_components"), ("K", .arg "n_components"), ("max_chunks", .arg "iterations"),
    ("chunksize", .arg (if batch then "expected_corpus_size" else "batchSize")), ("kappa", .arg "forgetting_rate"),
    ("tau", .arg "rate_delay"), ("random_state", .call "RandomState" "seed")]

/-- The two wrapped classes (sklearn/lda_cvb.py:589, 759) -/
inductive Wrapped where
  | lda
  | hdp
  deriving DecidableEq

/-- The parameters of the constructor (sklearn/lda_cvb.py:591-610, 761-782) -/
def Wrapped.args : Wrapped → List String
  | .lda => ldaArgs
  | .hdp => hdpArgs

/-- The parameters of the base class (called in sklearn/lda_cvb.py:612, 623, 785, 796) -/
def Wrapped.params : Wrapped → List String
  | .lda => SkWrapped.ldaParams
  | .hdp => hdpParams

/-- The call of the base class; `batch` says whether `batchSize == 0` (sklearn/lda_cvb.py:611-635, 784-805) -/
def Wrapped.call : Wrapped → Bool → List (String × Source)
  | .lda, true => ldaBatch
  | .lda, false => ldaOnline
  | .hdp, b => hdpCall b

variable {V : Type}

/-- The value of a keyword: `given` are the arguments, `apply` the functions called, `lit` the constants
(sklearn/lda_cvb.py:612-635, 785-805) -/
def Source.eval (given : String → V) (apply : String → V → V) (lit : String → V) : Source → V
  | .arg n => given n
  | .call f n => apply f (given n)
  | .const s => lit s

/-- The attributes of a new object: the parameters of the base class, as given or with their defaults, and what the constructor itself
sets (sklearn/lda_cvb.py:611-637, 784-806).  `none`: there is no such attribute. -/
def construct (c : Wrapped) (batch : Bool) (given : String → V) (apply : String → V → V) (lit dflt : String → V) :
    Py (String → Option V) :=
  match SkWrapped.callWith c.params ((c.call batch).map Prod.fst) with
  | .error e => .error e
  | .ok () => .ok (fun name =>
      if name = "default_scoring_method" then some (given "default_scoring_method")
      else if name = "skip_init" ∧ c = .lda then some (lit "False")
      else match (c.call batch).lookup name with
        | some s => some (s.eval given apply lit)
        | none => if name ∈ c.params then some (dflt name) else none)

/-- `get_params` of scikit-learn's `BaseEstimator`, which both classes inherit (sklearn/lda_cvb.py:589, 759): the parameters of the constructor
are read as attributes.  Missing ones raise an AttributeError. -/
def getParams (c : Wrapped) (obj : String → Option V) : Py (List (String × V)) :=
  c.args.mapM (fun name => match obj name with
    | some v => .ok (name, v)
    | none => .error .attributeError)

/-! ## The dictionary for gensim -/

/-- gensim's `Dictionary`: the tokens with their numbers, in how many documents each number occurs, and the totals (common.py:242-254) -/
structure Dictionary where
  token2id : List (String × Nat)
  dfs : Nat → Nat
  numDocs : Nat
  numPos : Nat

/-- The documents that `per_doc_word_freq_iter` yields (common.py:249-252): the non-zero words of each row with their counts -/
def docFreqs (D T : Nat) (words : Nat → Nat → Nat) : List (List (Nat × Nat)) :=
  (List.range D).map (fun d => ((List.range T).filter (fun w => words d w ≠ 0)).map (fun w => (w, words d w)))

/-- gensim's `Dictionary.from_corpus` without `id2word` (called in common.py:254): the tokens are the numbers up to the greatest one that
occurs. -/
def fromCorpus (docs : List (List (Nat × Nat))) : Dictionary where
  token2id := (List.range ((docs.flatten.map (fun p => p.1 + 1)).foldl max 0)).map (fun i => (toString i, i))
  dfs := fun w => (docs.filter (fun doc => doc.any (fun p => p.1 = w))).length
  numDocs := docs.length
  numPos := (docs.flatten.map Prod.snd).sum

/-- `gensim_dictionary` (common.py:242-254) -/
def gensimDictionary (D T : Nat) (words : Nat → Nat → Nat) : Dictionary := fromCorpus (docFreqs D T words)

end Verif.SkOther
