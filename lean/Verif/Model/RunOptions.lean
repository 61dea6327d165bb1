import Mathlib.Data.Rat.Defs
import Verif.Model.Py

/-!
# The options of the command line program

How `run` (run/__main__.py:73-296) hands the options of the command line to `newModelAtRandom` and `newTrainPlan` of the chosen model.
A call is described by what Python binds: the names of the parameters after `data` to the options given for them.
-/

namespace Verif.RunOptions

open Verif

/-- The models (run/__main__.py:184-244) -/
inductive Model where
  | ctmBouchard | ctmBohning | stmYvBouchard | stmYvBohning | stmYvBohningFakeOnline | momEm | momGibbs | stmUyvBohning | ldaCvb
  | ldaCvbZero | ldaVb | ldaSvb | ldaGibbs | rtm | mtm | mtm2 | dmr | lro | simLda | simTfIdf
  deriving DecidableEq

/-- The options that `run` passes on (run/__main__.py:144-150, 184-262); the last one stands for the constants `mdl.LDA` and
`mdl.TF_IDF`. -/
inductive Opt where
  | K | P | Q | featVar | latFeatVar | topicVar | latTopicVar | vocabPrior | dtype | iters | queryIters | debug | batchSize
  | rateDelay | forgettingRate | method
  deriving DecidableEq

/-- A call: the arguments by position and by keyword. (run/__main__.py:186 and the like) -/
structure Call where
  pos : List Opt
  kw : List (String × Opt)

/-- Binding the arguments of a call to the parameters, as Python does: `TypeError` for too many arguments, for unknown keywords and
for a parameter given twice. (run/__main__.py:186, 246-258) -/
def bindArgs (params : List String) (c : Call) : Py (List (String × Opt)) :=
  if params.length < c.pos.length then .error .typeError
  else if c.kw.all fun p => (params.drop c.pos.length).contains p.1 then .ok (params.zip c.pos ++ c.kw)
  else .error .typeError

/-- The parameters of `newModelAtRandom` after `data` (ctm.py:80, ctm_bohning.py:94, stm_yv.py:92, stm_yv_bohning.py:87,
stm_yv_bohning_fake_online.py:89, mom_em.py:64, mom_gibbs.py:56, stm_uv_vec_y_bohning.py:122, lda_cvb.py:85, lda_cvb0.py:84,
lda_vb_python.py:67, lda_gibbs.py:68, rtm.py:57, mtm2.py:103, mtm3.py:119, dmr.py:72, lro_vb.py:81, sim_based_rec.py:78) -/
def modelParams : Model → List String
  | .ctmBouchard | .ctmBohning => ["K", "vocabPrior", "dtype"]
  | .stmYvBouchard | .stmYvBohning | .stmYvBohningFakeOnline => ["P", "K", "featVar", "latFeatVar", "vocabPrior", "dtype"]
  | .stmUyvBohning => ["K", "Q", "P", "tv", "ltv", "fv", "lfv", "vocabPrior", "dtype"]
  | .momEm | .momGibbs | .ldaCvb | .ldaCvbZero | .ldaVb | .ldaSvb | .ldaGibbs | .dmr => ["K", "topicPrior", "vocabPrior", "dtype"]
  | .rtm => ["K", "pseudoNegCount", "regularizer", "topicPrior", "vocabPrior", "dtype"]
  | .mtm => ["K", "dtype"]
  | .mtm2 => ["K", "outDocCov", "dtype", "withLdaModel"]
  | .lro => ["K", "noiseVar", "predVar", "topicPrior", "vocabPrior", "ldaModel", "dtype"]
  | .simLda | .simTfIdf => ["K", "method", "topicPrior", "vocabPrior", "ldaModel", "dtype"]

/-- The calls of `newModelAtRandom` (run/__main__.py:184-241) -/
def modelCall : Model → Call
  | .ctmBouchard | .ctmBohning | .ldaVb | .ldaSvb => ⟨[.K, .vocabPrior], [("dtype", .dtype)]⟩
  | .stmYvBouchard | .stmYvBohning | .stmYvBohningFakeOnline =>
    ⟨[.P, .K, .featVar, .latFeatVar, .vocabPrior], [("dtype", .dtype)]⟩
  | .stmUyvBohning =>
    ⟨[], [("K", .K), ("Q", .Q), ("P", .P), ("tv", .topicVar), ("ltv", .latTopicVar), ("fv", .featVar), ("lfv", .latFeatVar),
      ("vocabPrior", .vocabPrior), ("dtype", .dtype)]⟩
  | .simLda | .simTfIdf => ⟨[.K], [("method", .method), ("dtype", .dtype)]⟩
  | .momEm | .momGibbs | .ldaCvb | .ldaCvbZero | .ldaGibbs | .rtm | .mtm | .mtm2 | .dmr | .lro => ⟨[.K], [("dtype", .dtype)]⟩

/-- What the template of the model is made with (run/__main__.py:184-241) -/
def template (m : Model) : Py (List (String × Opt)) := bindArgs (modelParams m) (modelCall m)

/-- The parameters of `newTrainPlan` (ctm.py:149, lda_vb_python.py:146-147, mom_gibbs.py:130, lda_gibbs.py:166, dmr.py:157,
lro_vb.py:137, sim_based_rec.py:133; the others like ctm.py) -/
def planParams : Model → List String
  | .ldaVb | .ldaSvb =>
    ["iterations", "epsilon", "logFrequency", "fastButInaccurate", "debug", "batchSize", "rate_delay", "forgetting_rate", "rate_a",
      "rate_b", "rate_algor"]
  | .momGibbs => ["iterations", "epsilon", "logFrequency", "fastButInaccurate", "debug", "burnIn", "thinning"]
  | .ldaGibbs => ["iterations", "burnIn", "thin", "logFrequency", "fastButInaccurate", "debug"]
  | .dmr => ["iterations", "burnIn", "thin", "weightUpdateInterval", "logFrequency", "fastButInaccurate", "debug"]
  | .lro | .simLda | .simTfIdf =>
    ["iterations", "epsilon", "ldaIterations", "ldaEpilson", "logFrequency", "fastButInaccurate", "debug"]
  | _ => ["iterations", "epsilon", "logFrequency", "fastButInaccurate", "debug"]

/-- The plan for training (run/__main__.py:246-255): the options for gradient descent are used with `LdaSvb` (run/__main__.py:69-70)
and a positive batch size only. -/
def trainPlan (m : Model) (batchSize : Int) : Py (List (String × Opt)) :=
  bindArgs (planParams m)
    (if 0 < batchSize ∧ m = .ldaSvb then
      ⟨[.iters], [("batchSize", .batchSize), ("rate_delay", .rateDelay), ("forgetting_rate", .forgettingRate), ("debug", .debug)]⟩
    else ⟨[.iters], [("debug", .debug)]⟩)

/-- The plan for querying (run/__main__.py:258) -/
def queryPlan (m : Model) : Py (List (String × Opt)) := bindArgs (planParams m) ⟨[.queryIters], [("debug", .debug)]⟩

/-- The value of the option `--debug`: absent, or `bool` of the text given (run/__main__.py:125-126) -/
def debugOption : Option String → Bool
  | none => false
  | some s => s ≠ ""

end Verif.RunOptions
