import Verif.Model.RunMain
import Verif.Model.DataSetOps

/-!
# The command line program

`run/__main__.py`: reading of options, file names of saved models, the hashtag scores, the evaluation by features, and the start of `run`.
Strings are lists of characters.  `int(…)` is an arbitrary function `toInt`, `str(…)` of a number an arbitrary function `str`.
-/

namespace Verif.RunCli

open Verif

/-! ## Options -/

/-- The element types that can be asked for (run/__main__.py:363-379) -/
inductive DType
  | float64 | float32 | int32 | uint16
  deriving DecidableEq

/-- `parse_dtype` (run/__main__.py:363-379) -/
def parseDtype (s : List Char) : Py DType :=
  if s ∈ [['f', '8'], ['F', '8'], ['f', '6', '4'], ['F', '6', '4']] then .ok .float64
  else if s ∈ [['f', '4'], ['F', '4'], ['f', '3', '2'], ['F', '3', '2']] then .ok .float32
  else if s ∈ [['i', '4'], ['I', '4'], ['i', '3', '2'], ['I', '3', '2']] then .ok .int32
  else if s ∈ [['u', '2'], ['U', '2'], ['u', '1', '6'], ['U', '1', '6']] then .ok .uint16
  else .error .valueError

/-- `s.strip()` (run/__main__.py:356), for white space of the ASCII range -/
def strip (s : List Char) : List Char := ((s.dropWhile Char.isWhitespace).reverse.dropWhile Char.isWhitespace).reverse

/-- `parse_dtypes` (run/__main__.py:352-360) -/
def parseDtypes (s : List Char) : Py (DType × DType) :=
  match (s.splitOn ':').map strip with
  | [] => .error .indexError
  | [a] => do
    let x ← parseDtype a
    let y ← parseDtype a
    return (x, y)
  | a :: b :: _ => do
    let x ← parseDtype a
    let y ← parseDtype b
    return (x, y)

/-- One entry of the feature mask (run/__main__.py:1246-1247) -/
def parsePart (toInt : List Char → Py Int) (part : List Char) : Py (List Char × Int) :=
  match part.splitOn ':' with
  | label :: number :: _ => do
    let i ← toInt number
    return (label, i)
  | _ => .error .indexError

/-- `parse_features_mask` (run/__main__.py:1241-1250) -/
def parseFeaturesMask (toInt : List Char → Py Int) : Option (List Char) → Py (Option (List (List Char × Int)))
  | none => .ok none
  | some s => do
    let l ← (s.splitOn ',').mapM (parsePart toInt)
    return some l

/-! ## File names -/

/-- `modelName.replace('/','_')` and `.replace('-','_')` (run/__main__.py:1225-1226) -/
def cleanName (name : List Char) : List Char := name.map fun c => if c = '/' ∨ c = '-' then '_' else c

/-- `newModelFile` (run/__main__.py:1224-1239): `stamp` is the time in minutes. -/
def newModelFile (str : Nat → List Char) (name : List Char) (K : Nat) (P fold : Option Nat) (dir stamp : List Char) : List Char :=
  let cfg := ['k', '_'] ++ str K ++ (match P with
    | none => []
    | some p => ['_', 'p', '_'] ++ str p)
  let foldDesc := match fold with
    | none => []
    | some f => ['f', 'o', 'l', 'd', '_'] ++ str f ++ ['_']
  dir ++ ['/'] ++ cleanName name ++ ['_'] ++ cfg ++ ['_'] ++ foldDesc ++ stamp ++ ['.', 'p', 'k', 'l']

/-- The file that `save_model` writes (run/__main__.py:760-763): models without `P` are given `P = 0`. -/
def saveFile (str : Nat → List Char) (name : List Char) (K : Nat) (P : Option Nat) (fold : Nat) (dir stamp : List Char) : List Char :=
  newModelFile str name K (some (P.getD 0)) (some fold) dir stamp

/-- The names of the models that differ from the name of the module that trains them
(`MODEL_NAME` in lda_cvb.py:44, lda_cvb0.py:46, mom_em.py:26, mom_gibbs.py:19, stm_yv_bohning.py:44, stm_uv_vecy_bohning.py:43) -/
def modelName : String → List Char
  | "lda_cvb" => "lda/vb/c0".toList
  | "lda_cvb0" => "lda/vb/c0".toList
  | "mom_em" => "mom/em".toList
  | "mom_gibbs" => "mom/em".toList
  | "stm_yv_bohning" => "stm-yv/bohning".toList
  | "stm_uv_vecy_bohning" => "stm-yv/bohning".toList
  | m => m.toList

/-! ## Hashtag scores -/

/-- Precision and recall at `m` of one hashtag (run/__main__.py:539-551): `order` is `h_probs.argsort()`, `check d` is the entry of
`query_data_check_words` for document `d` of `D`. -/
def hashtagScores (D : Nat) (order : List Nat) (check : Nat → ℚ) (m : Nat) : ℚ × ℚ :=
  let hCount := ((List.range D).map check).sum
  let topM := (order.drop (order.length - m)).reverse
  let matched := (topM.map check).sum
  let recDenom := min (m : ℚ) hCount
  (matched / m, matched / max recDenom 1)

/-- What the hashtag evaluation computes for a held-out part `words` (run/__main__.py:517-519, 536-551): some of the tags are moved out of the
words, `probs` is what training and querying make of the rest. -/
def hashtagEval (tags : List Nat) (prop : ℚ) (rand : Nat → ℚ) (probs : Csr ℚ → Nat → List Nat) (words : Csr ℚ) (tag m : Nat) : ℚ × ℚ :=
  let parts := RunMain.softSplit words tags rand prop
  hashtagScores words.rows (probs parts.1 tag) (fun d => parts.2.entry d tag) m

/-- The proportion with which `run` calls the hashtag evaluation (run/__main__.py:266) -/
def hashtagProp : ℚ := 0

/-! ## Evaluation by features -/

/-- The splits of `outsample_lro_style_prec_rec` (run/__main__.py:1065-1070): one for each feature left in the mask; training and evaluation are
assumed to succeed. -/
def outsample {κ : Type} (ds : DataSet κ) : List (List Char × Nat) → Py (List (List Char × DataSet κ × DataSet κ × List Nat))
  | [] => .ok []
  | (label, i) :: rest => do
    let r ← ds.splitOnFeature (i :: rest.map Prod.snd)
    let rs ← outsample ds rest
    return (label, r) :: rs

/-! ## The start of the program -/

/-- A call with keyword arguments: Python refuses unknown ones. (run/__main__.py:168) -/
def callWith (params given : List String) : Py Unit := if ∀ k ∈ given, k ∈ params then .ok () else .error .typeError

/-- The parameters of `DataSet.prune_and_shuffle` (common.py:326) -/
def pruneParams : List String := ["min_unique_word_count", "min_link_count", "seed"]

/-- `run` (run/__main__.py:73-296) after the parsing of the arguments: `load` reads the files, `evaluate` is all that follows the pruning. -/
def run {α β : Type} (toInt : List Char → Py Int) (mask : Option (List Char)) (dtype : List Char) (load : Py α) (evaluate : α → DType → Py β) :
    Py β := do
  let _ ← parseFeaturesMask toInt mask
  let dt ← parseDtypes dtype
  let data ← load
  callWith pruneParams ["min_doc_len", "min_link_count"]
  evaluate data dt.2

end Verif.RunCli
