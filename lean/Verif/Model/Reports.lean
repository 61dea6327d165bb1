import Verif.Model.RunCli

/-!
# The report generator

`run/report_generator.py`: the choice of the model, the patterns which select the files of a report, the templates.
Strings are lists of characters.  `int(…)` is an arbitrary function `toInt`.  Numbers of topics and of latent features are not negative.
Reading the directory and the templates, writing the reports and copying the conversion script (report_generator.py:115, 127-128, 139-140, 230-246)
are not modelled; the names in the directory and the texts of the templates are arguments.
-/

namespace Verif.Reports

open Verif

/-- Text (report_generator.py:17-42) -/
abbrev Str := List Char

/-! ## Options -/

/-- The two bounds (report_generator.py:34-35) -/
inductive Bound
  | bohning | bouchard
  deriving DecidableEq

/-- The names of the bounds (report_generator.py:34-35) -/
def Bound.name : Bound → Str
  | .bohning => "bohning".toList
  | .bouchard => "bouchard".toList

/-- The options (report_generator.py:56-69); an option which is not given is `none`, the data set is tweets then. -/
structure Options where
  model : Option Str
  topics : Option Str
  latents : Option Str
  dataset : Str := "tweets".toList

/-- What is to be generated (report_generator.py:99, 101) -/
inductive Task
  | ctm (bounds : List Bound) (topics : List Int)
  | stm (bounds : List Bound) (topics latents : List Int) (dataset : Str)
  deriving DecidableEq

/-- The bounds and the model (report_generator.py:78-86) -/
def splitModel (m : Str) : List Bound × Str :=
  if Bound.bohning.name.isSuffixOf m then ([.bohning], m.take (m.length - Bound.bohning.name.length))
  else if Bound.bouchard.name.isSuffixOf m then ([.bouchard], m.take (m.length - Bound.bouchard.name.length))
  else ([.bouchard, .bohning], m)

/-- `[int(s) for s in text.split(',')]` (report_generator.py:89, 91) -/
def numbers (toInt : Str → Py Int) (text : Str) : Py (List Int) := (text.splitOn ',').mapM toInt

/-- `run` (report_generator.py:78-103) up to the generation of the reports: without latent sizes `latentSizes` has no value. -/
def plan (toInt : Str → Py Int) (o : Options) : Py Task :=
  match o.model with
  | none => .error .attributeError
  | some m =>
    let bm := splitModel m
    match o.topics with
    | none => .error .attributeError
    | some t => do
      let ks ← numbers toInt t
      let ls ← match o.latents with
        | none => pure none
        | some l => (numbers toInt l).map some
      if bm.2 = "ctm".toList then
        if o.dataset ≠ "tweets".toList then throw .valueError
        return Task.ctm bm.1 ks
      else if bm.2 = "stm_yv".toList then
        match ls with
        | none => throw .unboundLocalError
        | some q => return Task.stm bm.1 ks q o.dataset
      else throw .valueError

/-! ## Patterns -/

/-- The parts of the regular expressions (report_generator.py:22-23): a character, `\d`, or `.` -/
inductive Pat
  | chr (c : Char) | digit | any

/-- A character which fits a part (report_generator.py:22-23); digits of other scripts are left out. -/
def Pat.fits : Pat → Char → Bool
  | .chr c, x => x = c
  | .digit, x => x.isDigit
  | .any, x => x ≠ '\n'

/-- `re.match` (report_generator.py:115): the text begins with the pattern. -/
def reMatch : List Pat → Str → Bool
  | [], _ => true
  | _ :: _, [] => false
  | p :: ps, x :: xs => p.fits x && reMatch ps xs

/-- Text in a pattern which stands for itself (report_generator.py:22-23) -/
def lits (s : Str) : List Pat := s.map Pat.chr

/-- `str(n)` (report_generator.py:177-178, 220-221) -/
def decimal (n : Nat) : Str := Nat.toDigits 10 n

/-- `_fold_\d_\d{8}_\d{4}.pkl` (report_generator.py:22-23) -/
def tailPat : List Pat :=
  lits "_fold_".toList ++ [.digit] ++ lits "_".toList ++ List.replicate 8 .digit ++ lits "_".toList ++ List.replicate 4 .digit ++ [.any] ++ lits "pkl".toList

/-- `CtmOutFileNameFormat % (bound, topicCount)` (report_generator.py:22, 178) -/
def ctmPat (b : Bound) (K : Nat) : List Pat := lits ("ctm_".toList ++ b.name ++ "_k_".toList ++ decimal K) ++ tailPat

/-- `StmOutFileNameFormat % (bound, topicCount, latentSize)` (report_generator.py:23, 221) -/
def stmPat (b : Bound) (K P : Nat) : List Pat :=
  lits ("stm_yv_".toList ++ b.name ++ "_k_".toList ++ decimal K ++ "_p_".toList ++ decimal P) ++ tailPat

/-- `CtmReportFileFormat` in the report directory (report_generator.py:25, 177) -/
def ctmReport (dir : Str) (b : Bound) (K : Nat) : Str := dir ++ '/' :: ("ctm_".toList ++ b.name ++ "_k_".toList ++ decimal K ++ ".ipynb".toList)

/-- `StmReportFileFormat` in the report directory (report_generator.py:26, 220) -/
def stmReport (dir : Str) (b : Bound) (K P : Nat) : Str :=
  dir ++ '/' :: ("stm_yv_".toList ++ b.name ++ "_k_".toList ++ decimal K ++ "_p_".toList ++ decimal P ++ ".ipynb".toList)

/-! ## Templates -/

/-- The first character of an identifier (`string.Template.idpattern`, used in report_generator.py:130) -/
def idStart (c : Char) : Bool := c = '_' || c.isAlpha

/-- The other characters of an identifier (`string.Template.idpattern`, used in report_generator.py:130) -/
def idChar (c : Char) : Bool := c = '_' || c.isAlpha || c.isDigit

/-- `Template.substitute` (report_generator.py:130-136); `fuel` bounds the rounds, the length of the text is enough. -/
def substituteAux (vals : Str → Option Str) : Nat → Str → Py Str
  | _, [] => .ok []
  | 0, _ :: _ => .ok []
  | fuel + 1, c :: s =>
    if c = '$' then
      match s with
      | [] => .error .valueError
      | d :: r =>
        if d = '$' then (substituteAux vals fuel r).map ('$' :: ·)
        else if idStart d then
          match vals (s.takeWhile idChar) with
          | none => .error .keyError
          | some v => (substituteAux vals fuel (s.dropWhile idChar)).map (v ++ ·)
        else if d = '{' then
          match r.takeWhile idChar, r.dropWhile idChar with
          | e :: n, '}' :: q =>
            if idStart e then
              match vals (e :: n) with
              | none => .error .keyError
              | some v => (substituteAux vals fuel q).map (v ++ ·)
            else .error .valueError
          | _, _ => .error .valueError
        else .error .valueError
    else (substituteAux vals fuel s).map (c :: ·)

/-- `Template(text).substitute(…)` (report_generator.py:130-136) -/
def substitute (vals : Str → Option Str) (text : Str) : Py Str := substituteAux vals text.length text

/-! ## Reports -/

/-- The kinds of models (report_generator.py:180, 223) -/
inductive Kind
  | ctm | stm
  deriving DecidableEq

/-- `implNames` (report_generator.py:41-42) -/
def implName : Kind → Bound → Str
  | .ctm, .bouchard => "ctm".toList
  | .ctm, .bohning => "ctm_bohning".toList
  | .stm, .bouchard => "stm_yv".toList
  | .stm, .bohning => "stm_yv_bohning".toList

/-- `bound.capitalize()` (report_generator.py:132) -/
def capitalised : Bound → Str
  | .bohning => "Bohning".toList
  | .bouchard => "Bouchard".toList

/-- The name of the template (report_generator.py:17-19, 125-126) -/
def templateName (kind : Kind) (dataset : Str) : Str :=
  match kind with
  | .ctm => "CtmResultsSheet-Template.ipynb".toList
  | .stm => if dataset = "tweets".toList then "StmResultsSheet-Template.ipynb".toList else "StmResultsSheet-Nips-Template.ipynb".toList

/-- The list of files in the report (report_generator.py:135) -/
def outputFiles (fnames : List Str) : Str :=
  ((fnames.map fun f => "outputPathPrefix + '".toList ++ f ++ "'".toList).intersperse ", ".toList).flatten

/-- The values for the template (report_generator.py:131-136) -/
def values (kind : Kind) (b : Bound) (codeDir outDir : Str) (fnames : List Str) (name : Str) : Option Str :=
  if name = "bound".toList then some (capitalised b)
  else if name = "codePath".toList then some ('\'' :: codeDir ++ "'".toList)
  else if name = "outFilesPrefix".toList then some ('\'' :: outDir ++ "/'".toList)
  else if name = "outputFiles".toList then some (outputFiles fnames)
  else if name = "implName".toList then some (implName kind b)
  else none

/-- `_generate_report` (report_generator.py:107-143): the number of folds and the text of the report, if there is one.  `listing` is the content of the
directory, `templates` the texts of the templates. -/
def generate (templates : Str → Str) (listing : List Str) (codeDir outDir : Str) (kind : Kind) (b : Bound) (dataset : Str) (pat : List Pat) :
    Py (Nat × Option Str) :=
  let fnames := listing.filter (reMatch pat)
  if fnames.length = 0 then .ok (0, none)
  else do
    let text ← substitute (values kind b codeDir outDir fnames) (templates (templateName kind dataset))
    return (fnames.length, some text)

/-- `results[file] = folds` (report_generator.py:181, 224) -/
def setResult (results : List (Str × Nat)) (file : Str) (folds : Nat) : List (Str × Nat) :=
  if results.any (fun p => p.1 = file) then results.map fun p => if p.1 = file then (file, folds) else p else results ++ [(file, folds)]

/-- The loop over the reports: the counts of folds and the texts written, in order. (report_generator.py:174-181, 216-224) -/
def generateAll (gen : List Pat → Bound → Py (Nat × Option Str)) :
    List (Str × List Pat × Bound) → List (Str × Nat) → List (Str × Str) → Py (List (Str × Nat) × List (Str × Str))
  | [], results, written => .ok (results, written)
  | (file, pat, b) :: rest, results, written => do
    let (n, text) ← gen pat b
    generateAll gen rest (setResult results file n) (match text with
      | none => written
      | some t => written ++ [(file, t)])

/-- `generate_reports_ctm` (report_generator.py:145-184); the reports are on tweets. -/
def reportsCtm (templates : Str → Str) (listing : List Str) (codeDir outDir reportDir : Str) (bounds : List Bound) (topics : List Nat) :
    Py (List (Str × Nat) × List (Str × Str)) :=
  generateAll (fun pat b => generate templates listing codeDir outDir .ctm b "tweets".toList pat)
    (bounds.flatMap fun b => topics.map fun K => (ctmReport reportDir b K, ctmPat b K, b)) [] []

/-- `generate_reports_stm_yv` (report_generator.py:186-227) -/
def reportsStm (templates : Str → Str) (listing : List Str) (codeDir outDir reportDir dataset : Str) (bounds : List Bound) (topics latents : List Nat) :
    Py (List (Str × Nat) × List (Str × Str)) :=
  generateAll (fun pat b => generate templates listing codeDir outDir .stm b dataset pat)
    (bounds.flatMap fun b => topics.flatMap fun K => latents.map fun P => (stmReport reportDir b K P, stmPat b K P, b)) [] []

end Verif.Reports
