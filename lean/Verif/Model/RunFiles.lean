import Mathlib.Data.Rat.Floor
import Verif.Model.RunTools

/-!
# The files read and written by the scripts in `run/`

`reshape_results.py` (tables of results), `arxiv_to_aan.py` (arXiv abstracts to ACL metadata) and `text_to_numpy.py` (matrices in text files).
Text is a list of characters, a file the list of its lines, each with its newline character.  Reading a number from text is an arbitrary function, which may
raise a `ValueError`.
-/

namespace Verif.RunFiles

open Verif Verif.RunTools

/-- A line of text. (reshape_results.py:184, arxiv_to_aan.py:95) -/
abbrev Str := List Char

/-- `s.strip(chars)` (reshape_results.py:50-51) -/
def stripBy (p : Char → Bool) (s : Str) : Str := ((s.dropWhile p).reverse.dropWhile p).reverse

/-- `" ".join(parts)` (reshape_results.py:52, arxiv_to_aan.py:70, 72) -/
def unwords (parts : List Str) : Str := (parts.intersperse [' ']).flatten

/-! ## reshape_results.py -/

/-- `Algorithm` (reshape_results.py:39-43) -/
structure Algor where
  name : Str
  topics : Str
  desc : Str
  deriving DecidableEq

/-- `" \t\r\n,"` (reshape_results.py:50) -/
def nameEdge (c : Char) : Bool := c = ' ' || c = '\t' || c = '\r' || c = '\n' || c = ','

/-- `" \t\r\n,K="` (reshape_results.py:51) -/
def topicEdge (c : Char) : Bool := nameEdge c || c = 'K' || c = '='

/-- `Algorithm.from_file_entry` (reshape_results.py:45-53) -/
def fromEntry (line : Str) : Py Algor :=
  match splitOn ' ' line with
  | p0 :: p1 :: rest => .ok ⟨stripBy nameEdge p0, stripBy topicEdge p1, strip (unwords rest)⟩
  | _ => .error .indexError

/-- `Algorithm.__str__` (reshape_results.py:55-56) -/
def Algor.str (a : Algor) : Str := a.name ++ ", K=".toList ++ a.topics ++ [' '] ++ a.desc

/-- `file.readline()` (reshape_results.py:96): the empty text at the end of the file. -/
def readline : List Str → Str × List Str
  | [] => ([], [])
  | l :: ls => (l, ls)

/-- `str.startswith` (reshape_results.py:95-97) -/
def startsWith (p s : Str) : Bool := p.isPrefixOf s

/-- The titles and prefixes (reshape_results.py:16-20) -/
def perplexityPrefix : Str := "Training perplexity is ".toList
/-- (reshape_results.py:17) -/
def precisionTitle : Str := "Precision".toList
/-- (reshape_results.py:18) -/
def recallTitle : Str := "Recall".toList
/-- (reshape_results.py:19) -/
def mrrPrefix : Str := "Mean reciprocal-rank: ".toList
/-- (reshape_results.py:20) -/
def mapPrefix : Str := "Mean average-precision: ".toList

/-- The common shape of `read_perplexity`, `read_mrr` (reshape_results.py:85-101, 162-171): read up to a line with the prefix, give up at a line which
`stop`s or at the end of the file.  The value, the current line and the rest of the file; `-1` stands for a missing value. -/
def readValue (toFloat : Str → Py ℚ) (pre : Str) (stop : Str → Bool) (line : Str) (rest : List Str) : Py (ℚ × Str × List Str) :=
  if line = [] then .ok (-1, line, rest)
  else
    let s := strip line
    if startsWith pre s then do
      let v ← toFloat (s.drop pre.length)
      return (v, readline rest)
    else if stop s then .ok (-1, s, rest)
    else match rest with
      | [] => .ok (-1, [], [])
      | l :: ls => readValue toFloat pre stop l ls

/-- One line of a table (reshape_results.py:140-144): the document count and the scores at the ten cut-offs. -/
def readRow (toFloat : Str → Py ℚ) (line : Str) : Py Row := do
  let cols := splitOn '|' (strip line)
  let vals ← (List.range 11).mapM (fun i => match cols[i + 2]? with
    | none => .error .indexError
    | some c => toFloat (strip c))
  return ⟨vals.getD 0 0, fun m => vals.getD (m + 1) 0⟩

/-- A table: the rows of the seven groups (reshape_results.py:9-12, 62-63). -/
abbrev Table := List Row

/-- `new_group_k_dict` (reshape_results.py:62-63) -/
def newTable : Table := List.replicate 7 ⟨0, fun _ => 0⟩

/-- `read_table` (reshape_results.py:130-150): two headings, five rows, two groups added up. -/
def readTable (toFloat : Str → Py ℚ) (rest : List Str) : Py (Table × Str × List Str) := do
  let rest := (readline (readline rest).2).2
  let (l0, rest) := readline rest
  let r0 ← readRow toFloat l0
  let (l1, rest) := readline rest
  let r1 ← readRow toFloat l1
  let (l2, rest) := readline rest
  let r2 ← readRow toFloat l2
  let (l3, rest) := readline rest
  let r3 ← readRow toFloat l3
  let (l4, rest) := readline rest
  let r4 ← readRow toFloat l4
  let up3 ← rollUp 10 ⟨0, fun _ => 0⟩ [r2, r3, r4]
  let up5 ← rollUp 10 ⟨0, fun _ => 0⟩ [r3, r4]
  return ([r0, r1, up3, r2, up5, r3, r4], readline rest)

/-- `read_precs`, `read_recs` (reshape_results.py:104-127) -/
def readSection (toFloat : Str → Py ℚ) (title : Str) (stop : Str → Bool) (line : Str) (rest : List Str) : Py (Table × Str × List Str) :=
  if line = [] then .ok (newTable, line, rest)
  else
    let s := strip line
    if startsWith title s then readTable toFloat rest
    else if stop s then .ok (newTable, s, rest)
    else match rest with
      | [] => .ok (newTable, [], [])
      | l :: ls => readSection toFloat title stop l ls

/-- `Results` (reshape_results.py:31-37) -/
structure Results where
  precs : Table
  recs : Table
  mrr : ℚ
  map : ℚ
  perp : ℚ

/-- `read_next_result_batch` (reshape_results.py:66-82); `read_map` (173-182) gives up at a blank line. -/
def readBatch (toFloat : Str → Py ℚ) (line : Str) (rest : List Str) : Py (Results × Str × List Str) := do
  let (perp, line, rest) ← readValue toFloat perplexityPrefix (startsWith precisionTitle) line rest
  let (precs, line, rest) ← readSection toFloat precisionTitle (startsWith recallTitle) line rest
  let (recs, line, rest) ← readSection toFloat recallTitle (startsWith mrrPrefix) line rest
  let (mrr, line, rest) ← readValue toFloat mrrPrefix (startsWith mapPrefix) line rest
  let (map, line, rest) ← readValue toFloat mapPrefix (fun s => s.isEmpty) line rest
  return (⟨precs, recs, mrr, map, perp⟩, line, rest)

/-- `stripped == "" or stripped.startswith('#')` (reshape_results.py:195-196) -/
def skippable (line : Str) : Bool := (strip line).isEmpty || startsWith ['#'] (strip line)

/-- `skip_to_non_empty_line(file.readline(), file)` (reshape_results.py:184-199) -/
def skipToLine : List Str → Str × List Str
  | [] => ([], [])
  | l :: ls => if l = [] then ([], ls) else if skippable l then skipToLine ls else (l, ls)

/-- `read_all_results` (reshape_results.py:201-219): the entries in the order they are read (the keys are objects, no two of which are equal).
`fuel` bounds the rounds; the number of lines is enough. -/
def readAll (toFloat : Str → Py ℚ) : Nat → List Str → Py (List (Algor × Results))
  | 0, _ => .ok []
  | fuel + 1, file => do
    let (line, file) := skipToLine file
    if line = [] then return []
    let a ← fromEntry line
    let (line, file) := skipToLine file
    if line = [] then throw .valueError
    let (r, line, file) ← readBatch toFloat line file
    if line = [] then return [(a, r)]
    let more ← readAll toFloat fuel file
    return (a, r) :: more

/-! ## arxiv_to_aan.py -/

/-- `.lower()` (arxiv_to_aan.py:66, 69, 128) on letters without accents. -/
def lower (s : Str) : Str := s.map Char.toLower

/-- The endings which belong to the name before them (arxiv_to_aan.py:66) -/
def suffixes : List Str := ["i", "ii", "iii", "jr", "jr.", "sr", "sr.", "phd", "phd."].map String.toList

/-- The particles which belong to the name after them (arxiv_to_aan.py:69) -/
def particles : List Str := ["mc", "mac", "o", "d'", "de", "del", "della", "di", "van", "von"].map String.toList

/-- `bibtex_to_acl_author` (arxiv_to_aan.py:50-72); the lists are not empty because `split` never returns an empty one. -/
def aclAuthor (bib : Str) : Str :=
  let parts := splitOn ' ' (strip bib)
  if parts.length = 1 then
    let ps := splitOn '.' (parts.headD [])
    if ps.length = 1 then ps.headD []
    else ps.getLastD [] ++ ", ".toList ++ (ps.dropLast.intersperse ". ".toList).flatten ++ ['.']
  else if parts.length = 2 then parts.getLastD [] ++ ", ".toList ++ parts.headD []
  else
    let n := parts.length
    let parts := if lower (parts.getLastD []) ∈ suffixes then
        parts.take (n - 2) ++ [parts.getD (n - 2) [] ++ ' ' :: parts.getD (n - 1) []]
      else parts
    let n := parts.length
    if 3 ≤ n ∧ lower (parts.getD (n - 2) []) ∈ particles then
      parts.getD (n - 2) [] ++ ' ' :: parts.getD (n - 1) [] ++ ", ".toList ++ unwords (parts.take (n - 2))
    else parts.getD (n - 1) [] ++ ", ".toList ++ unwords (parts.take (n - 1))

/-- `stripBraces` (arxiv_to_aan.py:83-84) -/
def stripBraces (s : Str) : Str := s.map fun c => if c = '{' then '(' else if c = '}' then ')' else c

/-- `PaperMetadata` (arxiv_to_aan.py:12-19) -/
structure Paper where
  id : Int
  title : Option Str
  authors : List Str
  venue : Option Str
  year : Int
  deriving DecidableEq

/-- `complete_except_for_venue` (arxiv_to_aan.py:32-40) -/
def Paper.nearlyComplete (p : Paper) : Bool := decide (0 < p.id) && p.title.isSome && !p.authors.isEmpty && decide (0 < p.year)

/-- `complete` (arxiv_to_aan.py:21-30) -/
def Paper.complete (p : Paper) : Bool := p.nearlyComplete && p.venue.isSome

/-- The line with the authors (arxiv_to_aan.py:88) -/
def authorLine (authors : List Str) : Str :=
  "author={".toList ++ stripBraces ((authors.map aclAuthor).intersperse "; ".toList).flatten ++ "}\n".toList

/-- `Dashes.match(line)` (arxiv_to_aan.py:8, 116), of a stripped line -/
def dashes (s : Str) : Bool := decide (15 ≤ s.length) && s.all (· = '-')

/-- `is_skippable` (arxiv_to_aan.py:115-116) -/
def isSkippable (s : Str) : Bool := s.isEmpty || dashes s

/-- `StartsWithWhiteSpace.match` (arxiv_to_aan.py:9): two or more white space characters and then another one. -/
def continues (line : Str) : Bool := decide (2 ≤ (line.takeWhile isSpace).length) && !(line.dropWhile isSpace).isEmpty

/-- The loop which skips empty lines (arxiv_to_aan.py:119-121): the first line which is not skipped, stripped, or `none`. -/
def skipLines : List Str → Option Str × List Str
  | [] => (none, [])
  | l :: ls => if isSkippable (strip l) then skipLines ls else (some (strip l), ls)

/-- The loop over the following lines (arxiv_to_aan.py:131-134) -/
def moreLines (value : Str) : List Str → Str × List Str
  | [] => (value, [])
  | l :: ls => if l ≠ "\\\\".toList ∧ continues l then moreLines (value ++ ' ' :: strip l) ls else (value, l :: ls)

/-- `read_next_key_value` (arxiv_to_aan.py:95-136): a line without a colon is an `IndexError`. -/
def nextKeyValue (lines : List Str) : Py (Option (Str × Str) × List Str) :=
  match skipLines lines with
  | (none, ls) => .ok (none, ls)
  | (some line, ls) =>
    if line = "\\\\".toList then .ok (none, ls)
    else if ':' ∈ line then
      let key := lower (strip (line.takeWhile (· ≠ ':')))
      let r := moreLines (strip ((line.dropWhile (· ≠ ':')).drop 1)) ls
      .ok (some (key, r.1), r.2)
    else .error .indexError

/-- One key (arxiv_to_aan.py:191-197); `split` is the splitting at the pattern `BibTextNameDelimiter` (10), not modelled. -/
def setField (split : Str → List Str) (p : Paper) (key value : Str) : Paper :=
  if key = "author".toList ∨ key = "authors".toList then
    { p with authors := ((split (eliminateParentheses value)).map strip).filter (fun a => !a.isEmpty) }
  else if key = "title".toList then { p with title := some value }
  else if key = "journal-ref".toList then { p with venue := some ((splitOn ' ' (strip value)).headD []) }
  else p

/-- The loop of `read_paper_metadata` (arxiv_to_aan.py:186-197); `fuel` bounds the rounds, the number of lines is enough. -/
def readFields (split : Str → List Str) : Nat → Paper → List Str → Py Paper
  | 0, p, _ => .ok p
  | fuel + 1, p, lines =>
    if p.complete then .ok p
    else do
      let (kv, rest) ← nextKeyValue lines
      match kv with
      | none => return p
      | some (k, v) => readFields split fuel (setField split p k v) rest

/-- The four digit year (arxiv_to_aan.py:175-176) -/
def fullYear (yy : Int) : Int := if 90 ≤ yy then yy + 1900 else yy + 2000

/-- `read_paper_metadata` (arxiv_to_aan.py:162-202): `toInt` reads a number. -/
def readPaper (toInt : Str → Py Int) (split : Str → List Str) (fname : Str) (lines : List Str) : Py Paper := do
  let id ← toInt (fname.take (fname.length - 4))
  let yy ← toInt (fname.take 2)
  let lines := lines.drop 2
  let p ← readFields split (lines.length + 1) ⟨id, none, [], none, fullYear yy⟩ lines
  if p.nearlyComplete then return p else throw .valueError

/-- `run_on_dirs` (arxiv_to_aan.py:217-231): the papers written before the run ends and the exception which ends it, if any. -/
def runOnDirs (read : Str → Py Paper) : List Str → List Paper × Option PyErr
  | [] => ([], none)
  | f :: fs =>
    if f.drop (f.length - 4) ≠ ".abs".toList then runOnDirs read fs
    else match read f with
      | .ok p => let r := runOnDirs read fs; (p :: r.1, r.2)
      | .error .valueError => runOnDirs read fs
      | .error e => ([], some e)

/-! ## text_to_numpy.py -/

/-- How a conversion ends without a file: `die` (text_to_numpy.py:14-16) or an exception. -/
inductive Failure where
  | die
  | raised (e : PyErr)
  deriving DecidableEq

/-- A value stored in the matrix (text_to_numpy.py:22, 49): of 32 bit integers the fraction is cut off.  Rounding and overflow are not modelled. -/
def store (floating : Bool) (x : ℚ) : ℚ := if floating then x else if 0 ≤ x then (⌊x⌋ : ℚ) else (⌈x⌉ : ℚ)

/-- The numbers of one line (text_to_numpy.py:28-31, 55-58): `words` is `line.split()`, `toFloat` is `float`. -/
def lineNumbers (words : Str → List Str) (toFloat : Str → Py ℚ) (line : Str) : Except Failure (List ℚ) :=
  match (words line).mapM toFloat with
  | .ok v => .ok v
  | .error _ => .error .die

/-- One line of `save_as_numpy` (text_to_numpy.py:54-61): a line with one value fills the row, a line with any other number of values than the first is a
`ValueError`, a line too many an `IndexError`. -/
def denseRow (rowCount cols : Nat) (floating : Bool) (row : Nat) (vals : List ℚ) : Except Failure (List ℚ) :=
  if rowCount ≤ row then .error (.raised .indexError)
  else if vals.length = cols then .ok (vals.map (store floating))
  else if vals.length = 1 then .ok (List.replicate cols (store floating (vals.headD 0)))
  else .error (.raised .valueError)

/-- `save_as_numpy` (text_to_numpy.py:45-68): the matrix written, as a list of rows. -/
def saveDense (words : Str → List Str) (toFloat : Str → Py ℚ) (lines : List Str) (rowCount : Nat) : Except Failure (List (List ℚ)) := do
  let first := lines.headD []
  let rows ← lines.zipIdx.mapM fun p =>
    (lineNumbers words toFloat p.1).bind (denseRow rowCount (words first).length (decide ('.' ∈ first)) p.2)
  if lines.length ≠ rowCount then throw Failure.die
  return rows

/-- One line of `save_as_numpy_sparse` (text_to_numpy.py:27-37): only positive values are stored, at their columns; positive values beyond the last row or
column are `IndexError`s. -/
def sparseRow (rowCount cols : Nat) (floating : Bool) (row : Nat) (vals : List ℚ) : Except Failure (List ℚ) :=
  if (rowCount ≤ row ∧ vals.any (fun v => decide (0 < v))) ∨ (vals.drop cols).any (fun v => decide (0 < v)) then .error (.raised .indexError)
  else .ok ((List.range cols).map fun c => if 0 < vals.getD c 0 then store floating (vals.getD c 0) else 0)

/-- `save_as_numpy_sparse` (text_to_numpy.py:18-43) -/
def saveSparse (words : Str → List Str) (toFloat : Str → Py ℚ) (lines : List Str) (rowCount : Nat) : Except Failure (List (List ℚ)) := do
  let first := lines.headD []
  let rows ← lines.zipIdx.mapM fun p =>
    (lineNumbers words toFloat p.1).bind (sparseRow rowCount (words first).length (decide ('.' ∈ first)) p.2)
  if lines.length ≠ rowCount then throw Failure.die
  return rows

end Verif.RunFiles
