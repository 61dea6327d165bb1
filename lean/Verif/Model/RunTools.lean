import Mathlib.Data.Rat.Defs
import Mathlib.Data.List.Lex
import Mathlib.Data.List.Sort
import Mathlib.Data.List.Dedup
import Mathlib.Order.Defs.LinearOrder
import Verif.Model.Py

/-!
# Model of the small tools in `sidetopics/run`

`selectusers.py`, `arxiv_to_aan.py` (parentheses), `reshape_results.py` (quoting, roll-up) and
`arxiv_author_ids.py`.  Text is a list of characters.  Dictionaries are association lists in
insertion order.
-/

namespace Verif.RunTools

open Verif

/-! ## selectusers.py -/

/-- `.strip()`: white space is taken to be space, tab, newline, carriage return, vertical tab, form
feed (Python also strips further Unicode spaces). (used in selectusers.py:27, arxiv_author_ids.py:14, 17) -/
def isSpace (c : Char) : Bool := c = ' ' || c = '\t' || c = '\n' || c = '\r' || c = '\x0b' || c = '\x0c'

/-- `.strip()` (selectusers.py:27, arxiv_author_ids.py:14, 17) -/
def strip (s : List Char) : List Char := ((s.dropWhile isSpace).reverse.dropWhile isSpace).reverse

/-- The user name of a file name (selectusers.py:24-27): what precedes the last dot, if there is a
dot, without surrounding white space. -/
def userName (filename : List Char) : List Char :=
  strip (if '.' ∈ filename then
    ((filename.reverse.dropWhile (fun c => c ≠ '.')).drop 1).reverse
  else filename)

/-- One parsed line (selectusers.py:23): count, group, file name.  Lines which do not
split into three fields or whose count is no integer are `ValueError`s (not modelled). -/
abbrev Line := Int × List Char × List Char

/-- `group[username] = / += int(count)` (selectusers.py:35-38): a new key goes to the end. -/
def addCount {κ : Type} [DecidableEq κ] (d : List (κ × Int)) (u : κ) (c : Int) : List (κ × Int) :=
  if d.any (fun p => p.1 = u) then d.map (fun p => if p.1 = u then (p.1, p.2 + c) else p)
  else d ++ [(u, c)]

/-- The dictionary `counts` of `read_counts`: users with their counts, by group (selectusers.py:20-38) -/
abbrev UserCounts := List (List Char × List (List Char × Int))

/-- One round of the loop over lines (selectusers.py:22-38). -/
def readLine (counts : UserCounts) (l : Line) : UserCounts :=
  let (count, group, filename) := l
  let user := userName filename
  if counts.any (fun p => p.1 = group) then
    counts.map (fun p => if p.1 = group then (p.1, addCount p.2 user count) else p)
  else counts ++ [(group, addCount [] user count)]

/-- `read_counts` (selectusers.py:13-50). -/
def readCounts (lines : List Line) (lo hi : Int) : UserCounts :=
  (lines.foldl readLine []).map (fun p => (p.1, p.2.filter (fun u => lo < u.2 ∧ u.2 < hi)))

/-- The variables of the balancing loop (selectusers.py:81-96): groups are numbered in dictionary
order. -/
structure Balance where
  counts : Nat → Nat
  contribs : Nat → Nat
  candidates : List Nat
  assigned : Nat

/-- The `for group in candidates` loop (selectusers.py:86-96) from list position `i`.
The list shrinks while it is iterated over; Python's iterator keeps the position.  `fuel` bounds the rounds. -/
def balancePass (groupTarget : Nat) : Nat → Nat → Balance → Balance
  | 0, _, s => s
  | fuel + 1, i, s =>
    match s.candidates[i]? with
    | none => s
    | some g =>
      let give := if s.counts g < groupTarget then s.counts g else groupTarget
      let left := s.counts g - give
      let s' : Balance := {
        counts := fun h => if h = g then left else s.counts h
        contribs := fun h => if h = g then s.contribs h + give else s.contribs h
        candidates := if left = 0 then s.candidates.erase g else s.candidates
        assigned := s.assigned + give }
      balancePass groupTarget fuel (i + 1) s'

/-- The `while total_assigned < target` loop (selectusers.py:84-96).  `none`: fuel used up. -/
def balanceLoop (target : Nat) : Nat → Balance → Option (Py Balance)
  | 0, _ => none
  | fuel + 1, s =>
    if s.assigned < target then
      if s.candidates.length = 0 then some (.error .zeroDivisionError)
      else
        let groupTarget := 1 + (target - s.assigned) / s.candidates.length
        balanceLoop target fuel (balancePass groupTarget s.candidates.length 0 s)
    else some (.ok s)

/-- `min_count` (selectusers.py:64-72): starts at 3000000000. -/
def minCount (totals : List Nat) : Nat := totals.foldl (fun m t => if t < m then t else m) 3000000000

/-- `select_group_contribs` (selectusers.py:53-98), for the list of the groups' totals (counts are natural
numbers).  The contributions of groups `0 … n-1`. -/
def selectContribs (totals : List Nat) (target : Nat) : Option (Py (Nat → Nat)) :=
  if totals.length = 0 then some (.error .zeroDivisionError)
  else if target / totals.length < minCount totals then some (.ok (fun _ => target / totals.length))
  else
    (balanceLoop target (target + totals.length + 1)
      ⟨fun g => totals.getD g 0, fun _ => 0, List.range totals.length, 0⟩).map
      (fun r => r.map (fun s => s.contribs))

/-- The `while` loop of `select_users` for one group (selectusers.py:110-118): users are taken from the end;
`acc` is the number of tweets so far.  The list is given in reverse. -/
def takeUsers (contrib : Int) : Int → List (List Char × Int) → List (List Char × Int)
  | _, [] => []
  | acc, u :: rest => if acc < contrib then u :: takeUsers contrib (acc + u.2) rest else []

/-- `select_users` (selectusers.py:100-123) with `SortTweet = False` as in the code: the chosen (user, count)
pairs of each group, in the order of `group_contribs`; the returned set is the set of all these
names.  A group without users is a `KeyError`. -/
def selectUsers (counts : UserCounts) (contribs : List (List Char × Int)) :
    Py (List (List Char × List (List Char × Int))) :=
  contribs.mapM (fun gc => match counts.find? (fun p => p.1 = gc.1) with
    | none => .error .keyError
    | some p => .ok (gc.1, takeUsers gc.2 0 p.2.reverse))

/-! ## arxiv_to_aan.py -/

/-- One round of `eliminateParentheses` (arxiv_to_aan.py:148-157): `out` and `inside`. -/
def elimStep (s : List Char × Nat) (c : Char) : List Char × Nat :=
  if 0 < s.2 then
    if c = ')' then (s.1, s.2 - 1)
    else if c = '(' then (s.1, s.2 + 1)
    else s
  else if c = '(' then (s.1, 1)
  else (s.1 ++ [c], s.2)

/-- `eliminateParentheses` (arxiv_to_aan.py:139-159). -/
def eliminateParentheses (value : List Char) : List Char := (value.foldl elimStep ([], 0)).1

/-! ## reshape_results.py -/

/-- `value.replace("\"", "\"\"")` (reshape_results.py:239-240) -/
def doubleQuotes (s : List Char) : List Char := s.flatMap (fun c => if c = '"' then ['"', '"'] else [c])

/-- `quoteText` (reshape_results.py:237-242): the two replacements are the same one. -/
def quoteText (s : List Char) : List Char := ['"'] ++ doubleQuotes (doubleQuotes s) ++ ['"']

/-- One entry of the result tables: document count and scores by cut-off. (reshape_results.py:140-144) -/
structure Row where
  docCount : ℚ
  score : Nat → ℚ

/-- `roll_up_and_average` (reshape_results.py:153-159) for `cuts` cut-offs, on the entry of the
destination and those of the sources. -/
def rollUp (cuts : Nat) (dst : Row) (srcs : List Row) : Py Row :=
  let s := srcs.foldl (fun (d : Row) (s : Row) =>
    { docCount := d.docCount + s.docCount, score := fun m => d.score m + s.score m * s.docCount }) dst
  if 0 < cuts ∧ s.docCount = 0 then .error .zeroDivisionError
  else .ok { s with score := fun m => s.score m / s.docCount }

/-! ## arxiv_author_ids.py -/

/-- `s.split(c)` (arxiv_author_ids.py:13-15) -/
def splitOn (c : Char) : List Char → List (List Char)
  | [] => [[]]
  | x :: xs =>
    if x = c then [] :: splitOn c xs
    else match splitOn c xs with
      | [] => [[x]]
      | p :: ps => (x :: p) :: ps

/-- The names on one line (arxiv_author_ids.py:12-17). -/
def lineAuthors (line : List Char) : Py (List (List Char)) :=
  if line.take 6 = "author".toList then
    match (splitOn '{' line)[1]? with
    | none => .error .indexError
    | some core =>
      match (splitOn '}' core)[0]? with
      | none => .error .indexError
      | some core => .ok ((splitOn ';' (strip core)).map strip)
  else .ok []

/-- `run` (arxiv_author_ids.py:8-25): the lines written.  `authors` is a set; `sort` orders strings by code
points. -/
def authorIds (lines : List (List Char)) : Py (List (Nat × List Char)) := do
  let names ← lines.mapM lineAuthors
  let sorted := (names.flatten.dedup).insertionSort (· ≤ ·)
  return sorted.zipIdx.map (fun p => (p.2 + 1, p.1))

end Verif.RunTools
