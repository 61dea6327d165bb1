import Verif.Model.RunFiles

/-!
# The table of results for R

`write_all_results` of `run/reshape_results.py`.  The text of a number is an arbitrary function.
-/

namespace Verif.ResultTable

open Verif Verif.RunTools Verif.RunFiles

/-- `FullGroups` (reshape_results.py:9-11) -/
def groups : List Str := ["0->", "0->3", "3->", "3->5", "5->", "5->10", "10->"].map String.toList

/-- `Ms` (reshape_results.py:13) -/
def cutoffs : List Str := ["10", "20", "30", "40", "50", "75", "100", "150", "250", "500"].map String.toList

/-- The headings (reshape_results.py:245-246) -/
def header : Str := "Algor,TopicCount,TrainDesc,MRR,MAP,Perplexity,Group,M,DocCount,Precision,Recall\n".toList

/-- `to_delim_str` (reshape_results.py:58-59), with the delimiter and the quotes of reshape_results.py:228, 237-242 -/
def toDelimStr (a : Algor) : Str := quoteText a.name ++ [','] ++ a.topics ++ [','] ++ quoteText a.desc

/-- `toNullable` (reshape_results.py:234-235) -/
def toNullable (str : ℚ → Str) (v : ℚ) : Str := if v < 9 / 10 then [] else str v

/-- `int(x)` (reshape_results.py:269) -/
def truncate (x : ℚ) : Int := if 0 ≤ x then ⌊x⌋ else ⌈x⌉

/-- One row (reshape_results.py:251-276), of the group with number `g` and the cut-off with number `m` -/
def row (str : ℚ → Str) (istr : Int → Str) (a : Algor) (r : Results) (g m : Nat) : Str :=
  let prec := r.precs.getD g ⟨0, fun _ => 0⟩
  let rcl := r.recs.getD g ⟨0, fun _ => 0⟩
  toDelimStr a ++ [','] ++ str r.mrr ++ [','] ++ str r.map ++ [','] ++ toNullable str r.perp ++ [','] ++ quoteText (groups.getD g []) ++ [','] ++
    cutoffs.getD m [] ++ [','] ++ istr (truncate prec.docCount) ++ [','] ++ str (prec.score m) ++ [','] ++ str (rcl.score m) ++ ['\n']

/-- `write_all_results` (reshape_results.py:221-276) -/
def writeAll (str : ℚ → Str) (istr : Int → Str) (entries : List (Algor × Results)) : Str :=
  header ++ (entries.flatMap fun e => (List.range 7).flatMap fun g => (List.range 10).flatMap fun m => row str istr e.1 e.2 g m)

end Verif.ResultTable
