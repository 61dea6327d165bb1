import Verif.Model.RunFiles
import Verif.Model.RunMain
import Mathlib.Data.Rat.Floor
import Mathlib.Data.List.Sort

/-!
# The tables of scores printed by the program

`printTable` of `run/__main__.py` and the lines with the other results.  Text is a list of lines; the scores are numbers, not `nan`.
-/

namespace Verif.PrintedTable

open Verif Verif.RunTools Verif.RunFiles Verif.Evals Verif.RunMain

/-- A number padded on the left, as by `%5d` (run/__main__.py:1200, 1207-1208) -/
def pad (width : Nat) (s : Str) : Str := List.replicate (width - s.length) ' ' ++ s

/-- `%d` (run/__main__.py:1200, 1207-1208) -/
def intText (i : Int) : Str := if i < 0 then '-' :: Nat.toDigits 10 i.natAbs else Nat.toDigits 10 i.natAbs

/-- To the nearest integer, of two the even one: the rounding of `%.3f` (run/__main__.py:1209) -/
def roundEven (x : ℚ) : Int :=
  if x - ⌊x⌋ < 1 / 2 then ⌊x⌋
  else if 1 / 2 < x - ⌊x⌋ then ⌊x⌋ + 1
  else if ⌊x⌋ % 2 = 0 then ⌊x⌋ else ⌊x⌋ + 1

/-- `%.3f` (run/__main__.py:1209), `%.2f` (638, 893, 997, 1102), `%f`, which has six digits (681-682, 1037-1038), for `p` digits -/
def fixed (p : Nat) (x : ℚ) : Str :=
  let n := (roundEven ((if x < 0 then -x else x) * 10 ^ p)).natAbs
  (if x < 0 then ['-'] else []) ++ Nat.toDigits 10 (n / 10 ^ p) ++
    '.' :: (List.replicate (p - (Nat.toDigits 10 (n % 10 ^ p)).length) '0' ++ Nat.toDigits 10 (n % 10 ^ p))

/-- `sep.join(parts)` (run/__main__.py:1200-1201, 1209) -/
def join (sep : Str) (parts : List Str) : Str := (parts.intersperse sep).flatten

/-- The headings (run/__main__.py:1200-1201) -/
def headings (ms : List Nat) : List Str :=
  ["| Group    | Doc Count | ".toList ++ join " | ".toList (ms.map fun m => pad 5 (intText m)) ++ " |\n".toList,
   "|----------|-----------|-".toList ++ join "-|-".toList (ms.map fun _ => "-----".toList) ++ "-|\n".toList]

/-- One row (run/__main__.py:1207-1210) -/
def row (g : Group) (count : Nat) (scores : List ℚ) : Str :=
  "| ".toList ++ pad 2 (intText g.1) ++ [','] ++ pad 5 (intText g.2) ++ " | ".toList ++ pad 9 (intText count) ++ " | ".toList ++
    join " | ".toList (scores.map (fixed 3)) ++ " |\n".toList

/-- The order of tuples (run/__main__.py:1204) -/
def le (a b : Group) : Bool := a.1 < b.1 || (a.1 = b.1 && a.2 ≤ b.2)

/-- `printTable` (run/__main__.py:1198-1210): the lines printed -/
def printTable (title : Str) (scores : Dict (List ℚ)) (counts : Dict Nat) (ms : List Nat) : Py (List Str) := do
  let groups := (scores.map Prod.fst).mergeSort le
  let rows ← groups.mapM fun g => do
    let c ← counts.get g
    let s ← scores.get g
    return row g c s
  return (title ++ ['\n']) :: (headings ms ++ rows)

/-- `"Training perplexity is %.2f "` (run/__main__.py:638, 893, 997, 1102) -/
def perplexityLine (x : ℚ) : Str := "Training perplexity is ".toList ++ fixed 2 x ++ " \n".toList

/-- `"Mean reciprocal-rank: %f"` (run/__main__.py:681, 923, 1037, 1142) -/
def mrrLine (x : ℚ) : Str := "Mean reciprocal-rank: ".toList ++ fixed 6 x ++ ['\n']

/-- `"Mean average-precision: %f"` (run/__main__.py:682, 1038, 1143) -/
def mapLine (x : ℚ) : Str := "Mean average-precision: ".toList ++ fixed 6 x ++ ['\n']

/-- The cut-offs (run/__main__.py:610) -/
def cutoffs : List Nat := [10, 20, 30, 40, 50, 75, 100, 150, 250, 500]

/-- The results of one fold (run/__main__.py:629-666); `chat` and `notes` are the lines printed while training (632-636) and
evaluating (643-648, evals.py:178). -/
structure Fold where
  chat : List Str
  notes : List Str
  perplexity : ℚ
  precs : Dict (List ℚ)
  recs : Dict (List ℚ)
  counts : Dict Nat
  mrr : ℚ
  map : ℚ
  docs : Nat

/-- The line of 80 dashes (run/__main__.py:629, 678) -/
def ruler : Str := List.replicate 80 '-' ++ ['\n']

/-- The lines printed for one fold (run/__main__.py:629-665) -/
def foldLines (number : Nat) (f : Fold) : Py (List Str) := do
  let precs ← printTable "Precision".toList f.precs f.counts cutoffs
  let recs ← printTable "Recall".toList f.recs f.counts cutoffs
  return ["\n".toList, "\n".toList, "Fold ".toList ++ intText number ++ ['\n'], ruler] ++ f.chat ++
    [perplexityLine f.perplexity] ++ f.notes ++ ["Fold ".toList ++ pad 2 (intText number) ++ ": Mean-Precisions at \n".toList] ++ precs ++ recs ++
    ["Mean reciprocal-rank : ".toList ++ fixed 6 f.mrr ++ ['\n'], "Mean Average Precision : ".toList ++ fixed 6 f.map ++ ['\n']]

/-- The lines of all folds (run/__main__.py:621-671) -/
def allFolds (number : Nat) : List Fold → Py (List Str)
  | [] => .ok []
  | f :: fs => do
    let here ← foldLines number f
    let more ← allFolds (number + 1) fs
    return here ++ more

/-- `d` if it is not `None` (run/__main__.py:1203, 1208: the attribute or the entry of `None` otherwise) -/
def need {α : Type} : Option α → Py α
  | none => .error .attributeError
  | some a => .ok a

/-- The output of `cross_val_and_eval_tag_prec_rec_at_m` (run/__main__.py:616-682): the folds, then the averages over all of them.
`insample_lro_style_prec_rec` (995-1038) prints the same. -/
def runLines (folds : List Fold) : Py (List Str) := do
  let lines ← allFolds 0 folds
  let precs ← combineAll (folds.map fun f => (f.precs, f.counts))
  let recs ← combineAll (folds.map fun f => (f.recs, f.counts))
  let p ← need precs.1
  let r ← need recs.1
  let c ← need recs.2
  let precTable ← printTable "Precision".toList p c cutoffs
  let recTable ← printTable "Recall".toList r c cutoffs
  let mrr ← pyDiv (folds.map fun f => f.mrr * (f.docs : ℚ)).sum ((folds.map fun f => f.docs).sum : Nat)
  let map ← pyDiv (folds.map fun f => f.map * (f.docs : ℚ)).sum ((folds.map fun f => f.docs).sum : Nat)
  return lines ++ [ruler, "\n".toList, " Final Results\n".toList, "\n".toList, "\n".toList] ++ precTable ++ recTable ++ [mrrLine mrr, mapLine map]

end Verif.PrintedTable
