import Verif.Model.Csr
import Verif.Model.Py
import Mathlib.Data.Rat.Floor

/-!
# Word lists

`toWordList` of `model/lda_cvb0.py` and `model/lda_cvb.py` with the compiled functions `toWordList_i32`, `toWordList_f32` and
`toWordList_f64`: word counts are written out as lists of words, which are then shuffled.  Bounds are not checked in the compiled code; a write
beyond the end of a row is `none` here (what it does to the memory is not modelled).  `rand` is an arbitrary stream of numbers.
-/

namespace Verif.WordList

open Verif

/-- The conversion of a floating point number to an integer: the part after the point is dropped.
(lda_cvb0.py:165 `astype(np.int32)`, lda_cvb0_fast.pyx:169, 239 `<int>`; overflow is not modelled) -/
def trunc (x : ℚ) : Int := if 0 ≤ x then ⌊x⌋ else ⌈x⌉

/-- Element types of the word counts (lda_cvb0.py:167-174, lda_cvb.py:182-189) -/
inductive Elem
  | i32 | f32 | f64 | other
  deriving DecidableEq

/-- The innermost loop: `col` is written `n` times from position `s.2` on. (lda_cvb0_fast.pyx:99-101, 170-172, 240-242) -/
def fillObs (col : Nat) : Nat → List Nat × Nat → Option (List Nat × Nat)
  | 0, s => some s
  | n + 1, s => if s.2 < s.1.length then fillObs col n (s.1.set s.2 col, s.2 + 1) else none

/-- The loop over `n` stored counts from position `i` on (lda_cvb0_fast.pyx:96-102, 166-173, 236-243) -/
def fillCells (w : Csr ℚ) : Nat → Nat → List Nat × Nat → Option (List Nat × Nat)
  | 0, _, s => some s
  | n + 1, i, s => do
    let s' ← fillObs (w.indices.getD i 0) (trunc (w.data.getD i 0)).toNat s
    fillCells w n (i + 1) s'

/-- The loop over the documents from `d` on (lda_cvb0_fast.pyx:91-102, 161-173, 231-243, lda_cvb_fast.pyx:94-105) -/
def fillRows (w : Csr ℚ) (maxN : Nat) : Nat → Nat → Nat → Option (List (List Nat))
  | 0, _, _ => some []
  | n + 1, d, i => do
    let cells := w.ptr (d + 1) - w.ptr d
    let r ← fillCells w cells i (List.replicate maxN 0, 0)
    let rest ← fillRows w maxN n (d + 1) (i + cells)
    return r.1 :: rest

/-- The swap of two entries (lda_cvb0_fast.pyx:109-111, 179-181, 249-251) -/
def swap (row : List Nat) (l r : Nat) : List Nat := (row.set l (row.getD r 0)).set r (row.getD l 0)

/-- The loop of the swaps of one document (lda_cvb0_fast.pyx:106-111, 176-181, 246-251); returns the position in the stream too. -/
def swapLoop (rand : Nat → Nat) (nd : Nat) : Nat → Nat → List Nat → List Nat × Nat
  | 0, pos, row => (row, pos)
  | n + 1, pos, row => swapLoop rand nd n (pos + 2) (swap row (rand pos % nd) (rand (pos + 1) % nd))

/-- The swaps of all documents (lda_cvb0_fast.pyx:104-111, 174-181, 244-251) -/
def swapRows (rand : Nat → Nat) : Nat → List (List Nat × Int) → List (List Nat)
  | _, [] => []
  | pos, (row, nd) :: rest =>
    let r := swapLoop rand nd.toNat nd.toNat pos row
    r.1 :: swapRows rand r.2 rest

/-- `docLens` (lda_cvb0.py:165, lda_cvb.py:180) -/
def docLens (w : Csr ℚ) : List Int := (List.range w.rows).map fun d => trunc ((w.row d).map Prod.snd).sum

/-- `np.max(docLens)` (lda_cvb0_fast.pyx:68) -/
def maxLen (lens : List Int) : Int := lens.foldl max (lens.headD 0)

/-- `toWordList` (lda_cvb0.py:164-174, lda_cvb.py:179-189, lda_cvb0_fast.pyx:45-252, lda_cvb_fast.pyx:48-255): `np.max` fails if there are no
documents; for one document the lengths lose their only dimension and are no buffer that the compiled code takes; `np.zeros` fails for negative sizes. -/
def toWordList (e : Elem) (rand : Nat → Nat) (w : Csr ℚ) : Py (Option (List (List Nat) × List Int)) :=
  let lens := docLens w
  if e = .other ∨ w.rows = 0 ∨ w.rows = 1 ∨ maxLen lens < 0 then .error .valueError
  else .ok do
    let rows ← fillRows w (maxLen lens).toNat w.rows 0 0
    return (swapRows rand 0 (rows.zip lens), lens)

end Verif.WordList
