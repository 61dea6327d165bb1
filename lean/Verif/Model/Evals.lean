import Mathlib.Data.Rat.Defs
import Mathlib.Algebra.Order.Field.Rat
import Mathlib.Data.Finset.Card
import Mathlib.Data.Finset.Dedup
import Mathlib.Data.List.Basic
import Mathlib.Data.Finset.Lattice.Basic
import Verif.Model.Py

/-!
# Model of `sidetopics/model/evals.py`

A document is the list of its expected link ids (`expected_links[d,:].indices`) together with the
stored (link id, score) pairs of its row of `estim_link_probs`.  Printing is not modelled.
-/

namespace Verif.Evals

open Verif

/-- One document: expected link ids, and stored (link id, score) pairs. (the rows read in evals.py:53-61, 135-145, 215-224) -/
structure Doc where
  expected : List Nat
  stored : List (Nat × ℚ)
deriving DecidableEq

/-- `row.indices[np.argsort(row.data)[::-1]]` (evals.py:59-61, 143-145, 222-224).  `rank` stands for the sort:
it returns the stored pairs in descending order of score. -/
def recvIndices (rank : List (Nat × ℚ) → List (Nat × ℚ)) (d : Doc) : List Nat :=
  (rank d.stored).map Prod.fst

/-! ## Mean reciprocal rank -/

/-- The inner `while` loop of `mean_reciprocal_rank` (evals.py:66-72): looks for `x` from position `e`,
deleting matches; `e` advances even after a deletion.  Returns the remaining expected ids and
the number of matches.  `fuel` bounds the rounds (one per element is enough). -/
def mrrInner (x : Nat) : Nat → Nat → List Nat → Nat → List Nat × Nat
  | 0, _, expt, hits => (expt, hits)
  | fuel + 1, e, expt, hits =>
    if h : e < expt.length then
      if x = expt[e] then mrrInner x fuel (e + 1) (expt.eraseIdx e) (hits + 1)
      else mrrInner x fuel (e + 1) expt hits
    else (expt, hits)

/-- The outer `while` loop (evals.py:64-73) from position `r` on; the list is `recv_indices[r:]`. -/
def mrrOuter : Nat → List Nat → List Nat → ℚ × Nat → ℚ × Nat
  | _, [], _, acc => acc
  | r, x :: recv, expt, (sum, count) =>
    if 0 < expt.length then
      let (expt', hits) := mrrInner x expt.length 0 expt 0
      mrrOuter (r + 1) recv expt' (sum + hits * (1 / ((r : ℚ) + 1)), count + hits)
    else (sum, count)

/-- `mean_reciprocal_rank` (evals.py:34-77). -/
def meanReciprocalRank (rank : List (Nat × ℚ) → List (Nat × ℚ)) (docs : List Doc) : Py ℚ :=
  let (sum, count) := docs.foldl (fun acc d =>
    if d.expected.length = 0 then acc
    else mrrOuter 0 (recvIndices rank d) d.expected acc) (0, 0)
  if count = 0 then .error .zeroDivisionError else .ok (sum / count)

/-! ## Precision and recall at m -/

/-- A group is a range of link counts. (evals.py:22, 108-126) -/
abbrev Group := Int × Int

/-- `AllGroups` (evals.py:22) -/
def allGroups : Group := (-1, -1)

/-- `find_group` (evals.py:108-114): running off the end of the list is an `IndexError`. -/
def findGroup (outLinkCount : Nat) : List Group → Py Group
  | [] => .error .indexError
  | g :: gs =>
    if g.1 = allGroups.1 ∨ (outLinkCount : Int) < g.1 ∨ g.2 < (outLinkCount : Int) then
      findGroup outLinkCount gs
    else .ok g

/-- The three dictionaries of `mean_prec_rec_at` (evals.py:128-131): sums of precisions and recalls
by group and position in the list of cut-offs, and document counts.  Only the groups requested
are keys; the functions are zero elsewhere. -/
structure PrecRec where
  precs : Group → Nat → ℚ
  recs : Group → Nat → ℚ
  counts : Group → Nat

/-- `d[g][i] += v` (evals.py:160-164) -/
def bump (f : Group → Nat → ℚ) (g : Group) (i : Nat) (v : ℚ) : Group → Nat → ℚ :=
  fun g' i' => if g' = g ∧ i' = i then f g' i' + v else f g' i'

/-- One round of the loop over cut-offs (evals.py:149-164).  Cut-offs are natural numbers; division by a
zero cut-off is an error. -/
def cutStep (g : Group) (recv : List Nat) (expt : Finset Nat) (s : PrecRec) (im : Nat × Nat) : Py PrecRec :=
  let recvSet := (recv.take (im.2 + 1)).toFinset
  if recvSet.card = 0 then .ok s
  else if im.2 = 0 then .error .zeroDivisionError
  else
    let prec : ℚ := (recvSet ∩ expt).card / im.2
    let rec' : ℚ := (recvSet ∩ expt).card / expt.card
    .ok { s with
      precs := bump (bump s.precs g im.1 prec) allGroups im.1 prec
      recs := bump (bump s.recs g im.1 rec') allGroups im.1 rec' }

/-- One round of the loop over documents (evals.py:134-167). -/
def docStep (rank : List (Nat × ℚ) → List (Nat × ℚ)) (ms : List Nat) (groups : List Group)
    (s : PrecRec) (d : Doc) : Py PrecRec :=
  if d.expected.length = 0 then .ok s
  else do
    let g ← findGroup d.expected.length groups
    let s ← ((List.range ms.length).zip ms).foldlM
      (cutStep g (recvIndices rank d) d.expected.toFinset) s
    return { s with counts := fun h =>
      let c := if h = g then s.counts h + 1 else s.counts h
      if h = allGroups then c + 1 else c }

/-- the list of groups actually used (evals.py:123-126) -/
def usedGroups (groups : Option (List Group)) : List Group :=
  let gs := match groups with
    | none => [allGroups]
    | some gs => gs
  if allGroups ∈ gs then gs else gs ++ [allGroups]

/-- `mean_prec_rec_at` (evals.py:80-179).  The result is meaningful for the groups in `usedGroups`
and the positions of `ms`. -/
def meanPrecRecAt (rank : List (Nat × ℚ) → List (Nat × ℚ)) (docs : List Doc) (ms : List Nat)
    (groups : Option (List Group)) : Py PrecRec := do
  let s ← docs.foldlM (docStep rank ms (usedGroups groups)) ⟨fun _ _ => 0, fun _ _ => 0, fun _ => 0⟩
  return { s with
    precs := fun g i => s.precs g i / (max 1 (s.counts g) : Nat)
    recs := fun g i => s.recs g i / (max 1 (s.counts g) : Nat) }

/-! ## Mean average precision -/

/-- The search for the position of `e` (evals.py:231-235): the length of the list if absent. -/
def findPos (e : Nat) : List Nat → Nat
  | [] => 0
  | x :: xs => if x ≠ e then findPos e xs + 1 else 0

/-- One round of the loop over expected links (evals.py:229-247). -/
def apStep (recv : List Nat) (expt : Finset Nat) (sum : ℚ) (e : Nat) : Py ℚ :=
  let recvSet := (recv.take (findPos e recv + 1)).toFinset
  if recvSet.card = 0 then .error .zeroDivisionError
  else .ok (sum + (recvSet ∩ expt).card / recvSet.card)

/-- One round of the loop over documents (evals.py:214-250). -/
def apDoc (rank : List (Nat × ℚ) → List (Nat × ℚ)) (sumAp : ℚ) (d : Doc) : Py ℚ :=
  if d.expected.length = 0 then .ok sumAp
  else do
    let s ← d.expected.foldlM (apStep (recvIndices rank d) d.expected.toFinset) 0
    return sumAp + s / d.expected.length

/-- `mean_average_prec` (evals.py:182-256). -/
def meanAveragePrec (rank : List (Nat × ℚ) → List (Nat × ℚ)) (docs : List Doc) : Py ℚ := do
  let s ← docs.foldlM (apDoc rank) 0
  if docs.length = 0 then throw .zeroDivisionError
  return s / docs.length

end Verif.Evals
