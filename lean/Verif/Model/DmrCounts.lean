import Verif.Model.Py
import Mathlib.Data.Rat.Defs
import Mathlib.Algebra.BigOperators.Intervals

/-!
# Counts of topics in sixteen bits

The table `ndk` of `model/dmr.py` and `model/dmr_fast.pyx` holds unsigned numbers of sixteen bits, which wrap around.  Of the sampler only this table and
the topics of the tokens are modelled here; the topic drawn is any function of the row of the table that the sampler reads, and tokens may be visited in
any order.
-/

namespace Verif.DmrCounts

open Verif

/-- `z_list` and `ndk` (dmr.py:145, 186; dmr.py:332) -/
structure Counts where
  z : Nat → Nat
  ndk : Nat → Nat → Nat

/-- `ndk[d,k] += 1` of a `uint16_t` (dmr_fast.pyx:156, 267) -/
def inc (c : Counts) (d k : Nat) : Counts :=
  { c with ndk := fun d' k' => if d' = d ∧ k' = k then (c.ndk d k + 1) % 65536 else c.ndk d' k' }

/-- `ndk[d,k] -= 1` of a `uint16_t` (dmr_fast.pyx:244) -/
def dec (c : Counts) (d k : Nat) : Counts :=
  { c with ndk := fun d' k' => if d' = d ∧ k' = k then (c.ndk d k + 65535) % 65536 else c.ndk d' k' }

/-- Where the tokens of document `d` begin: `start` (dmr_fast.pyx:228, 271) -/
def start (lens : List Nat) (d : Nat) : Nat := (lens.take d).sum

/-- The tokens with their documents, in order (dmr_fast.pyx:148-154) -/
def tokens (lens : List Nat) : List (Nat × Nat) :=
  (List.range lens.length).flatMap fun d => (List.range (lens.getD d 0)).map fun i => (d, start lens d + i)

/-- `sumSuffStats` (dmr_fast.pyx:131-158) on a table of zeros (dmr.py:186; 332) -/
def sumStats (lens : List Nat) (z : Nat → Nat) : Counts :=
  (tokens lens).foldl (fun c t => inc c t.1 (c.z t.2)) ⟨z, fun _ _ => 0⟩

/-- One token (dmr_fast.pyx:239-267): `pick` is the topic drawn, given the row of the table without the token. -/
def visit (pick : (Nat → Nat) → Nat) (c : Counts) (t : Nat × Nat) : Counts :=
  let c1 := dec c t.1 (c.z t.2)
  let k := pick (c1.ndk t.1)
  inc { c1 with z := Function.update c1.z t.2 k } t.1 k

/-- A run of the sampler over tokens (dmr_fast.pyx:226-271), with the draws made for them -/
def run (vs : List ((Nat × Nat) × ((Nat → Nat) → Nat))) (c : Counts) : Counts := vs.foldl (fun c v => visit v.2 c v.1) c

/-- The assertion of `train` (dmr.py:184), which `query` (dmr.py:315-354) does not make -/
def trainCounts (lens : List Nat) (z : Nat → Nat) (vs : List ((Nat × Nat) × ((Nat → Nat) → Nat))) : Py Counts :=
  if lens.all (fun n => decide (n < 65536)) then .ok (run vs (sumStats lens z)) else .error .assertionError

/-- `query` (dmr.py:332, 339-350) -/
def queryCounts (lens : List Nat) (z : Nat → Nat) (vs : List ((Nat × Nat) × ((Nat → Nat) → Nat))) : Py Counts :=
  .ok (run vs (sumStats lens z))

/-- What a sample adds to the topics of a document: `(ndk[d,k] + alphas[d,k]) / (docLens[d] + aSum)` (dmr_fast.pyx:280-286) -/
def estimate (K : Nat) (lens : List Nat) (alpha : Nat → Nat → ℚ) (c : Counts) (d k : Nat) : ℚ :=
  ((c.ndk d k : ℚ) + alpha d k) / ((lens.getD d 0 : ℚ) + ∑ j ∈ Finset.range K, alpha d j)

end Verif.DmrCounts
