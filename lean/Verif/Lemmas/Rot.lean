import Mathlib.Data.List.Perm.Subperm
import Mathlib.Data.List.Range
import Mathlib.Data.List.Nodup
import Mathlib.Data.Int.ModEq
import Mathlib.Tactic.Ring

/-! Lemmas about ranges taken modulo their length (rotations). -/

namespace Verif

/-- `s, s+1, …, s+n-1` taken modulo `n` is a rearrangement of `0 … n-1`. -/
theorem rot_perm (s : Int) (n : Nat) :
    ((List.range n).map (fun i : Nat => ((s + (i : Int)) % (n : Int)).toNat)).Perm
      (List.range n) := by
  rcases Nat.eq_zero_or_pos n with rfl | hn
  · simp
  have hn' : (0 : Int) < n := by exact_mod_cast hn
  have hnd : ((List.range n).map (fun i : Nat => ((s + (i : Int)) % (n : Int)).toNat)).Nodup := by
    refine List.Nodup.map_on ?_ List.nodup_range
    intro a ha b hb h
    rw [List.mem_range] at ha hb
    have h1 := Int.emod_nonneg (s + a) (by omega : (n : Int) ≠ 0)
    have h2 := Int.emod_nonneg (s + b) (by omega : (n : Int) ≠ 0)
    have h3 : (s + (a : Int)) % n = (s + (b : Int)) % n := by omega
    have h4 : ((s + (a : Int)) - (s + b)) % n = 0 := Int.emod_eq_emod_iff_emod_sub_eq_zero.mp h3
    have h5 : (n : Int) ∣ (a : Int) - b := by
      have := Int.dvd_of_emod_eq_zero h4
      have e : (s + (a : Int)) - (s + b) = a - b := by ring
      rwa [e] at this
    have h6 : (a : Int) - b = 0 := by
      apply Int.eq_zero_of_abs_lt_dvd h5
      rw [abs_lt]; omega
    omega
  have hsub : ((List.range n).map (fun i : Nat => ((s + (i : Int)) % (n : Int)).toNat))
      ⊆ List.range n := by
    intro x hx
    rw [List.mem_map] at hx
    obtain ⟨i, _, rfl⟩ := hx
    have h1 := Int.emod_nonneg (s + i) (by omega : (n : Int) ≠ 0)
    have h2 := Int.emod_lt_of_pos (s + i) hn'
    rw [List.mem_range]; omega
  exact (List.subperm_of_subset hnd hsub).perm_of_length_le (by simp)

end Verif
