import Mathlib.Algebra.Order.Floor.Ring
import Mathlib.Data.Rat.Floor
import Mathlib.Tactic.FieldSimp
import Mathlib.Tactic.Linarith
import Mathlib.Tactic.NormNum
import Mathlib.Data.Int.CardIntervalMod
import Verif.Lemmas.Rot
import Verif.Model.DataSet

/-! Lemmas for the cross-validation index computation. -/

namespace Verif.Props.CrossVal

open Verif Verif.DataSet

/-- integer ceiling used by the model is the mathematical ceiling -/
theorem ceil_eq (n : Nat) (k : Int) (hk : 0 < k) :
    ((n : Int) + k - 1) / k = ⌈(n : ℚ) / (k : ℚ)⌉ := by
  symm
  rw [Int.ceil_eq_iff]
  have hkq : (0 : ℚ) < k := by exact_mod_cast hk
  have h1 := Int.mul_ediv_add_emod ((n : Int) + k - 1) k
  have h2 := Int.emod_nonneg ((n : Int) + k - 1) (by omega : k ≠ 0)
  have h3 := Int.emod_lt_of_pos ((n : Int) + k - 1) hk
  set q := ((n : Int) + k - 1) / k
  set r := ((n : Int) + k - 1) % k
  constructor
  · rw [lt_div_iff₀ hkq]
    have : (q - 1) * k < n := by nlinarith
    exact_mod_cast this
  · rw [div_le_iff₀ hkq]
    have : (n : Int) ≤ q * k := by nlinarith
    exact_mod_cast this

theorem arangeMod_append (a b c : Int) (n : Nat) (h1 : a ≤ b) (h2 : b ≤ c) :
    arangeMod a b n ++ arangeMod b c n = arangeMod a c n := by
  unfold arangeMod
  have e : (c - a).toNat = (b - a).toNat + (c - b).toNat := by omega
  rw [e, List.range_add, List.map_append, List.map_map]
  congr 1
  apply List.map_congr_left
  intro i _
  simp only [Function.comp]
  have : b + (i : Int) = a + (((b - a).toNat + i : Nat) : Int) := by push_cast; omega
  rw [this]

/-- The value returned for valid arguments. -/
theorem crossValid_ok (n : Nat) (fold folds : Int) (hfold : fold < folds) (hfolds : 1 < folds) :
    crossValidSplitIndices n fold folds =
      .ok (arangeMod (((n : Int) + folds - 1) / folds * fold + ((n : Int) + folds - 1) / folds)
            (((n : Int) + folds - 1) / folds * fold + ((n : Int) + folds - 1) / folds
              + ((n : Int) - ((n : Int) + folds - 1) / folds)) n,
           arangeMod (((n : Int) + folds - 1) / folds * fold)
            (((n : Int) + folds - 1) / folds * fold + ((n : Int) + folds - 1) / folds) n) := by
  simp only [crossValidSplitIndices, pyAssert, hfold, hfolds, decide_true, if_true]
  rfl

theorem range_mul_flat (q k : Nat) (f : Nat → Nat) (d : Nat) :
    ((List.range k).map (fun j => ((List.range q).map (fun i => f (q * j + i))).count d)).sum
      = ((List.range (q * k)).map f).count d := by
  induction k with
  | zero => simp
  | succ k ih =>
    rw [List.range_succ, List.map_append, List.sum_append, ih, Nat.mul_succ, List.range_add,
      List.map_append, List.count_append, List.map_map]
    simp [Function.comp_def]

theorem count_mod (M n d : Nat) (hd : d < n) :
    ((List.range M).map (· % n)).count d = (M + n - 1 - d) / n := by
  induction M with
  | zero =>
    simp only [List.range_zero, List.map_nil, List.count_nil]
    symm; apply Nat.div_eq_of_lt; omega
  | succ M ih =>
    rw [List.range_succ, List.map_append, List.count_append, ih]
    simp only [List.map_cons, List.map_nil, List.count_singleton, beq_iff_eq]
    have hM := Nat.div_add_mod M n
    have hr := Nat.mod_lt M (by omega : 0 < n)
    set q := M / n
    set r := M % n
    have e1 : M + n - 1 - d = n * q + (r + n - 1 - d) := by omega
    have e2 : M + 1 + n - 1 - d = n * q + (r + n - d) := by omega
    rw [e1, e2, Nat.mul_add_div (by omega), Nat.mul_add_div (by omega)]
    by_cases h : r = d
    · subst h
      have : (r + n - 1 - r) / n = 0 := Nat.div_eq_of_lt (by omega)
      have h2 : (r + n - r) / n = 1 := by
        rw [show r + n - r = n by omega]; exact Nat.div_self (by omega)
      rw [this, h2, if_pos rfl]
    · rw [if_neg h]
      rcases Nat.lt_or_gt_of_ne h with h' | h'
      · have a : (r + n - 1 - d) / n = 0 := Nat.div_eq_of_lt (by omega)
        have b : (r + n - d) / n = 0 := Nat.div_eq_of_lt (by omega)
        omega
      · have a : (r + n - 1 - d) / n = 1 := by
          rw [Nat.div_eq_iff (by omega)]; omega
        have b : (r + n - d) / n = 1 := by
          rw [Nat.div_eq_iff (by omega)]; omega
        omega

theorem ceil_mul_ge (n folds : Nat) (h : 0 < folds) : n ≤ (n + folds - 1) / folds * folds := by
  have h1 := Nat.div_add_mod (n + folds - 1) folds
  have h2 := Nat.mod_lt (n + folds - 1) h
  rw [Nat.mul_comm]
  omega

end Verif.Props.CrossVal
