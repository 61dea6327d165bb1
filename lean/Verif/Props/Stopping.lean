import Verif.Model.Stopping
import Verif.Props.Numerics
import Mathlib.Tactic.Linarith
import Mathlib.Tactic.NormNum

/-!
# When training stops early (C265–C267)
-/

namespace Verif.Props.Stopping

open Verif.Numerics Verif.Stopping

/-! ## Reading the log -/

theorem entry_at (pre suf : List Measure) (m : Measure) : entry (pre ++ m :: suf) pre.length = m := by
  unfold entry
  rw [List.getD_eq_getElem?_getD, List.getElem?_append_right le_rfl, Nat.sub_self]
  rfl

theorem newest_eq (pre : List Measure) (b : Measure) : newest (pre ++ [b]) = b := by
  have h : (pre ++ [b]).length - 1 = pre.length := by simp
  unfold newest
  rw [h]
  exact entry_at pre [] b

theorem newest_eq₂ (pre : List Measure) (a b : Measure) : newest (pre ++ [a, b]) = b := by
  have h : pre ++ [a, b] = (pre ++ [a]) ++ [b] := by simp
  rw [h]
  exact newest_eq _ b

theorem previous_eq (pre : List Measure) (a b : Measure) : previous (pre ++ [a, b]) = a := by
  have h : (pre ++ [a, b]).length - 2 = pre.length := by simp
  unfold previous
  rw [h]
  exact entry_at pre [b] a

/-- The two measurements `a`, `b` with `suf` after them. -/
theorem boundRule_eq (pre suf : List Measure) (a b : Measure) (ε : ℝ) (n : Nat) (hinc : a.iter < b.iter)
    (hε : 0 < ε) (hε' : ε < 90) :
    boundRule (pre.length + 2) ε n (pre ++ a :: b :: suf) ↔
      n ≤ b.iter ∧ b.bound - a.bound < Real.tan (ε * (Real.pi / 180)) * ((b.iter : ℝ) - a.iter) := by
  have ha : entry (pre ++ a :: b :: suf) pre.length = a := entry_at pre (b :: suf) a
  have hb : entry (pre ++ a :: b :: suf) (pre.length + 1) = b := by
    have h : pre ++ a :: b :: suf = (pre ++ [a]) ++ b :: suf := by simp
    have hl : pre.length + 1 = (pre ++ [a]).length := by simp
    rw [h, hl]
    exact entry_at _ suf b
  unfold boundRule
  have h1 : pre.length + 2 - 1 = pre.length + 1 := rfl
  have h2 : pre.length + 2 - 2 = pre.length := rfl
  rw [Verif.Props.Numerics.converged_iff _ _ _ _ _ (by rw [h1, h2, ha, hb]; exact_mod_cast hinc) hε hε']
  rw [h1, h2, ha, hb]
  simp only [Int.cast_natCast, Nat.cast_le, le_add_iff_nonneg_left, Nat.zero_le, true_and]

/-! ## The tolerance of the plan (C265) -/

/-- C265 is violated: all loops but two decide without looking at the tolerance of the plan. -/
theorem tolerance_violation (l : Loop) (h₁ : l ≠ .ldaVb) (h₂ : l ≠ .ldaSvb) (ε ε' : ℝ) (log : List Measure) :
    stops l ε log ↔ stops l ε' log := by
  cases l <;> first | exact absurd rfl h₁ | exact absurd rfl h₂ | exact Iff.rfl

/-- C265 for the other two (`_partial`: only these): they stop exactly if, from iteration 20 on, the bound has grown since the
measurement before by less than the tangent of the tolerance for each iteration. -/
theorem tolerance_partial (l : Loop) (h : l = .ldaVb ∨ l = .ldaSvb) (ε : ℝ) (hε : 0 < ε) (hε' : ε < 90)
    (pre : List Measure) (a b : Measure) (hinc : a.iter < b.iter) :
    stops l ε (pre ++ [a, b]) ↔
      20 ≤ b.iter ∧ b.bound - a.bound < Real.tan (ε * (Real.pi / 180)) * ((b.iter : ℝ) - a.iter) := by
  have hl : (pre ++ [a, b]).length = pre.length + 2 := by simp
  have key : boundRule (pre ++ [a, b]).length ε 20 (pre ++ [a, b]) ↔
      20 ≤ b.iter ∧ b.bound - a.bound < Real.tan (ε * (Real.pi / 180)) * ((b.iter : ℝ) - a.iter) := by
    rw [hl]
    exact boundRule_eq pre [] a b ε 20 hinc hε hε'
  rcases h with rfl | rfl <;> exact key

/-- C265 for the other two: a smaller tolerance never stops training sooner. -/
theorem tolerance_mono (l : Loop) (ε ε' : ℝ) (hε : ε ≤ ε') (log : List Measure) (h : stops l ε log) : stops l ε' log := by
  have key : ∀ idx n, boundRule idx ε n log → boundRule idx ε' n log := by
    intro idx n hb
    unfold boundRule converged at hb ⊢
    split at hb
    · exact hb.elim
    · rename_i hc
      rw [if_neg hc]
      unfold angleBelow at hb ⊢
      split at hb
      · rename_i h0
        rw [if_pos h0]
        split at hb
        · rename_i h1
          rw [if_pos h1]; linarith
        · rename_i h1
          rw [if_neg h1]
          split at hb
          · rename_i h2
            rw [if_pos h2]; linarith
          · exact hb.elim
      · rename_i h0
        rw [if_neg h0]; linarith
  cases l <;> first | exact key _ _ h | exact h

example : ¬ stops .ldaVb 45 [⟨20, -100, 9⟩, ⟨30, -85, 8⟩] ∧ stops .ldaVb 60 [⟨20, -100, 9⟩, ⟨30, -85, 8⟩] := by
  have h45 : Real.tan (45 * (Real.pi / 180)) = 1 := by
    have : 45 * (Real.pi / 180) = Real.pi / 4 := by ring
    rw [this, Real.tan_pi_div_four]
  have h60 : Real.tan (60 * (Real.pi / 180)) = Real.sqrt 3 := by
    have : 60 * (Real.pi / 180) = Real.pi / 3 := by ring
    rw [this, Real.tan_pi_div_three]
  have e1 := tolerance_partial .ldaVb (Or.inl rfl) 45 (by norm_num) (by norm_num) [] ⟨20, -100, 9⟩ ⟨30, -85, 8⟩ (by norm_num)
  have e2 := tolerance_partial .ldaVb (Or.inl rfl) 60 (by norm_num) (by norm_num) [] ⟨20, -100, 9⟩ ⟨30, -85, 8⟩ (by norm_num)
  rw [h45] at e1
  rw [h60] at e2
  refine ⟨fun h => ?_, ?_⟩
  · have := (e1.mp h).2
    norm_num at this
  · refine e2.mpr ⟨by norm_num, ?_⟩
    have : (1.5 : ℝ) < Real.sqrt 3 := by
      apply Real.lt_sqrt_of_sq_lt; norm_num
    push_cast
    linarith

/-! ## Little change (C266) -/

/-- The loops that stop on `lastPerp - perp < 1`. -/
def onDrop : List Loop :=
  [.ctm, .stmYv, .stmYvBohning, .stmFakeOnline, .stmUvVecy, .ldaCvb, .ldaCvb0, .momEm]

/-- The loops that stop on a small change of the perplexity. -/
def onChange : List Loop := [.ctmBohning, .ctmBohningFast, .ctmGradArb, .stmUvVecY, .mtm3]

/-- The loops that never stop early. -/
def never : List Loop := [.ldaVbPython, .mtm2, .momGibbs]

/-- The loops that leave the newest measurement out. -/
def behind : List Loop := [.rtm, .selfLda, .mtm]

/-- These are all the loops. -/
theorem all_loops (l : Loop) :
    l ∈ onDrop ∨ l ∈ onChange ∨ l ∈ never ∨ l ∈ behind ∨ l = .ldaVb ∨ l = .ldaSvb := by
  cases l <;> decide

/-- C266 is violated: eight loops stop whenever the perplexity has risen, however much. -/
theorem rising_violation (l : Loop) (hl : l ∈ onDrop) (ε : ℝ) (pre : List Measure) (a b : Measure) (hp : pre ≠ [])
    (hb : 51 ≤ b.iter) (hrise : a.perp ≤ b.perp) : stops l ε (pre ++ [a, b]) := by
  have hlen : 2 < (pre ++ [a, b]).length := by
    have := List.length_pos_of_ne_nil hp
    simp
    omega
  have key : ∀ n ≤ 51, dropRule n (pre ++ [a, b]) := fun n hn => by
    refine ⟨hlen, ?_, ?_⟩
    · rw [newest_eq₂]; omega
    · rw [newest_eq₂, previous_eq]; linarith
  simp only [onDrop, List.mem_cons, List.not_mem_nil, or_false] at hl
  rcases hl with rfl | rfl | rfl | rfl | rfl | rfl | rfl | rfl <;> exact key _ (by norm_num)

/-- C266 is violated: three loops do not look at the newest measurement at all. -/
theorem newest_ignored_violation (l : Loop) (hl : l ∈ behind) (ε : ℝ) (log : List Measure) (b b' : Measure) :
    stops l ε (log ++ [b]) ↔ stops l ε (log ++ [b']) := by
  have key : boundRule ((log ++ [b]).length - 1) 10 5 (log ++ [b]) ↔
      boundRule ((log ++ [b']).length - 1) 10 5 (log ++ [b']) := by
    have h : ∀ c : Measure, (log ++ [c]).length - 1 = log.length := fun c => by simp
    have he : ∀ (c : Measure) (i : Nat), i < log.length → entry (log ++ [c]) i = entry log i := fun c i hi => by
      unfold entry
      rw [List.getD_eq_getElem?_getD, List.getD_eq_getElem?_getD, List.getElem?_append_left hi]
    rw [h, h]
    unfold boundRule converged
    by_cases hc : log.length < 2
    · rw [if_pos (Or.inl hc), if_pos (Or.inl hc)]
    · have h1 : log.length - 1 < log.length := by omega
      have h2 : log.length - 2 < log.length := by omega
      simp only [he _ _ h1, he _ _ h2]
  simp only [behind, List.mem_cons, List.not_mem_nil, or_false] at hl
  rcases hl with rfl | rfl | rfl <;> exact key

/-- C266: what these three compare are the two measurements before the newest, with ten degrees. -/
theorem behind_exact (l : Loop) (hl : l ∈ behind) (ε : ℝ) (pre : List Measure) (a b c : Measure) (hinc : a.iter < b.iter) :
    stops l ε (pre ++ [a, b, c]) ↔
      5 ≤ b.iter ∧ b.bound - a.bound < Real.tan (10 * (Real.pi / 180)) * ((b.iter : ℝ) - a.iter) := by
  have hlen : (pre ++ [a, b, c]).length - 1 = pre.length + 2 := by simp
  have key : boundRule ((pre ++ [a, b, c]).length - 1) 10 5 (pre ++ [a, b, c]) ↔
      5 ≤ b.iter ∧ b.bound - a.bound < Real.tan (10 * (Real.pi / 180)) * ((b.iter : ℝ) - a.iter) := by
    rw [hlen]
    exact boundRule_eq pre [c] a b 10 5 hinc (by norm_num) (by norm_num)
  simp only [behind, List.mem_cons, List.not_mem_nil, or_false] at hl
  rcases hl with rfl | rfl | rfl <;> exact key

/-- C266 (`_partial`: not the loops above): the loops that look at the change of the perplexity stop only if it is below one,
those that look at its drop too unless it has risen, and the loops that never stop early do not. -/
theorem little_change_partial (l : Loop) (ε : ℝ) (pre : List Measure) (a b : Measure) (h : stops l ε (pre ++ [a, b])) :
    (l ∈ onChange → |b.perp - a.perp| < 1) ∧
    (l ∈ onDrop → b.perp ≤ a.perp → |b.perp - a.perp| < 1) ∧
    l ∉ never := by
  have hc : ∀ n m, changeRule n m (pre ++ [a, b]) → |b.perp - a.perp| < 1 := fun n m hr => by
    have := hr.2.2
    rwa [newest_eq₂, previous_eq] at this
  have hd : ∀ n, dropRule n (pre ++ [a, b]) → b.perp ≤ a.perp → |b.perp - a.perp| < 1 := fun n hr hle => by
    have := hr.2.2
    rw [newest_eq₂, previous_eq] at this
    rw [abs_of_nonpos (by linarith)]
    linarith
  refine ⟨fun hl => ?_, fun hl hle => ?_, fun hl => ?_⟩
  · simp only [onChange, List.mem_cons, List.not_mem_nil, or_false] at hl
    rcases hl with rfl | rfl | rfl | rfl | rfl <;> exact hc _ _ h
  · simp only [onDrop, List.mem_cons, List.not_mem_nil, or_false] at hl
    rcases hl with rfl | rfl | rfl | rfl | rfl | rfl | rfl | rfl <;> exact hd _ h hle
  · simp only [never, List.mem_cons, List.not_mem_nil, or_false] at hl
    rcases hl with rfl | rfl | rfl <;> exact h

/-- The perplexity triples and training is over. -/
example : stops .ldaCvb0 0.001 [⟨20, -100, 900⟩, ⟨40, -90, 500⟩, ⟨60, -300, 1500⟩] :=
  rising_violation _ (by decide) _ [⟨20, -100, 900⟩] ⟨40, -90, 500⟩ ⟨60, -300, 1500⟩ (by simp) (by norm_num) (by norm_num)

/-- The same log leaves the loop of `mtm3` going. -/
example : ¬ stops .mtm3 0.001 [⟨20, -100, 900⟩, ⟨40, -90, 500⟩, ⟨60, -300, 1500⟩] := by
  intro h
  have := (little_change_partial .mtm3 _ [⟨20, -100, 900⟩] ⟨40, -90, 500⟩ ⟨60, -300, 1500⟩ h).1 (by decide)
  rw [abs_of_nonneg (by norm_num)] at this
  norm_num at this

/-! ## Not before a number of iterations (C267) -/

/-- The iteration before which the loop does not stop. -/
def least : Loop → Nat
  | .ctm => 30
  | .ctmBohning | .ctmBohningFast | .ctmGradArb | .stmUvVecY => 101
  | .stmYv | .ldaCvb0 | .momEm | .mtm3 => 51
  | .stmYvBohning | .stmFakeOnline | .stmUvVecy => 21
  | .ldaCvb => 31
  | .ldaVb | .ldaSvb => 20
  | .rtm | .selfLda | .mtm => 6
  | .ldaVbPython | .mtm2 | .momGibbs => 0

theorem newest_of_getElem (log : List Measure) (h : 0 < log.length) :
    newest log = log[log.length - 1] := by
  unfold newest entry
  rw [List.getD_eq_getElem?_getD, List.getElem?_eq_getElem (by omega)]
  rfl

/-- C267: a loop stops only after two measurements at least and at or after its least iteration. -/
theorem not_before (l : Loop) (ε : ℝ) (log : List Measure) (hlog : log.Pairwise (fun a b => a.iter < b.iter))
    (h : stops l ε log) : 2 ≤ log.length ∧ ∃ b ∈ log.getLast?, least l ≤ b.iter := by
  have hlast : ∀ n, 2 ≤ log.length → n ≤ (newest log).iter → 2 ≤ log.length ∧ ∃ b ∈ log.getLast?, n ≤ b.iter := by
    intro n h2 hn
    refine ⟨h2, newest log, ?_, hn⟩
    rw [newest_of_getElem log (by omega), List.getLast?_eq_getElem?, List.getElem?_eq_getElem (by omega)]
    rfl
  have hd : ∀ n, dropRule n log → 2 ≤ log.length ∧ ∃ b ∈ log.getLast?, n ≤ b.iter :=
    fun n hr => hlast n (by have := hr.1; omega) hr.2.1
  have hc : ∀ n m, 2 ≤ n → changeRule n m log → 2 ≤ log.length ∧ ∃ b ∈ log.getLast?, m ≤ b.iter :=
    fun n m hn hr => hlast m (by have := hr.1; omega) hr.2.1
  have hb : ∀ e n, boundRule log.length e n log → 2 ≤ log.length ∧ ∃ b ∈ log.getLast?, n ≤ b.iter := fun e n hr => by
    have := Verif.Props.Numerics.no_early_convergence _ _ _ _ _ hr
    exact hlast n this.1 (by exact_mod_cast this.2)
  have hr : ∀ e n, boundRule (log.length - 1) e n log → 2 ≤ log.length ∧ ∃ b ∈ log.getLast?, n + 1 ≤ b.iter := fun e n hr => by
    have h1 := Verif.Props.Numerics.no_early_convergence _ _ _ _ _ hr
    have h2 : n ≤ (entry log (log.length - 1 - 1)).iter := by exact_mod_cast h1.2
    refine hlast _ (by have := h1.1; omega) ?_
    have h3 : 3 ≤ log.length := by have := h1.1; omega
    rw [newest_of_getElem log (by omega)]
    have h4 : entry log (log.length - 1 - 1) = log[log.length - 1 - 1] := by
      unfold entry
      rw [List.getD_eq_getElem?_getD, List.getElem?_eq_getElem (by omega)]
      rfl
    rw [h4] at h2
    have := List.pairwise_iff_getElem.mp hlog (log.length - 1 - 1) (log.length - 1) (by omega) (by omega) (by omega)
    omega
  cases l
  case ldaVbPython => exact h.elim
  case mtm2 => exact h.elim
  case momGibbs => exact h.elim
  case ldaVb => exact hb _ _ h
  case ldaSvb => exact hb _ _ h
  case rtm => exact hr _ _ h
  case selfLda => exact hr _ _ h
  case mtm => exact hr _ _ h
  all_goals first | exact hd _ h | exact hc _ _ (by norm_num) h

example : ¬ stops .rtm 10 [⟨0, -10, 9⟩, ⟨2, -9, 8⟩, ⟨4, -9, 8⟩] := by
  intro h
  obtain ⟨-, b, hb, hl⟩ := not_before .rtm 10 _ (by simp) h
  simp at hb
  subst hb
  revert hl
  decide

end Verif.Props.Stopping
