import Verif.Model.DebugReport
import Mathlib.Tactic.Linarith

/-!
# C275: a reported fall of the bound is a fall

While debugging, every update prints the bound.  A line goes to the error stream if the bound fell.
-/

namespace Verif.Props.DebugReport

open Verif Verif.DebugReport

/-- What a user expects of the lines of one training: the line of a call goes to the error stream exactly if there is a call
before in the same training and the bound is lower than there; a difference that is shown after the first call is the change of the
bound. -/
def Faithful (bounds : List ℚ) (lines : List Line) : Prop :=
  lines.length = bounds.length ∧
  ∀ i l b, lines[i]? = some l → bounds[i]? = some b →
    (l.err = true ↔ ∃ j a, j + 1 = i ∧ bounds[j]? = some a ∧ b < a) ∧
    ∀ x j a, l.shown = some x → j + 1 = i → bounds[j]? = some a → x = b - a

theorem trunc_neg_iff (x : ℚ) : trunc x < 0 ↔ x ≤ -1 := by
  unfold trunc
  split
  · rename_i h
    have : (0 : Int) ≤ ⌊x⌋ := Int.floor_nonneg.2 h
    constructor
    · intro h'; omega
    · intro h'; linarith
  · constructor
    · intro h
      have : ⌈x⌉ ≤ -1 := by omega
      have := Int.ceil_le.1 this
      push_cast at this
      exact this
    · intro h
      have : ⌈x⌉ ≤ -1 := Int.ceil_le.2 (by push_cast; exact h)
      omega

/-- the value of the variable before call `i` -/
def before (start : ℚ) (bounds : List ℚ) : Nat → ℚ
  | 0 => start
  | i + 1 => bounds.getD i 0

theorem calls_spec (m : Module) (bounds : List ℚ) : ∀ old,
    (calls m old bounds).1.length = bounds.length ∧
    (∀ i b, bounds[i]? = some b → (calls m old bounds).1[i]? = some (line m (before old bounds i) b)) ∧
    (calls m old bounds).2 = bounds.getLastD old := by
  induction bounds with
  | nil => intro old; exact ⟨rfl, by simp, rfl⟩
  | cons a bs ih =>
    intro old
    obtain ⟨h1, h2, h3⟩ := ih a
    refine ⟨by simp [calls, h1], ?_, by simp [calls, h3, List.getLastD]; cases bs <;> rfl⟩
    intro i b hb
    cases i with
    | zero => simp at hb; subst hb; simp [calls, before]
    | succ i =>
      simp only [List.getElem?_cons_succ] at hb
      simp only [calls, List.getElem?_cons_succ, h2 i b hb]
      cases i <;> simp [before]

/-- C275, the lines of one training exactly: the line of a call depends on its bound and the bound of the call before; the first
call uses 0 in the modules that reset their variable, and the last bound of the training before in the others. -/
theorem line_iff (m : Module) (old : ℚ) (bounds : List ℚ) (i : Nat) (b : ℚ) (hb : bounds[i]? = some b) :
    ∃ l, (run m old bounds).1[i]? = some l ∧
      (l.err = true ↔
        let a := before (if resets m then 0 else old) bounds i
        if m = .ctm then b < a ∧ a ≠ 0 else b ≤ a - 1) := by
  refine ⟨_, (calls_spec m bounds _).2.1 i b hb, ?_⟩
  simp only
  generalize before (if resets m then 0 else old) bounds i = a
  cases m <;> simp only [line, ctmLine, truncLine, decide_eq_true_eq, trunc_neg_iff, reduceCtorEq, if_false, if_true]
  · split
    · simp_all
    · rename_i h
      exact ⟨fun h' => ⟨by linarith, h⟩, fun h' => by linarith [h'.1]⟩
  all_goals exact ⟨fun h => by linarith, fun h => by linarith⟩

/-- C275, the first line of a training: three modules compare with zero, the others with the training before. -/
theorem first_line (m : Module) (old b : ℚ) (bounds : List ℚ) :
    ∃ l, (run m old (b :: bounds)).1[0]? = some l ∧
      (m ∈ [Module.stmYv, .stmYvBohning, .stmUvVecy] → (l.err = true ↔ b ≤ -1)) ∧
      (m ∈ [Module.ctmBohning, .mtm2, .mtm3, .stmUvVec] → (l.err = true ↔ b ≤ old - 1)) ∧
      (m = .ctm → (l.err = true ↔ b < old ∧ old ≠ 0)) := by
  obtain ⟨l, hl, h⟩ := line_iff m old (b :: bounds) 0 b rfl
  refine ⟨l, hl, ?_, ?_, ?_⟩ <;> intro hm <;> rw [h] <;> revert hm <;> cases m <;> simp [before, resets]

/-- C275, the part that holds: after the first call of a training a line goes to the error stream only if the bound fell. -/
theorem later_falls_partial (m : Module) (old : ℚ) (bounds : List ℚ) (i : Nat) (a b : ℚ) (l : Line)
    (ha : bounds[i]? = some a) (hb : bounds[i + 1]? = some b) (hl : (run m old bounds).1[i + 1]? = some l)
    (herr : l.err = true) : b < a := by
  obtain ⟨l', hl', h⟩ := line_iff m old bounds (i + 1) b hb
  rw [hl] at hl'
  cases hl'
  have h := h.1 herr
  simp only [before, List.getD, ha, Option.getD_some] at h
  split at h
  · exact h.1
  · linarith

example : (run .ctmBohning 0 [-20, -10, -12]).1.map Line.err = [true, false, true] := by decide +kernel

/-- C275 is violated: in the modules other than `ctm.py` a fall by less than one is not reported, whatever the bounds. -/
theorem small_fall_violation (m : Module) (hm : m ≠ .ctm) (old : ℚ) (bounds : List ℚ) (i : Nat) (a b : ℚ)
    (ha : bounds[i]? = some a) (hb : bounds[i + 1]? = some b) (h1 : b < a) (h2 : a - 1 < b) :
    ¬ Faithful bounds (run m old bounds).1 := by
  rintro ⟨_, hf⟩
  obtain ⟨l, hl, h⟩ := line_iff m old bounds (i + 1) b hb
  have h3 := h.1 ((hf _ l b hl hb).1.2 ⟨i, a, rfl, ha, h1⟩)
  simp only [before, List.getD, ha, Option.getD_some, hm, if_false] at h3
  linarith

example : ¬ Faithful [-20, -41 / 2] (run .mtm2 0 [-20, -41 / 2]).1 :=
  small_fall_violation .mtm2 (by decide) 0 _ 0 (-20) (-41 / 2) rfl rfl (by norm_num) (by norm_num)

/-- C275 is violated: the first line of a training is reported as a fall if the bound is at most -1, in the modules that reset
their variable; in the others it is so if the training before ended with a bound higher by one or more. -/
theorem first_line_violation (m : Module) (hm : m ≠ .ctm) (old b : ℚ) (bounds : List ℚ)
    (h : b ≤ (if resets m then 0 else old) - 1) : ¬ Faithful (b :: bounds) (run m old (b :: bounds)).1 := by
  rintro ⟨_, hf⟩
  obtain ⟨l, hl, h'⟩ := line_iff m old (b :: bounds) 0 b rfl
  have h3 : l.err = true := h'.2 (by simpa [before, hm] using h)
  obtain ⟨j, a, hj, -⟩ := (hf _ l b hl rfl).1.1 h3
  omega

example : ¬ Faithful [-20, -10] (run .stmYvBohning 0 [-20, -10]).1 :=
  first_line_violation .stmYvBohning (by decide) 0 (-20) [-10] (by norm_num [resets])

/-- C275 is violated: a training of which the bound only rises is reported with a fall if the training before was better. -/
theorem better_before_violation (m : Module) (hm : resets m = false) (first : List ℚ) (b : ℚ) (bs : List ℚ) (old : ℚ)
    (h0 : first.getLastD old ≠ 0) (h : b ≤ first.getLastD old - 1) :
    ∃ lines l, (session m old [first, b :: bs])[1]? = some lines ∧ lines[0]? = some l ∧ l.err = true ∧
      ¬ Faithful (b :: bs) lines := by
  have hrun : (run m old first).2 = first.getLastD old := by
    unfold run
    rw [(calls_spec m first _).2.2, hm]
    rfl
  obtain ⟨l, hl, h'⟩ := line_iff m ((run m old first).2) (b :: bs) 0 b rfl
  have herr : l.err = true := by
    refine h'.2 ?_
    simp only [before, hm, hrun, if_false, Bool.false_eq_true]
    split
    · exact ⟨by linarith, h0⟩
    · exact h
  refine ⟨_, l, rfl, hl, herr, ?_⟩
  rintro ⟨_, hf⟩
  obtain ⟨j, a, hj, -⟩ := (hf 0 l b hl rfl).1.1 herr
  omega

example : (session .ctm 0 [[-30, -20], [-25, -15]]).map (·.map Line.err) = [[false, false], [true, false]] := by
  decide +kernel

/-- C275 is violated: `ctm.py` shows the negated change. -/
theorem shown_sign_violation (old : ℚ) (bounds : List ℚ) (i : Nat) (a b : ℚ) (ha : bounds[i]? = some a)
    (hb : bounds[i + 1]? = some b) (h0 : a ≠ 0) :
    (∃ l, (run .ctm old bounds).1[i + 1]? = some l ∧ l.shown = some (-(b - a))) ∧
      (a ≠ b → ¬ Faithful bounds (run .ctm old bounds).1) := by
  have hl : ∃ l, (run .ctm old bounds).1[i + 1]? = some l ∧ l.shown = some (-(b - a)) := by
    refine ⟨_, (calls_spec .ctm bounds _).2.1 (i + 1) b hb, ?_⟩
    simp [line, ctmLine, before, ha, h0]
  refine ⟨hl, ?_⟩
  rintro hab ⟨_, hf⟩
  obtain ⟨l, hl, hx⟩ := hl
  have := (hf (i + 1) l b hl hb).2 _ i a hx rfl ha
  exact hab (by linarith)

/-- The other modules show the change, after the first line. -/
theorem shown_change_partial (m : Module) (hm : m ≠ .ctm) (old : ℚ) (bounds : List ℚ) (i : Nat) (a b : ℚ)
    (ha : bounds[i]? = some a) (hb : bounds[i + 1]? = some b) (h0 : a ≠ 0) :
    ∃ l, (run m old bounds).1[i + 1]? = some l ∧ l.shown = some (b - a) := by
  refine ⟨_, (calls_spec m bounds _).2.1 (i + 1) b hb, ?_⟩
  cases m <;> first | exact absurd rfl hm | simp [line, truncLine, before, ha, h0]

example : (run .ctm 0 [-20, -10]).1.map Line.shown = [some 0, some (-10)] ∧
    (run .stmYv 0 [-20, -10]).1.map Line.shown = [none, some 10] := by decide +kernel

end Verif.Props.DebugReport
