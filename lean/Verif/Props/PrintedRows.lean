import Verif.Model.PrintedTable
import Verif.Props.RunFiles
import Verif.Props.ArxivFiles
import Mathlib.Tactic.Linarith
import Mathlib.Tactic.Ring
import Mathlib.Tactic.FieldSimp
import Mathlib.Tactic.NormNum
import Mathlib.Algebra.Order.Floor.Ring
import Mathlib.Algebra.Order.Field.Basic
import Mathlib.Algebra.Order.Round

/-!
# Reading printed rows of scores (C297)
-/

namespace Verif.Props.PrintedRows

open Verif Verif.RunTools Verif.RunFiles Verif.PrintedTable Verif.Evals Verif.RunMain

/-- `float` reads whole numbers and decimal fractions without sign as their values -/
def ReadsDecimals (toFloat : Str → Py ℚ) : Prop :=
  ∀ a b : Str, a ≠ [] → b ≠ [] → (∀ c ∈ a, c.isDigit = true) → (∀ c ∈ b, c.isDigit = true) →
    toFloat a = .ok (Nat.ofDigitChars 10 a 0 : ℚ) ∧
    toFloat (a ++ '.' :: b) = .ok ((Nat.ofDigitChars 10 a 0 : ℚ) + (Nat.ofDigitChars 10 b 0 : ℚ) / 10 ^ b.length)

/-! ## Numbers -/

theorem roundEven_near (x : ℚ) : |(roundEven x : ℚ) - x| ≤ 1 / 2 := by
  have h0 := Int.floor_le x
  have h1 := Int.lt_floor_add_one x
  rw [abs_le]
  unfold roundEven
  split
  · constructor <;> linarith
  · split
    · push_cast; constructor <;> linarith
    · split
      · constructor <;> linarith
      · push_cast; constructor <;> linarith

theorem roundEven_nonneg (x : ℚ) (h : 0 ≤ x) : 0 ≤ roundEven x := by
  have h0 := Int.floor_nonneg.2 h
  unfold roundEven
  split
  · exact h0
  · split
    · omega
    · split <;> omega

theorem digits_all (n : Nat) : ∀ c ∈ Nat.toDigits 10 n, c.isDigit = true := fun _ hc =>
  Nat.isDigit_of_mem_toDigits (b := 10) (n := n) (by decide) (by decide) hc

/-- a character which is not part of a number without sign -/
theorem digit_ne (c d : Char) (h : c.isDigit = true) (hd : d.isDigit = false) : c ≠ d := by
  rintro rfl
  rw [h] at hd
  cases hd

/-- The text of a number which is not negative is read as a number which differs by half a unit of the last digit at most, and has neither white space
nor bars -/
theorem fixed_read (toFloat : Str → Py ℚ) (hf : ReadsDecimals toFloat) (p : Nat) (hp : 0 < p) (x : ℚ) (hx : 0 ≤ x) :
    (∃ v, toFloat (fixed p x) = .ok v ∧ |v - x| ≤ 1 / (2 * 10 ^ p)) ∧ (∀ c ∈ fixed p x, c.isDigit = true ∨ c = '.') ∧ fixed p x ≠ [] := by
  have hneg : ¬ x < 0 := not_lt.2 hx
  have e : fixed p x = Nat.toDigits 10 ((roundEven (x * 10 ^ p)).natAbs / 10 ^ p) ++
      '.' :: (List.replicate (p - (Nat.toDigits 10 ((roundEven (x * 10 ^ p)).natAbs % 10 ^ p)).length) '0' ++
        Nat.toDigits 10 ((roundEven (x * 10 ^ p)).natAbs % 10 ^ p)) := by
    simp only [fixed, if_neg hneg, List.nil_append]
  have hpos : (0 : ℚ) < 10 ^ p := by positivity
  have hn := roundEven_nonneg (x * 10 ^ p) (by positivity)
  have hr := roundEven_near (x * 10 ^ p)
  have hcast : (((roundEven (x * 10 ^ p)).natAbs : ℕ) : ℚ) = (roundEven (x * 10 ^ p) : ℚ) := by
    have h := congrArg (Int.cast (R := ℚ)) (Int.natAbs_of_nonneg hn)
    rwa [Int.cast_natCast] at h
  generalize roundEven (x * 10 ^ p) = r at *
  rw [← hcast] at hr
  generalize r.natAbs = n at *
  have hlen : (Nat.toDigits 10 (n % 10 ^ p)).length ≤ p :=
    (Nat.length_toDigits_le_iff (b := 10) (by decide) hp).2 (Nat.mod_lt _ (by positivity))
  rw [e]
  refine ⟨?_, ?_, by simp⟩
  · obtain ⟨-, h2⟩ := hf (Nat.toDigits 10 (n / 10 ^ p)) (List.replicate (p - (Nat.toDigits 10 (n % 10 ^ p)).length) '0' ++ Nat.toDigits 10 (n % 10 ^ p))
      Nat.toDigits_ne_nil (by simp [Nat.toDigits_ne_nil]) (digits_all _) (by
        intro c hc
        rcases List.mem_append.1 hc with hc | hc
        · rw [List.eq_of_mem_replicate hc]
          decide
        · exact digits_all _ c hc)
    refine ⟨_, h2, ?_⟩
    rw [Nat.ofDigitChars_ten_toDigits, Nat.ofDigitChars_append, Nat.ofDigitChars_replicate_zero, Nat.mul_zero, Nat.ofDigitChars_ten_toDigits,
      List.length_append, List.length_replicate, Nat.sub_add_cancel hlen]
    have hdm : ((n / 10 ^ p : ℕ) : ℚ) + ((n % 10 ^ p : ℕ) : ℚ) / 10 ^ p = n / 10 ^ p := by
      rw [eq_div_iff hpos.ne', add_mul, div_mul_cancel₀ _ hpos.ne']
      have := Nat.div_add_mod n (10 ^ p)
      have h' : ((10 ^ p * (n / 10 ^ p) + n % 10 ^ p : ℕ) : ℚ) = n := by rw [this]
      push_cast at h'
      linarith
    rw [hdm, show (n : ℚ) / 10 ^ p - x = (n - x * 10 ^ p) / 10 ^ p by field_simp, abs_div, abs_of_pos hpos, div_le_div_iff₀ hpos (by positivity)]
    have := mul_le_mul_of_nonneg_right hr (by positivity : (0 : ℚ) ≤ 2 * 10 ^ p)
    linarith
  · intro c hc
    rcases List.mem_append.1 hc with hc | hc
    · exact .inl (digits_all _ c hc)
    · rcases List.mem_cons.1 hc with rfl | hc
      · exact .inr rfl
      · rcases List.mem_append.1 hc with hc | hc
        · rw [List.eq_of_mem_replicate hc]
          exact .inl (by decide)
        · exact .inl (digits_all _ c hc)

/-- the number which is read -/
theorem fixed_value (toFloat : Str → Py ℚ) (hf : ReadsDecimals toFloat) (p : Nat) (hp : 0 < p) :
    ∃ v : ℚ → ℚ, ∀ x, 0 ≤ x → toFloat (fixed p x) = .ok (v x) ∧ |v x - x| ≤ 1 / (2 * 10 ^ p) := by
  refine ⟨fun x => if h : 0 ≤ x then (fixed_read toFloat hf p hp x h).1.choose else 0, fun x hx => ?_⟩
  simp only [dif_pos hx]
  exact (fixed_read toFloat hf p hp x hx).1.choose_spec

/-! ## Rows -/

/-- no white space and no bar -/
def Solid (s : Str) : Prop := ∀ c ∈ s, isSpace c = false ∧ c ≠ '|'

theorem strip_solid (s : Str) (h : ∀ c ∈ s, isSpace c = false) : strip s = s := by
  unfold strip
  have h1 : s.dropWhile isSpace = s := by
    cases s with
    | nil => rfl
    | cons x xs => rw [List.dropWhile_cons, if_neg (by rw [h x (by simp)]; decide)]
  rw [h1]
  have h2 : s.reverse.dropWhile isSpace = s.reverse := by
    rcases ht : s.reverse with _ | ⟨x, xs⟩
    · rfl
    · rw [List.dropWhile_cons, if_neg (by rw [h x (by rw [← List.mem_reverse, ht]; simp)]; decide)]
  rw [h2, List.reverse_reverse]

theorem strip_padded (a s b : Str) (ha : ∀ c ∈ a, isSpace c = true) (hb : ∀ c ∈ b, isSpace c = true) (hs : ∀ c ∈ s, isSpace c = false) :
    strip (a ++ s ++ b) = s := by
  have e : ∀ t, strip t = stripBy isSpace t := fun _ => rfl
  rw [e, RunFiles.stripBy_right isSpace _ b hb, RunFiles.stripBy_left isSpace a s ha, ← e, strip_solid s hs]

theorem splitOn_bar (a b : Str) (h : '|' ∉ a) : splitOn '|' (a ++ '|' :: b) = a :: splitOn '|' b := by
  induction a with
  | nil => simp [splitOn]
  | cons x xs ih =>
    rw [List.cons_append, splitOn, if_neg (by rintro rfl; exact h (by simp)), ih (fun hx => h (List.mem_cons_of_mem _ hx))]

theorem solid_digits (n : Nat) : Solid (Nat.toDigits 10 n) := by
  intro c hc
  have := digits_all n c hc
  refine ⟨?_, digit_ne _ _ this (by decide)⟩
  rw [← Bool.not_eq_true]
  intro h
  simp only [isSpace, Bool.or_eq_true, decide_eq_true_iff] at h
  rcases h with ((((rfl | rfl) | rfl) | rfl) | rfl) | rfl <;> exact absurd this (by decide)

theorem solid_fixed (toFloat : Str → Py ℚ) (hf : ReadsDecimals toFloat) (p : Nat) (hp : 0 < p) (x : ℚ) (hx : 0 ≤ x) : Solid (fixed p x) := by
  intro c hc
  rcases (fixed_read toFloat hf p hp x hx).2.1 c hc with this | rfl
  · refine ⟨?_, digit_ne _ _ this (by decide)⟩
    rw [← Bool.not_eq_true]
    intro h
    simp only [isSpace, Bool.or_eq_true, decide_eq_true_iff] at h
    rcases h with ((((rfl | rfl) | rfl) | rfl) | rfl) | rfl <;> exact absurd this (by decide)
  · decide

/-- The text of the scores, with the bars before them -/
theorem join_bars (l : List Str) (h : l ≠ []) : " | ".toList ++ join " | ".toList l ++ " |\n".toList = ' ' :: (l.flatMap (fun s => '|' :: (' ' :: s ++ [' ']))) ++ ['|', '\n'] := by
  have e1 : " | ".toList = [' ', '|', ' '] := rfl
  have e2 : " |\n".toList = [' ', '|', '\n'] := rfl
  rw [e1, e2]
  unfold join
  induction l with
  | nil => exact absurd rfl h
  | cons x xs ih =>
    cases xs with
    | nil => simp
    | cons y ys =>
      have := ih (by simp)
      simp only [List.intersperse_cons_cons, List.flatten_cons, List.flatMap_cons, List.cons_append, List.nil_append, List.append_assoc, List.cons.injEq,
        true_and] at this ⊢
      rw [this]

theorem splitOn_cells (l : List Str) (h : ∀ s ∈ l, '|' ∉ s) (tail : Str) : splitOn '|' (l.flatMap (fun s => s ++ ['|']) ++ tail) = l ++ splitOn '|' tail := by
  induction l with
  | nil => rfl
  | cons x xs ih =>
    rw [List.flatMap_cons, List.append_assoc, List.append_assoc, List.cons_append, List.nil_append, splitOn_bar _ _ (h x (by simp)),
      ih (fun s hs => h s (List.mem_cons_of_mem _ hs)), List.cons_append]

/-- the cells of a row -/
def cells (g : Group) (count : Nat) (scores : List ℚ) : List Str :=
  (' ' :: (pad 2 (intText g.1) ++ [','] ++ pad 5 (intText g.2)) ++ [' ']) :: (' ' :: pad 9 (Nat.toDigits 10 count) ++ [' ']) ::
    scores.map fun x => ' ' :: fixed 3 x ++ [' ']

theorem flatMap_shift (l : List Str) : '|' :: l.flatMap (fun s => s ++ ['|']) = l.flatMap (fun s => '|' :: s) ++ ['|'] := by
  induction l with
  | nil => rfl
  | cons x xs ih =>
    rw [List.flatMap_cons, List.flatMap_cons, List.append_assoc, List.cons_append, List.nil_append, ih, List.cons_append, List.cons_append, List.append_assoc]

theorem intText_nat (n : Nat) : intText (n : Int) = Nat.toDigits 10 n := by
  unfold intText
  rw [if_neg (by omega), Int.natAbs_natCast]

theorem row_cells (g : Group) (count : Nat) (scores : List ℚ) (h : scores ≠ []) :
    row g count scores = '|' :: (cells g count scores).flatMap (fun s => s ++ ['|']) ++ ['\n'] := by
  have e0 : "| ".toList = ['|', ' '] := rfl
  have e1 : " | ".toList = [' ', '|', ' '] := rfl
  have hj := join_bars (scores.map (fixed 3)) (by simpa using h)
  rw [flatMap_shift]
  unfold row cells
  rw [List.append_assoc, List.append_assoc _ " | ".toList, ← List.append_assoc " | ".toList, hj, e0, e1, intText_nat]
  simp only [List.flatMap_cons, List.flatMap_map, List.cons_append, List.nil_append, List.append_assoc]

theorem strip_row (m : Str) : strip ('|' :: (m ++ ['|']) ++ ['\n']) = '|' :: (m ++ ['|']) := by
  unfold strip
  rw [List.cons_append, List.dropWhile_cons, if_neg (by decide), List.reverse_cons, List.reverse_append, List.reverse_append]
  simp [isSpace]

theorem flatMap_last (l : List Str) (h : l ≠ []) : ∃ m, l.flatMap (fun s => s ++ ['|']) = m ++ ['|'] := by
  rw [← List.dropLast_append_getLast h, List.flatMap_append]
  exact ⟨_, by simp only [List.flatMap_cons, List.flatMap_nil, List.append_nil, ← List.append_assoc]; rfl⟩

theorem solid_bar (s : Str) (h : Solid s) : '|' ∉ s := fun hm => (h _ hm).2 rfl

theorem pad_bar (w : Nat) (s : Str) (h : '|' ∉ s) : '|' ∉ pad w s := by
  intro hm
  rcases List.mem_append.1 hm with hm | hm
  · exact absurd (List.eq_of_mem_replicate hm) (by decide)
  · exact h hm

theorem intText_bar (i : Int) : '|' ∉ intText i := by
  unfold intText
  split
  · intro hm
    rcases List.mem_cons.1 hm with h | h
    · exact absurd h (by decide)
    · exact solid_bar _ (solid_digits _) h
  · exact solid_bar _ (solid_digits _)

theorem cells_bar (toFloat : Str → Py ℚ) (hf : ReadsDecimals toFloat) (g : Group) (count : Nat) (scores : List ℚ) (hs : ∀ x ∈ scores, 0 ≤ x) :
    ∀ s ∈ cells g count scores, '|' ∉ s := by
  have hsp : ('|' : Char) ≠ ' ' := by decide
  have hco : ('|' : Char) ≠ ',' := by decide
  intro s hm
  unfold cells at hm
  rcases List.mem_cons.1 hm with rfl | hm
  · simp [hsp, hco, pad_bar _ _ (intText_bar _)]
  rcases List.mem_cons.1 hm with rfl | hm
  · simp [hsp, pad_bar _ _ (solid_bar _ (solid_digits _))]
  obtain ⟨x, hx, rfl⟩ := List.mem_map.1 hm
  simp [hsp, solid_bar _ (solid_fixed toFloat hf 3 (by decide) x (hs x hx))]

/-- A printed row is read as the number of documents and the rounded scores -/
theorem readRow_row (toFloat : Str → Py ℚ) (hf : ReadsDecimals toFloat) (v : ℚ → ℚ) (hv : ∀ x, 0 ≤ x → toFloat (fixed 3 x) = .ok (v x)) (g : Group)
    (count : Nat) (scores : List ℚ) (hl : scores.length = 10) (hs : ∀ x ∈ scores, 0 ≤ x) :
    readRow toFloat (row g count scores) = .ok ⟨count, fun m => if m < 10 then v (scores.getD m 0) else 0⟩ := by
  have hne : scores ≠ [] := by rintro rfl; simp at hl
  obtain ⟨m, hm⟩ := flatMap_last (cells g count scores) (by simp [cells])
  have hstrip : strip (row g count scores) = [] ++ '|' :: ((cells g count scores).flatMap (fun s => s ++ ['|']) ++ []) := by
    rw [row_cells g count scores hne, hm, strip_row, List.append_nil, List.nil_append]
  have hsplit : splitOn '|' (strip (row g count scores)) = [] :: (cells g count scores ++ [[]]) := by
    rw [hstrip, splitOn_bar _ _ (by simp), splitOn_cells _ (cells_bar toFloat hf g count scores hs)]
    rfl
  unfold readRow
  rw [hsplit]
  have key : ∀ i ∈ List.range 11, (match ([] :: (cells g count scores ++ [[]]))[i + 2]? with
      | none => (.error .indexError : Py ℚ)
      | some c => toFloat (strip c)) = .ok (if i = 0 then (count : ℚ) else v (scores.getD (i - 1) 0)) := by
    intro i hi
    rw [List.mem_range] at hi
    rcases i with _ | i
    · have hc : strip (' ' :: pad 9 (Nat.toDigits 10 count) ++ [' ']) = Nat.toDigits 10 count := by
        have := strip_padded (' ' :: List.replicate (9 - (Nat.toDigits 10 count).length) ' ') (Nat.toDigits 10 count) [' ']
          (by intro c hc; rw [show c = ' ' by rcases List.mem_cons.1 hc with h | h; exacts [h, List.eq_of_mem_replicate h]]; rfl) (by decide) (fun c hc => (solid_digits count c hc).1)
        simpa only [pad, List.cons_append, List.append_assoc] using this
      have h1 := (hf (Nat.toDigits 10 count) ['0'] Nat.toDigits_ne_nil (by simp) (digits_all count) (by decide)).1
      rw [Nat.ofDigitChars_ten_toDigits] at h1
      simp only [cells, List.cons_append, List.getElem?_cons_succ, List.getElem?_cons_zero, zero_add]
      rw [if_pos trivial, ← h1, ← List.cons_append, hc]
    · have hi' : i < scores.length := by omega
      have hc : strip (' ' :: fixed 3 scores[i] ++ [' ']) = fixed 3 scores[i] :=
        strip_padded [' '] _ [' '] (by decide) (by decide) (fun c hc => (solid_fixed toFloat hf 3 (by decide) _ (hs _ (List.getElem_mem hi')) c hc).1)
      have hcell : ([] :: (cells g count scores ++ [[]]))[i + 1 + 2]? = some (' ' :: fixed 3 scores[i] ++ [' ']) := by
        simp only [cells, List.cons_append, List.getElem?_cons_succ]
        rw [List.getElem?_append_left (by simpa using hi'), List.getElem?_map, List.getElem?_eq_getElem hi', Option.map_some]
      simp only [hcell, hc]
      rw [hv _ (hs _ (List.getElem_mem hi')), if_neg (by omega), Nat.add_sub_cancel, List.getD_eq_getElem?_getD, List.getElem?_eq_getElem hi',
        Option.getD_some]
  refine (congrArg (· >>= _) (ArxivFiles.mapM_ok _ _ (List.range 11) key)).trans ?_
  refine congrArg Except.ok ?_
  have hget : ∀ k < 11, ((List.range 11).map fun i => if i = 0 then (count : ℚ) else v (scores.getD (i - 1) 0)).getD k 0 =
      if k = 0 then (count : ℚ) else v (scores.getD (k - 1) 0) := by
    intro k hk
    rw [List.getD_eq_getElem?_getD, List.getElem?_map, List.getElem?_range hk]
    rfl
  rw [hget 0 (by decide)]
  congr 1
  funext k
  by_cases hk : k < 10
  · rw [hget (k + 1) (by omega), if_neg (by omega), Nat.add_sub_cancel, if_pos hk]
  · rw [if_neg hk, List.getD_eq_getElem?_getD, List.getElem?_eq_none (by simp; omega), Option.getD_none]

end Verif.Props.PrintedRows
