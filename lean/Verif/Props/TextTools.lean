import Mathlib.Data.List.Sort
import Mathlib.Data.List.Dedup
import Mathlib.Algebra.Order.Field.Basic
import Mathlib.Algebra.Order.BigOperators.Group.List
import Mathlib.Tactic.Ring
import Mathlib.Tactic.Linarith
import Mathlib.Tactic.FieldSimp
import Verif.Model.RunTools
import Verif.Props.SelectUsers

/-!
# Text tools of the command line scripts (C37, C38, C39, C40)
-/

namespace Verif.Props.TextTools

open Verif Verif.RunTools

/-! ## Parentheses (C37) -/

/-- Text in which parentheses match. -/
inductive Balanced : List Char → Prop
  | nil : Balanced []
  | char (c : Char) (s : List Char) : c ≠ '(' → c ≠ ')' → Balanced s → Balanced (c :: s)
  | paren (s t : List Char) : Balanced s → Balanced t → Balanced ('(' :: s ++ ')' :: t)

theorem fold_inside (s : List Char) (h : Balanced s) : ∀ out n, 0 < n →
    s.foldl elimStep (out, n) = (out, n) := by
  induction h with
  | nil => intros; rfl
  | char c s h1 h2 _ ih =>
    intro out n hn
    rw [List.foldl_cons]
    have : elimStep (out, n) c = (out, n) := by unfold elimStep; simp [hn, h1, h2]
    rw [this]; exact ih out n hn
  | paren s t _ _ ihs iht =>
    intro out n hn
    rw [List.foldl_append, List.foldl_cons, List.foldl_cons]
    have h1 : elimStep (out, n) '(' = (out, n + 1) := by
      unfold elimStep; simp only [hn, if_true]; rw [if_neg (by decide)]
    rw [h1, ihs out (n + 1) (by omega)]
    have h2 : elimStep (out, n + 1) ')' = (out, n) := by unfold elimStep; simp
    rw [h2]; exact iht out n hn

theorem fold_outside (s : List Char) (h : '(' ∉ s) : ∀ out, s.foldl elimStep (out, 0) = (out ++ s, 0) := by
  induction s with
  | nil => intro out; simp
  | cons c s ih =>
    intro out
    rw [List.foldl_cons]
    have hc : c ≠ '(' := fun he => h (by rw [he]; simp)
    have : elimStep (out, 0) c = (out ++ [c], 0) := by unfold elimStep; simp [hc]
    rw [this, ih (fun hm => h (List.mem_cons_of_mem _ hm))]
    simp

/-- The output so far is only ever extended, and by the same thing. -/
theorem fold_out (s : List Char) : ∀ out n, s.foldl elimStep (out, n) =
    (out ++ (s.foldl elimStep ([], n)).1, (s.foldl elimStep ([], n)).2) := by
  induction s with
  | nil => intro out n; simp
  | cons c s ih =>
    intro out n
    rw [List.foldl_cons, List.foldl_cons]
    have : elimStep (out, n) c = (out ++ (elimStep ([], n) c).1, (elimStep ([], n) c).2) := by
      unfold elimStep
      simp only
      split
      · split
        · simp
        · split <;> simp
      · split <;> simp
    rw [this, ih (out ++ (elimStep ([], n) c).1), ih (elimStep ([], n) c).1 (elimStep ([], n) c).2]
    simp

/-- C37: text without an opening parenthesis is unchanged. -/
theorem no_parenthesis_unchanged (s : List Char) (h : '(' ∉ s) : eliminateParentheses s = s := by
  unfold eliminateParentheses; rw [fold_outside s h []]; simp

/-- C37: the first balanced parenthesised part is removed, the text before is kept and the text after is
processed in the same way. -/
theorem parenthesised_removed (x b rest : List Char) (hx : '(' ∉ x) (hb : Balanced b) :
    eliminateParentheses (x ++ '(' :: b ++ ')' :: rest) = x ++ eliminateParentheses rest := by
  unfold eliminateParentheses
  rw [List.foldl_append, List.foldl_append, fold_outside x hx []]
  rw [List.foldl_cons (l := b)]
  have h1 : elimStep ([] ++ x, 0) '(' = (x, 1) := by unfold elimStep; simp
  rw [h1, fold_inside b hb x 1 (by omega), List.foldl_cons]
  have h2 : elimStep (x, 1) ')' = (x, 0) := by unfold elimStep; simp
  rw [h2, fold_out rest x 0]

/-- every prefix closes at most what it has opened; more precisely the text never falls below the
opening depth -/
def Unclosed (s : List Char) : Prop :=
  ∀ p, p <+: s → p.count ')' ≤ p.count '('

theorem fold_unclosed (s : List Char) : ∀ out n, 0 < n →
    (∀ p, p <+: s → p.count ')' < p.count '(' + n) →
    (s.foldl elimStep (out, n)).1 = out := by
  induction s with
  | nil => intros; rfl
  | cons c s ih =>
    intro out n hn h
    rw [List.foldl_cons]
    have hpre : ∀ p, p <+: s → (c :: p).count ')' < (c :: p).count '(' + n :=
      fun p hp => h (c :: p) (List.cons_prefix_cons.mpr ⟨rfl, hp⟩)
    by_cases h1 : c = ')'
    · subst h1
      have he : elimStep (out, n) ')' = (out, n - 1) := by unfold elimStep; simp [hn]
      rw [he]
      have h0 := hpre [] List.nil_prefix
      simp at h0
      apply ih out (n - 1) (by omega)
      intro p hp
      have := hpre p hp
      simp only [List.count_cons_self, List.count_cons_of_ne (show (')' : Char) ≠ '(' by decide)] at this
      omega
    · by_cases h2 : c = '('
      · subst h2
        have he : elimStep (out, n) '(' = (out, n + 1) := by
          unfold elimStep; simp only [hn, if_true]; rw [if_neg (by decide)]
        rw [he]
        apply ih out (n + 1) (by omega)
        intro p hp
        have := hpre p hp
        simp only [List.count_cons_self, List.count_cons_of_ne (show ('(' : Char) ≠ ')' by decide)] at this
        omega
      · have he : elimStep (out, n) c = (out, n) := by unfold elimStep; simp [hn, h1, h2]
        rw [he]
        apply ih out n hn
        intro p hp
        have := hpre p hp
        rw [List.count_cons_of_ne h1, List.count_cons_of_ne h2] at this
        exact this

/-- C37: everything from a parenthesis that is never closed is dropped. -/
theorem unclosed_dropped (x b : List Char) (hx : '(' ∉ x) (hb : Unclosed b) :
    eliminateParentheses (x ++ '(' :: b) = x := by
  unfold eliminateParentheses
  rw [List.foldl_append, fold_outside x hx [], List.foldl_cons]
  have h1 : elimStep ([] ++ x, 0) '(' = (x, 1) := by unfold elimStep; simp
  rw [h1]
  exact fold_unclosed b x 1 (by omega) (fun p hp => by have := hb p hp; omega)

theorem prefix_append_cases {p a b : List Char} (h : p <+: a ++ b) :
    p <+: a ∨ ∃ q, p = a ++ q ∧ q <+: b := by
  by_cases hl : p.length ≤ a.length
  · exact .inl (List.prefix_of_prefix_length_le h (List.prefix_append a b) hl)
  · obtain ⟨q, rfl⟩ := List.prefix_of_prefix_length_le (List.prefix_append a b) h (by omega)
    exact .inr ⟨q, rfl, (List.prefix_append_right_inj a).mp h⟩

/-- Every text is one of the three cases, so the three theorems determine the result: either there is no
opening parenthesis, or the first one is matched, or it is never closed. -/
theorem cases_complete (s : List Char) :
    '(' ∉ s ∨ (∃ x b rest, s = x ++ '(' :: b ++ ')' :: rest ∧ '(' ∉ x ∧ Balanced b) ∨
      (∃ x b, s = x ++ '(' :: b ∧ '(' ∉ x ∧ Unclosed b) := by
  by_cases h : '(' ∈ s
  · right
    obtain ⟨x, t, rfl, hx⟩ := List.eq_append_cons_of_mem h
    suffices H : ∀ n (t : List Char), t.length ≤ n →
        Unclosed t ∨ ∃ b rest, t = b ++ ')' :: rest ∧ Balanced b by
      rcases H t.length t le_rfl with h1 | ⟨b, rest, rfl, hb⟩
      · exact .inr ⟨x, t, rfl, hx, h1⟩
      · exact .inl ⟨x, b, rest, by simp, hx, hb⟩
    intro n
    induction n with
    | zero =>
      intro t ht
      left
      have : t = [] := List.length_eq_zero_iff.mp (by omega)
      subst this
      intro p hp
      rw [List.prefix_nil.mp hp]; simp
    | succ n ih =>
      intro t ht
      rcases t with _ | ⟨c, t⟩
      · exact ih [] (by simp)
      simp only [List.length_cons] at ht
      by_cases h1 : c = ')'
      · subst h1; exact .inr ⟨[], t, rfl, .nil⟩
      by_cases h2 : c = '('
      · subst h2
        rcases ih t (by omega) with hu | ⟨b, rest, rfl, hb⟩
        · left
          intro p hp
          rcases p with _ | ⟨d, p⟩
          · simp
          · obtain ⟨rfl, hp'⟩ := List.cons_prefix_cons.mp hp
            have := hu p hp'
            rw [List.count_cons_self, List.count_cons_of_ne (by decide)]
            omega
        · simp only [List.length_append, List.length_cons] at ht
          rcases ih rest (by omega) with hu | ⟨b', rest', rfl, hb'⟩
          · left
            have hbal : ∀ b, Balanced b → b.count ')' = b.count '(' ∧ Unclosed b := by
              intro b hb
              induction hb with
              | nil => refine ⟨rfl, ?_⟩; intro p hp; rw [List.prefix_nil.mp hp]; simp
              | char c s h1 h2 _ ih =>
                refine ⟨by rw [List.count_cons_of_ne h2, List.count_cons_of_ne h1]; exact ih.1, ?_⟩
                intro p hp
                rcases p with _ | ⟨d, p⟩
                · simp
                · obtain ⟨rfl, hp'⟩ := List.cons_prefix_cons.mp hp
                  rw [List.count_cons_of_ne h2, List.count_cons_of_ne h1]
                  exact ih.2 p hp'
              | paren s t _ _ ihs iht =>
                refine ⟨?_, ?_⟩
                · simp only [List.cons_append, List.count_cons, List.count_append, ihs.1, iht.1]
                  simp; omega
                · intro p hp
                  rcases p with _ | ⟨d, p⟩
                  · simp
                  · obtain ⟨rfl, hp'⟩ := List.cons_prefix_cons.mp hp
                    rw [List.count_cons_self, List.count_cons_of_ne (by decide)]
                    rcases prefix_append_cases hp' with h | ⟨q, rfl, hq⟩
                    · have := ihs.2 p h; omega
                    · rw [List.count_append, List.count_append, ihs.1]
                      rcases q with _ | ⟨e, q⟩
                      · simp
                      · obtain ⟨rfl, hq'⟩ := List.cons_prefix_cons.mp hq
                        have := iht.2 q hq'
                        rw [List.count_cons_self, List.count_cons_of_ne (by decide)]
                        omega
            obtain ⟨hc, hub⟩ := hbal b hb
            intro p hp
            rcases p with _ | ⟨d, p⟩
            · simp
            · obtain ⟨rfl, hp'⟩ := List.cons_prefix_cons.mp hp
              rw [List.count_cons_self, List.count_cons_of_ne (by decide)]
              rcases prefix_append_cases hp' with h | ⟨q, rfl, hq⟩
              · have := hub p h; omega
              · rw [List.count_append, List.count_append, hc]
                rcases q with _ | ⟨e, q⟩
                · simp
                · obtain ⟨rfl, hq'⟩ := List.cons_prefix_cons.mp hq
                  have := hu q hq'
                  rw [List.count_cons_self, List.count_cons_of_ne (by decide)]
                  omega
          · right
            exact ⟨'(' :: b ++ ')' :: b', rest', by simp, .paren b b' hb hb'⟩
      · rcases ih t (by omega) with hu | ⟨b, rest, rfl, hb⟩
        · left
          intro p hp
          rcases p with _ | ⟨d, p⟩
          · simp
          · obtain ⟨rfl, hp'⟩ := List.cons_prefix_cons.mp hp
            rw [List.count_cons_of_ne h1, List.count_cons_of_ne h2]
            exact hu p hp'
        · exact .inr ⟨c :: b, rest, by simp, .char c b h2 h1 hb⟩
  · exact .inl h

theorem fold_no_open (s : List Char) : ∀ st : List Char × Nat, '(' ∉ st.1 → '(' ∉ (s.foldl elimStep st).1 := by
  induction s with
  | nil => intro st h; exact h
  | cons c s ih =>
    intro st h
    rw [List.foldl_cons]
    apply ih
    unfold elimStep
    split
    · split
      · exact h
      · split <;> exact h
    · split
      · exact h
      · rename_i hc
        simp only [List.mem_append, List.mem_singleton, not_or]
        exact ⟨h, fun he => hc he.symm⟩

/-- C37: no opening parenthesis is left, so eliminating twice is eliminating once. -/
theorem eliminate_idempotent (s : List Char) :
    '(' ∉ eliminateParentheses s ∧
    eliminateParentheses (eliminateParentheses s) = eliminateParentheses s :=
  ⟨fold_no_open s _ (by simp), no_parenthesis_unchanged _ (fold_no_open s _ (by simp))⟩

example : eliminateParentheses "Cambridge (UK (and (elsewhere)) ) , MIT) (x".toList =
    "Cambridge  , MIT) ".toList := by decide +kernel

example : Balanced "UK (and) ".toList :=
  .char _ _ (by decide) (by decide) (.char _ _ (by decide) (by decide) (.char _ _ (by decide) (by decide)
    (.paren "and".toList " ".toList
      (.char _ _ (by decide) (by decide) (.char _ _ (by decide) (by decide) (.char _ _ (by decide) (by decide) .nil)))
      (.char _ _ (by decide) (by decide) .nil))))

/-! ## Quoted text (C38) -/

/-- the body of a quoted field: a doubled quote is a quote, a single one ends the field -/
def readBody : List Char → Option (List Char × List Char)
  | [] => none
  | '"' :: '"' :: rest => (readBody rest).map (fun p => ('"' :: p.1, p.2))
  | '"' :: rest => some ([], rest)
  | c :: rest => (readBody rest).map (fun p => (c :: p.1, p.2))

/-- A reader of one quoted field: the value and the rest of the input. -/
def readField : List Char → Option (List Char × List Char)
  | '"' :: rest => readBody rest
  | _ => none

theorem readBody_other (c : Char) (s : List Char) (h : c ≠ '"') :
    readBody (c :: s) = (readBody s).map (fun p => (c :: p.1, p.2)) := by
  rw [readBody.eq_def]
  split
  · rename_i he; cases he
  · rename_i he; cases he; exact absurd rfl h
  · rename_i he; cases he; exact absurd rfl h
  · rename_i he; cases he; rfl

theorem readBody_doubled (s rest : List Char) (hr : ∀ t, rest ≠ '"' :: t) :
    readBody (doubleQuotes s ++ '"' :: rest) = some (s, rest) := by
  induction s with
  | nil =>
    show readBody ('"' :: rest) = _
    rcases rest with _ | ⟨c, rest⟩
    · rfl
    · rw [readBody.eq_def]
      split
      · rename_i he; cases he
      · rename_i he; cases he; exact absurd rfl (hr _)
      · rename_i he; cases he; rfl
      · rename_i h1 he; cases he; exact (h1 rfl).elim
  | cons c s ih =>
    by_cases hc : c = '"'
    · subst hc
      show readBody ('"' :: '"' :: (doubleQuotes s ++ '"' :: rest)) = _
      rw [readBody, ih]; rfl
    · have : doubleQuotes (c :: s) = c :: doubleQuotes s := by
        unfold doubleQuotes; rw [List.flatMap_cons, if_neg hc]; rfl
      rw [this, List.cons_append, readBody_other c _ hc, ih]; rfl

theorem doubleQuotes_length (s : List Char) : (doubleQuotes s).length = s.length + s.count '"' := by
  induction s with
  | nil => rfl
  | cons c s ih =>
    have : doubleQuotes (c :: s) = (if c = '"' then ['"', '"'] else [c]) ++ doubleQuotes s := by
      unfold doubleQuotes; rw [List.flatMap_cons]
    rw [this, List.length_append, ih, List.length_cons]
    by_cases hc : c = '"'
    · subst hc; rw [if_pos rfl, List.count_cons_self]; simp; omega
    · rw [if_neg hc, List.count_cons_of_ne hc]; simp; omega

/-- C38: what a reader gets back is the value with every double quote doubled (the end of the field is
followed by a separator or the end of the line, never by a quote). -/
theorem quoted_reads_doubled (v rest : List Char) (hr : ∀ t, rest ≠ '"' :: t) :
    readField (quoteText v ++ rest) = some (doubleQuotes v, rest) := by
  unfold quoteText
  show readBody (doubleQuotes (doubleQuotes v) ++ ['"'] ++ rest) = _
  rw [List.append_assoc]
  exact readBody_doubled _ _ hr

/-- C38: so a value survives exactly when it contains no double quote. -/
theorem round_trip_iff_partial (v rest : List Char) (hr : ∀ t, rest ≠ '"' :: t) :
    readField (quoteText v ++ rest) = some (v, rest) ↔ '"' ∉ v := by
  rw [quoted_reads_doubled v rest hr]
  constructor
  · intro h hm
    have he : doubleQuotes v = v := congrArg Prod.fst (Option.some.inj h)
    have := doubleQuotes_length v
    rw [he] at this
    have := List.count_pos_iff.mpr hm
    omega
  · intro h
    have : doubleQuotes v = v := by
      clear hr
      induction v with
      | nil => rfl
      | cons c v ih =>
        have hc : c ≠ '"' := fun he => h (by rw [he]; simp)
        have : doubleQuotes (c :: v) = c :: doubleQuotes v := by
          unfold doubleQuotes; rw [List.flatMap_cons, if_neg hc]; rfl
        rw [this, ih (fun hm => h (List.mem_cons_of_mem _ hm))]
    rw [this]

/-- C38 is violated: a value with quotes comes back changed. -/
theorem quote_round_trip_violation :
    readField (quoteText "a \"b\"".toList ++ ",1".toList) = some ("a \"\"b\"\"".toList, ",1".toList) := by
  decide

example : readField (quoteText "LDA, k=5".toList ++ ",1".toList) = some ("LDA, k=5".toList, ",1".toList) := by
  decide

/-! ## Rolled-up results (C39) -/

theorem roll_fold (srcs : List Row) : ∀ dst : Row,
    (srcs.foldl (fun (d : Row) (s : Row) =>
      ({ docCount := d.docCount + s.docCount, score := fun m => d.score m + s.score m * s.docCount } : Row)) dst) =
    { docCount := dst.docCount + (srcs.map Row.docCount).sum,
      score := fun m => dst.score m + (srcs.map (fun r => r.score m * r.docCount)).sum } := by
  induction srcs with
  | nil => intro dst; simp
  | cons a l ih =>
    intro dst
    rw [List.foldl_cons, ih]
    simp only [List.map_cons, List.sum_cons, add_assoc]

/-- C39: rolled up into an empty entry, the document count is the sum of the parts', and each score is the
document-weighted average. -/
theorem roll_up_average (cuts : Nat) (srcs : List Row) (r : Row)
    (h : rollUp cuts ⟨0, fun _ => 0⟩ srcs = .ok r) :
    r.docCount = (srcs.map Row.docCount).sum ∧
    ∀ m, r.score m = (srcs.map (fun s => s.score m * s.docCount)).sum / (srcs.map Row.docCount).sum := by
  unfold rollUp at h
  simp only [roll_fold, zero_add] at h
  split at h
  · cases h
  · cases h; exact ⟨rfl, fun m => rfl⟩

/-- C39: the roll-up fails exactly when there is a cut-off and the counts add up to zero. -/
theorem roll_up_fails_iff (cuts : Nat) (srcs : List Row) :
    rollUp cuts ⟨0, fun _ => 0⟩ srcs = .error .zeroDivisionError ↔
      0 < cuts ∧ (srcs.map Row.docCount).sum = 0 := by
  unfold rollUp
  simp only [roll_fold, zero_add]
  by_cases h : 0 < cuts ∧ (srcs.map Row.docCount).sum = 0
  · rw [if_pos h]; exact ⟨fun _ => h, fun _ => rfl⟩
  · rw [if_neg h]; exact ⟨fun hc => absurd hc (by simp), fun hc => absurd hc h⟩

/-- C39: with counts that are not negative and not all zero, a rolled-up score lies between any bounds of the
parts' scores. -/
theorem roll_up_between (cuts : Nat) (srcs : List Row) (r : Row)
    (h : rollUp cuts ⟨0, fun _ => 0⟩ srcs = .ok r)
    (hpos : ∀ s ∈ srcs, 0 ≤ s.docCount) (hsum : 0 < (srcs.map Row.docCount).sum)
    (m : Nat) (lo hi : ℚ) (hb : ∀ s ∈ srcs, lo ≤ s.score m ∧ s.score m ≤ hi) :
    lo ≤ r.score m ∧ r.score m ≤ hi := by
  rw [(roll_up_average cuts srcs r h).2 m, le_div_iff₀ hsum, div_le_iff₀ hsum]
  clear h hsum
  induction srcs with
  | nil => simp
  | cons a l ih =>
    obtain ⟨h1, h2⟩ := ih (fun s hs => hpos s (List.mem_cons_of_mem _ hs))
      (fun s hs => hb s (List.mem_cons_of_mem _ hs))
    simp only [List.map_cons, List.sum_cons, mul_add]
    have h3 := mul_le_mul_of_nonneg_right (hb a (by simp)).1 (hpos a (by simp))
    have h4 := mul_le_mul_of_nonneg_right (hb a (by simp)).2 (hpos a (by simp))
    exact ⟨by linarith, by linarith⟩

example : (rollUp 1 ⟨0, fun _ => 0⟩ [⟨3, fun _ => 1⟩, ⟨1, fun _ => 5⟩]).map (fun r => (r.docCount, r.score 0)) =
    .ok (4, 2) := by decide +kernel

/-! ## Author identifiers (C40) -/

theorem splitOn_ne_nil (c : Char) (s : List Char) : splitOn c s ≠ [] := by
  cases s with
  | nil => exact List.cons_ne_nil _ _
  | cons x xs =>
    unfold splitOn
    split
    · exact List.cons_ne_nil _ _
    · split <;> exact List.cons_ne_nil _ _

theorem splitOn_append (c : Char) (a b : List Char) (ha : c ∉ a) : splitOn c (a ++ c :: b) = a :: splitOn c b := by
  induction a with
  | nil => exact if_pos rfl
  | cons x xs ih =>
    have hx : x ≠ c := fun h => ha (h ▸ List.mem_cons_self)
    show (if x = c then _ else _) = _
    have h' : splitOn c (xs.append (c :: b)) = _ := ih (fun h => ha (List.mem_cons_of_mem _ h))
    rw [if_neg hx, h']

theorem splitOn_none (c : Char) (a : List Char) (ha : c ∉ a) : splitOn c a = [a] := by
  induction a with
  | nil => rfl
  | cons x xs ih =>
    have hx : x ≠ c := fun h => ha (h ▸ List.mem_cons_self)
    show (if x = c then _ else _) = _
    rw [if_neg hx, ih (fun h => ha (List.mem_cons_of_mem _ h))]

theorem mem_intersperse {α : Type} (s n : α) (l : List α) (h : n ∈ l.intersperse s) : n ∈ l ∨ n = s := by
  induction l with
  | nil => simp at h
  | cons a l ih =>
    cases l with
    | nil => exact Or.inl (by simpa using h)
    | cons b l =>
      rw [List.intersperse_cons_cons, List.mem_cons, List.mem_cons] at h
      rcases h with h | h | h
      · exact Or.inl (h ▸ List.mem_cons_self)
      · exact Or.inr h
      · exact (ih h).imp (List.mem_cons_of_mem _) id

theorem first_of_mem (c : Char) (l : List Char) (h : c ∈ l) : ∃ p q, l = p ++ c :: q ∧ c ∉ p := by
  induction l with
  | nil => cases h
  | cons x xs ih =>
    by_cases hx : x = c
    · exact ⟨[], xs, by rw [hx]; rfl, by simp⟩
    · obtain ⟨p, q, h1, h2⟩ := ih ((List.mem_cons.mp h).resolve_left fun he => hx he.symm)
      exact ⟨x :: p, q, by rw [h1]; rfl, fun hm => (List.mem_cons.mp hm).elim (fun he => hx he.symm) h2⟩

/-- Splitting is the inverse of joining. -/
theorem splitOn_join (c : Char) (a : List Char) (l : List (List Char)) (h : ∀ x ∈ a :: l, c ∉ x) :
    splitOn c ((a :: l).intersperse [c]).flatten = a :: l := by
  induction l generalizing a with
  | nil =>
    have : ((([a] : List (List Char)).intersperse [c]).flatten) = a := by simp
    rw [this]
    exact splitOn_none c a (h a (by simp))
  | cons b l ih =>
    have : ((a :: b :: l).intersperse [c]).flatten = a ++ c :: ((b :: l).intersperse [c]).flatten := by
      simp [List.intersperse]
    rw [this, splitOn_append c a _ (h a (by simp)), ih b (fun x hx => h x (List.mem_cons_of_mem _ hx))]

theorem strip_dropLeft (a b : List Char) (ha : ∀ c ∈ a, isSpace c = true) : strip (a ++ b) = strip b := by
  unfold strip
  rw [List.dropWhile_append_of_pos ha]

theorem dropWhile_nil {p : Char → Bool} {l : List Char} : l.dropWhile p = [] ↔ ∀ c ∈ l, p c = true := by
  induction l with
  | nil => simp
  | cons x xs ih =>
    rw [List.dropWhile_cons]
    by_cases hx : p x = true
    · rw [if_pos hx, ih]
      simp [hx]
    · rw [if_neg hx]
      simp [hx]

theorem strip_dropRight (a b : List Char) (hb : ∀ c ∈ b, isSpace c = true) : strip (a ++ b) = strip a := by
  unfold strip
  by_cases hs : ∀ c ∈ a, isSpace c = true
  · rw [List.dropWhile_append_of_pos hs, dropWhile_nil.mpr hb, dropWhile_nil.mpr hs]
  · have : (a.dropWhile isSpace) ≠ [] := fun h => hs (dropWhile_nil.mp h)
    rw [List.dropWhile_append, if_neg (by simpa using this), List.reverse_append, List.dropWhile_append_of_pos]
    exact fun c hc => hb c (List.mem_reverse.mp hc)

/-- The pieces of a text, stripped, do not depend on white space before the text. -/
theorem split_left (c : Char) (hc : isSpace c = false) (a s : List Char) (ha : ∀ x ∈ a, isSpace x = true) :
    (splitOn c (a ++ s)).map strip = (splitOn c s).map strip := by
  induction a with
  | nil => rfl
  | cons x xs ih =>
    have hx : x ≠ c := fun h => by rw [← h, ha x (by simp)] at hc; cases hc
    have hxs := ih (fun y hy => ha y (List.mem_cons_of_mem _ hy))
    rw [← hxs]
    show (if x = c then _ else _ : List (List Char)).map strip = _
    rw [if_neg hx]
    rcases h : splitOn c (xs.append s) with _ | ⟨p, ps⟩
    · exact absurd h (splitOn_ne_nil c _)
    · show strip (x :: p) :: ps.map strip = strip p :: ps.map strip
      rw [show x :: p = [x] ++ p from rfl, strip_dropLeft [x] p (fun y hy => by rw [List.mem_singleton.mp hy]; exact ha x (by simp))]

theorem splitOn_tail (c : Char) (s b : List Char) (hb : c ∉ b) :
    ∃ l p, splitOn c s = l ++ [p] ∧ splitOn c (s ++ b) = l ++ [p ++ b] := by
  induction s with
  | nil => exact ⟨[], [], rfl, splitOn_none c b hb⟩
  | cons x xs ih =>
    obtain ⟨l, p, h1, h2⟩ := ih
    by_cases hx : x = c
    · refine ⟨[] :: l, p, ?_, ?_⟩
      · show (if x = c then _ else _) = _
        rw [if_pos hx, h1]; rfl
      · show (if x = c then [] :: splitOn c (xs ++ b) else _) = _
        rw [if_pos hx, h2]; rfl
    · cases l with
      | nil =>
        refine ⟨[], x :: p, ?_, ?_⟩
        · show (if x = c then _ else _) = _
          rw [if_neg hx, h1]; rfl
        · have h2' : splitOn c (xs.append b) = [p ++ b] := h2
          show (if x = c then _ else match splitOn c (xs.append b) with
            | [] => [[x]]
            | p :: ps => (x :: p) :: ps) = _
          rw [if_neg hx, h2']; rfl
      | cons q l =>
        refine ⟨(x :: q) :: l, p, ?_, ?_⟩
        · show (if x = c then _ else _) = _
          rw [if_neg hx, h1]; rfl
        · have h2' : splitOn c (xs.append b) = q :: (l ++ [p ++ b]) := h2
          show (if x = c then _ else match splitOn c (xs.append b) with
            | [] => [[x]]
            | p :: ps => (x :: p) :: ps) = _
          rw [if_neg hx, h2']; rfl

theorem split_right (c : Char) (hc : isSpace c = false) (s b : List Char) (hb : ∀ x ∈ b, isSpace x = true) :
    (splitOn c (s ++ b)).map strip = (splitOn c s).map strip := by
  have hcb : c ∉ b := fun h => by rw [hb c h] at hc; cases hc
  obtain ⟨l, p, h1, h2⟩ := splitOn_tail c s b hcb
  rw [h1, h2, List.map_append, List.map_append]
  show l.map strip ++ [strip (p ++ b)] = l.map strip ++ [strip p]
  rw [strip_dropRight p b hb]

/-- C40: the names on a line `author … {a; b; c} …` are `a`, `b` and `c` without surrounding white space; other lines have none; a line
that begins with `author` but has no opening brace is an error. -/
theorem line_authors_spec :
    (∀ (pre post a : List Char) (l : List (List Char)), '{' ∉ pre → (pre ++ ['{']).take 6 = "author".toList →
      (∀ n ∈ a :: l, ';' ∉ n ∧ '{' ∉ n ∧ '}' ∉ n) →
      lineAuthors (pre ++ '{' :: (((a :: l).intersperse [';']).flatten ++ '}' :: post)) = .ok ((a :: l).map strip)) ∧
    (∀ line : List Char, line.take 6 ≠ "author".toList → lineAuthors line = .ok []) ∧
    (∀ line : List Char, line.take 6 = "author".toList → '{' ∉ line → lineAuthors line = .error .indexError) := by
  refine ⟨?_, fun line h => if_neg h, ?_⟩
  · intro pre post a l hpre htake hn
    set core := ((a :: l).intersperse [';']).flatten with hcore
    have hmem : ∀ c ∈ core, c = ';' ∨ ∃ n ∈ a :: l, c ∈ n := by
      intro c hc
      rw [hcore, List.mem_flatten] at hc
      obtain ⟨n, hn, hc⟩ := hc
      rcases mem_intersperse [';'] n (a :: l) hn with h | h
      · exact Or.inr ⟨n, h, hc⟩
      · subst h
        exact Or.inl (List.mem_singleton.mp hc)
    have hno : ∀ c, c ≠ ';' → (∀ n ∈ a :: l, c ∉ n) → c ∉ core := fun c h1 h2 hc => by
      rcases hmem c hc with h | ⟨n, h3, h4⟩
      · exact h1 h
      · exact h2 n h3 h4
    have hopen : '{' ∉ core := hno _ (by decide) fun n h => (hn n h).2.1
    have hclose : '}' ∉ core := hno _ (by decide) fun n h => (hn n h).2.2
    have ht : (pre ++ '{' :: (core ++ '}' :: post)).take 6 = "author".toList := by
      have h6 : 6 ≤ (pre ++ ['{']).length := by
        have := congrArg List.length htake
        rw [List.length_take] at this
        have h' : "author".toList.length = 6 := by decide
        omega
      rw [show pre ++ '{' :: (core ++ '}' :: post) = (pre ++ ['{']) ++ (core ++ '}' :: post) by simp,
        List.take_append_of_le_length h6, htake]
    unfold lineAuthors
    rw [if_pos ht, splitOn_append '{' pre _ hpre]
    obtain ⟨q, qs, hq1, hq2⟩ : ∃ q qs, splitOn '{' (core ++ '}' :: post) = (core ++ '}' :: q) :: qs ∧ True := by
      by_cases h : '{' ∈ post
      · obtain ⟨p1, p2, hp, hp1⟩ : ∃ p1 p2, post = p1 ++ '{' :: p2 ∧ '{' ∉ p1 := by
          exact first_of_mem '{' post h
        refine ⟨p1, splitOn '{' p2, ?_, trivial⟩
        rw [hp, show core ++ '}' :: (p1 ++ '{' :: p2) = (core ++ '}' :: p1) ++ '{' :: p2 by simp]
        refine splitOn_append '{' _ _ ?_
        simp [hopen, hp1]
      · refine ⟨post, [], splitOn_none '{' _ ?_, trivial⟩
        simp [hopen, h]
    rw [hq1]
    simp only [List.getElem?_cons_succ, List.getElem?_cons_zero]
    rw [splitOn_append '}' core q hclose]
    simp only [List.getElem?_cons_zero]
    have hsemi : isSpace ';' = false := by decide
    obtain ⟨l1, r1, he, hl1, hr1⟩ : ∃ l1 r1, core = l1 ++ strip core ++ r1 ∧ (∀ c ∈ l1, isSpace c = true) ∧
        ∀ c ∈ r1, isSpace c = true := by
      simp only [Props.SelectUsers.isSpace_iff]
      exact (Props.SelectUsers.strip_spec core).1
    have hsplit : (splitOn ';' (strip core)).map strip = (splitOn ';' core).map strip := by
      conv_rhs => rw [he]
      rw [split_right ';' hsemi _ r1 hr1, split_left ';' hsemi l1 _ hl1]
    rw [hsplit, hcore, splitOn_join ';' a l (fun x hx => (hn x hx).1)]
  · intro line h1 h2
    unfold lineAuthors
    rw [if_pos h1, splitOn_none '{' line h2]
    rfl

example : lineAuthors "author = {Ann Smith; Bob}, x".toList = .ok ["Ann Smith".toList, "Bob".toList] :=
  line_authors_spec.1 "author = ".toList ", x".toList "Ann Smith".toList [" Bob".toList] (by decide) (by decide) (by decide)

/-- C40: on success the identifiers are `1 … n` in order, the names are the distinct author names of the file,
and they increase strictly with the identifier. -/
theorem author_ids_bijection (lines : List (List Char)) (res : List (Nat × List Char))
    (h : authorIds lines = .ok res) :
    res.map Prod.fst = List.range' 1 res.length ∧
    (∀ a, a ∈ res.map Prod.snd ↔ ∃ l ∈ lines, ∃ names, lineAuthors l = .ok names ∧ a ∈ names) ∧
    (res.map Prod.snd).Pairwise (· < ·) := by
  unfold authorIds at h
  rcases hm : lines.mapM lineAuthors with e | names
  · rw [hm] at h; cases h
  · rw [hm] at h
    have hres : res = ((names.flatten.dedup).insertionSort (· ≤ ·)).zipIdx.map (fun p => (p.2 + 1, p.1)) := by
      cases h; rfl
    generalize hs : (names.flatten.dedup).insertionSort (· ≤ ·) = sorted at hres
    have hsnd : res.map Prod.snd = sorted := by
      rw [hres, List.map_map]
      exact List.zipIdx_map_fst 0 sorted
    have hlen : res.length = sorted.length := by rw [hres]; simp
    refine ⟨?_, ?_, ?_⟩
    · rw [hlen, hres, List.map_map]
      have : (Prod.fst ∘ fun p : List Char × Nat => (p.2 + 1, p.1)) = (fun n => n + 1) ∘ Prod.snd := rfl
      rw [this, ← List.map_map, List.zipIdx_map_snd]
      apply List.ext_getElem
      · simp
      · intro i h1 h2; simp; omega
    · intro a
      rw [hsnd, ← hs, List.mem_insertionSort, List.mem_dedup, List.mem_flatten]
      clear h hres hsnd hlen hs
      induction lines generalizing names with
      | nil =>
        cases hm
        simp
      | cons l ls ih =>
        rw [List.mapM_cons] at hm
        rcases hl : lineAuthors l with e | ns
        · rw [hl] at hm; cases hm
        · rw [hl] at hm
          rcases hls : ls.mapM lineAuthors with e | rest
          · rw [hls] at hm; cases hm
          · rw [hls] at hm
            have hn : names = ns :: rest := by cases hm; rfl
            have := ih rest hls
            rw [hn]
            constructor
            · rintro ⟨x, hx, ha⟩
              rcases List.mem_cons.mp hx with rfl | hx
              · exact ⟨l, by simp, x, hl, ha⟩
              · obtain ⟨l', h1, h2⟩ := this.mp ⟨x, hx, ha⟩
                exact ⟨l', List.mem_cons_of_mem _ h1, h2⟩
            · rintro ⟨l', h1, ns', h2, ha⟩
              rcases List.mem_cons.mp h1 with rfl | h1
              · rw [hl] at h2; cases h2; exact ⟨ns, by simp, ha⟩
              · obtain ⟨x, hx, hxa⟩ := this.mpr ⟨l', h1, ns', h2, ha⟩
                exact ⟨x, List.mem_cons_of_mem _ hx, hxa⟩
    · rw [hsnd, ← hs]
      have hsorted : ((names.flatten.dedup).insertionSort (· ≤ ·)).Pairwise (· ≤ ·) :=
        List.pairwise_insertionSort (· ≤ ·) _
      have hnd : ((names.flatten.dedup).insertionSort (· ≤ ·)).Nodup :=
        (List.perm_insertionSort (· ≤ ·) _).nodup_iff.mpr (List.nodup_dedup _)
      exact (hsorted.and hnd).imp (fun ⟨h1, h2⟩ => (List.le_iff_lt_or_eq.mp h1).resolve_right h2)

example : authorIds ["id = {1}".toList, "author = {Smith, A; Bao, B}".toList, "author = { Bao, B }".toList] =
    .ok [(1, "Bao, B".toList), (2, "Smith, A".toList)] := by decide

end Verif.Props.TextTools
