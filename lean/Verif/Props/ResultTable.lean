import Verif.Model.ResultTable
import Verif.Props.TextTools

/-!
# The table of results for R (C296)
-/

namespace Verif.Props.ResultTable

open Verif Verif.RunTools Verif.RunFiles Verif.ResultTable Verif.Props.TextTools

/-! ## A reader of tables with commas -/

/-- What may follow a field -/
def Delimited (rest : Str) : Prop := ∃ r, rest = ',' :: r ∨ rest = '\n' :: r

/-- Text of a field without quotes -/
def Plain (v : Str) : Prop := ',' ∉ v ∧ '\n' ∉ v ∧ v.head? ≠ some '"'

/-- `Cell s v rest`: the text `s` begins with a field of value `v`, and `rest` is what follows it. -/
inductive Cell : Str → Str → Str → Prop
  | quoted (s v rest : Str) : readField s = some (v, rest) → Delimited rest → Cell s v rest
  | plain (v rest : Str) : Plain v → Delimited rest → Cell (v ++ rest) v rest

/-- `Record s vs rest`: the text `s` begins with a line of fields with the values `vs`. -/
inductive Record : Str → List Str → Str → Prop
  | last (s v rest : Str) : Cell s v ('\n' :: rest) → Record s [v] rest
  | more (s v s' : Str) (vs : List Str) (rest : Str) : Cell s v (',' :: s') → Record s' vs rest → Record s (v :: vs) rest

/-- `Table s rows`: the text `s` consists of lines of fields with these values. -/
inductive IsTable : Str → List (List Str) → Prop
  | nil : IsTable [] []
  | cons (s : Str) (r : List Str) (rest : Str) (rows : List (List Str)) : Record s r rest → IsTable rest rows → IsTable s (r :: rows)

theorem plain_split : ∀ (v v' rest rest' : Str), Plain v → Plain v' → Delimited rest → Delimited rest' → v ++ rest = v' ++ rest' → v = v' ∧ rest = rest' := by
  have key : ∀ (v v' rest rest' : Str), ',' ∉ v → '\n' ∉ v → ',' ∉ v' → '\n' ∉ v' → Delimited rest → Delimited rest' → v ++ rest = v' ++ rest' →
      v = v' ∧ rest = rest' := by
    intro v
    induction v with
    | nil =>
      intro v' rest rest' _ _ h1 h2 hd _ he
      cases v' with
      | nil => exact ⟨rfl, by simpa using he⟩
      | cons c v' =>
        obtain ⟨r, rfl | rfl⟩ := hd
        · simp only [List.nil_append, List.cons_append, List.cons.injEq] at he
          exact absurd (by simp [← he.1]) h1
        · simp only [List.nil_append, List.cons_append, List.cons.injEq] at he
          exact absurd (by simp [← he.1]) h2
    | cons c v ih =>
      intro v' rest rest' a1 a2 h1 h2 hd hd' he
      cases v' with
      | nil =>
        obtain ⟨r, rfl | rfl⟩ := hd'
        · simp only [List.nil_append, List.cons_append, List.cons.injEq] at he
          exact absurd (by simp [he.1]) a1
        · simp only [List.nil_append, List.cons_append, List.cons.injEq] at he
          exact absurd (by simp [he.1]) a2
      | cons c' v' =>
        simp only [List.cons_append, List.cons.injEq] at he
        simp only [List.mem_cons, not_or] at a1 a2 h1 h2
        obtain ⟨rfl, hr⟩ := ih v' rest rest' a1.2 a2.2 h1.2 h2.2 hd hd' he.2
        exact ⟨by rw [he.1], hr⟩
  intro v v' rest rest' h h' hd hd' he
  exact key v v' rest rest' h.1 h.2.1 h'.1 h'.2.1 hd hd' he

theorem readField_quote {s : Str} {p : Str × Str} (h : readField s = some p) : s.head? = some '"' := by
  unfold readField at h
  split at h
  · rfl
  · cases h

theorem plain_head {v rest : Str} (h : Plain v) (hd : Delimited rest) : (v ++ rest).head? ≠ some '"' := by
  cases v with
  | nil =>
    obtain ⟨r, rfl | rfl⟩ := hd <;> simp
  | cons c v => simpa using h.2.2

/-- A text is read in one way only -/
theorem cell_unique {s v v' rest rest' : Str} (h : Cell s v rest) (h' : Cell s v' rest') : v = v' ∧ rest = rest' := by
  cases h with
  | quoted _ _ _ h _ =>
    cases h' with
    | quoted _ _ _ h' _ =>
      rw [h] at h'
      simpa using h'
    | plain _ _ hp hd => exact absurd (readField_quote h) (plain_head hp hd)
  | plain _ _ hp hd =>
    generalize he : v ++ rest = s at h'
    cases h' with
    | quoted _ _ _ h' _ =>
      subst he
      exact absurd (readField_quote h') (plain_head hp hd)
    | plain _ _ hp' hd' => exact plain_split _ _ _ _ hp hp' hd hd' he

theorem record_unique {s : Str} {vs vs' : List Str} {rest rest' : Str} (h : Record s vs rest) (h' : Record s vs' rest') : vs = vs' ∧ rest = rest' := by
  induction h generalizing vs' rest' with
  | last s v rest hc =>
    cases h' with
    | last _ v' _ hc' =>
      obtain ⟨rfl, h⟩ := cell_unique hc hc'
      exact ⟨rfl, by simpa using h⟩
    | more _ v' s' vs _ hc' _ => exact absurd (cell_unique hc hc').2 (by simp)
  | more s v s' vs rest hc _ ih =>
    cases h' with
    | last _ v' _ hc' => exact absurd (cell_unique hc hc').2 (by simp)
    | more _ v' s'' vs' _ hc' hr =>
      obtain ⟨rfl, h⟩ := cell_unique hc hc'
      simp only [List.cons.injEq, true_and] at h
      subst h
      obtain ⟨rfl, rfl⟩ := ih hr
      exact ⟨rfl, rfl⟩

theorem record_nonempty {s : Str} {vs : List Str} {rest : Str} (h : Record s vs rest) : s ≠ [] := by
  have hc : ∀ v rest, ¬ Cell [] v rest := by
    intro v rest hc
    generalize he : ([] : Str) = s at hc
    cases hc with
    | quoted _ _ _ h _ =>
      subst he
      exact absurd (readField_quote h) (by simp)
    | plain _ _ _ hd =>
      obtain ⟨r, rfl | rfl⟩ := hd <;> simp at he
  rintro rfl
  cases h with
  | last _ _ _ h => exact hc _ _ h
  | more _ _ _ _ _ h _ => exact hc _ _ h

/-- A table is read in one way only -/
theorem table_unique {s : Str} {rows rows' : List (List Str)} (h : IsTable s rows) (h' : IsTable s rows') : rows = rows' := by
  induction h generalizing rows' with
  | nil =>
    cases h' with
    | nil => rfl
    | cons _ _ _ _ h _ => exact absurd rfl (record_nonempty h)
  | cons s r rest rows hr _ ih =>
    cases h' with
    | nil => exact absurd rfl (record_nonempty hr)
    | cons _ r' rest' rows' hr' ht =>
      obtain ⟨rfl, rfl⟩ := record_unique hr hr'
      rw [ih ht]

/-! ## The table written -/

/-- The groups of documents by number of links, and the cut-offs -/
def groupNames : List String := ["0->", "0->3", "3->", "3->5", "5->", "5->10", "10->"]

/-- The cut-offs -/
def cutNames : List String := ["10", "20", "30", "40", "50", "75", "100", "150", "250", "500"]

/-- The headings of the table -/
def headings : List Str := ["Algor", "TopicCount", "TrainDesc", "MRR", "MAP", "Perplexity", "Group", "M", "DocCount", "Precision", "Recall"].map String.toList

/-- A count as a whole number -/
def whole (x : ℚ) : Int := if 0 ≤ x then ⌊x⌋ else ⌈x⌉

/-- The line for one group and one cut-off: `quote` is how names are changed by the quotes. -/
def line (quote : Str → Str) (str : ℚ → Str) (istr : Int → Str) (a : Algor) (r : Results) (g m : Nat) : List Str :=
  [quote a.name, a.topics, quote a.desc, str r.mrr, str r.map, if 9 / 10 ≤ r.perp then str r.perp else [], (groupNames.getD g "").toList,
    (cutNames.getD m "").toList, istr (whole (r.precs.getD g ⟨0, fun _ => 0⟩).docCount), str ((r.precs.getD g ⟨0, fun _ => 0⟩).score m),
    str ((r.recs.getD g ⟨0, fun _ => 0⟩).score m)]

theorem quoted_cell (v rest : Str) (hd : Delimited rest) : Cell (quoteText v ++ rest) (doubleQuotes v) rest := by
  refine Cell.quoted _ _ _ (quoted_reads_doubled v rest ?_) hd
  intro t ht
  obtain ⟨r, rfl | rfl⟩ := hd <;> simp at ht

theorem delimited_comma (r : Str) : Delimited (',' :: r) := ⟨r, Or.inl rfl⟩

theorem delimited_newline (r : Str) : Delimited ('\n' :: r) := ⟨r, Or.inr rfl⟩

theorem doubleQuotes_none (v : Str) (h : '"' ∉ v) : doubleQuotes v = v := by
  induction v with
  | nil => rfl
  | cons c v ih =>
    simp only [List.mem_cons, not_or] at h
    have e : doubleQuotes (c :: v) = (if c = '"' then ['"', '"'] else [c]) ++ doubleQuotes v := rfl
    rw [e, if_neg (Ne.symm h.1), ih h.2]
    rfl

theorem group_plain (g : Nat) : doubleQuotes (groups.getD g []) = (groupNames.getD g "").toList := by
  have h : ∀ g < 7, doubleQuotes (groups.getD g []) = (groupNames.getD g "").toList := by decide +kernel
  by_cases hg : g < 7
  · exact h g hg
  · have h1 : groups.getD g [] = [] := by rw [List.getD_eq_getElem?_getD, List.getElem?_eq_none (by show 7 ≤ g; omega)]; rfl
    have h2 : groupNames.getD g "" = "" := by rw [List.getD_eq_getElem?_getD, List.getElem?_eq_none (by show 7 ≤ g; omega)]; rfl
    rw [h1, h2]
    rfl

theorem cut_plain (m : Nat) : cutoffs.getD m [] = (cutNames.getD m "").toList ∧ Plain (cutoffs.getD m []) := by
  have h : ∀ m < 10, cutoffs.getD m [] = (cutNames.getD m "").toList ∧
      ',' ∉ cutoffs.getD m [] ∧ '\n' ∉ cutoffs.getD m [] ∧ (cutoffs.getD m []).head? ≠ some '"' := by decide +kernel
  by_cases hm : m < 10
  · exact h m hm
  · have h1 : cutoffs.getD m [] = [] := by rw [List.getD_eq_getElem?_getD, List.getElem?_eq_none (by show 10 ≤ m; omega)]; rfl
    have h2 : cutNames.getD m "" = "" := by rw [List.getD_eq_getElem?_getD, List.getElem?_eq_none (by show 10 ≤ m; omega)]; rfl
    rw [h1, h2]
    exact ⟨rfl, by simp [Plain]⟩

theorem row_record (str : ℚ → Str) (istr : Int → Str) (hs : ∀ x, Plain (str x)) (hi : ∀ i, Plain (istr i)) (a : Algor) (ha : Plain a.topics) (r : Results)
    (g m : Nat) (rest : Str) : Record (row str istr a r g m ++ rest) (line doubleQuotes str istr a r g m) rest := by
  unfold row toDelimStr line
  dsimp only
  rw [← group_plain g, ← (cut_plain m).1]
  simp only [List.append_assoc, List.cons_append, List.nil_append]
  have hn : Plain (toNullable str r.perp) := by
    unfold toNullable
    split
    · simp [Plain]
    · exact hs _
  have hn' : toNullable str r.perp = if 9 / 10 ≤ r.perp then str r.perp else [] := by
    unfold toNullable
    by_cases h : r.perp < 9 / 10
    · rw [if_pos h, if_neg (not_le.2 h)]
    · rw [if_neg h, if_pos (not_lt.1 h)]
  rw [← hn']
  refine .more _ _ _ _ _ (quoted_cell _ _ (delimited_comma _)) ?_
  refine .more _ _ _ _ _ (.plain _ _ ha (delimited_comma _)) ?_
  refine .more _ _ _ _ _ (quoted_cell _ _ (delimited_comma _)) ?_
  refine .more _ _ _ _ _ (.plain _ _ (hs _) (delimited_comma _)) ?_
  refine .more _ _ _ _ _ (.plain _ _ (hs _) (delimited_comma _)) ?_
  refine .more _ _ _ _ _ (.plain _ _ hn (delimited_comma _)) ?_
  refine .more _ _ _ _ _ (quoted_cell _ _ (delimited_comma _)) ?_
  refine .more _ _ _ _ _ (.plain _ _ (cut_plain m).2 (delimited_comma _)) ?_
  refine .more _ _ _ _ _ (.plain _ _ (hi _) (delimited_comma _)) ?_
  refine .more _ _ _ _ _ (.plain _ _ (hs _) (delimited_comma _)) ?_
  exact .last _ _ _ (.plain _ _ (hs _) (delimited_newline _))

theorem header_record (rest : Str) : Record (header ++ rest) headings rest := by
  have e : header = "Algor".toList ++ ',' :: ("TopicCount".toList ++ ',' :: ("TrainDesc".toList ++ ',' :: ("MRR".toList ++ ',' :: ("MAP".toList ++ ',' ::
      ("Perplexity".toList ++ ',' :: ("Group".toList ++ ',' :: ("M".toList ++ ',' :: ("DocCount".toList ++ ',' :: ("Precision".toList ++ ',' ::
      ("Recall".toList ++ ['\n'])))))))))) := by decide +kernel
  rw [e]
  simp only [List.append_assoc, List.cons_append, List.nil_append]
  have hp : ∀ s ∈ ["Algor", "TopicCount", "TrainDesc", "MRR", "MAP", "Perplexity", "Group", "M", "DocCount", "Precision", "Recall"], Plain s.toList := by
    unfold Plain
    decide +kernel
  refine .more _ _ _ _ _ (.plain _ _ (hp "Algor" (by simp)) (delimited_comma _)) ?_
  refine .more _ _ _ _ _ (.plain _ _ (hp "TopicCount" (by simp)) (delimited_comma _)) ?_
  refine .more _ _ _ _ _ (.plain _ _ (hp "TrainDesc" (by simp)) (delimited_comma _)) ?_
  refine .more _ _ _ _ _ (.plain _ _ (hp "MRR" (by simp)) (delimited_comma _)) ?_
  refine .more _ _ _ _ _ (.plain _ _ (hp "MAP" (by simp)) (delimited_comma _)) ?_
  refine .more _ _ _ _ _ (.plain _ _ (hp "Perplexity" (by simp)) (delimited_comma _)) ?_
  refine .more _ _ _ _ _ (.plain _ _ (hp "Group" (by simp)) (delimited_comma _)) ?_
  refine .more _ _ _ _ _ (.plain _ _ (hp "M" (by simp)) (delimited_comma _)) ?_
  refine .more _ _ _ _ _ (.plain _ _ (hp "DocCount" (by simp)) (delimited_comma _)) ?_
  refine .more _ _ _ _ _ (.plain _ _ (hp "Precision" (by simp)) (delimited_comma _)) ?_
  exact .last _ _ _ (.plain _ _ (hp "Recall" (by simp)) (delimited_newline _))

theorem table_append (texts : List Str) (rows : List (List Str)) (h : List.Forall₂ (fun t r => ∀ rest, Record (t ++ rest) r rest) texts rows) :
    IsTable texts.flatten rows := by
  induction h with
  | nil => exact .nil
  | cons h _ ih =>
    rw [List.flatten_cons]
    exact .cons _ _ _ _ (h _) ih

/-- The lines of the table: the headings, and a line for each algorithm, each of the seven groups and each of the ten cut-offs -/
def lines (quote : Str → Str) (str : ℚ → Str) (istr : Int → Str) (entries : List (Algor × Results)) : List (List Str) :=
  headings :: entries.flatMap fun e => (List.range 7).flatMap fun g => (List.range 10).map fun m => line quote str istr e.1 e.2 g m

/-- What is read from the table, whatever the names: every quote in a name or a description is doubled. -/
theorem table_exact (str : ℚ → Str) (istr : Int → Str) (hs : ∀ x, Plain (str x)) (hi : ∀ i, Plain (istr i)) (entries : List (Algor × Results))
    (ha : ∀ e ∈ entries, Plain e.1.topics) : IsTable (writeAll str istr entries) (lines doubleQuotes str istr entries) := by
  have key : ∀ {α : Type} (l : List α) (f : α → List Str) (g : α → List (List Str)),
      (∀ x ∈ l, List.Forall₂ (fun t r => ∀ rest, Record (t ++ rest) r rest) (f x) (g x)) →
      List.Forall₂ (fun t r => ∀ rest, Record (t ++ rest) r rest) (l.flatMap f) (l.flatMap g) := by
    intro α l f g h
    induction l with
    | nil => exact .nil
    | cons x l ih =>
      rw [List.flatMap_cons, List.flatMap_cons]
      exact List.rel_append (h x (by simp)) (ih fun y hy => h y (List.mem_cons_of_mem _ hy))
  have hw : writeAll str istr entries = (header :: entries.flatMap fun e => (List.range 7).flatMap fun g => (List.range 10).map fun m =>
      row str istr e.1 e.2 g m).flatten := by
    unfold writeAll
    have hf : ∀ {α : Type} (l : List α) (f : α → List Str), (l.flatMap f).flatten = l.flatMap fun x => (f x).flatten := by
      intro α l f
      induction l with
      | nil => rfl
      | cons x l ih => rw [List.flatMap_cons, List.flatMap_cons, List.flatten_append, ih]
    rw [List.flatten_cons]
    simp only [hf, ← List.flatMap_def]
  rw [hw]
  unfold lines
  refine table_append _ _ (.cons header_record (key _ _ _ fun e he => key _ _ _ fun g _ => ?_))
  generalize List.range 10 = l
  induction l with
  | nil => exact .nil
  | cons m l ih => exact .cons (row_record str istr hs hi e.1 (ha e he) e.2 g m) ih

/-- C296: if no name or description has a quote, what is read is one line for each algorithm, group and cut-off with the scores of that group at that
cut-off; a perplexity is left out if there is none. -/
theorem table_partial (str : ℚ → Str) (istr : Int → Str) (hs : ∀ x, Plain (str x)) (hi : ∀ i, Plain (istr i)) (entries : List (Algor × Results))
    (ha : ∀ e ∈ entries, Plain e.1.topics) (hq : ∀ e ∈ entries, '"' ∉ e.1.name ∧ '"' ∉ e.1.desc) (rows : List (List Str)) :
    IsTable (writeAll str istr entries) rows ↔ rows = lines id str istr entries := by
  have h := table_exact str istr hs hi entries ha
  have e : lines doubleQuotes str istr entries = lines id str istr entries := by
    unfold lines
    congr 1
    refine List.flatMap_congr fun x hx => ?_
    unfold line
    rw [doubleQuotes_none _ (hq x hx).1, doubleQuotes_none _ (hq x hx).2]
    rfl
  rw [e] at h
  constructor
  · intro h'
    exact table_unique h' h
  · rintro rfl
    exact h

theorem line_zero_mem (quote : Str → Str) (str : ℚ → Str) (istr : Int → Str) (e : Algor × Results) (es : List (Algor × Results)) :
    (lines quote str istr (e :: es))[1]? = some (line quote str istr e.1 e.2 0 0) := rfl

/-- C296: an algorithm whose name has a quote is not read back. -/
theorem table_violation (str : ℚ → Str) (istr : Int → Str) (hs : ∀ x, Plain (str x)) (hi : ∀ i, Plain (istr i)) (a : Algor) (r : Results)
    (entries : List (Algor × Results)) (ha : ∀ e ∈ (a, r) :: entries, Plain e.1.topics) (hq : '"' ∈ a.name) :
    ¬ IsTable (writeAll str istr ((a, r) :: entries)) (lines id str istr ((a, r) :: entries)) := by
  intro h
  have he := table_unique h (table_exact str istr hs hi _ ha)
  have h1 := congrArg (fun l : List (List Str) => l[1]?) he
  simp only [line_zero_mem, Option.some.injEq] at h1
  unfold line at h1
  simp only [List.cons.injEq] at h1
  have hl := doubleQuotes_length a.name
  rw [← h1.1] at hl
  have := List.count_pos_iff.2 hq
  simp only [id] at hl
  omega

/-- Numbers are written as `0` or `1` in the examples. -/
def exStr (x : ℚ) : Str := if x = 0 then ['0'] else ['1']

/-- Whole numbers are written as `0` or `1` in the examples. -/
def exIstr (x : Int) : Str := if x = 0 then ['0'] else ['1']

theorem exStr_plain (x : ℚ) : Plain (exStr x) := by
  unfold exStr Plain
  split <;> decide

theorem exIstr_plain (x : Int) : Plain (exIstr x) := by
  unfold exIstr Plain
  split <;> decide

example : ∀ rows, IsTable (writeAll exStr exIstr [(⟨"RTM, linked".toList, "10".toList, "five fold".toList⟩, ⟨newTable, newTable, 1, 0, -1⟩)]) rows →
    rows[2]? = some (["RTM, linked", "10", "five fold", "1", "0", "", "0->", "20", "0", "0", "0"].map String.toList) := by
  intro rows h
  rw [(table_partial exStr exIstr exStr_plain exIstr_plain _ (by unfold Plain; decide +kernel) (by decide +kernel) rows).1 h]
  decide +kernel

example : ¬ IsTable (writeAll exStr exIstr [(⟨"\"RTM\"".toList, "10".toList, [] ⟩, ⟨newTable, newTable, 1, 0, -1⟩)])
    (lines id exStr exIstr [(⟨"\"RTM\"".toList, "10".toList, []⟩, ⟨newTable, newTable, 1, 0, -1⟩)]) :=
  table_violation exStr exIstr exStr_plain exIstr_plain _ _ _ (by unfold Plain; simp) (by decide)

end Verif.Props.ResultTable
