import Mathlib.Data.List.TakeWhile
import Verif.Props.RunFiles

/-!
# Papers from arXiv and matrices from text files
-/

namespace Verif.Props.ArxivFiles

open Verif Verif.RunTools Verif.RunFiles Verif.Props.TextTools Verif.Props.RunFiles

/-! ## Keys and values -/

theorem skipLines_append (skips : List Str) (h : ∀ l ∈ skips, isSkippable (strip l) = true) (line : Str) (hl : isSkippable (strip line) = false)
    (rest : List Str) : skipLines (skips ++ line :: rest) = (some (strip line), rest) := by
  induction skips with
  | nil =>
    show (if isSkippable (strip line) = true then _ else _) = _
    rw [hl]
    rfl
  | cons x xs ih =>
    show (if isSkippable (strip x) = true then skipLines (xs ++ line :: rest) else _) = _
    rw [if_pos (h x (by simp)), ih (fun l hl => h l (List.mem_cons_of_mem _ hl))]

theorem moreLines_append (cs : List Str) (h : ∀ l ∈ cs, l ≠ "\\\\".toList ∧ continues l = true) (rest : List Str)
    (hr : ∀ l, rest.head? = some l → continues l = false) (v : Str) :
    moreLines v (cs ++ rest) = (v ++ (cs.map fun l => ' ' :: strip l).flatten, rest) := by
  induction cs generalizing v with
  | nil =>
    cases rest with
    | nil => simp [moreLines]
    | cons l ls =>
      have := hr l rfl
      show (if l ≠ "\\\\".toList ∧ continues l = true then _ else _) = _
      rw [if_neg (by simp [this])]
      simp
  | cons x xs ih =>
    show (if x ≠ "\\\\".toList ∧ continues x = true then moreLines (v ++ ' ' :: strip x) (xs ++ rest) else _) = _
    rw [if_pos (h x (by simp)), ih (fun l hl => h l (List.mem_cons_of_mem _ hl))]
    simp

/-- A rule of the header: at least fifteen hyphens and nothing else -/
def Rule (s : Str) : Prop := 15 ≤ s.length ∧ ∀ c ∈ s, c = '-'

/-- A line which continues the value before it: two or more white space characters, and then something else -/
def Continuation (l : Str) : Prop :=
  ∃ sp c r, l = sp ++ c :: r ∧ 2 ≤ sp.length ∧ (∀ x ∈ sp, Props.SelectUsers.White x) ∧ ¬ Props.SelectUsers.White c

theorem isSkippable_iff (s : Str) : isSkippable s = true ↔ s = [] ∨ Rule s := by
  unfold isSkippable dashes Rule
  simp

theorem isSkippable_false (s : Str) : isSkippable s = false ↔ s ≠ [] ∧ ¬ Rule s := by
  rw [← not_or, ← isSkippable_iff]
  simp

theorem continues_iff (l : Str) : continues l = true ↔ Continuation l := by
  unfold continues Continuation
  simp only [Bool.and_eq_true, decide_eq_true_eq, Bool.not_eq_true', List.isEmpty_eq_false_iff]
  constructor
  · rintro ⟨h1, h2⟩
    obtain ⟨c, r, hd⟩ := List.exists_cons_of_ne_nil h2
    refine ⟨l.takeWhile isSpace, c, r, ?_, h1, fun x hx => ?_, ?_⟩
    · rw [← hd]
      exact List.takeWhile_append_dropWhile.symm
    · exact (Props.SelectUsers.isSpace_iff x).1 (List.mem_takeWhile_imp hx)
    · have := List.head?_dropWhile_not isSpace l
      rw [hd] at this
      exact (Props.SelectUsers.isSpace_false c).1 (by simpa using this)
  · rintro ⟨sp, c, r, rfl, h1, h2, h3⟩
    have h2' : ∀ x ∈ sp, isSpace x = true := fun x hx => (Props.SelectUsers.isSpace_iff x).2 (h2 x hx)
    have h3' := (Props.SelectUsers.isSpace_false c).2 h3
    rw [List.takeWhile_append_of_pos h2', List.dropWhile_append_of_pos h2']
    constructor
    · rw [List.length_append]
      omega
    · rw [List.dropWhile_cons_of_neg (by simp [h3'])]
      simp

theorem continues_false (l : Str) : continues l = false ↔ ¬ Continuation l := by
  rw [← continues_iff]
  simp

/-- The header ends at the end of the file, or at the line with two backslashes: no field is read any more. -/
theorem next_key_none (skips : List Str) (hs : ∀ l ∈ skips, strip l = [] ∨ Rule (strip l)) :
    nextKeyValue skips = .ok (none, []) ∧
    ∀ line rest, strip line = ['\\', '\\'] → nextKeyValue (skips ++ line :: rest) = .ok (none, rest) := by
  constructor
  · have : skipLines skips = (none, []) := by
      induction skips with
      | nil => rfl
      | cons x xs ih =>
        show (if isSkippable (strip x) = true then skipLines xs else _) = _
        rw [if_pos ((isSkippable_iff _).2 (hs x (by simp))), ih (fun l hl => hs l (List.mem_cons_of_mem _ hl))]
    unfold nextKeyValue
    rw [this]
  · intro line rest hl
    unfold nextKeyValue
    rw [skipLines_append skips (fun l h => (isSkippable_iff _).2 (hs l h)) line (by rw [hl]; decide)]
    simp only
    exact if_pos hl

example : nextKeyValue ["\n".toList, "--------------------\n".toList, "\\\\\n".toList, "abstract".toList] = .ok (none, ["abstract".toList]) :=
  (next_key_none ["\n".toList, "--------------------\n".toList] (by
    intro l hl
    rw [← isSkippable_iff]
    revert l
    decide +kernel)).2 _ _ (by decide +kernel)

/-- Each field of a record comes from its key: the authors from `author` or `authors`, without what is in parentheses, the title from `title`, the venue
from the first word of `journal-ref`; all other keys are ignored. -/
theorem field_effect (split : Str → List Str) (p : Paper) (key value : Str) :
    (setField split p key value).id = p.id ∧ (setField split p key value).year = p.year ∧
    (setField split p key value).authors = (if key = "author".toList ∨ key = "authors".toList then
      ((split (eliminateParentheses value)).map strip).filter (fun a => decide (a ≠ [])) else p.authors) ∧
    (setField split p key value).title = (if key = "title".toList then some value else p.title) ∧
    (setField split p key value).venue = if key = "journal-ref".toList then some ((strip value).takeWhile (· ≠ ' ')) else p.venue := by
  have hf : (fun a : Str => !a.isEmpty) = fun a => decide (a ≠ []) := by
    funext a
    cases a <;> simp
  have hsp : ∀ s : Str, (splitOn ' ' s).headD [] = s.takeWhile (· ≠ ' ') := by
    intro s
    induction s with
    | nil => rfl
    | cons c s ih =>
      unfold splitOn
      by_cases hc : c = ' '
      · simp [hc]
      · rw [if_neg hc, List.takeWhile_cons_of_pos (by simpa using hc), ← ih]
        cases h : splitOn ' ' s <;> simp
  unfold setField
  by_cases h1 : key = "author".toList ∨ key = "authors".toList
  · rw [if_pos h1, if_pos h1, hf]
    rcases h1 with rfl | rfl <;> refine ⟨rfl, rfl, rfl, ?_, ?_⟩ <;> rfl
  · rw [if_neg h1, if_neg h1]
    by_cases h2 : key = "title".toList
    · rw [if_pos h2, if_pos h2]
      subst h2
      exact ⟨rfl, rfl, rfl, rfl, rfl⟩
    · rw [if_neg h2, if_neg h2]
      by_cases h3 : key = "journal-ref".toList
      · rw [if_pos h3, if_pos h3, ← hsp]
        exact ⟨rfl, rfl, rfl, rfl, rfl⟩
      · rw [if_neg h3, if_neg h3]
        exact ⟨rfl, rfl, rfl, rfl, rfl⟩

/-- A field is the trimmed key in lower case, and the trimmed value followed by its continuation lines; empty lines and rules before it are skipped, and the
lines after it are left for the next field -/
theorem next_key_value_spec (skips : List Str) (hs : ∀ l ∈ skips, strip l = [] ∨ Rule (strip l)) (key value line : Str) (hk : ':' ∉ key)
    (hline : strip line = key ++ ':' :: value)  (cs : List Str)
    (hc : ∀ l ∈ cs, Continuation l) (rest : List Str) (hr : ∀ l, rest.head? = some l → ¬ Continuation l) :
    nextKeyValue (skips ++ line :: (cs ++ rest)) = .ok (some (lower (strip key), strip value ++ (cs.map fun l => ' ' :: strip l).flatten), rest) := by
  have hne : isSkippable (strip line) = false := by
    rw [hline, isSkippable_false]
    refine ⟨by simp, fun h => ?_⟩
    exact absurd (h.2 ':' (by simp)) (by decide)
  replace hs : ∀ l ∈ skips, isSkippable (strip l) = true := fun l h => (isSkippable_iff _).2 (hs l h)
  replace hc : ∀ l ∈ cs, l ≠ "\\\\".toList ∧ continues l = true := by
    intro l h
    refine ⟨?_, (continues_iff l).2 (hc l h)⟩
    rintro rfl
    exact absurd ((continues_iff _).2 (hc _ h)) (by decide +kernel)
  replace hr : ∀ l, rest.head? = some l → continues l = false := fun l h => (continues_false l).2 (hr l h)
  unfold nextKeyValue
  rw [skipLines_append skips hs line hne]
  simp only
  have hm : ':' ∈ strip line := by rw [hline]; simp
  have hn : strip line ≠ "\\\\".toList := by
    intro hc
    rw [hc] at hm
    exact absurd hm (by decide)
  rw [if_neg hn, if_pos hm]
  have h1 : (strip line).takeWhile (· ≠ ':') = key := by
    rw [hline, List.takeWhile_append_of_pos (by intro c hc; simp; rintro rfl; exact hk hc)]
    simp
  have h2 : (strip line).dropWhile (· ≠ ':') = ':' :: value := by
    rw [hline, List.dropWhile_append_of_pos (by intro c hc; simp; rintro rfl; exact hk hc)]
    simp
  rw [h1, h2, moreLines_append cs hc rest hr]
  rfl

example : nextKeyValue ["\n".toList, "Title: On the\n".toList, "  shape of things\n".toList, "Authors: A. Smith\n".toList]
    = .ok (some ("title".toList, "On the shape of things".toList), ["Authors: A. Smith\n".toList]) :=
  next_key_value_spec ["\n".toList] (by simp only [← isSkippable_iff]; decide +kernel) "Title".toList " On the".toList "Title: On the\n".toList (by decide)
    (by decide +kernel) ["  shape of things\n".toList] (by simp only [← continues_iff]; decide +kernel) ["Authors: A. Smith\n".toList]
    (by simp only [← continues_false]; decide +kernel)

/-! ## The run over all files -/

/-- Files which are not complete records are skipped and all others exported, if nothing but `ValueError`s happens -/
theorem run_skips_partial (read : Str → Py Paper) (files : List Str)
    (h : ∀ f ∈ files, f.drop (f.length - 4) = ".abs".toList → (∃ p, read f = .ok p) ∨ read f = .error .valueError) :
    runOnDirs read files = ((files.filter fun f => decide (f.drop (f.length - 4) = ".abs".toList)).filterMap (fun f => (read f).toOption), none) := by
  induction files with
  | nil => rfl
  | cons f fs ih =>
    have hfs := ih (fun g hg => h g (List.mem_cons_of_mem _ hg))
    unfold runOnDirs
    by_cases hf : f.drop (f.length - 4) = ".abs".toList
    · rw [if_neg (by simpa using hf), List.filter_cons_of_pos (by simpa using hf)]
      rcases h f (by simp) hf with ⟨p, hp⟩ | he
      · rw [hp, hfs]
        simp [hp, Except.toOption]
      · rw [he, hfs]
        simp [he, Except.toOption]
    · rw [if_pos (by simpa using hf), List.filter_cons_of_neg (by simpa using hf), hfs]

/-- Any other exception ends the run: the papers before it are written, none after it -/
theorem run_aborts (read : Str → Py Paper) (files after : List Str) (f : Str) (e : PyErr) (hf : f.drop (f.length - 4) = ".abs".toList)
    (he : read f = .error e) (hne : e ≠ .valueError)
    (h : ∀ f ∈ files, f.drop (f.length - 4) = ".abs".toList → (∃ p, read f = .ok p) ∨ read f = .error .valueError) :
    runOnDirs read (files ++ f :: after)
      = ((files.filter fun f => decide (f.drop (f.length - 4) = ".abs".toList)).filterMap (fun f => (read f).toOption), some e) := by
  induction files with
  | nil =>
    show runOnDirs read (f :: after) = _
    unfold runOnDirs
    rw [if_neg (by simpa using hf), he]
    cases e <;> first | rfl | exact absurd rfl hne
  | cons g fs ih =>
    have hfs := ih (fun g hg => h g (List.mem_cons_of_mem _ hg))
    show runOnDirs read (g :: (fs ++ f :: after)) = _
    unfold runOnDirs
    by_cases hg : g.drop (g.length - 4) = ".abs".toList
    · rw [if_neg (by simpa using hg), List.filter_cons_of_pos (by simpa using hg)]
      rcases h g (by simp) hg with ⟨p, hp⟩ | he
      · rw [hp, hfs]
        simp [hp, Except.toOption]
      · rw [he, hfs]
        simp [he, Except.toOption]
    · rw [if_pos (by simpa using hg), List.filter_cons_of_neg (by simpa using hg), hfs]

/-- Two files of the examples: one complete paper, one which is not, one with a broken header -/
def exRead (f : Str) : Py Paper :=
  if f = "9601091.abs".toList then .ok ⟨9601091, some "On things".toList, ["A. Smith".toList], none, 1996⟩
  else if f = "9601092.abs".toList then .error .valueError else .error .indexError

example : (runOnDirs exRead ["9601092.abs".toList, "readme".toList, "9601091.abs".toList]).1.map (·.id) = [9601091] := by
  rw [run_skips_partial exRead _ (by
    intro f hf _
    simp only [List.mem_cons, List.not_mem_nil, or_false] at hf
    rcases hf with rfl | rfl | rfl
    · exact Or.inr (by decide +kernel)
    · rename_i h; exact absurd h (by decide +kernel)
    · exact Or.inl ⟨_, rfl⟩)]
  decide +kernel

example : (runOnDirs exRead ["9601092.abs".toList, "9601093.abs".toList, "9601091.abs".toList]) = ([], some .indexError) := by
  rw [show ["9601092.abs".toList, "9601093.abs".toList, "9601091.abs".toList] = ["9601092.abs".toList] ++ "9601093.abs".toList :: ["9601091.abs".toList] from rfl,
    run_aborts exRead ["9601092.abs".toList] ["9601091.abs".toList] "9601093.abs".toList .indexError (by decide +kernel) (by decide +kernel) (by decide) (by
      intro f hf _
      simp only [List.mem_cons, List.not_mem_nil, or_false] at hf
      subst hf
      exact Or.inr (by decide +kernel))]
  decide +kernel

/-- … and a header line without a colon is such an exception -/
theorem no_colon (toInt : Str → Py Int) (split : Str → List Str) (fname : Str) (id yy : Int) (h1 : toInt (fname.take (fname.length - 4)) = .ok id)
    (h2 : toInt (fname.take 2) = .ok yy) (a b line : Str) (rest : List Str) (hc : ':' ∉ line) (hs : strip line ≠ [] ∧ ¬ Rule (strip line))
    (hm : strip line ≠ "\\\\".toList) : readPaper toInt split fname (a :: b :: line :: rest) = .error .indexError := by
  rw [← isSkippable_false] at hs
  have hc' : ':' ∉ strip line := by
    obtain ⟨l, r, he, _, _⟩ := (Props.SelectUsers.strip_spec line).1
    intro hmem
    apply hc
    rw [he]
    simp [hmem]
  have hn : nextKeyValue (line :: rest) = .error .indexError := by
    unfold nextKeyValue
    have := skipLines_append [] (by simp) line hs rest
    rw [List.nil_append] at this
    rw [this]
    simp only
    rw [if_neg hm, if_neg hc']
  unfold readPaper
  simp only [h1, h2, bind, Except.bind, List.drop_succ_cons, List.drop_zero, List.length_cons]
  rw [readFields]
  have hcomp : Paper.complete ⟨id, none, [], none, fullYear yy⟩ = false := by simp [Paper.complete]
  simp only [hcomp, Bool.false_eq_true, if_false, hn, bind, Except.bind]

/-- A reader of the identifiers in the example -/
def exInt (s : Str) : Py Int := if s = "9601091".toList then .ok 9601091 else if s = "96".toList then .ok 96 else .error .valueError

example : readPaper exInt (fun s => [s]) "9601091.abs".toList ["-----\n".toList, "\\\\\n".toList, "no colon here\n".toList] = .error .indexError :=
  no_colon exInt _ _ 9601091 96 (by decide +kernel) (by decide +kernel) _ _ _ _ (by decide) (by rw [← isSkippable_false]; decide +kernel) (by decide +kernel)

/-- A record is only exported with an identifier, a title, at least one author and a year between 1990 and 2089 for two digit years -/
theorem paper_complete (toInt : Str → Py Int) (split : Str → List Str) (fname : Str) (lines : List Str) (p : Paper)
    (h : readPaper toInt split fname lines = .ok p) : 0 < p.id ∧ p.title.isSome ∧ p.authors ≠ [] ∧ 0 < p.year := by
  unfold readPaper at h
  simp only [bind, Except.bind] at h
  split at h
  · cases h
  split at h
  · cases h
  split at h
  · cases h
  split at h
  · rename_i hc
    simp only [pure, Except.pure, Except.ok.injEq] at h
    subst h
    simpa [Paper.nearlyComplete, and_assoc] using hc
  · cases h

theorem full_year (yy : Int) (h : 0 ≤ yy) (h2 : yy < 100) : 1990 ≤ fullYear yy ∧ fullYear yy ≤ 2089 ∧ fullYear yy % 100 = yy := by
  unfold fullYear
  split <;> omega

/-! ## Names -/

theorem intersperse_flatten_cons (c : Char) (w : Str) (ws : List Str) (h : ws ≠ []) :
    ((w :: ws).intersperse [c]).flatten = w ++ c :: (ws.intersperse [c]).flatten := by
  cases ws with
  | nil => exact absurd rfl h
  | cons x xs => simp

theorem splitOn_unwords (ws : List Str) (hne : ws ≠ []) (h : ∀ w ∈ ws, ' ' ∉ w) : splitOn ' ' (unwords ws) = ws := by
  cases ws with
  | nil => exact absurd rfl hne
  | cons a l => exact splitOn_join ' ' a l h

/-- The words after a name which belong to it -/
def titles : List Str := ["i", "ii", "iii", "jr", "jr.", "sr", "sr.", "phd", "phd."].map String.toList

/-- The words before a name which belong to it -/
def beforeName : List Str := ["mc", "mac", "o", "d'", "de", "del", "della", "di", "van", "von"].map String.toList

/-- Names of several words: the last word comes first, together with a particle before it and a title after it; the other words follow in order -/
theorem acl_author_spec_partial (ws : List Str) (hw : ∀ w ∈ ws, ' ' ∉ w) (hs : strip (unwords ws) = unwords ws) :
    (∀ a b, ws = [a, b] → aclAuthor (unwords ws) = b ++ ", ".toList ++ a)
    ∧ (∀ init p l, ws = init ++ [p, l] → init ≠ [] → lower l ∉ titles → lower p ∉ beforeName →
        aclAuthor (unwords ws) = l ++ ", ".toList ++ unwords (init ++ [p]))
    ∧ (∀ init p l, ws = init ++ [p, l] → init ≠ [] → lower l ∉ titles → lower p ∈ beforeName →
        aclAuthor (unwords ws) = p ++ ' ' :: l ++ ", ".toList ++ unwords init)
    ∧ ∀ init p l x, ws = init ++ [p, l, x] → lower x ∈ titles → (init = [] ∨ lower p ∉ beforeName) →
        aclAuthor (unwords ws) = l ++ ' ' :: x ++ ", ".toList ++ unwords (init ++ [p]) := by
  have e1 : titles = suffixes := rfl
  have e2 : beforeName = particles := rfl
  rw [e1, e2]
  refine ⟨?_, ?_, ?_, ?_⟩
  · rintro a b rfl
    unfold aclAuthor
    rw [hs, splitOn_unwords _ (by simp) hw]
    rfl
  · rintro init p l rfl hi hl hp
    unfold aclAuthor
    rw [hs, splitOn_unwords _ (by simp) hw]
    have hlen : (init ++ [p, l]).length = init.length + 2 := by simp
    have hpos := List.length_pos_of_ne_nil hi
    simp only [hlen]
    rw [if_neg (by omega), if_neg (by omega)]
    have h1 : (init ++ [p, l]).getLastD [] = l := by simp [List.getLastD_eq_getLast?]
    have h2 : (init ++ [p, l]).getD (init.length + 2 - 2) [] = p := by simp [List.getD]
    have h3 : (init ++ [p, l]).getD (init.length + 2 - 1) [] = l := by simp [List.getD]
    have h4 : (init ++ [p, l]).take (init.length + 2 - 1) = init ++ [p] := by simp [List.take_append]
    rw [h1, if_neg hl, hlen, h2, h3, h4, if_neg (by simp [hp])]
  · rintro init p l rfl hi hl hp
    unfold aclAuthor
    rw [hs, splitOn_unwords _ (by simp) hw]
    have hlen : (init ++ [p, l]).length = init.length + 2 := by simp
    have hpos := List.length_pos_of_ne_nil hi
    simp only [hlen]
    rw [if_neg (by omega), if_neg (by omega)]
    have h1 : (init ++ [p, l]).getLastD [] = l := by simp [List.getLastD_eq_getLast?]
    have h2 : (init ++ [p, l]).getD (init.length + 2 - 2) [] = p := by simp [List.getD]
    have h3 : (init ++ [p, l]).getD (init.length + 2 - 1) [] = l := by simp [List.getD]
    have h4 : (init ++ [p, l]).take (init.length + 2 - 2) = init := by simp
    rw [h1, if_neg hl, hlen, h2, h3, h4, if_pos ⟨by omega, hp⟩]
  · rintro init p l x rfl hx hp
    unfold aclAuthor
    rw [hs, splitOn_unwords _ (by simp) hw]
    have hlen : (init ++ [p, l, x]).length = init.length + 3 := by simp
    simp only [hlen]
    rw [if_neg (by omega), if_neg (by omega)]
    have h1 : (init ++ [p, l, x]).getLastD [] = x := by simp [List.getLastD_eq_getLast?]
    have h2 : (init ++ [p, l, x]).getD (init.length + 3 - 2) [] = l := by simp [List.getD]
    have h3 : (init ++ [p, l, x]).getD (init.length + 3 - 1) [] = x := by simp [List.getD]
    have h4 : (init ++ [p, l, x]).take (init.length + 3 - 2) = init ++ [p] := by simp [List.take_append]
    rw [h1, if_pos hx, h2, h3, h4]
    have hlen2 : ((init ++ [p]) ++ [l ++ ' ' :: x]).length = init.length + 2 := by simp
    have g2 : ((init ++ [p]) ++ [l ++ ' ' :: x]).getD (init.length + 2 - 2) [] = p := by simp [List.getD]
    have g3 : ((init ++ [p]) ++ [l ++ ' ' :: x]).getD (init.length + 2 - 1) [] = l ++ ' ' :: x := by simp [List.getD]
    have g4 : ((init ++ [p]) ++ [l ++ ' ' :: x]).take (init.length + 2 - 1) = init ++ [p] := by simp [List.take_append]
    rw [hlen2, g2, g3, g4, if_neg]
    rintro ⟨h5, h6⟩
    rcases hp with hp | hp
    · subst hp
      simp at h5
    · exact hp h6

/-- A family name with a title and nothing else is turned around, and a single word which ends in a dot loses its place: the family name is empty -/
theorem acl_author_violation : aclAuthor "Smith Jr".toList = "Jr, Smith".toList ∧ aclAuthor "Smith.".toList = ", Smith.".toList
    ∧ aclAuthor "P.Smith".toList = "Smith, P.".toList := by
  refine ⟨by decide +kernel, by decide +kernel, by decide +kernel⟩

example : aclAuthor "Ludwig van Beethoven".toList = "van Beethoven, Ludwig".toList :=
  (acl_author_spec_partial ["Ludwig".toList, "van".toList, "Beethoven".toList] (by decide) (by decide +kernel)).2.2.1 ["Ludwig".toList] "van".toList
    "Beethoven".toList rfl (by decide) (by decide +kernel) (by decide +kernel)

theorem stripBraces_mem (s : Str) (c : Char) (h : c ∈ stripBraces s) : c ≠ '{' ∧ c ≠ '}' := by
  unfold stripBraces at h
  rw [List.mem_map] at h
  obtain ⟨x, _, rfl⟩ := h
  split
  · exact ⟨by decide, by decide⟩
  · split
    · exact ⟨by decide, by decide⟩
    · exact ⟨by assumption, by assumption⟩

theorem stripBraces_semi (s : Str) (h : ';' ∉ s) : ';' ∉ stripBraces s := by
  intro hm
  unfold stripBraces at hm
  rw [List.mem_map] at hm
  obtain ⟨x, hx, he⟩ := hm
  split at he
  · exact absurd he (by decide)
  · split at he
    · exact absurd he (by decide)
    · exact h (he ▸ hx)

/-- Round instead of curly brackets -/
def rounded : Char → Char
  | '{' => '('
  | '}' => ')'
  | c => c

theorem stripBraces_eq (s : Str) : stripBraces s = s.map rounded := by
  unfold stripBraces
  refine List.map_congr_left fun c _ => ?_
  by_cases h1 : c = '{'
  · subst h1
    rfl
  by_cases h2 : c = '}'
  · subst h2
    rfl
  rw [if_neg h1, if_neg h2]
  unfold rounded
  split
  · exact absurd rfl h1
  · exact absurd rfl h2
  · rfl

/-- The line of authors is read back by the program which numbers them: the converted names with round instead of curly brackets -/
theorem author_line_read_back (authors : List Str) (hne : authors ≠ []) (h : ∀ a ∈ authors, ';' ∉ aclAuthor a) :
    lineAuthors (authorLine authors) = .ok (authors.map fun a => strip ((aclAuthor a).map rounded)) := by
  simp only [← stripBraces_eq]
  obtain ⟨a, as, rfl⟩ : ∃ a as, authors = a :: as := by
    cases authors with
    | nil => exact absurd rfl hne
    | cons a as => exact ⟨a, as, rfl⟩
  have key : ∀ (a : Str) (as : List Str), stripBraces (((a :: as).intersperse "; ".toList).flatten)
      = ((stripBraces a :: as.map (fun b => ' ' :: stripBraces b)).intersperse [';']).flatten := by
    intro a as
    induction as generalizing a with
    | nil => simp [stripBraces]
    | cons b bs ih =>
      have e1 : ((a :: b :: bs).intersperse "; ".toList).flatten = a ++ "; ".toList ++ ((b :: bs).intersperse "; ".toList).flatten := by
        simp
      have e2 : ((stripBraces a :: (b :: bs).map (fun b => ' ' :: stripBraces b)).intersperse [';']).flatten
          = stripBraces a ++ ';' :: (((' ' :: stripBraces b) :: bs.map (fun b => ' ' :: stripBraces b)).intersperse [';']).flatten := by
        simp
      have e3 : (((' ' :: stripBraces b) :: bs.map (fun b => ' ' :: stripBraces b)).intersperse [';']).flatten
          = ' ' :: ((stripBraces b :: bs.map (fun b => ' ' :: stripBraces b)).intersperse [';']).flatten := by
        cases bs with
        | nil => simp
        | cons c cs => simp
      rw [e1, e2, e3, ← ih b]
      simp only [stripBraces, List.map_append]
      simp
  have hline : authorLine (a :: as) = "author=".toList ++ '{' :: (((stripBraces (aclAuthor a)
      :: (as.map aclAuthor).map (fun b => ' ' :: stripBraces b)).intersperse [';']).flatten ++ '}' :: ['\n']) := by
    unfold authorLine
    rw [List.map_cons, key]
    simp
  rw [hline, (line_authors_spec).1 "author=".toList ['\n'] _ _ (by decide) (by decide)]
  · simp only [List.map_cons, List.map_map]
    congr 2
  · intro n hn
    rw [List.mem_cons] at hn
    rcases hn with rfl | hn
    · exact ⟨stripBraces_semi _ (h a (by simp)), fun hm => (stripBraces_mem _ _ hm).1 rfl, fun hm => (stripBraces_mem _ _ hm).2 rfl⟩
    · rw [List.mem_map] at hn
      obtain ⟨b, hb, rfl⟩ := hn
      rw [List.mem_map] at hb
      obtain ⟨c, hc, rfl⟩ := hb
      refine ⟨?_, ?_, ?_⟩
      · simp [stripBraces_semi _ (h c (by simp [hc]))]
      · simp only [List.mem_cons, not_or]
        exact ⟨by decide, fun hm => (stripBraces_mem _ _ hm).1 rfl⟩
      · simp only [List.mem_cons, not_or]
        exact ⟨by decide, fun hm => (stripBraces_mem _ _ hm).2 rfl⟩

example : lineAuthors (authorLine ["Ann Smith".toList, "Bob {Brown}".toList]) = .ok ["Smith, Ann".toList, "(Brown), Bob".toList] := by
  rw [author_line_read_back _ (by simp) (by decide +kernel)]
  decide +kernel

/-! ## Numbers -/

theorem store_floating (x : ℚ) : store true x = x := rfl

theorem store_int (x : ℚ) (n : Int) (h : x = n) : store false x = x := by
  subst h
  unfold store
  split
  · rename_i hc; exact absurd hc (by decide)
  · simp

theorem mapM_ok {α β ε : Type} (f : α → Except ε β) (g : α → β) (l : List α) (h : ∀ x ∈ l, f x = .ok (g x)) : l.mapM f = .ok (l.map g) := by
  induction l with
  | nil => rfl
  | cons x xs ih =>
    rw [List.mapM_cons, h x (by simp), ih (fun y hy => h y (List.mem_cons_of_mem _ hy))]
    rfl

theorem mapM_error {α β ε : Type} (f : α → Except ε β) (g : α → β) (pre : List α) (x : α) (post : List α) (e : ε) (h : ∀ x ∈ pre, f x = .ok (g x))
    (hx : f x = .error e) : (pre ++ x :: post).mapM f = .error e := by
  induction pre with
  | nil => rw [List.nil_append, List.mapM_cons, hx]; rfl
  | cons y ys ih =>
    rw [List.cons_append, List.mapM_cons, h y (by simp), ih (fun z hz => h z (List.mem_cons_of_mem _ hz))]
    rfl

/-- The numbers on a line, read one by one -/
def Numbers (words : Str → List Str) (toFloat : Str → Py ℚ) (line : Str) (vals : List ℚ) : Prop := (words line).map toFloat = vals.map .ok

theorem line_numbers (words : Str → List Str) (toFloat : Str → Py ℚ) (line : Str) (vals : List ℚ) (h : Numbers words toFloat line vals) :
    lineNumbers words toFloat line = .ok vals := by
  have key : ∀ (ws : List Str) (vs : List ℚ), ws.map toFloat = vs.map .ok → ws.mapM toFloat = .ok vs := by
    intro ws
    induction ws with
    | nil =>
      intro vs h
      cases vs with
      | nil => rfl
      | cons v vs => simp at h
    | cons w ws ih =>
      intro vs h
      cases vs with
      | nil => simp at h
      | cons v vs =>
        simp only [List.map_cons, List.cons.injEq] at h
        rw [List.mapM_cons, h.1, ih vs h.2]
        rfl
  unfold lineNumbers
  rw [key _ _ h]

theorem numbers_length (words : Str → List Str) (toFloat : Str → Py ℚ) (line : Str) (vals : List ℚ) (h : Numbers words toFloat line vals) :
    (words line).length = vals.length := by
  have := congrArg List.length h
  simpa using this

theorem zipIdx_vals (lines : List Str) (g : Str → List ℚ) : lines.zipIdx.map (fun p => g p.1) = lines.map g := by
  rw [show (fun p : Str × Nat => g p.1) = g ∘ Prod.fst from rfl, ← List.map_map, List.zipIdx_map_fst]

theorem mem_zipIdx' (lines : List Str) (p : Str × Nat) (h : p ∈ lines.zipIdx) : p.2 < lines.length ∧ p.1 ∈ lines := by
  obtain ⟨l, i⟩ := p
  have := List.mem_zipIdx h
  refine ⟨by omega, ?_⟩
  rw [this.2.2]
  exact List.getElem_mem _

theorem store_exact (first : Str) (x : ℚ) (h : '.' ∈ first ∨ ∃ n : Int, x = n) : store (decide ('.' ∈ first)) x = x := by
  by_cases hdot : '.' ∈ first
  · rw [decide_eq_true hdot]; rfl
  · obtain ⟨n, hn⟩ := h.resolve_left hdot
    rw [decide_eq_false hdot]
    exact store_int x n hn

/-- A file of equally long lines is converted exactly if its first line has a decimal point or if all of its numbers are whole -/
theorem dense_exact_partial (words : Str → List Str) (toFloat : Str → Py ℚ) (lines : List Str) (vals : Str → List ℚ)
    (hv : ∀ l ∈ lines, Numbers words toFloat l (vals l)) (hlen : ∀ l ∈ lines, (vals l).length = (vals (lines.headD [])).length)
    (hint : '.' ∈ lines.headD [] ∨ ∀ l ∈ lines, ∀ x ∈ vals l, ∃ n : Int, x = n) :
    saveDense words toFloat lines lines.length = .ok (lines.map vals) := by
  unfold saveDense
  have hrow : ∀ p ∈ lines.zipIdx, (lineNumbers words toFloat p.1).bind
      (denseRow lines.length (words (lines.headD [])).length (decide ('.' ∈ lines.headD [])) p.2) = .ok (vals p.1) := by
    intro p hp
    obtain ⟨hi, hl⟩ := mem_zipIdx' lines p hp
    have hne : lines ≠ [] := by rintro rfl; simp at hl
    have hfirst : lines.headD [] ∈ lines := by
      cases lines with
      | nil => exact absurd rfl hne
      | cons a as => simp
    rw [line_numbers _ _ _ _ (hv _ hl)]
    show denseRow _ _ _ _ _ = _
    unfold denseRow
    rw [if_neg (by omega), if_pos (by rw [hlen _ hl, numbers_length _ _ _ _ (hv _ hfirst)])]
    congr 1
    conv_rhs => rw [← List.map_id (vals p.1)]
    apply List.map_congr_left
    intro x hx
    exact store_exact _ _ (hint.imp_right fun h => h _ hl x hx)
  simp only
  rw [mapM_ok _ (fun p : Str × Nat => vals p.1) lines.zipIdx hrow, zipIdx_vals]
  simp only [bind, Except.bind, ne_eq, not_true_eq_false, if_false, pure, Except.pure]

/-- What the sparse conversion does under the same conditions, with lines no longer than the first: negative numbers become zero, and short lines are
filled with zeros -/
theorem sparse_floors (words : Str → List Str) (toFloat : Str → Py ℚ) (lines : List Str) (vals : Str → List ℚ)
    (hv : ∀ l ∈ lines, Numbers words toFloat l (vals l)) (hlen : ∀ l ∈ lines, (vals l).length ≤ (vals (lines.headD [])).length)
    (hint : '.' ∈ lines.headD [] ∨ ∀ l ∈ lines, ∀ x ∈ vals l, ∃ n : Int, x = n) :
    saveSparse words toFloat lines lines.length
      = .ok (lines.map fun l => (List.range (vals (lines.headD [])).length).map fun c => max 0 ((vals l).getD c 0)) := by
  unfold saveSparse
  have hrow : ∀ p ∈ lines.zipIdx, (lineNumbers words toFloat p.1).bind
      (sparseRow lines.length (words (lines.headD [])).length (decide ('.' ∈ lines.headD [])) p.2)
      = .ok ((List.range (vals (lines.headD [])).length).map fun c => max 0 ((vals p.1).getD c 0)) := by
    intro p hp
    obtain ⟨hi, hl⟩ := mem_zipIdx' lines p hp
    have hne : lines ≠ [] := by rintro rfl; simp at hl
    have hfirst : lines.headD [] ∈ lines := by
      cases lines with
      | nil => exact absurd rfl hne
      | cons a as => simp
    rw [line_numbers _ _ _ _ (hv _ hl)]
    show sparseRow _ _ _ _ _ = _
    unfold sparseRow
    rw [numbers_length _ _ _ _ (hv _ hfirst)]
    rw [if_neg]
    · congr 1
      apply List.map_congr_left
      intro c _
      by_cases hc : c < (vals p.1).length
      · have hg : (vals p.1).getD c 0 = (vals p.1)[c] := by simp [List.getD, List.getElem?_eq_getElem hc]
        rw [hg]
        have hm := List.getElem_mem hc
        split
        · rename_i hlt
          rw [max_eq_right hlt.le]
          exact store_exact _ _ (hint.imp_right fun h => h _ hl _ hm)
        · rename_i hle
          rw [max_eq_left (not_lt.mp hle)]
      · have hg : (vals p.1).getD c 0 = 0 := by simp [List.getD, List.getElem?_eq_none (not_lt.mp hc)]
        rw [hg]
        simp
    · rintro (⟨h1, _⟩ | h)
      · omega
      · rw [List.drop_eq_nil_of_le (hlen _ hl)] at h
        simp at h
  simp only
  rw [mapM_ok _ (fun p : Str × Nat => (List.range (vals (lines.headD [])).length).map fun c => max 0 ((vals p.1).getD c 0)) lines.zipIdx hrow,
    zipIdx_vals lines fun l => (List.range (vals (lines.headD [])).length).map fun c => max 0 ((vals l).getD c 0)]
  simp only [bind, Except.bind, ne_eq, not_true_eq_false, if_false, pure, Except.pure]

/-- The sparse conversion is exact under the same conditions if no number is negative -/
theorem sparse_exact_partial (words : Str → List Str) (toFloat : Str → Py ℚ) (lines : List Str) (vals : Str → List ℚ)
    (hv : ∀ l ∈ lines, Numbers words toFloat l (vals l)) (hlen : ∀ l ∈ lines, (vals l).length = (vals (lines.headD [])).length)
    (hint : '.' ∈ lines.headD [] ∨ ∀ l ∈ lines, ∀ x ∈ vals l, ∃ n : Int, x = n) (hnn : ∀ l ∈ lines, ∀ x ∈ vals l, 0 ≤ x) :
    saveSparse words toFloat lines lines.length = .ok (lines.map vals) := by
  rw [sparse_floors words toFloat lines vals hv (fun l hl => (hlen l hl).le) hint]
  congr 1
  apply List.map_congr_left
  intro l hl
  apply List.ext_getElem
  · simp [hlen l hl]
  · intro i h1 h2
    rw [List.getElem_map, List.getElem_range]
    have hg : (vals l).getD i 0 = (vals l)[i] := by simp [List.getD, List.getElem?_eq_getElem h2]
    rw [hg, max_eq_right (hnn l hl _ (List.getElem_mem h2))]

/-- No file is written if the number of lines is not the one given -/
theorem count_checked (words : Str → List Str) (toFloat : Str → Py ℚ) (lines : List Str) (rowCount : Nat) (h : lines.length ≠ rowCount) :
    (∀ m, saveDense words toFloat lines rowCount ≠ .ok m) ∧ ∀ m, saveSparse words toFloat lines rowCount ≠ .ok m := by
  constructor
  all_goals
    intro m hm
    first | unfold saveDense at hm | unfold saveSparse at hm
    simp only [bind, Except.bind] at hm
    split at hm
    · cases hm
    · rw [if_pos h] at hm
      cases hm

/-- A word of a file which is no number ends the conversion -/
theorem bad_number (words : Str → List Str) (toFloat : Str → Py ℚ) (pre post : List Str) (vals : Str → List ℚ) (line w : Str) (e : PyErr)
    (hv : ∀ l ∈ pre, Numbers words toFloat l (vals l)) (hlen : ∀ l ∈ pre, (vals l).length = (words ((pre ++ line :: post).headD [])).length)
    (n : Nat) (hn : pre.length ≤ n) (ws ws' : List Str) (xs : List ℚ) (hx : ws.map toFloat = xs.map .ok) (hw : words line = ws ++ w :: ws')
    (he : toFloat w = .error e) : saveDense words toFloat (pre ++ line :: post) n = .error .die := by
  have hline : lineNumbers words toFloat line = .error .die := by
    unfold lineNumbers
    rw [hw, mapM_error toFloat (fun s => match toFloat s with | .ok q => q | .error _ => 0) ws w ws' e _ he]
    intro s hs
    have : toFloat s ∈ xs.map .ok := by rw [← hx]; exact List.mem_map_of_mem hs
    obtain ⟨q, _, hq⟩ := List.mem_map.mp this
    rw [← hq]
  unfold saveDense
  generalize (pre ++ line :: post).headD [] = first at hlen
  simp only
  rw [List.zipIdx_append, List.zipIdx_cons, mapM_error _ (fun p : Str × Nat => (vals p.1).map (store (decide ('.' ∈ first)))) pre.zipIdx _ _ Failure.die]
  · rfl
  · intro p hp
    obtain ⟨hi, hl⟩ := mem_zipIdx' pre p hp
    rw [line_numbers _ _ _ _ (hv _ hl)]
    show denseRow _ _ _ _ _ = _
    unfold denseRow
    rw [if_neg (by omega), if_pos (hlen _ hl)]
  · rw [hline]
    rfl

/-- The numbers of the examples -/
def exNum (s : Str) : Py ℚ :=
  if s = "1".toList then .ok 1 else if s = "2".toList then .ok 2 else if s = "2.5".toList then .ok (5 / 2) else if s = "-1".toList then .ok (-1)
  else .error .valueError

/-- Without a decimal point in the first line all fractions after it are cut off; a line with a single number fills its row; negative numbers are dropped by
the sparse conversion, and no error is reported -/
theorem text_matrix_violation :
    saveDense (splitOn ' ') exNum ["1 2".toList, "2.5 1".toList] 2 = .ok [[1, 2], [2, 1]]
    ∧ saveDense (splitOn ' ') exNum ["1 2".toList, "2".toList] 2 = .ok [[1, 2], [2, 2]]
    ∧ saveSparse (splitOn ' ') exNum ["1 -1".toList, "2 1".toList] 2 = .ok [[1, 0], [2, 1]]
    ∧ saveSparse (splitOn ' ') exNum ["1 2".toList, "2".toList] 2 = .ok [[1, 2], [2, 0]] := by
  refine ⟨by decide +kernel, by decide +kernel, by decide +kernel, by decide +kernel⟩

/-- What is stored in general when the first line has no decimal point: every number moved to the next whole number towards zero -/
theorem dense_truncates (words : Str → List Str) (toFloat : Str → Py ℚ) (lines : List Str) (vals : Str → List ℚ)
    (hv : ∀ l ∈ lines, Numbers words toFloat l (vals l)) (hlen : ∀ l ∈ lines, (vals l).length = (vals (lines.headD [])).length)
    (hdot : '.' ∉ lines.headD []) :
    ∃ m, saveDense words toFloat lines lines.length = .ok m ∧ m.length = lines.length
      ∧ ∀ i (hi : i < lines.length), ∀ j (hj : j < (vals lines[i]).length), ∃ n : Int, ((m.getD i []).getD j 0 = n)
        ∧ |(n : ℚ)| ≤ |(vals lines[i])[j]| ∧ |(vals lines[i])[j] - n| < 1 := by
  refine ⟨lines.map fun l => (vals l).map (store false), ?_, by simp, ?_⟩
  · unfold saveDense
    have hrow : ∀ p ∈ lines.zipIdx, (lineNumbers words toFloat p.1).bind
        (denseRow lines.length (words (lines.headD [])).length (decide ('.' ∈ lines.headD [])) p.2) = .ok ((vals p.1).map (store false)) := by
      intro p hp
      obtain ⟨hi, hl⟩ := mem_zipIdx' lines p hp
      have hne : lines ≠ [] := by rintro rfl; simp at hl
      have hfirst : lines.headD [] ∈ lines := by
        cases lines with
        | nil => exact absurd rfl hne
        | cons a as => simp
      rw [line_numbers _ _ _ _ (hv _ hl)]
      show denseRow _ _ _ _ _ = _
      unfold denseRow
      rw [if_neg (by omega), if_pos (by rw [hlen _ hl, numbers_length _ _ _ _ (hv _ hfirst)]), decide_eq_false hdot]
    simp only
    rw [mapM_ok _ (fun p : Str × Nat => (vals p.1).map (store false)) lines.zipIdx hrow, zipIdx_vals lines fun l => (vals l).map (store false)]
    simp only [bind, Except.bind, ne_eq, not_true_eq_false, if_false, pure, Except.pure]
  · intro i hi j hj
    have he : ((lines.map fun l => (vals l).map (store false)).getD i []).getD j 0 = store false (vals lines[i])[j] := by
      simp [List.getD, List.getElem?_eq_getElem hi, List.getElem?_eq_getElem hj]
    rw [he]
    generalize (vals lines[i])[j] = x
    by_cases hx : 0 ≤ x
    · refine ⟨⌊x⌋, by simp [store, hx], ?_, ?_⟩
      · have h0 : (0 : ℚ) ≤ ⌊x⌋ := by exact_mod_cast Int.floor_nonneg.mpr hx
        rw [abs_of_nonneg h0, abs_of_nonneg hx]
        exact Int.floor_le x
      · rw [abs_lt]
        constructor
        · have := Int.floor_le x; linarith
        · have := Int.lt_floor_add_one x; linarith
    · have hx' : x < 0 := not_le.mp hx
      refine ⟨⌈x⌉, by simp [store, hx], ?_, ?_⟩
      · have h0 : (⌈x⌉ : ℚ) ≤ 0 := by exact_mod_cast Int.ceil_le.mpr (by simpa using hx'.le)
        rw [abs_of_nonpos h0, abs_of_neg hx']
        have := Int.le_ceil x
        linarith
      · rw [abs_lt]
        constructor
        · have := Int.ceil_lt_add_one x; linarith
        · have := Int.le_ceil x; linarith

example : saveDense (splitOn ' ') exNum ["2.5 2".toList, "1 -1".toList] 2 = .ok [[5 / 2, 2], [1, -1]] :=
  dense_exact_partial (splitOn ' ') exNum ["2.5 2".toList, "1 -1".toList] (fun l => if l = "1 -1".toList then [1, -1] else [5 / 2, 2])
    (by unfold Numbers; decide +kernel) (by decide +kernel) (Or.inl (by decide +kernel))

example : saveSparse (splitOn ' ') exNum ["2.5 -1".toList, "2".toList] 2 = .ok [[5 / 2, 0], [2, 0]] := by
  have := sparse_floors (splitOn ' ') exNum ["2.5 -1".toList, "2".toList] (fun l => if l = "2".toList then [2] else [5 / 2, -1])
    (by unfold Numbers; decide +kernel) (by decide +kernel) (Or.inl (by decide +kernel))
  rw [show 2 = ["2.5 -1".toList, "2".toList].length from rfl, this]
  decide +kernel

example : saveSparse (splitOn ' ') exNum ["1 2".toList, "2 1".toList] 2 = .ok [[1, 2], [2, 1]] :=
  sparse_exact_partial (splitOn ' ') exNum ["1 2".toList, "2 1".toList] (fun l => if l = "1 2".toList then [1, 2] else [2, 1])
    (by unfold Numbers; decide +kernel) (by decide +kernel)
    (Or.inr (by
      intro l hl x hx
      have : x = 1 ∨ x = 2 := by
        simp only [List.mem_cons, List.not_mem_nil, or_false] at hl
        rcases hl with rfl | rfl
        · rw [if_pos rfl] at hx; simpa using hx
        · rw [if_neg (by decide)] at hx; simp at hx; tauto
      rcases this with rfl | rfl
      · exact ⟨1, by norm_num⟩
      · exact ⟨2, by norm_num⟩)) (by decide +kernel)

example : saveDense (splitOn ' ') exNum ["1 2".toList, "2 x".toList] 2 = .error .die :=
  bad_number (splitOn ' ') exNum ["1 2".toList] [] (fun _ => [1, 2]) "2 x".toList "x".toList .valueError (by unfold Numbers; decide +kernel)
    (by decide +kernel) 2 (by decide) ["2".toList] [] [2] (by decide +kernel) (by decide +kernel) (by decide +kernel)

end Verif.Props.ArxivFiles
