import Verif.Model.RunFiles
import Verif.Props.TextTools

/-!
# Files of results, of papers and of numbers
-/

namespace Verif.Props.RunFiles

open Verif Verif.RunTools Verif.RunFiles Verif.Props.TextTools

/-! ## Titles -/

theorem unwords_splitOn (s : Str) : unwords (splitOn ' ' s) = s := by
  unfold unwords
  induction s with
  | nil => rfl
  | cons x xs ih =>
    show (((if x = ' ' then _ else _ : List Str).intersperse [' ']).flatten) = _
    split
    · rename_i h
      rcases hs : splitOn ' ' xs with _ | ⟨p, ps⟩
      · exact absurd hs (splitOn_ne_nil ' ' xs)
      · rw [hs] at ih
        rw [List.intersperse_cons_cons, List.flatten_cons, List.flatten_cons, ih, h]
        rfl
    · rcases hs : splitOn ' ' xs with _ | ⟨p, ps⟩
      · exact absurd hs (splitOn_ne_nil ' ' xs)
      · rw [hs] at ih
        cases ps with
        | nil => simpa using ih
        | cons q ps =>
          rw [List.intersperse_cons_cons] at ih ⊢
          simp only [List.flatten_cons, List.cons_append] at ih ⊢
          rw [ih]

theorem stripBy_left (p : Char → Bool) (a b : Str) (ha : ∀ c ∈ a, p c = true) : stripBy p (a ++ b) = stripBy p b := by
  unfold stripBy
  rw [List.dropWhile_append_of_pos ha]

theorem stripBy_right (p : Char → Bool) (a b : Str) (hb : ∀ c ∈ b, p c = true) : stripBy p (a ++ b) = stripBy p a := by
  unfold stripBy
  by_cases hs : ∀ c ∈ a, p c = true
  · rw [List.dropWhile_append_of_pos hs, dropWhile_nil.mpr hb, dropWhile_nil.mpr hs]
  · have : (a.dropWhile p) ≠ [] := fun h => hs (dropWhile_nil.mp h)
    rw [List.dropWhile_append, if_neg (by simpa using this), List.reverse_append, List.dropWhile_append_of_pos]
    exact fun c hc => hb c (List.mem_reverse.mp hc)

theorem stripBy_ends (p : Char → Bool) (s : Str) (h : ∀ c, s.head? = some c ∨ s.getLast? = some c → p c = false) : stripBy p s = s := by
  unfold stripBy
  have h1 : s.dropWhile p = s := by
    cases s with
    | nil => rfl
    | cons c s => rw [List.dropWhile_cons, if_neg (by simp [h c (Or.inl rfl)])]
  have h2 : s.reverse.dropWhile p = s.reverse := by
    cases hr : s.reverse with
    | nil => rfl
    | cons c r =>
      have : s.getLast? = some c := by rw [← List.head?_reverse, hr]; rfl
      rw [List.dropWhile_cons, if_neg (by simp [h c (Or.inr this)])]
  rw [h1, h2, List.reverse_reverse]

/-- A title is read back as it was printed: the name and the number of topics without spaces and not beginning or ending with the characters the reader
trims, the description already trimmed -/
theorem title_round_trip_partial (a : Algor) (hn : ' ' ∉ a.name)
    (hn1 : ∀ c ∈ ['\t', '\r', '\n', ','], a.name.head? ≠ some c ∧ a.name.getLast? ≠ some c) (ht : ' ' ∉ a.topics)
    (ht1 : ∀ c ∈ ['\t', '\r', '\n', ',', 'K', '='], a.topics.head? ≠ some c ∧ a.topics.getLast? ≠ some c) (hd : strip a.desc = a.desc)
    (nl : Str) (hnl : nl = [] ∨ nl = ['\n']) : fromEntry (a.str ++ nl) = .ok a := by
  have mem : ∀ (s : Str) (c : Char), s.head? = some c ∨ s.getLast? = some c → c ∈ s := fun s c h =>
    h.elim List.mem_of_mem_head? List.mem_of_getLast?
  have hn' : stripBy nameEdge a.name = a.name := stripBy_ends _ _ fun c hc => by
    have h1 : c ∉ ['\t', '\r', '\n', ','] := fun hm => hc.elim (hn1 c hm).1 (hn1 c hm).2
    have h2 : c ≠ ' ' := fun e => hn (e ▸ mem _ _ hc)
    simp only [List.mem_cons, List.not_mem_nil, or_false, not_or] at h1
    simp [nameEdge, h1, h2]
  have ht' : stripBy topicEdge a.topics = a.topics := stripBy_ends _ _ fun c hc => by
    have h1 : c ∉ ['\t', '\r', '\n', ',', 'K', '='] := fun hm => hc.elim (ht1 c hm).1 (ht1 c hm).2
    have h2 : c ≠ ' ' := fun e => ht (e ▸ mem _ _ hc)
    simp only [List.mem_cons, List.not_mem_nil, or_false, not_or] at h1
    simp [topicEdge, nameEdge, h1, h2]
  have h1 : a.str ++ nl = (a.name ++ [',']) ++ ' ' :: ((['K', '='] ++ a.topics) ++ ' ' :: (a.desc ++ nl)) := by
    simp [Algor.str]
  unfold fromEntry
  rw [h1, splitOn_append ' ' (a.name ++ [',']) _ (by simp [hn]), splitOn_append ' ' (['K', '='] ++ a.topics) _ (by simp [ht])]
  show Except.ok _ = _
  congr 1
  rw [unwords_splitOn, stripBy_right nameEdge a.name [','] (by decide), hn', stripBy_left topicEdge ['K', '='] a.topics (by decide), ht',
    strip_dropRight a.desc nl (by rcases hnl with rfl | rfl <;> decide), hd]

/-- A name of several words is cut at the first space, and what follows is taken for the number of topics -/
theorem title_violation : fromEntry (Algor.str ⟨"Author Topic".toList, "10".toList, "".toList⟩) = .ok ⟨"Author".toList, "Topic".toList, "K=10".toList⟩ := by
  decide +kernel

example : fromEntry "RTM, K=10 five fold\n".toList = .ok ⟨"RTM".toList, "10".toList, "five fold".toList⟩ :=
  title_round_trip_partial ⟨"RTM".toList, "10".toList, "five fold".toList⟩ (by decide) (by decide +kernel) (by decide) (by decide +kernel) (by decide +kernel)
    ['\n'] (Or.inr rfl)

/-! ## Files of results -/

/-- Lines which are blank or begin with a hash are passed over, up to the first other line. -/
theorem skip_spec (pre : List Str) (l : Str) (rest : List Str)
    (hpre : ∀ s ∈ pre, s ≠ [] ∧ (strip s = [] ∨ (strip s).head? = some '#')) (hl : strip l ≠ []) (hl' : (strip l).head? ≠ some '#') :
    skipToLine (pre ++ l :: rest) = (l, rest) := by
  have hash : ∀ s : Str, startsWith ['#'] s = decide (s.head? = some '#') := by
    intro s
    cases s with
    | nil => rfl
    | cons c s =>
      by_cases hc : c = '#'
      · simp [startsWith, List.isPrefixOf, hc]
      · simp [startsWith, List.isPrefixOf, hc, Ne.symm hc]
  induction pre with
  | nil =>
    have h1 : skippable l = false := by
      unfold skippable
      rw [hash]
      simp [hl, hl']
    have h2 : l ≠ [] := by
      rintro rfl
      exact hl rfl
    rw [List.nil_append, skipToLine, if_neg h2, h1]
    rfl
  | cons s pre ih =>
    obtain ⟨h1, h2⟩ := hpre s List.mem_cons_self
    have h3 : skippable s = true := by
      unfold skippable
      rw [hash]
      rcases h2 with h | h <;> simp [h]
    rw [List.cons_append, skipToLine, if_neg h1, if_pos h3]
    exact ih fun t ht => hpre t (List.mem_cons_of_mem _ ht)

example : skipToLine ["\n".toList, "  # old\n".toList, "RTM, K=10\n".toList, "x".toList] = ("RTM, K=10\n".toList, ["x".toList]) :=
  skip_spec ["\n".toList, "  # old\n".toList] _ _ (by decide +kernel) (by decide +kernel) (by decide +kernel)

/-- A table which is not there is one of seven groups without documents and with scores of zero: nothing tells it from a table of such scores. -/
theorem section_missing (toFloat : Str → Py ℚ) (title : Str) (stop : Str → Bool) (lines : List Str) (line : Str)
    (h : ∀ l ∈ line :: lines, l ≠ [] → startsWith title (strip l) = false) :
    ∃ s rest, readSection toFloat title stop line lines = .ok (List.replicate 7 ⟨0, fun _ => 0⟩, s, rest) := by
  induction lines generalizing line with
  | nil =>
    unfold readSection
    split
    · exact ⟨_, _, rfl⟩
    · rename_i hne
      dsimp only
      rw [h line List.mem_cons_self hne]
      split
      · exact absurd ‹_› (by simp)
      · split <;> exact ⟨_, _, rfl⟩
  | cons l ls ih =>
    unfold readSection
    split
    · exact ⟨_, _, rfl⟩
    · rename_i hne
      dsimp only
      rw [h line List.mem_cons_self hne]
      split
      · exact absurd ‹_› (by simp)
      · split
        · exact ⟨_, _, rfl⟩
        · exact ih l fun t ht => h t (List.mem_cons_of_mem _ ht)

example (toFloat : Str → Py ℚ) : ∃ s rest, readSection toFloat precisionTitle (startsWith recallTitle) "Iteration 1\n".toList ["Recall\n".toList]
    = .ok (List.replicate 7 ⟨0, fun _ => 0⟩, s, rest) := section_missing toFloat _ _ _ _ (by decide +kernel)

/-- The lines of one entry -/
structure Entry where
  title : Str
  perp : Str
  prec : Str
  headA : Str
  headB : Str
  p : Str × Str × Str × Str × Str
  rcl : Str
  headC : Str
  headD : Str
  r : Str × Str × Str × Str × Str
  mrr : Str

/-- the lines of an entry in the order of the file, up to the reciprocal rank -/
def Entry.lines (e : Entry) : List Str :=
  [e.title, e.perp, e.prec, e.headA, e.headB, e.p.1, e.p.2.1, e.p.2.2.1, e.p.2.2.2.1, e.p.2.2.2.2, e.rcl, e.headC, e.headD,
    e.r.1, e.r.2.1, e.r.2.2.1, e.r.2.2.2.1, e.r.2.2.2.2, e.mrr]

/-- a line which says `v` after its prefix -/
def Says (toFloat : Str → Py ℚ) (pre line : Str) (v : ℚ) : Prop :=
  line ≠ [] ∧ startsWith pre (strip line) = true ∧ toFloat ((strip line).drop pre.length) = .ok v

/-- five lines which make up a table: the groups are those of the file with the two sums in between -/
def Tabulates (toFloat : Str → Py ℚ) (l : Str × Str × Str × Str × Str) (t : Table) : Prop :=
  ∃ r0 r1 r2 r3 r4 u3 u5, readRow toFloat l.1 = .ok r0 ∧ readRow toFloat l.2.1 = .ok r1 ∧ readRow toFloat l.2.2.1 = .ok r2
    ∧ readRow toFloat l.2.2.2.1 = .ok r3 ∧ readRow toFloat l.2.2.2.2 = .ok r4 ∧ rollUp 10 ⟨0, fun _ => 0⟩ [r2, r3, r4] = .ok u3
    ∧ rollUp 10 ⟨0, fun _ => 0⟩ [r3, r4] = .ok u5 ∧ t = [r0, r1, u3, r2, u5, r3, r4]

/-- the entry is well formed and stands for these results -/
structure Good (toFloat : Str → Py ℚ) (e : Entry) (a : Algor) (prec rcl : Table) (mrr perp : ℚ) : Prop where
  title : e.title ≠ [] ∧ skippable e.title = false ∧ fromEntry e.title = .ok a
  perp : Says toFloat perplexityPrefix e.perp perp
  prec : e.prec ≠ [] ∧ startsWith precisionTitle (strip e.prec) = true ∧ Tabulates toFloat e.p prec
  rcl : e.rcl ≠ [] ∧ startsWith recallTitle (strip e.rcl) = true ∧ Tabulates toFloat e.r rcl
  mrr : Says toFloat mrrPrefix e.mrr mrr

theorem strip_strip (s : Str) : strip (strip s) = strip s := by
  obtain ⟨_, h2, h3⟩ := Props.SelectUsers.strip_spec s
  generalize strip s = t at *
  unfold strip
  have hl : t.dropWhile isSpace = t := by
    cases t with
    | nil => rfl
    | cons x xs =>
      have := h2 x rfl
      rw [List.dropWhile_cons, if_neg (by rw [Props.SelectUsers.isSpace_iff]; exact this)]
  rw [hl]
  have hr : t.reverse.dropWhile isSpace = t.reverse := by
    rcases ht : t.reverse with _ | ⟨x, xs⟩
    · rfl
    · have hx : t.getLast? = some x := by
        rw [List.getLast?_eq_head?_reverse, ht]
        rfl
      have := h3 x hx
      rw [List.dropWhile_cons, if_neg (by rw [Props.SelectUsers.isSpace_iff]; exact this)]
  rw [hr, List.reverse_reverse]

theorem other_prefix (s : Str) (h : startsWith precisionTitle s = true) : startsWith perplexityPrefix s = false := by
  have h1 : precisionTitle = 'P' :: "recision".toList := by decide
  have h2 : perplexityPrefix = 'T' :: "raining perplexity is ".toList := by decide
  rw [startsWith, h1] at h
  rw [startsWith, h2]
  cases s with
  | nil => rfl
  | cons x xs =>
    rw [List.isPrefixOf, Bool.and_eq_true, beq_iff_eq] at h
    rw [List.isPrefixOf, ← h.1]
    rfl

theorem readValue_says (toFloat : Str → Py ℚ) (pre line : Str) (v : ℚ) (h : Says toFloat pre line v) (stop : Str → Bool) (rest : List Str) :
    readValue toFloat pre stop line rest = .ok (v, readline rest) := by
  unfold readValue
  rw [if_neg h.1]
  simp only [h.2.1, if_true, h.2.2]
  rfl

theorem readTable_tab (toFloat : Str → Py ℚ) (ha hb : Str) (l : Str × Str × Str × Str × Str) (t : Table) (h : Tabulates toFloat l t) (rest : List Str) :
    readTable toFloat (ha :: hb :: l.1 :: l.2.1 :: l.2.2.1 :: l.2.2.2.1 :: l.2.2.2.2 :: rest) = .ok (t, readline rest) := by
  obtain ⟨r0, r1, r2, r3, r4, u3, u5, h0, h1, h2, h3, h4, h5, h6, rfl⟩ := h
  unfold readTable
  simp only [readline, h0, h1, h2, h3, h4, h5, h6, bind, Except.bind, pure, Except.pure]

theorem readSection_title (toFloat : Str → Py ℚ) (title line : Str) (h1 : line ≠ []) (h2 : startsWith title (strip line) = true) (stop : Str → Bool)
    (rest : List Str) : readSection toFloat title stop line rest = readTable toFloat rest := by
  unfold readSection
  rw [if_neg h1]
  simp only [h2, if_true]

theorem skippable_perp (line : Str) (pre : Str) (c : Char) (hc : c ≠ '#') (h : startsWith (c :: pre) (strip line) = true) : skippable line = false := by
  unfold skippable startsWith at *
  cases hs : strip line with
  | nil => rw [hs] at h; simp at h
  | cons x xs =>
    rw [hs] at h
    simp only [List.isPrefixOf, Bool.and_eq_true, beq_iff_eq] at h
    simp [List.isPrefixOf, ← h.1, Ne.symm hc]

/-- One round over a well formed entry with its average precision: its results come first, and **whatever line follows the entry is dropped** before the
rest of the file is read -/
theorem read_entry (toFloat : Str → Py ℚ) (e : Entry) (a : Algor) (prec rcl : Table) (mrr perp map : ℚ) (h : Good toFloat e a prec rcl mrr perp)
    (mapLine : Str) (hm : Says toFloat mapPrefix mapLine map) (fuel : Nat) (next : Str) (hnext : next ≠ []) (rest : List Str) :
    readAll toFloat (fuel + 1) (e.lines ++ mapLine :: next :: rest)
      = (readAll toFloat fuel rest).map (fun more => (a, ⟨prec, rcl, mrr, map, perp⟩) :: more) := by
  have hs : skipToLine (e.lines ++ mapLine :: next :: rest) = (e.title, e.lines.tail ++ mapLine :: next :: rest) := by
    show (if e.title = [] then _ else if skippable e.title = true then _ else _) = _
    rw [if_neg h.title.1, h.title.2.1]
    rfl
  have hperp : skippable e.perp = false := skippable_perp e.perp _ 'T' (by decide) h.perp.2.1
  have hs2 : skipToLine (e.lines.tail ++ mapLine :: next :: rest) = (e.perp, e.lines.tail.tail ++ mapLine :: next :: rest) := by
    show (if e.perp = [] then _ else if skippable e.perp = true then _ else _) = _
    rw [if_neg h.perp.1, hperp]
    rfl
  have hb : readBatch toFloat e.perp (e.lines.tail.tail ++ mapLine :: next :: rest) = .ok (⟨prec, rcl, mrr, map, perp⟩, next, rest) := by
    unfold readBatch
    rw [readValue_says toFloat _ _ _ h.perp]
    simp only [Entry.lines, List.tail_cons, List.cons_append, List.nil_append, readline, bind, Except.bind]
    rw [readSection_title toFloat _ _ h.prec.1 h.prec.2.1, readTable_tab toFloat _ _ e.p prec h.prec.2.2]
    simp only [readline]
    rw [readSection_title toFloat _ _ h.rcl.1 h.rcl.2.1, readTable_tab toFloat _ _ e.r rcl h.rcl.2.2]
    simp only [readline]
    rw [readValue_says toFloat _ _ _ h.mrr]
    simp only [readline]
    rw [readValue_says toFloat _ _ _ hm]
    rfl
  show (do
    let (line, file) := skipToLine (e.lines ++ mapLine :: next :: rest)
    if line = [] then return []
    let a ← fromEntry line
    let (line, file) := skipToLine file
    if line = [] then throw PyErr.valueError
    let (r, line, file) ← readBatch toFloat line file
    if line = [] then return [(a, r)]
    let more ← readAll toFloat fuel file
    return (a, r) :: more : Py (List (Algor × Results))) = _
  rw [hs]
  simp only [if_neg h.title.1, h.title.2.2, hs2, if_neg h.perp.1, hb, if_neg hnext, bind, Except.bind, pure, Except.pure, Except.map]

/-- The last entry of a file needs no line after it -/
theorem read_last (toFloat : Str → Py ℚ) (e : Entry) (a : Algor) (prec rcl : Table) (mrr perp map : ℚ) (h : Good toFloat e a prec rcl mrr perp)
    (mapLine : Str) (hm : Says toFloat mapPrefix mapLine map) (fuel : Nat) :
    readAll toFloat (fuel + 1) (e.lines ++ [mapLine]) = .ok [(a, ⟨prec, rcl, mrr, map, perp⟩)] := by
  have hs : skipToLine (e.lines ++ [mapLine]) = (e.title, e.lines.tail ++ [mapLine]) := by
    show (if e.title = [] then _ else if skippable e.title = true then _ else _) = _
    rw [if_neg h.title.1, h.title.2.1]
    rfl
  have hperp : skippable e.perp = false := skippable_perp e.perp _ 'T' (by decide) h.perp.2.1
  have hs2 : skipToLine (e.lines.tail ++ [mapLine]) = (e.perp, e.lines.tail.tail ++ [mapLine]) := by
    show (if e.perp = [] then _ else if skippable e.perp = true then _ else _) = _
    rw [if_neg h.perp.1, hperp]
    rfl
  have hb : readBatch toFloat e.perp (e.lines.tail.tail ++ [mapLine]) = .ok (⟨prec, rcl, mrr, map, perp⟩, [], []) := by
    unfold readBatch
    rw [readValue_says toFloat _ _ _ h.perp]
    simp only [Entry.lines, List.tail_cons, List.cons_append, List.nil_append, readline, bind, Except.bind]
    rw [readSection_title toFloat _ _ h.prec.1 h.prec.2.1, readTable_tab toFloat _ _ e.p prec h.prec.2.2]
    simp only [readline]
    rw [readSection_title toFloat _ _ h.rcl.1 h.rcl.2.1, readTable_tab toFloat _ _ e.r rcl h.rcl.2.2]
    simp only [readline]
    rw [readValue_says toFloat _ _ _ h.mrr]
    simp only [readline]
    rw [readValue_says toFloat _ _ _ hm]
    rfl
  rw [readAll, hs]
  simp only [if_neg h.title.1, h.title.2.2, hs2, if_neg h.perp.1, hb, bind, Except.bind, pure, Except.pure, if_true]

/-- an entry of a file with what it says -/
structure Item where
  e : Entry
  mapLine : Str
  sep : Str
  a : Algor
  res : Results

/-- the item's lines say what its results are, and a line separates it from the next -/
def Item.Good (toFloat : Str → Py ℚ) (i : Item) : Prop :=
  Props.RunFiles.Good toFloat i.e i.a i.res.precs i.res.recs i.res.mrr i.res.perp ∧ Says toFloat mapPrefix i.mapLine i.res.map ∧ i.sep ≠ []

/-- A file in which every entry is complete and followed by a separating line is read completely, in order -/
theorem read_all_partial (toFloat : Str → Py ℚ) (items : List Item) (h : ∀ i ∈ items, i.Good toFloat) (fuel : Nat) (hf : items.length ≤ fuel) :
    readAll toFloat fuel (items.flatMap fun i => i.e.lines ++ [i.mapLine, i.sep]) = .ok (items.map fun i => (i.a, i.res)) := by
  induction items generalizing fuel with
  | nil =>
    cases fuel with
    | zero => rfl
    | succ n => rfl
  | cons i items ih =>
    obtain ⟨n, rfl⟩ : ∃ n, fuel = n + 1 := ⟨fuel - 1, by simp at hf; omega⟩
    obtain ⟨h1, h2, h3⟩ := h i (by simp)
    have := read_entry toFloat i.e i.a i.res.precs i.res.recs i.res.mrr i.res.perp i.res.map h1 i.mapLine h2 n i.sep h3
      (items.flatMap fun i => i.e.lines ++ [i.mapLine, i.sep])
    rw [List.flatMap_cons, List.append_assoc]
    show readAll toFloat (n + 1) (i.e.lines ++ i.mapLine :: i.sep :: (items.flatMap fun i => i.e.lines ++ [i.mapLine, i.sep])) = _
    rw [this, ih (fun j hj => h j (List.mem_cons_of_mem _ hj)) n (by simp at hf; omega)]
    rfl

/-- Without the separating line the title of the next entry is dropped: its results appear under the words of its perplexity line, and its perplexity is
missing -/
theorem read_adjacent (toFloat : Str → Py ℚ) (e e' : Entry) (a a' b : Algor) (prec rcl prec' rcl' : Table) (mrr perp map mrr' perp' map' : ℚ)
    (h : Good toFloat e a prec rcl mrr perp) (h' : Good toFloat e' a' prec' rcl' mrr' perp') (m m' : Str) (hm : Says toFloat mapPrefix m map)
    (hm' : Says toFloat mapPrefix m' map') (hb : fromEntry e'.perp = .ok b) (fuel : Nat) :
    readAll toFloat (fuel + 2) (e.lines ++ m :: (e'.lines ++ [m'])) = .ok [(a, ⟨prec, rcl, mrr, map, perp⟩), (b, ⟨prec', rcl', mrr', map', -1⟩)] := by
  have h1 := read_entry toFloat e a prec rcl mrr perp map h m hm (fuel + 1) e'.title h'.title.1 (e'.lines.tail ++ [m'])
  have h2 : e'.lines ++ [m'] = e'.title :: (e'.lines.tail ++ [m']) := rfl
  rw [h2, h1]
  have hperp : skippable e'.perp = false := skippable_perp e'.perp _ 'T' (by decide) h'.perp.2.1
  have hprec : skippable e'.prec = false := skippable_perp e'.prec _ 'P' (by decide) h'.prec.2.1
  have hs : skipToLine (e'.lines.tail ++ [m']) = (e'.perp, e'.lines.tail.tail ++ [m']) := by
    show (if e'.perp = [] then _ else if skippable e'.perp = true then _ else _) = _
    rw [if_neg h'.perp.1, hperp]
    rfl
  have hs2 : skipToLine (e'.lines.tail.tail ++ [m']) = (e'.prec, e'.lines.tail.tail.tail ++ [m']) := by
    show (if e'.prec = [] then _ else if skippable e'.prec = true then _ else _) = _
    rw [if_neg h'.prec.1, hprec]
    rfl
  have hnp : startsWith perplexityPrefix (strip e'.prec) = false := by
    exact other_prefix _ h'.prec.2.1
  have hne : strip e'.prec ≠ [] := by
    intro hc
    have := h'.prec.2.1
    rw [hc] at this
    exact absurd this (by decide)
  have hv : readValue toFloat perplexityPrefix (startsWith precisionTitle) e'.prec (e'.lines.tail.tail.tail ++ [m'])
      = .ok (-1, strip e'.prec, e'.lines.tail.tail.tail ++ [m']) := by
    unfold readValue
    rw [if_neg h'.prec.1]
    simp only [hnp, Bool.false_eq_true, if_false, h'.prec.2.1, if_true]
  have hss : startsWith precisionTitle (strip (strip e'.prec)) = true := by
    rw [strip_strip]
    exact h'.prec.2.1
  have hbatch : readBatch toFloat e'.prec (e'.lines.tail.tail.tail ++ [m']) = .ok (⟨prec', rcl', mrr', map', -1⟩, [], []) := by
    unfold readBatch
    rw [hv]
    simp only [Entry.lines, List.tail_cons, List.cons_append, List.nil_append, bind, Except.bind]
    rw [readSection_title toFloat _ _ hne hss, readTable_tab toFloat _ _ e'.p prec' h'.prec.2.2]
    simp only [readline]
    rw [readSection_title toFloat _ _ h'.rcl.1 h'.rcl.2.1, readTable_tab toFloat _ _ e'.r rcl' h'.rcl.2.2]
    simp only [readline]
    rw [readValue_says toFloat _ _ _ h'.mrr]
    simp only [readline]
    rw [readValue_says toFloat _ _ _ hm']
    rfl
  rw [readAll, hs]
  simp only [if_neg h'.perp.1, hb, hs2, if_neg h'.prec.1, hbatch, bind, Except.bind, pure, Except.pure, Except.map, if_true]

/-- When the average precision is missing and a blank line follows, reading stops there: the rest of the file is lost without a word -/
theorem read_lost (toFloat : Str → Py ℚ) (e : Entry) (a : Algor) (prec rcl : Table) (mrr perp : ℚ) (h : Good toFloat e a prec rcl mrr perp)
    (blank : Str) (hb : blank ≠ []) (hs : strip blank = []) (rest : List Str) (fuel : Nat) :
    readAll toFloat (fuel + 1) (e.lines ++ blank :: rest) = .ok [(a, ⟨prec, rcl, mrr, -1, perp⟩)] := by
  have hs1 : skipToLine (e.lines ++ blank :: rest) = (e.title, e.lines.tail ++ blank :: rest) := by
    show (if e.title = [] then _ else if skippable e.title = true then _ else _) = _
    rw [if_neg h.title.1, h.title.2.1]
    rfl
  have hperp : skippable e.perp = false := skippable_perp e.perp _ 'T' (by decide) h.perp.2.1
  have hs2 : skipToLine (e.lines.tail ++ blank :: rest) = (e.perp, e.lines.tail.tail ++ blank :: rest) := by
    show (if e.perp = [] then _ else if skippable e.perp = true then _ else _) = _
    rw [if_neg h.perp.1, hperp]
    rfl
  have hb2 : readBatch toFloat e.perp (e.lines.tail.tail ++ blank :: rest) = .ok (⟨prec, rcl, mrr, -1, perp⟩, [], rest) := by
    unfold readBatch
    rw [readValue_says toFloat _ _ _ h.perp]
    simp only [Entry.lines, List.tail_cons, List.cons_append, List.nil_append, readline, bind, Except.bind]
    rw [readSection_title toFloat _ _ h.prec.1 h.prec.2.1, readTable_tab toFloat _ _ e.p prec h.prec.2.2]
    simp only [readline]
    rw [readSection_title toFloat _ _ h.rcl.1 h.rcl.2.1, readTable_tab toFloat _ _ e.r rcl h.rcl.2.2]
    simp only [readline]
    rw [readValue_says toFloat _ _ _ h.mrr]
    simp only [readline]
    have : readValue toFloat mapPrefix (fun s => s.isEmpty) blank rest = .ok (-1, [], rest) := by
      unfold readValue
      rw [if_neg hb]
      simp only [hs]
      rfl
    rw [this]
    rfl
  rw [readAll, hs1]
  simp only [if_neg h.title.1, h.title.2.2, hs2, if_neg h.perp.1, hb2, bind, Except.bind, pure, Except.pure, if_true]

/-- a reader which knows a few numbers -/
def exFloat (s : Str) : Py ℚ :=
  if s = "0.5".toList then .ok (1 / 2) else if s = "7".toList then .ok 7 else if s = "1".toList then .ok 1 else .error .valueError

def exRow : Str := "x|0->|7|1|1|1|1|1|1|1|1|1|1\n".toList

def exEntry : Entry := ⟨"RTM, K=10 five fold\n".toList, "Training perplexity is 7\n".toList, "Precision\n".toList, "a\n".toList, "b\n".toList,
  (exRow, exRow, exRow, exRow, exRow), "Recall\n".toList, "c\n".toList, "d\n".toList, (exRow, exRow, exRow, exRow, exRow),
  "Mean reciprocal-rank: 0.5\n".toList⟩

theorem exEntry_good : ∃ prec rcl, Good exFloat exEntry ⟨"RTM".toList, "10".toList, "five fold".toList⟩ prec rcl (1 / 2) 7 := by
  have hrow : ∃ r, readRow exFloat exRow = .ok r ∧ r.docCount = 7 := by
    refine ⟨⟨_, _⟩, rfl, ?_⟩
    decide +kernel
  obtain ⟨r, hr, h7⟩ := hrow
  have hup : ∀ l : List Row, l.length ≤ 3 → l ≠ [] → (∀ x ∈ l, x = r) → ∃ u, rollUp 10 ⟨0, fun _ => 0⟩ l = .ok u := by
    intro l hl hne hx
    rcases l with _ | ⟨x, _ | ⟨y, _ | ⟨z, _ | _⟩⟩⟩
    · exact absurd rfl hne
    · rw [hx x (by simp)]; unfold rollUp; simp [h7]
    · rw [hx x (by simp), hx y (by simp)]; unfold rollUp; norm_num [h7]
    · rw [hx x (by simp), hx y (by simp), hx z (by simp)]; unfold rollUp; norm_num [h7]
    · simp at hl; omega
  obtain ⟨u3, h3⟩ := hup [r, r, r] (by simp) (by simp) (by simp)
  obtain ⟨u5, h5⟩ := hup [r, r] (by simp) (by simp) (by simp)
  have htab : Tabulates exFloat (exRow, exRow, exRow, exRow, exRow) [r, r, u3, r, u5, r, r] := ⟨r, r, r, r, r, u3, u5, hr, hr, hr, hr, hr, h3, h5, rfl⟩
  exact ⟨_, _, ⟨by decide, by decide +kernel, by decide +kernel⟩, ⟨by decide, by decide +kernel, by decide +kernel⟩, ⟨by decide, by decide +kernel, htab⟩,
    ⟨by decide, by decide +kernel, htab⟩, ⟨by decide, by decide +kernel, by decide +kernel⟩⟩

example : ∃ r, readAll exFloat 2 (exEntry.lines ++ ["\n".toList, "BTM, K=20\n".toList]) = .ok [r] := by
  obtain ⟨prec, rcl, h⟩ := exEntry_good
  exact ⟨_, read_lost exFloat exEntry _ prec rcl _ _ h "\n".toList (by decide) (by decide +kernel) _ 1⟩

example : fromEntry exEntry.perp = .ok ⟨"Training".toList, "perplexity".toList, "is 7".toList⟩ := by decide +kernel

end Verif.Props.RunFiles
