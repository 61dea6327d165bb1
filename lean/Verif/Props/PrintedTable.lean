import Verif.Props.PrintedRows
import Verif.Props.CombineMap
import Verif.Model.ResultTable

/-!
# Reading printed tables of scores and the output of a run (C297, C298)
-/

namespace Verif.Props.PrintedTable

open Verif Verif.RunTools Verif.RunFiles Verif.PrintedTable Verif.Evals Verif.RunMain Verif.Props.PrintedRows

/-! ## Sorting -/

/-- the groups of the evaluations, all documents first -/
def five : List Group := [(-1, -1), (0, 3), (3, 5), (5, 10), (10, 1000)]

theorem le_iff (a b : Group) : le a b = true ↔ a.1 < b.1 ∨ (a.1 = b.1 ∧ a.2 ≤ b.2) := by
  simp [le]

theorem sort_five (l : List Group) (h : l.Perm five) : l.mergeSort le = five := by
  refine List.Perm.eq_of_pairwise (le := fun a b => le a b = true) ?_ ?_ ?_ ((List.mergeSort_perm l le).trans h)
  · intro a b _ _ h1 h2
    rw [le_iff] at h1 h2
    ext <;> omega
  · refine List.pairwise_mergeSort ?_ ?_ l
    · intro a b c h1 h2
      rw [le_iff] at *
      omega
    · intro a b
      rw [Bool.or_eq_true, le_iff, le_iff]
      omega
  · decide

/-- a dictionary with the five groups as keys, in any order -/
def Holds {α : Type} (d : Dict α) (v : Group → α) : Prop := (d.map Prod.fst).Perm five ∧ ∀ p ∈ d, p.2 = v p.1

theorem holds_get {α : Type} (d : Dict α) (v : Group → α) (h : Holds d v) (g : Group) (hg : g ∈ five) : d.get g = .ok (v g) := by
  unfold Dict.get
  have hm : g ∈ d.map Prod.fst := h.1.mem_iff.2 hg
  obtain ⟨p, hp, rfl⟩ := List.mem_map.1 hm
  cases hf : d.find? (fun q => q.1 = p.1) with
  | none => exact absurd (List.find?_eq_none.1 hf p hp) (by simp)
  | some q =>
    have h1 := List.find?_some hf
    rw [decide_eq_true_iff] at h1
    simp only [h.2 q (List.mem_of_find?_eq_some hf), h1]

/-- the lines of a table -/
def tableLines (title : Str) (ms : List Nat) (sc : Group → List ℚ) (n : Group → Nat) : List Str :=
  (title ++ ['\n']) :: (headings ms ++ five.map fun g => row g (n g) (sc g))

theorem printTable_eq (title : Str) (scores : Dict (List ℚ)) (counts : Dict Nat) (ms : List Nat) (sc : Group → List ℚ) (n : Group → Nat)
    (hs : Holds scores sc) (hc : Holds counts n) : printTable title scores counts ms = .ok (tableLines title ms sc n) := by
  unfold printTable
  rw [sort_five _ hs.1]
  refine (congrArg (· >>= _) (ArxivFiles.mapM_ok _ (fun g => row g (n g) (sc g)) five (fun g hg => ?_))).trans rfl
  simp only [holds_get counts n hc g hg, holds_get scores sc hs g hg]
  rfl

/-! ## Tables -/

/-- ten scores for each group, none negative -/
def Proper (sc : Group → List ℚ) : Prop := ∀ g ∈ five, (sc g).length = 10 ∧ ∀ x ∈ sc g, 0 ≤ x

/-- the row holds the number of documents and the scores of the group to three digits -/
def Single (sc : Group → List ℚ) (n : Group → Nat) (g : Group) (r : Row) : Prop :=
  r.docCount = n g ∧ ∀ m < 10, |r.score m - (sc g).getD m 0| ≤ 1 / 2000

/-- the row holds the number of documents of several groups and the average of their scores over the documents to three digits -/
def Merged (sc : Group → List ℚ) (n : Group → Nat) (gs : List Group) (r : Row) : Prop :=
  r.docCount = ((gs.map n).sum : Nat) ∧
    ∀ m < 10, |r.score m - (gs.map fun g => (n g : ℚ) * (sc g).getD m 0).sum / ((gs.map n).sum : Nat)| ≤ 1 / 2000

/-- the rows are those of the seven groups of the export -/
def Agrees (sc : Group → List ℚ) (n : Group → Nat) (t : Table) : Prop :=
  ∃ r0 r1 u3 r2 u5 r3 r4, t = [r0, r1, u3, r2, u5, r3, r4] ∧ Single sc n (-1, -1) r0 ∧ Single sc n (0, 3) r1 ∧
    Merged sc n [(3, 5), (5, 10), (10, 1000)] u3 ∧ Single sc n (3, 5) r2 ∧ Merged sc n [(5, 10), (10, 1000)] u5 ∧ Single sc n (5, 10) r3 ∧
    Single sc n (10, 1000) r4

/-- weighted averages of numbers which are near are near -/
theorem average_near (a b c x y z x' y' z' : ℚ) (ha : 0 ≤ a) (hb : 0 ≤ b) (hc : 0 ≤ c) (hp : 0 < a + b + c) (e : ℚ) (h1 : |x' - x| ≤ e)
    (h2 : |y' - y| ≤ e) (h3 : |z' - z| ≤ e) : |(x' * a + y' * b + z' * c) / (a + b + c) - (a * x + b * y + c * z) / (a + b + c)| ≤ e := by
  rw [← sub_div, abs_div, abs_of_pos hp, div_le_iff₀ hp, show x' * a + y' * b + z' * c - (a * x + b * y + c * z) = (x' - x) * a + (y' - y) * b + (z' - z) * c by ring]
  rw [abs_le] at *
  have := mul_le_mul_of_nonneg_right h1.1 ha
  have := mul_le_mul_of_nonneg_right h1.2 ha
  have := mul_le_mul_of_nonneg_right h2.1 hb
  have := mul_le_mul_of_nonneg_right h2.2 hb
  have := mul_le_mul_of_nonneg_right h3.1 hc
  have := mul_le_mul_of_nonneg_right h3.2 hc
  constructor <;> linarith

/-- the row which is read for a group -/
def readAs (v : ℚ → ℚ) (sc : Group → List ℚ) (n : Group → Nat) (g : Group) : Row :=
  ⟨n g, fun m => if m < 10 then v ((sc g).getD m 0) else 0⟩

theorem readTable_lines (toFloat : Str → Py ℚ) (hf : ReadsDecimals toFloat) (v : ℚ → ℚ) (hv : ∀ x, 0 ≤ x → toFloat (fixed 3 x) = .ok (v x))
    (title : Str) (ms : List Nat) (sc : Group → List ℚ) (n : Group → Nat) (hs : Proper sc) (rest : List Str) :
    readTable toFloat ((tableLines title ms sc n).tail ++ rest) = (do
      let up3 ← rollUp 10 ⟨0, fun _ => 0⟩ [readAs v sc n (3, 5), readAs v sc n (5, 10), readAs v sc n (10, 1000)]
      let up5 ← rollUp 10 ⟨0, fun _ => 0⟩ [readAs v sc n (5, 10), readAs v sc n (10, 1000)]
      return ([readAs v sc n (-1, -1), readAs v sc n (0, 3), up3, readAs v sc n (3, 5), up5, readAs v sc n (5, 10), readAs v sc n (10, 1000)],
        readline rest)) := by
  have hr : ∀ g ∈ five, readRow toFloat (row g (n g) (sc g)) = .ok (readAs v sc n g) := fun g hg =>
    readRow_row toFloat hf v hv g (n g) (sc g) (hs g hg).1 (hs g hg).2
  unfold readTable tableLines headings five
  simp only [List.map_cons, List.map_nil, List.tail_cons, List.cons_append, List.nil_append, readline, hr _ (by decide : ((-1, -1) : Group) ∈ five),
    hr _ (by decide : ((0, 3) : Group) ∈ five), hr _ (by decide : ((3, 5) : Group) ∈ five), hr _ (by decide : ((5, 10) : Group) ∈ five),
    hr _ (by decide : ((10, 1000) : Group) ∈ five), bind, Except.bind]

/-- C297: a printed table is read as what was printed if some document has five links -/
theorem table_lines_read (toFloat : Str → Py ℚ) (hf : ReadsDecimals toFloat) (title : Str) (ms : List Nat) (sc : Group → List ℚ) (n : Group → Nat)
    (hs : Proper sc) (hn : n (5, 10) + n (10, 1000) ≠ 0) (rest : List Str) :
    ∃ t, readTable toFloat ((tableLines title ms sc n).tail ++ rest) = .ok (t, readline rest) ∧ Agrees sc n t := by
  obtain ⟨v, hv⟩ := fixed_value toFloat hf 3 (by decide)
  have hsum : (0 : ℚ) < n (5, 10) + n (10, 1000) := by exact_mod_cast Nat.pos_of_ne_zero hn
  have h0 : (0 : ℚ) ≤ n (3, 5) := by positivity
  have h1 : (0 : ℚ) ≤ n (5, 10) := by positivity
  have h2 : (0 : ℚ) ≤ n (10, 1000) := by positivity
  have near : ∀ g ∈ five, ∀ m < 10, |v ((sc g).getD m 0) - (sc g).getD m 0| ≤ 1 / 2000 := by
    intro g hg m hm
    have hl := (hs g hg).1
    have := (hv ((sc g).getD m 0) (by
      rw [List.getD_eq_getElem?_getD, List.getElem?_eq_getElem (by omega), Option.getD_some]
      exact (hs g hg).2 _ (List.getElem_mem _))).2
    norm_num at this ⊢
    exact this
  have single : ∀ g ∈ five, Single sc n g (readAs v sc n g) := fun g hg => ⟨rfl, fun m hm => by
    have := near g hg m hm
    simpa only [readAs, if_pos hm] using this⟩
  rw [readTable_lines toFloat hf v (fun x hx => (hv x hx).1) title ms sc n hs rest]
  have e3 : (0 : ℚ) + n (3, 5) + n (5, 10) + n (10, 1000) ≠ 0 := by linarith [hsum, h0] |> fun h => ne_of_gt h
  have e5 : (0 : ℚ) + n (5, 10) + n (10, 1000) ≠ 0 := by linarith [hsum] |> fun h => ne_of_gt h
  simp only [rollUp, List.foldl_cons, List.foldl_nil, readAs, bind, Except.bind, pure, Except.pure, e3, e5, and_false, if_false]
  refine ⟨_, rfl, _, _, _, _, _, _, _, rfl, single _ (by decide), single _ (by decide), ?_, single _ (by decide), ?_, single _ (by decide),
    single _ (by decide)⟩
  · refine ⟨by simp; ring, fun m hm => ?_⟩
    simp only [if_pos hm, List.map_cons, List.map_nil, List.sum_cons, List.sum_nil]
    push_cast
    have := average_near (n (3, 5)) (n (5, 10)) (n (10, 1000)) _ _ _ _ _ _ h0 h1 h2 (by linarith) _ (near (3, 5) (by decide) m hm)
      (near (5, 10) (by decide) m hm) (near (10, 1000) (by decide) m hm)
    simpa only [zero_add, add_zero, add_assoc] using this
  · refine ⟨by simp, fun m hm => ?_⟩
    simp only [if_pos hm, List.map_cons, List.map_nil, List.sum_cons, List.sum_nil]
    push_cast
    have := average_near 0 (n (5, 10)) (n (10, 1000)) 0 _ _ 0 _ _ le_rfl h1 h2 (by linarith) (1 / 2000) (by norm_num)
      (near (5, 10) (by decide) m hm) (near (10, 1000) (by decide) m hm)
    simpa only [zero_add, add_zero, zero_mul] using this

/-- without a document which has five links the reader divides by zero -/
theorem table_lines_fail (toFloat : Str → Py ℚ) (hf : ReadsDecimals toFloat) (title : Str) (ms : List Nat) (sc : Group → List ℚ) (n : Group → Nat)
    (hs : Proper sc) (h1 : n (5, 10) = 0) (h2 : n (10, 1000) = 0) (rest : List Str) :
    readTable toFloat ((tableLines title ms sc n).tail ++ rest) = .error .zeroDivisionError := by
  obtain ⟨v, hv⟩ := fixed_value toFloat hf 3 (by decide)
  rw [readTable_lines toFloat hf v (fun x hx => (hv x hx).1) title ms sc n hs rest]
  by_cases h3 : n (3, 5) = 0 <;>
    simp [rollUp, readAs, bind, Except.bind, h1, h2, h3]

/-- C297: whatever the order of the groups in the dictionaries, the printed table is read as what was printed if some document has five links -/
theorem table_read_partial (toFloat : Str → Py ℚ) (hf : ReadsDecimals toFloat) (title : Str) (ms : List Nat) (scores : Dict (List ℚ)) (counts : Dict Nat)
    (sc : Group → List ℚ) (n : Group → Nat) (hs : Holds scores sc) (hc : Holds counts n) (hp : Proper sc) (hn : n (5, 10) + n (10, 1000) ≠ 0)
    (rest : List Str) :
    ∃ lines t, printTable title scores counts ms = .ok ((title ++ ['\n']) :: lines) ∧ readTable toFloat (lines ++ rest) = .ok (t, readline rest) ∧
      Agrees sc n t := by
  obtain ⟨t, h1, h2⟩ := table_lines_read toFloat hf title ms sc n hp hn rest
  exact ⟨_, t, printTable_eq title scores counts ms sc n hs hc, h1, h2⟩

/-- C297, violated: a table is printed and cannot be read if no document has five links -/
theorem table_violation (toFloat : Str → Py ℚ) (hf : ReadsDecimals toFloat) (title : Str) (ms : List Nat) (scores : Dict (List ℚ)) (counts : Dict Nat)
    (sc : Group → List ℚ) (n : Group → Nat) (hs : Holds scores sc) (hc : Holds counts n) (hp : Proper sc) (h1 : n (5, 10) = 0) (h2 : n (10, 1000) = 0)
    (rest : List Str) :
    ∃ lines, printTable title scores counts ms = .ok ((title ++ ['\n']) :: lines) ∧ readTable toFloat (lines ++ rest) = .error .zeroDivisionError :=
  ⟨_, printTable_eq title scores counts ms sc n hs hc, table_lines_fail toFloat hf title ms sc n hp h1 h2 rest⟩

/-! ## Lines with one number -/

theorem strip_line (c : Char) (a s b : Str) (hc : isSpace c = false) (hs : ∀ x ∈ s, isSpace x = false) (hne : s ≠ []) (hb : ∀ x ∈ b, isSpace x = true) :
    strip (c :: a ++ s ++ b) = c :: a ++ s := by
  have e : ∀ t, strip t = stripBy isSpace t := fun _ => rfl
  rw [e, RunFiles.stripBy_right isSpace _ b hb]
  unfold stripBy
  rw [List.cons_append, List.dropWhile_cons, if_neg (by rw [hc]; decide), ← List.cons_append, List.reverse_append]
  obtain ⟨y, ys, hy⟩ : ∃ y ys, s.reverse = y :: ys := by
    cases h : s.reverse with
    | nil => exact absurd (List.reverse_eq_nil_iff.1 h) hne
    | cons y ys => exact ⟨y, ys, rfl⟩
  rw [hy, List.cons_append, List.dropWhile_cons, if_neg (by rw [hs y (by rw [← List.mem_reverse, hy]; simp)]; decide), ← List.cons_append, ← hy,
    ← List.reverse_append, List.reverse_reverse]

theorem prefix_append (a b : Str) : startsWith a (a ++ b) = true := List.isPrefixOf_iff_prefix.2 (List.prefix_append a b)

/-- a line with a number after a prefix says the number -/
theorem says_line (toFloat : Str → Py ℚ) (hf : ReadsDecimals toFloat) (p : Nat) (hp : 0 < p) (c : Char) (pre b : Str) (hc : isSpace c = false)
    (hb : ∀ x ∈ b, isSpace x = true) (x : ℚ) (hx : 0 ≤ x) :
    ∃ v, RunFiles.Says toFloat (c :: pre) (c :: pre ++ fixed p x ++ b) v ∧ |v - x| ≤ 1 / (2 * 10 ^ p) := by
  obtain ⟨⟨v, h1, h2⟩, -, h4⟩ := fixed_read toFloat hf p hp x hx
  have hs := solid_fixed toFloat hf p hp x hx
  have e := strip_line c pre (fixed p x) b hc (fun y hy => (hs y hy).1) h4 hb
  refine ⟨v, ⟨by simp, ?_, ?_⟩, h2⟩
  · rw [e]
    exact prefix_append _ _
  · rw [e, List.drop_left]
    exact h1

/-- C297: the lines with the perplexity, the reciprocal rank and the average precision are read as what was printed, to two and six digits -/
theorem values_read (toFloat : Str → Py ℚ) (hf : ReadsDecimals toFloat) (x : ℚ) (hx : 0 ≤ x) (stop : Str → Bool) (rest : List Str) :
    (∃ v, readValue toFloat "Training perplexity is ".toList stop (perplexityLine x) rest = .ok (v, readline rest) ∧ |v - x| ≤ 1 / 200) ∧
    (∃ v, readValue toFloat "Mean reciprocal-rank: ".toList stop (mrrLine x) rest = .ok (v, readline rest) ∧ |v - x| ≤ 1 / 2000000) ∧
    (∃ v, readValue toFloat "Mean average-precision: ".toList stop (mapLine x) rest = .ok (v, readline rest) ∧ |v - x| ≤ 1 / 2000000) := by
  have e1 : "Training perplexity is ".toList = 'T' :: "raining perplexity is ".toList := rfl
  have e2 : "Mean reciprocal-rank: ".toList = 'M' :: "ean reciprocal-rank: ".toList := rfl
  have e3 : "Mean average-precision: ".toList = 'M' :: "ean average-precision: ".toList := rfl
  have e4 : " \n".toList = [' ', '\n'] := rfl
  unfold perplexityLine mrrLine mapLine
  rw [e1, e2, e3, e4]
  obtain ⟨v1, h1, b1⟩ := says_line toFloat hf 2 (by decide) 'T' "raining perplexity is ".toList [' ', '\n'] (by decide) (by decide) x hx
  obtain ⟨v2, h2, b2⟩ := says_line toFloat hf 6 (by decide) 'M' "ean reciprocal-rank: ".toList ['\n'] (by decide) (by decide) x hx
  obtain ⟨v3, h3, b3⟩ := says_line toFloat hf 6 (by decide) 'M' "ean average-precision: ".toList ['\n'] (by decide) (by decide) x hx
  norm_num at b1 b2 b3 ⊢
  exact ⟨⟨v1, RunFiles.readValue_says toFloat _ _ v1 h1 stop rest, b1⟩, ⟨v2, RunFiles.readValue_says toFloat _ _ v2 h2 stop rest, b2⟩,
    ⟨v3, RunFiles.readValue_says toFloat _ _ v3 h3 stop rest, b3⟩⟩

/-! ## The output of a run -/

/-- the line does not begin with the text -/
def Quiet (pre : Str) (line : Str) : Prop := line ≠ [] ∧ startsWith pre (strip line) = false

theorem strip_prefix (c : Char) (t : Str) (h : isSpace c = false) : strip (c :: t) <+: c :: t := by
  unfold strip
  rw [List.dropWhile_cons, if_neg (by rw [h]; decide)]
  have := List.dropWhile_suffix isSpace (l := (c :: t).reverse)
  rw [← List.reverse_prefix, List.reverse_reverse] at this
  exact this

/-- a line which does not begin with white space nor with the text is quiet -/
theorem quiet_of (pre : Str) (c : Char) (t : Str) (h : isSpace c = false) (hp : ¬ pre <+: c :: t) : Quiet pre (c :: t) := by
  refine ⟨by simp, ?_⟩
  rw [← Bool.not_eq_true]
  intro hs
  exact hp ((List.isPrefixOf_iff_prefix.1 hs).trans (strip_prefix c t h))

/-- a line with another first character is quiet -/
theorem quiet_first (d : Char) (pre : Str) (c : Char) (t : Str) (h : isSpace c = false) (hd : d ≠ c) : Quiet (d :: pre) (c :: t) :=
  quiet_of _ c t h (fun hp => hd (List.cons_prefix_cons.1 hp).1)

/-- quiet lines are passed over -/
theorem readValue_quiet (toFloat : Str → Py ℚ) (pre : Str) (stop : Str → Bool) (chat : List Str) (h : ∀ l ∈ chat, Quiet pre l)
    (hs : ∀ l ∈ chat, stop (strip l) = false) (line : Str) (rest : List Str) :
    readValue toFloat pre stop (readline (chat ++ line :: rest)).1 (readline (chat ++ line :: rest)).2 = readValue toFloat pre stop line rest := by
  induction chat with
  | nil => rfl
  | cons l ls ih =>
    have h1 := h l (by simp)
    have h2 := hs l (by simp)
    have ih := ih (fun x hx => h x (List.mem_cons_of_mem _ hx)) (fun x hx => hs x (List.mem_cons_of_mem _ hx))
    rw [← ih]
    show readValue toFloat pre stop l (ls ++ line :: rest) = _
    obtain ⟨y, ys, hy⟩ : ∃ y ys, ls ++ line :: rest = y :: ys := by cases ls <;> exact ⟨_, _, rfl⟩
    rw [hy, readValue, if_neg h1.1]
    simp only [h1.2, h2, Bool.false_eq_true, if_false]
    rfl

theorem readSection_quiet (toFloat : Str → Py ℚ) (title : Str) (stop : Str → Bool) (chat : List Str) (h : ∀ l ∈ chat, Quiet title l)
    (hs : ∀ l ∈ chat, stop (strip l) = false) (line : Str) (rest : List Str) :
    readSection toFloat title stop (readline (chat ++ line :: rest)).1 (readline (chat ++ line :: rest)).2 = readSection toFloat title stop line rest := by
  induction chat with
  | nil => rfl
  | cons l ls ih =>
    have h1 := h l (by simp)
    have h2 := hs l (by simp)
    have ih := ih (fun x hx => h x (List.mem_cons_of_mem _ hx)) (fun x hx => hs x (List.mem_cons_of_mem _ hx))
    rw [← ih]
    show readSection toFloat title stop l (ls ++ line :: rest) = _
    obtain ⟨y, ys, hy⟩ : ∃ y ys, ls ++ line :: rest = y :: ys := by cases ls <;> exact ⟨_, _, rfl⟩
    rw [hy, readSection, if_neg h1.1]
    simp only [h1.2, h2, Bool.false_eq_true, if_false]
    rfl

/-- The first tables are read, whatever is printed between them and the reciprocal rank -/
theorem batch_read (toFloat : Str → Py ℚ) (hf : ReadsDecimals toFloat) (c1 c2 c3 : List Str) (sp sr : Group → List ℚ) (n : Group → Nat) (ms : List Nat)
    (perp mrr map : ℚ) (hperp : 0 ≤ perp) (hmrr : 0 ≤ mrr) (hmap : 0 ≤ map) (hsp : Proper sp) (hsr : Proper sr) (hn : n (5, 10) + n (10, 1000) ≠ 0)
    (h1 : ∀ l ∈ c1, Quiet "Training perplexity is ".toList l ∧ Quiet "Precision".toList l)
    (h2 : ∀ l ∈ c2, Quiet "Precision".toList l ∧ Quiet "Recall".toList l)
    (h3 : ∀ l ∈ c3, Quiet "Mean reciprocal-rank: ".toList l ∧ Quiet "Mean average-precision: ".toList l) (rest : List Str) :
    ∃ r, (readBatch toFloat (readline (c1 ++ perplexityLine perp :: (c2 ++ (tableLines "Precision".toList ms sp n ++ (tableLines "Recall".toList ms sr n ++
        (c3 ++ mrrLine mrr :: mapLine map :: rest)))))).1
        (readline (c1 ++ perplexityLine perp :: (c2 ++ (tableLines "Precision".toList ms sp n ++ (tableLines "Recall".toList ms sr n ++
        (c3 ++ mrrLine mrr :: mapLine map :: rest)))))).2) = .ok (r, readline rest) ∧
      Agrees sp n r.precs ∧ Agrees sr n r.recs ∧ |r.perp - perp| ≤ 1 / 200 ∧ |r.mrr - mrr| ≤ 1 / 2000000 ∧ |r.map - map| ≤ 1 / 2000000 := by
  have ep : perplexityPrefix = "Training perplexity is ".toList := rfl
  have e1 : precisionTitle = "Precision".toList := rfl
  have e2 : recallTitle = "Recall".toList := rfl
  have e3 : mrrPrefix = "Mean reciprocal-rank: ".toList := rfl
  have e4 : mapPrefix = "Mean average-precision: ".toList := rfl
  obtain ⟨⟨vp, rp, bp⟩, -, -⟩ := values_read toFloat hf perp hperp (startsWith precisionTitle)
    (c2 ++ (tableLines "Precision".toList ms sp n ++ (tableLines "Recall".toList ms sr n ++ (c3 ++ mrrLine mrr :: mapLine map :: rest))))
  obtain ⟨-, ⟨vm, rm, bm⟩, -⟩ := values_read toFloat hf mrr hmrr (startsWith mapPrefix) (mapLine map :: rest)
  obtain ⟨-, -, ⟨va, ra, ba⟩⟩ := values_read toFloat hf map hmap (fun s => s.isEmpty) rest
  obtain ⟨tp, rtp, atp⟩ := table_lines_read toFloat hf "Precision".toList ms sp n hsp hn (tableLines "Recall".toList ms sr n ++
    (c3 ++ mrrLine mrr :: mapLine map :: rest))
  obtain ⟨tr, rtr, atr⟩ := table_lines_read toFloat hf "Recall".toList ms sr n hsr hn (c3 ++ mrrLine mrr :: mapLine map :: rest)
  refine ⟨⟨tp, tr, vm, va, vp⟩, ?_, atp, atr, bp, bm, ba⟩
  have q1 := readValue_quiet toFloat perplexityPrefix (startsWith precisionTitle) c1 (fun l hl => ep ▸ (h1 l hl).1) (fun l hl => e1 ▸ (h1 l hl).2.2)
    (perplexityLine perp) (c2 ++ (tableLines "Precision".toList ms sp n ++ (tableLines "Recall".toList ms sr n ++ (c3 ++ mrrLine mrr :: mapLine map :: rest))))
  have q2 := readSection_quiet toFloat precisionTitle (startsWith recallTitle) c2 (fun l hl => e1 ▸ (h2 l hl).1) (fun l hl => e2 ▸ (h2 l hl).2.2)
    ("Precision".toList ++ ['\n']) ((tableLines "Precision".toList ms sp n).tail ++ (tableLines "Recall".toList ms sr n ++
      (c3 ++ mrrLine mrr :: mapLine map :: rest)))
  have q3 := readValue_quiet toFloat mrrPrefix (startsWith mapPrefix) c3 (fun l hl => e3 ▸ (h3 l hl).1) (fun l hl => e4 ▸ (h3 l hl).2.2)
    (mrrLine mrr) (mapLine map :: rest)
  have s1 := RunFiles.readSection_title toFloat precisionTitle ("Precision".toList ++ ['\n']) (by decide) (by decide) (startsWith recallTitle)
    ((tableLines "Precision".toList ms sp n).tail ++ (tableLines "Recall".toList ms sr n ++ (c3 ++ mrrLine mrr :: mapLine map :: rest)))
  have s2 := RunFiles.readSection_title toFloat recallTitle ("Recall".toList ++ ['\n']) (by decide) (by decide) (startsWith mrrPrefix)
    ((tableLines "Recall".toList ms sr n).tail ++ (c3 ++ mrrLine mrr :: mapLine map :: rest))
  have t1 : ∀ R, tableLines "Precision".toList ms sp n ++ R = ("Precision".toList ++ ['\n']) :: ((tableLines "Precision".toList ms sp n).tail ++ R) := fun _ => rfl
  have t2 : ∀ R, readline (tableLines "Recall".toList ms sr n ++ R) = ("Recall".toList ++ ['\n'], (tableLines "Recall".toList ms sr n).tail ++ R) := fun _ => rfl
  rw [← t1] at q2
  unfold readBatch
  simp only [bind, Except.bind, pure, Except.pure]
  rw [q1, ep, rp]
  simp only []
  rw [q2, s1, rtp]
  simp only [t2]
  rw [s2, rtr]
  simp only []
  rw [q3, e3, rm, show readline (mapLine map :: rest) = (mapLine map, rest) from rfl]
  simp only []
  rw [e4, ra]

/-! ## Complete runs -/

/-- not one of the lines with the averages over all documents -/
def NoMean (l : Str) : Prop := Quiet "Mean reciprocal-rank: ".toList l ∧ Quiet "Mean average-precision: ".toList l

/-- a line which is none of those the reader looks for -/
def Chat (l : Str) : Prop :=
  NoMean l ∧ Quiet "Training perplexity is ".toList l ∧ Quiet "Precision".toList l ∧ Quiet "Recall".toList l

theorem noMean_first (c : Char) (t : Str) (h : isSpace c = false) (hc : c ≠ 'M') : NoMean (c :: t) :=
  ⟨quiet_first 'M' "ean reciprocal-rank: ".toList c t h hc.symm, quiet_first 'M' "ean average-precision: ".toList c t h hc.symm⟩

theorem chat_first (c : Char) (t : Str) (h : isSpace c = false) (h1 : c ≠ 'M') (h2 : c ≠ 'T') (h3 : c ≠ 'P') (h4 : c ≠ 'R') : Chat (c :: t) :=
  ⟨noMean_first c t h h1, quiet_first 'T' "raining perplexity is ".toList c t h h2.symm, quiet_first 'P' "recision".toList c t h h3.symm,
    quiet_first 'R' "ecall".toList c t h h4.symm⟩

theorem forall₂_mem {α β : Type} {R : α → β → Prop} {l : List α} {r : List β} (h : List.Forall₂ R l r) : ∀ y ∈ r, ∃ x, R x y := by
  induction h with
  | nil => intro y hy; cases hy
  | cons hab _ ih =>
    intro y hy
    rcases List.mem_cons.1 hy with rfl | hy
    · exact ⟨_, hab⟩
    · exact ih y hy

theorem printTable_first (title : Str) (scores : Dict (List ℚ)) (counts : Dict Nat) (ms : List Nat) (lines : List Str)
    (h : printTable title scores counts ms = .ok lines) : ∀ l ∈ lines, l = title ++ ['\n'] ∨ ∃ t, l = '|' :: t := by
  unfold printTable at h
  simp only [bind, Except.bind, pure, Except.pure] at h
  split at h
  · cases h
  · rename_i rows hr
    cases h
    intro l hl
    rcases List.mem_cons.1 hl with rfl | hl
    · exact .inl rfl
    rcases List.mem_append.1 hl with hl | hl
    · right
      unfold headings at hl
      rcases List.mem_cons.1 hl with rfl | hl
      · exact ⟨_, rfl⟩
      rcases List.mem_cons.1 hl with rfl | hl
      · exact ⟨_, rfl⟩
      · cases hl
    · right
      obtain ⟨g, hg⟩ := forall₂_mem (SelectUsers.mapM_ok_mem _ _ rows hr) l hl
      split at hg
      · cases hg
      · split at hg
        · cases hg
        · cases hg
          exact ⟨_, rfl⟩

theorem noMean_table (title : Str) (c : Char) (t : Str) (ht : title = c :: t) (hc : isSpace c = false) (hm : c ≠ 'M') (scores : Dict (List ℚ)) (counts : Dict Nat)
    (ms : List Nat) (lines : List Str) (h : printTable title scores counts ms = .ok lines) : ∀ l ∈ lines, NoMean l := by
  intro l hl
  rcases printTable_first title scores counts ms lines h l hl with rfl | ⟨u, rfl⟩
  · rw [ht]
    exact noMean_first c _ hc hm
  · exact noMean_first '|' u (by decide) (by decide)

theorem noMean_dashes : NoMean ruler := noMean_first '-' (List.replicate 79 '-' ++ ['\n']) (by decide) (by decide)

theorem noMean_blank : NoMean "\n".toList := ⟨⟨by decide, by decide⟩, ⟨by decide, by decide⟩⟩

theorem noMean_final : NoMean " Final Results\n".toList := ⟨⟨by decide, by decide⟩, ⟨by decide, by decide⟩⟩

/-- the two lines with the averages of one fold -/
theorem noMean_fold (x : ℚ) : NoMean ("Mean reciprocal-rank : ".toList ++ fixed 6 x ++ ['\n']) ∧ NoMean ("Mean Average Precision : ".toList ++ fixed 6 x ++ ['\n']) := by
  have e1 : "Mean reciprocal-rank : ".toList = ['M', 'e', 'a', 'n', ' ', 'r', 'e', 'c', 'i', 'p', 'r', 'o', 'c', 'a', 'l', '-', 'r', 'a', 'n', 'k', ' ', ':', ' '] := rfl
  have e2 : "Mean Average Precision : ".toList = ['M', 'e', 'a', 'n', ' ', 'A', 'v', 'e', 'r', 'a', 'g', 'e', ' ', 'P', 'r', 'e', 'c', 'i', 's', 'i', 'o', 'n', ' ', ':', ' '] := rfl
  have e3 : "Mean reciprocal-rank: ".toList = ['M', 'e', 'a', 'n', ' ', 'r', 'e', 'c', 'i', 'p', 'r', 'o', 'c', 'a', 'l', '-', 'r', 'a', 'n', 'k', ':', ' '] := rfl
  have e4 : "Mean average-precision: ".toList = ['M', 'e', 'a', 'n', ' ', 'a', 'v', 'e', 'r', 'a', 'g', 'e', '-', 'p', 'r', 'e', 'c', 'i', 's', 'i', 'o', 'n', ':', ' '] := rfl
  unfold NoMean
  rw [e1, e2, e3, e4]
  simp only [List.cons_append]
  refine ⟨⟨quiet_of _ _ _ (by decide) ?_, quiet_of _ _ _ (by decide) ?_⟩, ⟨quiet_of _ _ _ (by decide) ?_, quiet_of _ _ _ (by decide) ?_⟩⟩ <;>
    simp [List.cons_prefix_cons]

theorem noMean_foldLines (k : Nat) (f : Fold) (lines : List Str) (h : foldLines k f = .ok lines) (hc : ∀ l ∈ f.chat, NoMean l)
    (hn : ∀ l ∈ f.notes, NoMean l) : ∀ l ∈ lines, NoMean l := by
  unfold foldLines at h
  rcases hp : printTable "Precision".toList f.precs f.counts cutoffs with e | ps
  · rw [hp] at h; cases h
  rcases hr : printTable "Recall".toList f.recs f.counts cutoffs with e | rs
  · rw [hp, hr] at h; cases h
  rw [hp, hr] at h
  cases h
  have q1 := noMean_table "Precision".toList 'P' "recision".toList rfl (by decide) (by decide) _ _ _ ps hp
  have q2 := noMean_table "Recall".toList 'R' "ecall".toList rfl (by decide) (by decide) _ _ _ rs hr
  have q3 : ∀ t, NoMean ("Fold ".toList ++ t) := fun t => noMean_first 'F' ("old ".toList ++ t) (by decide) (by decide)
  have q4 : NoMean (perplexityLine f.perplexity) := noMean_first 'T' _ (by decide) (by decide)
  intro l hl
  simp only [List.mem_append, List.mem_cons, List.not_mem_nil, or_false] at hl
  rcases hl with (((((((h | h | h | h) | h) | h) | h) | h) | h) | h) | h | h
  · exact h ▸ noMean_blank
  · exact h ▸ noMean_blank
  · rw [h, List.append_assoc]; exact q3 _
  · exact h ▸ noMean_dashes
  · exact hc l h
  · rw [h]; exact q4
  · exact hn l h
  · rw [h, List.append_assoc]; exact q3 _
  · exact q1 l h
  · exact q2 l h
  · exact h ▸ (noMean_fold f.mrr).1
  · exact h ▸ (noMean_fold f.map).2

theorem noMean_allFolds (fs : List Fold) (hc : ∀ f ∈ fs, (∀ l ∈ f.chat, NoMean l) ∧ ∀ l ∈ f.notes, NoMean l) : ∀ (k : Nat) (lines : List Str),
    allFolds k fs = .ok lines → ∀ l ∈ lines, NoMean l := by
  induction fs with
  | nil =>
    intro k lines h
    cases h
    intro l hl
    cases hl
  | cons f fs ih =>
    intro k lines h
    unfold allFolds at h
    rcases h1 : foldLines k f with e | here
    · rw [h1] at h; cases h
    rcases h2 : allFolds (k + 1) fs with e | more
    · rw [h1, h2] at h; cases h
    rw [h1, h2] at h
    cases h
    intro l hl
    rcases List.mem_append.1 hl with hl | hl
    · exact noMean_foldLines k f here h1 (hc f (by simp)).1 (hc f (by simp)).2 l hl
    · exact ih (fun g hg => hc g (List.mem_cons_of_mem _ hg)) (k + 1) more h2 l hl

/-- The output of a run, in parts -/
theorem runLines_parts (f : Fold) (fs : List Fold) (lines : List Str) (h : runLines (f :: fs) = .ok lines) (sp sr : Group → List ℚ) (n : Group → Nat)
    (hp : Holds f.precs sp) (hr : Holds f.recs sr) (hcn : Holds f.counts n) (hc : ∀ g ∈ f :: fs, (∀ l ∈ g.chat, NoMean l) ∧ ∀ l ∈ g.notes, NoMean l) :
    ∃ c3 : List Str, (∀ l ∈ c3, NoMean l) ∧ ((f :: fs).map (·.docs)).sum ≠ 0 ∧ lines = "\n".toList :: "\n".toList :: ((["Fold 0\n".toList, ruler] ++ f.chat) ++
      perplexityLine f.perplexity :: ((f.notes ++ ["Fold  0: Mean-Precisions at \n".toList]) ++ (tableLines "Precision".toList cutoffs sp n ++
        (tableLines "Recall".toList cutoffs sr n ++ (c3 ++
          mrrLine (((f :: fs).map fun g => g.mrr * (g.docs : ℚ)).sum / (((f :: fs).map (·.docs)).sum : Nat)) ::
          mapLine (((f :: fs).map fun g => g.map * (g.docs : ℚ)).sum / (((f :: fs).map (·.docs)).sum : Nat)) :: []))))) := by
  unfold runLines at h
  obtain ⟨la, hla⟩ : ∃ la, allFolds 0 (f :: fs) = .ok la := by
    rcases h1 : allFolds 0 (f :: fs) with e | la
    · rw [h1] at h; cases h
    · exact ⟨la, rfl⟩
  rw [hla] at h
  have hla' := hla
  unfold allFolds foldLines at hla
  rw [printTable_eq _ _ _ _ sp n hp hcn, printTable_eq _ _ _ _ sr n hr hcn] at hla
  obtain ⟨more, hmore⟩ : ∃ more, allFolds 1 fs = .ok more := by
    rcases h1 : allFolds 1 fs with e | la
    · rw [show 0 + 1 = 1 from rfl, h1] at hla; cases hla
    · exact ⟨la, rfl⟩
  rw [show 0 + 1 = 1 from rfl, hmore] at hla
  have hq := noMean_allFolds fs (fun g hg => hc g (List.mem_cons_of_mem _ hg)) 1 more hmore
  rcases ha : combineAll ((f :: fs).map fun f => (f.precs, f.counts)) with e | pa
  · rw [ha] at h; cases h
  rcases hb : combineAll ((f :: fs).map fun f => (f.recs, f.counts)) with e | ra
  · rw [ha, hb] at h; cases h
  rw [ha, hb] at h
  rcases h1 : need pa.1 with e | p
  · simp only [bind, Except.bind, h1] at h; cases h
  rcases h2 : need ra.1 with e | r
  · simp only [bind, Except.bind, h1, h2] at h; cases h
  rcases h3 : need ra.2 with e | c
  · simp only [bind, Except.bind, h1, h2, h3] at h; cases h
  rcases h4 : printTable "Precision".toList p c cutoffs with e | tp
  · simp only [bind, Except.bind, h1, h2, h3, h4] at h; cases h
  rcases h5 : printTable "Recall".toList r c cutoffs with e | tr
  · simp only [bind, Except.bind, h1, h2, h3, h4, h5] at h; cases h
  have hd : ((f :: fs).map (·.docs)).sum ≠ 0 := by
    intro h0
    simp only [bind, Except.bind, h1, h2, h3, h4, h5, pyDiv] at h
    rw [if_pos (by rw [h0]; rfl)] at h
    cases h
  have hd' : ((((f :: fs).map (·.docs)).sum : Nat) : ℚ) ≠ 0 := by exact_mod_cast hd
  simp only [bind, Except.bind, h1, h2, h3, h4, h5, pyDiv, if_neg hd', pure, Except.pure] at h
  cases h
  cases hla
  refine ⟨["Mean reciprocal-rank : ".toList ++ fixed 6 f.mrr ++ ['\n'], "Mean Average Precision : ".toList ++ fixed 6 f.map ++ ['\n']] ++ more ++
    [ruler, "\n".toList, " Final Results\n".toList, "\n".toList, "\n".toList] ++ tp ++ tr, ?_, hd, ?_⟩
  · intro l hl
    simp only [List.mem_append, List.mem_cons, List.not_mem_nil, or_false] at hl
    rcases hl with ((((h | h) | h) | h | h | h | h | h) | h) | h
    · exact h ▸ (noMean_fold f.mrr).1
    · exact h ▸ (noMean_fold f.map).2
    · exact hq l h
    · exact h ▸ noMean_dashes
    · exact h ▸ noMean_blank
    · exact h ▸ noMean_final
    · exact h ▸ noMean_blank
    · exact h ▸ noMean_blank
    · exact noMean_table "Precision".toList 'P' "recision".toList rfl (by decide) (by decide) _ _ _ tp h4 l h
    · exact noMean_table "Recall".toList 'R' "ecall".toList rfl (by decide) (by decide) _ _ _ tr h5 l h
  · have e1 : "Fold ".toList ++ intText (0 : Nat) ++ ['\n'] = "Fold 0\n".toList := by decide
    have e2 : "Fold ".toList ++ pad 2 (intText (0 : Nat)) ++ ": Mean-Precisions at \n".toList = "Fold  0: Mean-Precisions at \n".toList := by decide
    rw [e1, e2]
    simp only [List.cons_append, List.nil_append, List.append_assoc]

/-- C298: what is exported from the complete output of a run.  The tables and the perplexity are those of the first fold, the two means are those over
all folds. -/
theorem run_read (toFloat : Str → Py ℚ) (hf : ReadsDecimals toFloat) (f : Fold) (fs : List Fold) (lines : List Str) (h : runLines (f :: fs) = .ok lines)
    (sp sr : Group → List ℚ) (n : Group → Nat) (hp : Holds f.precs sp) (hr : Holds f.recs sr) (hcn : Holds f.counts n)
    (hc : ∀ g ∈ f :: fs, ∀ l ∈ g.chat ++ g.notes, Chat l) (hsp : Proper sp) (hsr : Proper sr) (hn : n (5, 10) + n (10, 1000) ≠ 0)
    (hperp : 0 ≤ f.perplexity) (hv : ∀ g ∈ f :: fs, 0 ≤ g.mrr ∧ 0 ≤ g.map) (title : Str) (a : Algor) (ht : skippable title = false) (ht' : title ≠ [])
    (ha : fromEntry title = .ok a) (fuel : Nat) :
    ∃ r, readAll toFloat (fuel + 1) (title :: lines) = .ok [(a, r)] ∧ Agrees sp n r.precs ∧ Agrees sr n r.recs ∧ |r.perp - f.perplexity| ≤ 1 / 200 ∧
      |r.mrr - ((f :: fs).map fun g => g.mrr * (g.docs : ℚ)).sum / (((f :: fs).map (·.docs)).sum : Nat)| ≤ 1 / 2000000 ∧
      |r.map - ((f :: fs).map fun g => g.map * (g.docs : ℚ)).sum / (((f :: fs).map (·.docs)).sum : Nat)| ≤ 1 / 2000000 := by
  obtain ⟨c3, q3, -, hl⟩ := runLines_parts f fs lines h sp sr n hp hr hcn (fun g hg => ⟨fun l hl => (hc g hg l (by simp [hl])).1,
    fun l hl => (hc g hg l (by simp [hl])).1⟩)
  have hpos : ∀ w : Fold → ℚ, (∀ g ∈ f :: fs, 0 ≤ w g) → 0 ≤ ((f :: fs).map fun g => w g * (g.docs : ℚ)).sum / (((f :: fs).map (·.docs)).sum : Nat) := by
    intro w hw
    refine div_nonneg (List.sum_nonneg ?_) (by positivity)
    intro x hx
    obtain ⟨g, hg, rfl⟩ := List.mem_map.1 hx
    exact mul_nonneg (hw g hg) (by positivity)
  have hchat : ∀ l ∈ f.chat ++ f.notes, Chat l := hc f (by simp)
  have hF : ∀ t, Chat ("Fold ".toList ++ t) := fun t => chat_first 'F' ("old ".toList ++ t) (by decide) (by decide) (by decide) (by decide) (by decide)
  obtain ⟨r, hread, h1, h2, h3, h4, h5⟩ := batch_read toFloat hf (["Fold 0\n".toList, ruler] ++ f.chat) (f.notes ++ ["Fold  0: Mean-Precisions at \n".toList]) c3
    sp sr n cutoffs f.perplexity _ _ hperp (hpos (·.mrr) fun g hg => (hv g hg).1) (hpos (·.map) fun g hg => (hv g hg).2) hsp hsr hn
    (by
      intro l hl
      simp only [List.mem_append, List.mem_cons, List.not_mem_nil, or_false] at hl
      rcases hl with (rfl | rfl) | hl
      · exact ⟨(hF "0\n".toList).2.1, (hF "0\n".toList).2.2.1⟩
      · have := chat_first '-' (List.replicate 79 '-' ++ ['\n']) (by decide) (by decide) (by decide) (by decide) (by decide)
        exact ⟨this.2.1, this.2.2.1⟩
      · exact ⟨(hchat l (by simp [hl])).2.1, (hchat l (by simp [hl])).2.2.1⟩)
    (by
      intro l hl
      simp only [List.mem_append, List.mem_cons, List.not_mem_nil, or_false] at hl
      rcases hl with hl | rfl
      · exact ⟨(hchat l (by simp [hl])).2.2.1, (hchat l (by simp [hl])).2.2.2⟩
      · exact ⟨(hF " 0: Mean-Precisions at \n".toList).2.2.1, (hF " 0: Mean-Precisions at \n".toList).2.2.2⟩)
    q3 []
  refine ⟨r, ?_, h1, h2, h3, h4, h5⟩
  have hs1 : skipToLine (title :: lines) = (title, lines) := by
    rw [skipToLine, if_neg ht', ht]
    rfl
  have hs2 : skipToLine lines = readline ((["Fold 0\n".toList, ruler] ++ f.chat) ++
      perplexityLine f.perplexity :: ((f.notes ++ ["Fold  0: Mean-Precisions at \n".toList]) ++ (tableLines "Precision".toList cutoffs sp n ++
        (tableLines "Recall".toList cutoffs sr n ++ (c3 ++
          mrrLine (((f :: fs).map fun g => g.mrr * (g.docs : ℚ)).sum / (((f :: fs).map (·.docs)).sum : Nat)) ::
          mapLine (((f :: fs).map fun g => g.map * (g.docs : ℚ)).sum / (((f :: fs).map (·.docs)).sum : Nat)) :: []))))) := by
    rw [hl, skipToLine, if_neg (by decide), if_pos (by decide), skipToLine, if_neg (by decide), if_pos (by decide)]
    simp only [List.cons_append, List.nil_append]
    rw [skipToLine, if_neg (by decide), if_neg (by decide)]
    rfl
  unfold readAll
  simp only [hs1, ht', if_false, ha, hs2, bind, Except.bind, pure, Except.pure, hread]
  rw [if_neg (by simp [readline])]
  simp only [readline, if_true]

/-- C298: with a single fold the tables of the run are those of the fold -/
theorem run_partial (toFloat : Str → Py ℚ) (hf : ReadsDecimals toFloat) (f : Fold) (lines : List Str) (h : runLines [f] = .ok lines)
    (sp sr : Group → List ℚ) (n : Group → Nat) (hp : Holds f.precs sp) (hr : Holds f.recs sr) (hcn : Holds f.counts n)
    (hc : ∀ l ∈ f.chat ++ f.notes, Chat l) (hsp : Proper sp) (hsr : Proper sr) (hn : n (5, 10) + n (10, 1000) ≠ 0)
    (hperp : 0 ≤ f.perplexity) (hv : 0 ≤ f.mrr ∧ 0 ≤ f.map) (title : Str) (a : Algor) (ht : skippable title = false) (ht' : title ≠ [])
    (ha : fromEntry title = .ok a) (fuel : Nat) :
    ∃ r precs recs counts, combineAll [(f.precs, f.counts)] = .ok (some precs, some counts) ∧ combineAll [(f.recs, f.counts)] = .ok (some recs, some counts) ∧
      Holds precs sp ∧ Holds recs sr ∧ Holds counts n ∧
      readAll toFloat (fuel + 1) (title :: lines) = .ok [(a, r)] ∧ Agrees sp n r.precs ∧ Agrees sr n r.recs ∧ |r.perp - f.perplexity| ≤ 1 / 200 ∧
      |r.mrr - f.mrr| ≤ 1 / 2000000 ∧ |r.map - f.map| ≤ 1 / 2000000 := by
  obtain ⟨-, -, hd, -⟩ := runLines_parts f [] lines h sp sr n hp hr hcn (fun g hg => by
    rw [List.mem_singleton.1 hg]
    exact ⟨fun l hl => (hc l (by simp [hl])).1, fun l hl => (hc l (by simp [hl])).1⟩)
  obtain ⟨r, h1, h2, h3, h4, h5, h6⟩ := run_read toFloat hf f [] lines h sp sr n hp hr hcn (fun g hg => by rw [List.mem_singleton.1 hg]; exact hc) hsp hsr hn hperp
    (fun g hg => by rw [List.mem_singleton.1 hg]; exact hv) title a ht ht' ha fuel
  have hd' : (f.docs : ℚ) ≠ 0 := by
    have : f.docs ≠ 0 := by simpa using hd
    exact_mod_cast this
  simp only [List.map_cons, List.map_nil, List.sum_cons, List.sum_nil, add_zero, mul_div_assoc, div_self hd', mul_one] at h5 h6
  exact ⟨r, f.precs, f.recs, f.counts, rfl, rfl, hp, hr, hcn, h1, h2, h3, h4, h5, h6⟩

/-- C298: the columns exported are those printed -/
theorem cutoffs_same : Verif.PrintedTable.cutoffs.map (fun m => Nat.toDigits 10 m) = Verif.ResultTable.cutoffs ∧
    Verif.PrintedTable.cutoffs = [10, 20, 30, 40, 50, 75, 100, 150, 250, 500] := by decide +kernel

/-! ## Examples -/

/-- a reader of decimal fractions -/
def exFloat (s : Str) : Py ℚ :=
  .ok ((Nat.ofDigitChars 10 (s.takeWhile (· ≠ '.')) 0 : ℚ) + (Nat.ofDigitChars 10 ((s.dropWhile (· ≠ '.')).drop 1) 0 : ℚ) /
    10 ^ ((s.dropWhile (· ≠ '.')).drop 1).length)

theorem exFloat_reads : ReadsDecimals exFloat := by
  intro a b _ _ ha hb
  have hne : ∀ c ∈ a, decide (c ≠ '.') = true := fun c hc => decide_eq_true (digit_ne c '.' (ha c hc) (by decide))
  constructor
  · unfold exFloat
    rw [List.takeWhile_eq_self_iff.2 hne, List.dropWhile_eq_nil_iff.2 hne]
    simp [Nat.ofDigitChars_nil]
  · unfold exFloat
    rw [List.takeWhile_append_of_pos hne, List.dropWhile_append_of_pos hne]
    simp

/-- a fold with the same scores everywhere -/
def exFold (x : ℚ) : Fold :=
  ⟨["1 of 9\n".toList], [], 100, five.map fun g => (g, List.replicate 10 x), five.map fun g => (g, List.replicate 10 x), five.map fun g => (g, 1), x, x, 1⟩

theorem holds_const {α : Type} (x : α) : Holds (five.map fun g => (g, x)) (fun _ => x) := by
  refine ⟨?_, ?_⟩
  · rw [List.map_map]
    exact List.Perm.of_eq (List.map_id five)
  · intro p hp
    obtain ⟨g, -, rfl⟩ := List.mem_map.1 hp
    rfl

theorem proper_const (x : ℚ) (h : 0 ≤ x) : Proper (fun _ => List.replicate 10 x) := fun g _ =>
  ⟨by simp, fun y hy => by rw [List.eq_of_mem_replicate hy]; exact h⟩

instance : DecidableEq (Option (Dict (List ℚ)) × Option (Dict Nat)) := instDecidableEqProd

theorem ex_average : combineAll ([exFold 1, exFold 0].map fun f => (f.precs, f.counts)) =
    .ok (some (five.map fun g => (g, List.replicate 10 (1 / 2))), some (five.map fun g => (g, 2))) := by
  decide +kernel

theorem ex_run : ∃ lines, runLines [exFold 1, exFold 0] = .ok lines := by
  have hr : combineAll ([exFold 1, exFold 0].map fun f => (f.recs, f.counts)) =
    .ok (some (five.map fun g => (g, List.replicate 10 (1 / 2))), some (five.map fun g => (g, 2))) := ex_average
  have h1 : ∀ (t : Str) (k : Nat) x, printTable t (exFold x).precs (exFold x).counts cutoffs = .ok (tableLines t cutoffs (fun _ => List.replicate 10 x) (fun _ => 1)) :=
    fun t k x => printTable_eq _ _ _ _ _ _ (holds_const _) (holds_const _)
  have h2 : ∀ (t : Str) x, printTable t (exFold x).recs (exFold x).counts cutoffs = .ok (tableLines t cutoffs (fun _ => List.replicate 10 x) (fun _ => 1)) :=
    fun t x => printTable_eq _ _ _ _ _ _ (holds_const _) (holds_const _)
  have h3 : ∀ (t : Str), printTable t (five.map fun g => (g, List.replicate 10 (1 / 2 : ℚ))) (five.map fun g => (g, 2)) cutoffs =
    .ok (tableLines t cutoffs (fun _ => List.replicate 10 (1 / 2)) (fun _ => 2)) := fun t => printTable_eq _ _ _ _ _ _ (holds_const _) (holds_const _)
  have h4 : ∀ a : ℚ, pyDiv a ((([exFold 1, exFold 0].map (·.docs)).sum : Nat) : ℚ) = .ok (a / ((([exFold 1, exFold 0].map (·.docs)).sum : Nat) : ℚ)) := by
    intro a
    unfold pyDiv
    rw [if_neg (by norm_num [exFold])]
  unfold runLines
  simp only [ex_average, hr, allFolds, foldLines, h1 _ 0, h2, bind, Except.bind, pure, Except.pure, need, h3, h4]
  exact ⟨_, rfl⟩

theorem chat_ex : ∀ l ∈ (["1 of 9\n".toList] : List Str) ++ [], Chat l := by
  intro l hl
  rw [List.append_nil, List.mem_singleton] at hl
  rw [hl]
  exact chat_first '1' " of 9\n".toList (by decide) (by decide) (by decide) (by decide) (by decide)

/-- C298, violated: the precision is one in the first fold, zero in the second and one half on average, but one is exported -/
theorem run_violation (toFloat : Str → Py ℚ) (hf : ReadsDecimals toFloat) :
    ∃ (folds : List Fold) (lines : List Str) (precs : Dict (List ℚ)) (counts : Dict Nat) (a : Algor) (r : Results) (all : Row) (others : Table),
      runLines folds = .ok lines ∧ combineAll (folds.map fun f => (f.precs, f.counts)) = .ok (some precs, some counts) ∧
      precs.get (-1, -1) = .ok (List.replicate 10 (1 / 2)) ∧
      readAll toFloat (lines.length + 1) ("RTM, K=10\n".toList :: lines) = .ok [(a, r)] ∧ r.precs = all :: others ∧
      (∀ m < 10, 1999 / 2000 ≤ all.score m) ∧ all.docCount = 1 := by
  obtain ⟨lines, hl⟩ := ex_run
  obtain ⟨r, h1, ⟨r0, r1, u3, r2, u5, r3, r4, ht, h2, -⟩, -⟩ := run_read toFloat hf (exFold 1) [exFold 0] lines hl _ _ _ (holds_const _) (holds_const _)
    (holds_const _) (by
      intro g hg
      rcases List.mem_cons.1 hg with rfl | hg
      · exact chat_ex
      · rw [List.mem_singleton.1 hg]; exact chat_ex) (proper_const 1 (by norm_num)) (proper_const 1 (by norm_num)) (by decide) (by norm_num [exFold]) (by
      intro g hg
      rcases List.mem_cons.1 hg with rfl | hg
      · norm_num [exFold]
      · rw [List.mem_singleton.1 hg]; norm_num [exFold]) "RTM, K=10\n".toList ⟨"RTM".toList, "10".toList, []⟩ (by decide) (by decide) (by decide +kernel) lines.length
  refine ⟨_, lines, _, _, _, r, r0, _, hl, ex_average, by decide +kernel, h1, ht, fun m hm => ?_, ?_⟩
  · have := h2.2 m hm
    rw [List.getD_eq_getElem?_getD, List.getElem?_replicate_of_lt hm, Option.getD_some, abs_le] at this
    linarith [this.1]
  · simpa using h2.1

example : ∃ lines t, printTable "Recall".toList (exFold (1 / 3)).recs (exFold (1 / 3)).counts [1, 2] = .ok (("Recall".toList ++ ['\n']) :: lines) ∧
    readTable exFloat (lines ++ []) = .ok (t, readline []) ∧ Agrees (fun _ => List.replicate 10 (1 / 3)) (fun _ => 1) t :=
  table_read_partial exFloat exFloat_reads _ _ _ _ _ _ (holds_const _) (holds_const _) (proper_const _ (by norm_num)) (by decide) []

example : fixed 3 (2 / 3) = "0.667".toList ∧ fixed 2 1234 = "1234.00".toList ∧ fixed 3 (1 / 2000) = "0.000".toList := by decide +kernel

/-- Without any fold there are no averages to print, and the run ends with an exception. -/
theorem no_folds : runLines [] = .error .attributeError := rfl

end Verif.Props.PrintedTable
