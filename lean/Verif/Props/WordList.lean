import Verif.Model.WordList
import Verif.Lemmas.Csr
import Mathlib.Algebra.Order.BigOperators.Group.List
import Mathlib.Algebra.Order.Floor.Ring
import Mathlib.Algebra.Order.Floor.Semiring
import Mathlib.Data.List.GetD
import Mathlib.Tactic.Linarith

/-!
# Word lists (C222)
-/

namespace Verif.Props.WordList

open Verif Verif.WordList

/-! ## Writing -/

theorem fillObs_eq (col : Nat) : ∀ (n : Nat) (acc : List Nat) (z : Nat), n ≤ z →
    fillObs col n (acc ++ List.replicate z 0, acc.length) = some (acc ++ List.replicate n col ++ List.replicate (z - n) 0, acc.length + n)
  | 0, acc, z, _ => by simp [fillObs]
  | n + 1, acc, z, h => by
    obtain ⟨z, rfl⟩ : ∃ y, z = y + 1 := ⟨z - 1, by omega⟩
    unfold fillObs
    rw [if_pos (by simp)]
    have h1 : (acc ++ List.replicate (z + 1) 0).set acc.length col = (acc ++ [col]) ++ List.replicate z 0 := by
      rw [List.replicate_succ, List.set_append_right _ _ (le_refl _)]
      simp
    have h2 : acc.length + 1 = (acc ++ [col]).length := by simp
    dsimp only
    rw [h1, h2, fillObs_eq col n (acc ++ [col]) z (by omega)]
    simp only [List.append_assoc, List.length_append, List.length_singleton, Nat.add_sub_add_right, List.replicate_succ, List.singleton_append]
    simp [Nat.add_comm, Nat.add_left_comm]

/-- The words of a list of counts, each as often as its truncated count says -/
def expand (l : List (Nat × ℚ)) : List Nat := l.flatMap fun p => List.replicate (trunc p.2).toNat p.1

theorem fillCells_eq (w : Csr ℚ) (hw : w.WF) : ∀ (n i : Nat) (acc : List Nat) (z : Nat), i + n ≤ w.indices.length →
    (expand ((w.pairs.drop i).take n)).length ≤ z →
    fillCells w n i (acc ++ List.replicate z 0, acc.length)
      = some (acc ++ expand ((w.pairs.drop i).take n) ++ List.replicate (z - (expand ((w.pairs.drop i).take n)).length) 0,
          acc.length + (expand ((w.pairs.drop i).take n)).length)
  | 0, i, acc, z, _, _ => by simp [fillCells, expand]
  | n + 1, i, acc, z, hi, hz => by
    have hlt : i < w.pairs.length := by rw [Csr.pairs_length w hw]; omega
    have hcons : (w.pairs.drop i).take (n + 1) = w.pairs[i] :: (w.pairs.drop (i + 1)).take n := by
      rw [List.drop_eq_getElem_cons hlt, List.take_succ_cons]
    have hp : w.pairs[i] = (w.indices.getD i 0, w.data.getD i 0) := by
      have h1 : i < w.indices.length := by omega
      have h2 : i < w.data.length := by rw [hw.data]; omega
      rw [List.getD_eq_getElem _ _ h1, List.getD_eq_getElem _ _ h2]
      simp [Csr.pairs]
    have hexp : expand ((w.pairs.drop i).take (n + 1))
        = List.replicate (trunc (w.data.getD i 0)).toNat (w.indices.getD i 0) ++ expand ((w.pairs.drop (i + 1)).take n) := by
      rw [hcons, hp]
      simp [expand]
    rw [hexp] at hz ⊢
    rw [List.length_append, List.length_replicate] at hz ⊢
    unfold fillCells
    rw [fillObs_eq _ _ _ _ (by omega)]
    have hlen : acc.length + (trunc (w.data.getD i 0)).toNat = (acc ++ List.replicate (trunc (w.data.getD i 0)).toNat (w.indices.getD i 0)).length := by simp
    simp only [Option.bind_eq_bind, Option.bind_some]
    rw [hlen, fillCells_eq w hw n (i + 1) _ _ (by omega) (by omega)]
    simp [Nat.sub_sub, Nat.add_assoc]

theorem fillRows_eq (w : Csr ℚ) (hw : w.WF) (maxN : Nat) (hmax : ∀ d, d < w.rows → (expand (w.row d)).length ≤ maxN) : ∀ (n d : Nat), d + n = w.rows →
    fillRows w maxN n d (w.ptr d) = some ((List.range' d n).map fun d => expand (w.row d) ++ List.replicate (maxN - (expand (w.row d)).length) 0)
  | 0, d, _ => rfl
  | n + 1, d, hd => by
    have hmono := hw.mono d (by omega)
    have hle : w.ptr (d + 1) ≤ w.indices.length := Csr.ptr_le_length w hw (by omega)
    unfold fillRows
    have hc := fillCells_eq w hw (w.ptr (d + 1) - w.ptr d) (w.ptr d) [] maxN (by omega) (hmax d (by omega))
    simp only [List.nil_append, List.length_nil, Nat.zero_add] at hc
    simp only [Option.bind_eq_bind]
    rw [hc]
    simp only [Option.bind_some]
    rw [show w.ptr d + (w.ptr (d + 1) - w.ptr d) = w.ptr (d + 1) by omega, fillRows_eq w hw maxN hmax n (d + 1) (by omega)]
    rfl

/-! ## Shuffling -/

theorem swap_take (row : List Nat) (l r nd : Nat) (hl : l < nd) (hr : r < nd) (hnd : nd ≤ row.length) :
    ((swap row l r).take nd).Perm (row.take nd) ∧ (swap row l r).drop nd = row.drop nd := by
  unfold swap
  constructor
  · rw [List.take_set, List.take_set]
    have h1 : l < (row.take nd).length := by rw [List.length_take]; omega
    have h2 : r < (row.take nd).length := by rw [List.length_take]; omega
    have := List.set_set_perm h1 h2
    rw [List.getElem_take, List.getElem_take] at this
    rwa [List.getD_eq_getElem _ _ (by omega), List.getD_eq_getElem _ _ (by omega)]
  · rw [List.drop_set_of_lt hr, List.drop_set_of_lt hl]

theorem swap_length (row : List Nat) (l r : Nat) : (swap row l r).length = row.length := by simp [swap]

theorem swapLoop_take (rand : Nat → Nat) (nd : Nat) (hnd : 0 < nd) : ∀ (n pos : Nat) (row : List Nat), nd ≤ row.length →
    ((swapLoop rand nd n pos row).1.take nd).Perm (row.take nd) ∧ (swapLoop rand nd n pos row).1.drop nd = row.drop nd
  | 0, _, _, _ => ⟨List.Perm.refl _, rfl⟩
  | n + 1, pos, row, h => by
    obtain ⟨h1, h2⟩ := swap_take row (rand pos % nd) (rand (pos + 1) % nd) nd (Nat.mod_lt _ hnd) (Nat.mod_lt _ hnd) h
    obtain ⟨h3, h4⟩ := swapLoop_take rand nd hnd n (pos + 2) (swap row (rand pos % nd) (rand (pos + 1) % nd)) (by rw [swap_length]; exact h)
    exact ⟨h3.trans h1, h4.trans h2⟩

theorem swapRows_get (rand : Nat → Nat) : ∀ (pos : Nat) (l : List (List Nat × Int)) (d : Nat) (p : List Nat × Int), l[d]? = some p →
    p.2.toNat ≤ p.1.length → ∃ row, (swapRows rand pos l)[d]? = some row ∧ (row.take p.2.toNat).Perm (p.1.take p.2.toNat) ∧
      row.drop p.2.toNat = p.1.drop p.2.toNat
  | _, [], d, p, h, _ => by simp at h
  | pos, (row, nd) :: rest, 0, p, h, hp => by
    simp only [List.getElem?_cons_zero, Option.some.injEq] at h
    subst h
    refine ⟨(swapLoop rand nd.toNat nd.toNat pos row).1, rfl, ?_⟩
    rcases Nat.eq_zero_or_pos nd.toNat with h0 | h0
    · dsimp only
      rw [h0]
      exact ⟨List.Perm.refl _, rfl⟩
    · exact swapLoop_take rand _ h0 _ _ _ hp
  | pos, (row, nd) :: rest, d + 1, p, h, hp => by
    unfold swapRows
    rw [List.getElem?_cons_succ] at h
    obtain ⟨r, h1, h2⟩ := swapRows_get rand (swapLoop rand nd.toNat nd.toNat pos row).2 rest d p h hp
    exact ⟨r, by simpa using h1, h2⟩

theorem swapRows_length (rand : Nat → Nat) : ∀ (pos : Nat) (l : List (List Nat × Int)), (swapRows rand pos l).length = l.length
  | _, [] => rfl
  | pos, (row, nd) :: rest => by
    unfold swapRows
    simp [swapRows_length]

/-! ## Lengths -/

theorem trunc_nonneg (x : ℚ) (h : 0 ≤ x) : trunc x = ⌊x⌋ := if_pos h

theorem sum_trunc_le : ∀ (l : List (Nat × ℚ)), (∀ p ∈ l, 0 ≤ p.2) → ((expand l).length : ℤ) ≤ ⌊(l.map Prod.snd).sum⌋
  | [], _ => by simp [expand]
  | p :: l, h => by
    have ih := sum_trunc_le l fun q hq => h q (by simp [hq])
    have hp : 0 ≤ p.2 := h p (by simp)
    have : (expand (p :: l)).length = (trunc p.2).toNat + (expand l).length := by simp [expand]
    rw [this, List.map_cons, List.sum_cons]
    have h1 := Int.le_floor_add p.2 (l.map Prod.snd).sum
    have h2 : ((trunc p.2).toNat : ℤ) = ⌊p.2⌋ := by rw [trunc_nonneg _ hp, Int.toNat_of_nonneg (Int.floor_nonneg.2 hp)]
    push_cast
    rw [h2]
    omega

theorem sum_nonneg (l : List (Nat × ℚ)) (h : ∀ p ∈ l, 0 ≤ p.2) : 0 ≤ (l.map Prod.snd).sum := by
  apply List.sum_nonneg
  intro x hx
  obtain ⟨p, hp, rfl⟩ := List.mem_map.1 hx
  exact h p hp

theorem foldl_max (l : List Int) (m : Int) : m ≤ l.foldl max m ∧ ∀ x ∈ l, x ≤ l.foldl max m := by
  induction l generalizing m with
  | nil => simp
  | cons a l ih =>
    obtain ⟨h1, h2⟩ := ih (max m a)
    refine ⟨(le_max_left _ _).trans h1, fun x hx => ?_⟩
    rcases List.mem_cons.1 hx with rfl | hx
    · exact (le_max_right _ _).trans h1
    · exact h2 x hx

theorem count_expand (l : List (Nat × ℚ)) (t : Nat) :
    (expand l).count t = ((l.filter fun p => p.1 = t).map fun p => (trunc p.2).toNat).sum := by
  induction l with
  | nil => rfl
  | cons p l ih =>
    have : expand (p :: l) = List.replicate (trunc p.2).toNat p.1 ++ expand l := by simp [expand]
    rw [this, List.count_append, ih, List.count_replicate]
    by_cases h : p.1 = t <;> simp [h]

/-! ## What the list holds -/

/-- What `toWordList` returns for counts that are not negative: row `d` begins with as many words as the whole part of the document's total; each word
is there as often as the whole parts of its counts say; what is missing to the total is filled up with word 0. -/
theorem word_list (e : Elem) (he : e ≠ .other) (rand : Nat → Nat) (w : Csr ℚ) (hw : w.WF) (hD : 2 ≤ w.rows) (hnn : ∀ d, d < w.rows → ∀ p ∈ w.row d, 0 ≤ p.2) :
    ∃ rows lens, toWordList e rand w = .ok (some (rows, lens)) ∧ rows.length = w.rows ∧ lens.length = w.rows ∧
      ∀ d, d < w.rows → ∃ (row : List Nat) (len : Nat), rows[d]? = some row ∧ lens[d]? = some (len : ℤ) ∧ (len : ℤ) = ⌊((w.row d).map Prod.snd).sum⌋ ∧ len ≤ row.length ∧
        (∀ t, (row.take len).count t = (((w.row d).filter fun p => p.1 = t).map fun p => ⌊p.2⌋₊).sum
          + if t = 0 then len - ((w.row d).map fun p => ⌊p.2⌋₊).sum else 0) ∧ ∀ t ∈ row.drop len, t = 0 := by
  have hlen : ∀ d, d < w.rows → (docLens w)[d]? = some ⌊((w.row d).map Prod.snd).sum⌋ := by
    intro d hd
    unfold docLens
    rw [List.getElem?_map, List.getElem?_range hd, Option.map_some, trunc_nonneg _ (sum_nonneg _ (hnn d hd))]
  have hmem : ∀ d, d < w.rows → ⌊((w.row d).map Prod.snd).sum⌋ ≤ maxLen (docLens w) := fun d hd =>
    (foldl_max _ _).2 _ (List.mem_of_getElem? (hlen d hd))
  have h0 : 0 ≤ maxLen (docLens w) := (Int.floor_nonneg.2 (sum_nonneg _ (hnn 0 (by omega)))).trans (hmem 0 (by omega))
  have hmax : ∀ d, d < w.rows → (expand (w.row d)).length ≤ (maxLen (docLens w)).toNat := by
    intro d hd
    have h1 := sum_trunc_le (w.row d) (hnn d hd)
    have h2 := hmem d hd
    omega
  have hrows := fillRows_eq w hw (maxLen (docLens w)).toNat hmax w.rows 0 (by omega)
  rw [hw.zero] at hrows
  set rows0 := (List.range' 0 w.rows).map fun d => expand (w.row d) ++ List.replicate ((maxLen (docLens w)).toNat - (expand (w.row d)).length) 0 with hr0
  have hdl : (docLens w).length = w.rows := by simp [docLens]
  refine ⟨swapRows rand 0 (rows0.zip (docLens w)), docLens w, ?_, ?_, hdl, ?_⟩
  · unfold toWordList
    dsimp only
    rw [if_neg (by push Not; exact ⟨he, by omega, by omega, h0⟩), hrows]
    rfl
  · rw [swapRows_length, List.length_zip, hdl, hr0, List.length_map, List.length_range', min_self]
  · intro d hd
    have hz : (rows0.zip (docLens w))[d]? = some (expand (w.row d) ++ List.replicate ((maxLen (docLens w)).toNat - (expand (w.row d)).length) 0,
        ⌊((w.row d).map Prod.snd).sum⌋) := by
      rw [List.getElem?_zip_eq_some]
      refine ⟨?_, hlen d hd⟩
      rw [hr0, List.getElem?_map, List.getElem?_range' (by omega)]
      simp
    have hs := sum_trunc_le (w.row d) (hnn d hd)
    have hm := hmem d hd
    have hx := hmax d hd
    have hfl : 0 ≤ ⌊((w.row d).map Prod.snd).sum⌋ := Int.floor_nonneg.2 (sum_nonneg _ (hnn d hd))
    obtain ⟨row, h1, h2, h3⟩ := swapRows_get rand 0 _ d _ hz (by
      dsimp only
      rw [List.length_append, List.length_replicate]
      omega)
    dsimp only at h2 h3
    refine ⟨row, ⌊((w.row d).map Prod.snd).sum⌋.toNat, h1, ?_, ?_, ?_, ?_, ?_⟩
    · rw [hlen d hd, Int.toNat_of_nonneg hfl]
    · exact Int.toNat_of_nonneg hfl
    · have := h2.length_eq
      rw [List.length_take, List.length_take, List.length_append, List.length_replicate] at this
      omega
    · intro t
      have hf : ∀ l : List (Nat × ℚ), (∀ p ∈ l, 0 ≤ p.2) → (l.map fun p => (trunc p.2).toNat) = l.map fun p => ⌊p.2⌋₊ := by
        intro l hl
        apply List.map_congr_left
        intro p hp
        rw [trunc_nonneg _ (hl p hp)]
        rfl
      have hel : (expand (w.row d)).length = ((w.row d).map fun p => ⌊p.2⌋₊).sum := by
        rw [← hf _ (hnn d hd)]
        simp [expand, List.length_flatMap]
      rw [h2.count_eq, List.take_append, List.count_append, List.take_of_length_le (by omega), count_expand,
        hf _ fun p hp => hnn d hd p (List.mem_of_mem_filter hp), ← hel]
      congr 1
      rw [List.take_replicate, List.count_replicate]
      by_cases ht : t = 0
      · subst ht
        simp only [beq_self_eq_true, if_true]
        omega
      · rw [if_neg (by simpa using fun h => ht h.symm), if_neg ht]
    · intro t ht
      rw [h3, List.drop_append] at ht
      rcases List.mem_append.1 ht with h | h
      · rw [List.drop_eq_nil_of_le (by omega)] at h
        cases h
      · exact List.eq_of_mem_replicate (List.mem_of_mem_drop h)

theorem natCast_sum (l : List (Nat × ℚ)) (h : ∀ p ∈ l, ∃ n : Nat, p.2 = n) : (((l.map fun p => ⌊p.2⌋₊).sum : Nat) : ℚ) = (l.map Prod.snd).sum := by
  induction l with
  | nil => simp
  | cons p l ih =>
    obtain ⟨n, hn⟩ := h p (by simp)
    rw [List.map_cons, List.sum_cons, List.map_cons, List.sum_cons, ← ih fun q hq => h q (by simp [hq]), hn]
    simp

/-- C222: for whole counts, two or more documents and the types int32, float32 and float64, the list of a document holds each word as often as it was
counted, in some order, and its length is the number of words of the document. -/
theorem word_list_partial (e : Elem) (he : e ≠ .other) (rand : Nat → Nat) (w : Csr ℚ) (hw : w.WF) (hD : 2 ≤ w.rows)
    (hnat : ∀ d, d < w.rows → ∀ p ∈ w.row d, ∃ n : Nat, p.2 = n) :
    ∃ rows lens, toWordList e rand w = .ok (some (rows, lens)) ∧ rows.length = w.rows ∧
      ∀ d, d < w.rows → ∃ (row : List Nat) (len : Nat), rows[d]? = some row ∧ lens[d]? = some (len : ℤ) ∧ len ≤ row.length ∧
        ((len : ℚ) = ((w.row d).map Prod.snd).sum) ∧ ∀ t, (((row.take len).count t : Nat) : ℚ) = w.entry d t := by
  obtain ⟨rows, lens, h1, h2, h3, h4⟩ := word_list e he rand w hw hD fun d hd p hp => by
    obtain ⟨n, hn⟩ := hnat d hd p hp
    rw [hn]
    positivity
  refine ⟨rows, lens, h1, h2, fun d hd => ?_⟩
  obtain ⟨row, len, a, b, c, l, cnt, -⟩ := h4 d hd
  have hs := natCast_sum (w.row d) (hnat d hd)
  have hlen : len = ((w.row d).map fun p => ⌊p.2⌋₊).sum := by
    have : (len : ℤ) = (((w.row d).map fun p => ⌊p.2⌋₊).sum : Nat) := by
      rw [c, ← hs, Int.floor_natCast]
    exact_mod_cast this
  refine ⟨row, len, a, b, l, ?_, fun t => ?_⟩
  · rw [hlen, hs]
  · rw [cnt t, ← hlen, Nat.sub_self, ite_self, Nat.add_zero]
    exact natCast_sum _ fun p hp => hnat d hd p (List.mem_of_mem_filter hp)

/-- C222: parts of counts are lost word by word, and the places they leave are filled with word 0: a document with two half counts of the words 1 and 2
and nothing else becomes a document that has word 0 once. -/
theorem word_list_violation : ∃ w : Csr ℚ, w.WF ∧ w.rows = 2 ∧ w.entry 0 0 = 0 ∧ w.entry 0 1 = 1 / 2 ∧ w.entry 0 2 = 1 / 2 ∧
    ∀ rand, toWordList .f64 rand w = .ok (some ([[0], [1]], [1, 1])) := by
  refine ⟨⟨2, 3, [0, 2, 3], [1, 2, 1], [1 / 2, 1 / 2, 1]⟩, ⟨rfl, rfl, by decide, rfl, rfl, by decide⟩, rfl, by decide +kernel, by decide +kernel,
    by decide +kernel, fun rand => ?_⟩
  have h : fillRows ⟨2, 3, [0, 2, 3], [1, 2, 1], [1 / 2, 1 / 2, 1]⟩ 1 2 0 0 = some [[0], [1]] := by decide +kernel
  have hl : docLens ⟨2, 3, [0, 2, 3], [1, 2, 1], [1 / 2, 1 / 2, 1]⟩ = [1, 1] := by decide +kernel
  unfold toWordList
  dsimp only
  rw [hl, if_neg (by decide), show (maxLen [1, 1]).toNat = 1 by decide, h]
  simp [swapRows, swapLoop, swap, Nat.mod_one]

/-- C222: a corpus of no or one document, and one of any other element type, is refused. -/
theorem word_list_refused (e : Elem) (rand : Nat → Nat) (w : Csr ℚ) (h : e = .other ∨ w.rows = 0 ∨ w.rows = 1) :
    toWordList e rand w = .error .valueError := by
  unfold toWordList
  exact if_pos (by tauto)

/-- C222: a negative count (which nothing refuses) makes the function write outside of its result. -/
theorem word_list_unsafe : ∃ w : Csr ℚ, w.WF ∧ ∀ e, e ≠ Elem.other → ∀ rand, toWordList e rand w = .ok none := by
  refine ⟨⟨2, 3, [0, 2, 3], [1, 2, 1], [3, -2, 1]⟩, ⟨rfl, rfl, by decide, rfl, rfl, by decide⟩, fun e he rand => ?_⟩
  have h : fillRows ⟨2, 3, [0, 2, 3], [1, 2, 1], [3, -2, 1]⟩ 1 2 0 0 = none := by decide +kernel
  have hl : docLens ⟨2, 3, [0, 2, 3], [1, 2, 1], [3, -2, 1]⟩ = [1, 1] := by decide +kernel
  unfold toWordList
  dsimp only
  rw [hl, if_neg (by push Not; exact ⟨he, by decide, by decide, by decide⟩), show (maxLen [1, 1]).toNat = 1 by decide, h]
  rfl

/-! ## Examples -/

/-- Two documents of three words -/
def exWords : Csr ℚ := ⟨2, 3, [0, 2, 3], [1, 2, 0], [2, 1, 1]⟩

example : exWords.WF := ⟨rfl, rfl, by decide, rfl, rfl, by decide⟩

example : ∀ d, d < exWords.rows → ∀ p ∈ exWords.row d, ∃ n : Nat, p.2 = n := by
  intro d hd p hp
  have hd : d = 0 ∨ d = 1 := by change d < 2 at hd; omega
  rcases hd with rfl | rfl
  · have : p = (1, 2) ∨ p = (2, 1) := by simpa [exWords, Csr.row, Csr.pairs, Csr.ptr] using hp
    rcases this with rfl | rfl
    · exact ⟨2, by norm_num⟩
    · exact ⟨1, by norm_num⟩
  · have : p = (0, 1) := by simpa [exWords, Csr.row, Csr.pairs, Csr.ptr] using hp
    subst this
    exact ⟨1, by norm_num⟩

example : toWordList .i32 (fun n => n) exWords = .ok (some ([[2, 1, 1], [0, 0, 0]], [3, 1])) := by decide +kernel

end Verif.Props.WordList
