import Mathlib.Tactic.Linarith
import Mathlib.Tactic.NormNum
import Mathlib.Algebra.Order.BigOperators.Group.List
import Verif.Props.DocCompletion

/-!
# C04, C05, C06: the two parts of document completion, entry by entry
-/

namespace Verif.Props.CompletionParts

open Verif Verif.DataSet Verif.Props.DataSetSplit Verif.Props.DocCompletion

variable {κ : Type}

/-- The split of a valid data set without features: the words of the two parts -/
theorem split_words (ds : DataSet κ) (w : Csr ℚ) (jit : List ℚ) (p : ℚ) (minU : Int) (hmin : minU ≤ 0) (hv : Valid ds)
    (hw : ds.words = w.toMat) (hf : ds.feats = none) :
    ∃ a b, ds.docCompletionSplit w jit p minU = .ok (a, b) ∧ a.words = { w with data := estData p w.data jit }.toMat ∧
      b.words = { w with data := List.zipWith (· - ·) w.data (estData p w.data jit) }.toMat := by
  have hpos : 0 < w.rows := by have := hv.pos; rwa [hw] at this
  have hl : ∀ m, ds.links = some m → m.rows = w.rows := by
    intro m hm; rw [hv.links m hm, hw]; rfl
  have hc : ∀ k, ds.cats.len? = some k → k = w.rows := by
    intro k hk; rw [hv.cats k hk, hw]; rfl
  have mk1 := mk'_ok (κ := κ) { w with data := estData p w.data jit }.toMat none ds.links ds.wordDict
    ds.cats none 0 hpos (by simp) hl hc
  have mk2 := mk'_ok (κ := κ)
    { w with data := List.zipWith (· - ·) w.data (estData p w.data jit) }.toMat none ds.links
    ds.wordDict ds.cats none 0 hpos (by simp) hl hc
  have hrun : ds.docCompletionSplit w jit p minU = (do
      let train ← mk' { w with data := estData p w.data jit }.toMat none ds.links ds.wordDict ds.cats none 0
      let query ← mk' { w with data := List.zipWith (· - ·) w.data (estData p w.data jit) }.toMat
        none ds.links ds.wordDict ds.cats none 0
      return (train, query)) := by
    unfold docCompletionSplit
    have hm : ¬ (0 < minU) := by omega
    simp only [hf, hm, if_false]
  rw [mk1, mk2] at hrun
  exact ⟨_, _, hrun, rfl, rfl⟩

/-! ## C04: the share of the estimation part -/

/-- The value at a column which is stored once -/
theorem sum_single (l : List (Nat × ℚ)) (hn : (l.map Prod.fst).Nodup) (q : Nat × ℚ) (hq : q ∈ l) :
    ((l.filter (fun p => p.1 = q.1)).map Prod.snd).sum = q.2 := by
  induction l with
  | nil => cases hq
  | cons x l ih =>
    rw [List.map_cons, List.nodup_cons] at hn
    rcases List.mem_cons.mp hq with h | h
    · subst h
      have : l.filter (fun p => p.1 = q.1) = [] := by
        rw [List.filter_eq_nil_iff]
        intro y hy
        simp only [decide_eq_true_eq]
        exact fun e => hn.1 (List.mem_map.mpr ⟨y, hy, e⟩)
      simp [this]
    · have hne : x.1 ≠ q.1 := fun e => hn.1 (List.mem_map.mpr ⟨q, h, e.symm⟩)
      rw [List.filter_cons_of_neg (by simpa using hne)]
      exact ih hn.2 h

theorem entry_stored (w : Csr ℚ) (d i : Nat) (h0 : w.ptr d ≤ i) (h1 : i < w.ptr (d + 1)) (c : Nat) (x : ℚ) (hc : w.indices[i]? = some c)
    (hx : w.data[i]? = some x) (hn : ((w.indices.drop (w.ptr d)).take (w.ptr (d + 1) - w.ptr d)).Nodup) : w.entry d c = x := by
  have hmem : (c, x) ∈ w.row d := by
    unfold Csr.row Csr.pairs
    rw [List.mem_iff_getElem?]
    refine ⟨i - w.ptr d, ?_⟩
    rw [List.getElem?_take_of_lt (by omega), List.getElem?_drop, Nat.add_sub_cancel' h0]
    exact List.getElem?_zip_eq_some.mpr ⟨hc, hx⟩
  refine sum_single (w.row d) ?_ (c, x) hmem
  unfold Csr.row Csr.pairs
  have hz : ∀ (a : List Nat) (b : List ℚ), (a.zip b).map Prod.fst = a.take b.length := by
    intro a
    induction a with
    | nil => intro b; simp
    | cons y a ih =>
      intro b
      cases b with
      | nil => simp
      | cons z b => simpa using ih b
  rw [List.map_take, List.map_drop, hz, List.drop_take, List.take_take, Nat.min_comm, ← List.take_take]
  exact hn.sublist (List.take_sublist _ _)

/-- **C04** The estimation part of each count is an integer and, up to one half, the given share of the count with its jitter; the other part is
the rest.  (For the `i`-th stored count, of the word `c` in document `d`.) -/
theorem completion_share (ds : DataSet κ) (w : Csr ℚ) (jit : List ℚ) (p : ℚ) (minU : Int) (hmin : minU ≤ 0) (hv : Valid ds)
    (hw : ds.words = w.toMat) (hf : ds.feats = none) (d i : Nat) (h0 : w.ptr d ≤ i) (h1 : i < w.ptr (d + 1)) (c : Nat) (x j : ℚ)
    (hc : w.indices[i]? = some c) (hx : w.data[i]? = some x) (hj : jit[i]? = some j)
    (hn : ((w.indices.drop (w.ptr d)).take (w.ptr (d + 1) - w.ptr d)).Nodup) :
    ∃ a b, ds.docCompletionSplit w jit p minU = .ok (a, b) ∧
      (∃ n : Int, a.words.get d c = n ∧ |(n : ℚ) - p * (x + j)| ≤ 1 / 2) ∧ a.words.get d c + b.words.get d c = x := by
  obtain ⟨a, b, hs, ha, hb⟩ := split_words ds w jit p minU hmin hv hw hf
  have he : (estData p w.data jit)[i]? = some (estimated p x j) := by
    simp [estData, List.getElem?_zipWith, hx, hj]
  have e1 : a.words.get d c = estimated p x j := by
    rw [ha]
    exact entry_stored { w with data := estData p w.data jit } d i h0 h1 c _ hc he hn
  have e2 : b.words.get d c = x - estimated p x j := by
    rw [hb]
    refine entry_stored { w with data := List.zipWith (· - ·) w.data (estData p w.data jit) } d i h0 h1 c _ hc ?_ hn
    simp [List.getElem?_zipWith, hx, he]
  refine ⟨a, b, hs, ⟨roundHalfEven ((x + j) * p), ?_, ?_⟩, ?_⟩
  · rw [e1]
    rfl
  · rw [mul_comm p]
    exact round_close _
  · rw [e1, e2]
    ring

/-! ## C05: the range of both parts -/

theorem sum_between (ind : List Nat) : ∀ (dat est : List ℚ), (∀ (i : Nat) (e x : ℚ), est[i]? = some e → dat[i]? = some x → 0 ≤ e ∧ e ≤ x) →
    est.length = dat.length → ∀ (s k c : Nat),
    0 ≤ ((((ind.zip est).drop s |>.take k).filter (fun p => p.1 = c)).map Prod.snd).sum ∧
    ((((ind.zip est).drop s |>.take k).filter (fun p => p.1 = c)).map Prod.snd).sum
      ≤ ((((ind.zip dat).drop s |>.take k).filter (fun p => p.1 = c)).map Prod.snd).sum := by
  induction ind with
  | nil => intro dat est _ _ s k c; simp
  | cons a ind ih =>
    intro dat est h hl s k c
    rcases dat with _ | ⟨x, dat⟩
    · rw [List.length_nil, List.length_eq_zero_iff] at hl
      subst hl; simp
    rcases est with _ | ⟨y, est⟩
    · simp at hl
    have hl' : est.length = dat.length := by simpa using hl
    have h' : ∀ (i : Nat) (e x : ℚ), est[i]? = some e → dat[i]? = some x → 0 ≤ e ∧ e ≤ x := fun i e x he hx => h (i + 1) e x (by simpa using he) (by simpa using hx)
    have hxy := h 0 y x rfl rfl
    rcases s with _ | s
    · rcases k with _ | k
      · simp
      · have := ih dat est h' hl' 0 k c
        simp only [List.drop_zero] at this
        simp only [List.zip_cons_cons, List.drop_zero, List.take_succ_cons]
        by_cases hc : a = c
        · simp only [List.filter_cons, hc, decide_true, if_true, List.map_cons, List.sum_cons]
          exact ⟨by linarith [this.1], by linarith [this.2]⟩
        · simp only [List.filter_cons, hc, decide_false, Bool.false_eq_true, if_false]
          exact this
    · simp only [List.zip_cons_cons, List.drop_succ_cons]
      exact ih dat est h' hl' s k c

/-- **C05** (partial) If each jitter is at least minus its count and not so large that the share exceeds the count, all entries of both parts are
counts between zero and the count in the data set. -/
theorem completion_in_range_partial (ds : DataSet κ) (w : Csr ℚ) (jit : List ℚ) (p : ℚ) (hp : 0 < p) (minU : Int) (hmin : minU ≤ 0) (hv : Valid ds)
    (hw : ds.words = w.toMat) (hf : ds.feats = none) (hj : jit.length = w.data.length)
    (hr : ∀ (i : Nat) (x j : ℚ), w.data[i]? = some x → jit[i]? = some j → (∃ n : Nat, x = n) ∧ -x ≤ j ∧ (x + j) * p ≤ x) :
    ∃ a b, ds.docCompletionSplit w jit p minU = .ok (a, b) ∧ ∀ d v,
      0 ≤ a.words.get d v ∧ a.words.get d v ≤ ds.words.get d v ∧ 0 ≤ b.words.get d v ∧ b.words.get d v ≤ ds.words.get d v := by
  obtain ⟨a, b, hs, ha, hb⟩ := split_words ds w jit p minU hmin hv hw hf
  refine ⟨a, b, hs, fun d v => ?_⟩
  have hlen := estData_length p w.data jit hj
  have key : 0 ≤ a.words.get d v ∧ a.words.get d v ≤ ds.words.get d v := by
    rw [ha, hw]
    refine sum_between w.indices w.data (estData p w.data jit) (fun i e x he hx => ?_) hlen _ _ v
    have hi : i < jit.length := by
      rw [hj]
      exact (List.getElem?_eq_some_iff.mp hx).1
    obtain ⟨⟨n, rfl⟩, h2, h3⟩ := hr i x jit[i] hx (List.getElem?_eq_getElem hi)
    have : (estData p w.data jit)[i]? = some (estimated p n jit[i]) := by
      simp [estData, List.getElem?_zipWith, hx, hi]
    rw [this] at he
    cases he
    have := parts_in_range_partial p jit[i] n hp h2 h3
    exact ⟨this.1, this.2.1⟩
  have hsum : a.words.get d v + b.words.get d v = ds.words.get d v := by
    rw [ha, hb, hw]
    exact entry_add w _ hlen d v
  exact ⟨key.1, key.2, by linarith [key.2], by linarith [key.1]⟩

/-! ## C06: the minimum -/

/-- The number of different words of a document -/
def unique (ds : DataSet κ) (d : Nat) : Nat := ((List.range ds.words.cols).filter fun t => ds.words.get d t ≠ 0).length

/-- **C06** (what happens) With a minimum the call returns the parts which are returned without a minimum if every document has that many different
words in both, and raises a `TypeError` otherwise. -/
theorem completion_minimum_spec_partial (ds : DataSet κ) (w : Csr ℚ) (jit : List ℚ) (p : ℚ) (minU : Int) (hmin : 0 < minU) (hv : Valid ds)
    (hw : ds.words = w.toMat) (hf : ds.feats = none) :
    ∃ a b, ds.docCompletionSplit w jit p 0 = .ok (a, b) ∧ ds.docCompletionSplit w jit p minU =
      if ∀ d, d < ds.words.rows → minU ≤ (unique a d : Int) ∧ minU ≤ (unique b d : Int) then .ok (a, b) else .error .typeError := by
  obtain ⟨a, b, hs, ha, hb⟩ := split_words ds w jit p 0 (le_refl _) hv hw hf
  have hm := completion_with_minimum_partial ds w jit p minU hmin hf
  have ea : ∀ d, unique a d = { w with data := estData p w.data jit }.toMat.rowNnz d := by
    intro d
    unfold unique Mat.rowNnz
    rw [ha, List.countP_eq_length_filter]
  have eb : ∀ d, unique b d = { w with data := List.zipWith (· - ·) w.data (estData p w.data jit) }.toMat.rowNnz d := by
    intro d
    unfold unique Mat.rowNnz
    rw [hb, List.countP_eq_length_filter]
  have hr : ds.words.rows = w.rows := by rw [hw]; rfl
  refine ⟨a, b, hs, ?_⟩
  simp only [ea, eb, hr]
  split
  · rename_i h
    rw [hm.1 h, hs]
  · rename_i h
    exact hm.2 h

/-! ## Non-vacuity -/

example : ∃ a b, twoDs.docCompletionSplit two [1/10, -1/5, 2] (1/2) 0 = .ok (a, b) ∧
    (∃ n : Int, a.words.get 1 1 = n ∧ |(n : ℚ) - 1 / 2 * (8 + 2)| ≤ 1 / 2) ∧ a.words.get 1 1 + b.words.get 1 1 = 8 :=
  completion_share twoDs two [1/10, -1/5, 2] (1/2) 0 (by decide) ⟨by decide, fun _ h => (by cases h), fun _ h => (by cases h), fun _ h => (by cases h), rfl⟩
    rfl rfl 1 2 (by decide) (by decide) 1 8 2 rfl rfl rfl (by decide)

example : ∃ a b, twoDs.docCompletionSplit two [1/10, -1/5, 2] (1/2) 0 = .ok (a, b) ∧ ∀ d v,
    0 ≤ a.words.get d v ∧ a.words.get d v ≤ twoDs.words.get d v ∧ 0 ≤ b.words.get d v ∧ b.words.get d v ≤ twoDs.words.get d v := by
  refine completion_in_range_partial twoDs two [1/10, -1/5, 2] (1/2) (by norm_num) 0 (by decide)
    ⟨by decide, fun _ h => (by cases h), fun _ h => (by cases h), fun _ h => (by cases h), rfl⟩ rfl rfl rfl ?_
  intro i x j hx hj
  rcases i with _ | _ | _ | i
  · cases hx; cases hj; exact ⟨⟨3, by norm_num⟩, by norm_num, by norm_num⟩
  · cases hx; cases hj; exact ⟨⟨4, by norm_num⟩, by norm_num, by norm_num⟩
  · cases hx; cases hj; exact ⟨⟨8, by norm_num⟩, by norm_num, by norm_num⟩
  · cases hx

example : ∃ a b, twoDs.docCompletionSplit two [1/10, -1/5, 2] (1/2) 0 = .ok (a, b) ∧ unique a 0 = 2 ∧ unique b 0 = 2 ∧ unique a 1 = 1 :=
  ⟨_, _, rfl, by decide +kernel, by decide +kernel, by decide +kernel⟩

end Verif.Props.CompletionParts
