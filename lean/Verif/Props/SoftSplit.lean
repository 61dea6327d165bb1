import Mathlib.Tactic.Ring
import Mathlib.Tactic.Linarith
import Verif.Model.RunMain

/-!
# Moving columns out of a matrix (C30)
-/

namespace Verif.Props.SoftSplit

open Verif Verif.RunMain

/-- what `splitVals` does to each stored entry -/
theorem splitVals_spec (cols : List Nat) (removal : ℚ) (rand : Nat → ℚ) (l : List (Nat × ℚ)) : ∀ k,
    (splitVals cols removal rand k l).length = l.length ∧
    ∀ t ∈ l.zip (splitVals cols removal rand k l),
      (t.2 = (t.1.2, 0) ∨ (t.2 = (0, t.1.2) ∧ t.1.1 ∈ cols)) ∧
      (99999999 / 100000000 ≤ removal → t.1.1 ∈ cols → t.2 = (0, t.1.2)) ∧
      ((∀ n, removal ≤ rand n) → removal < 99999999 / 100000000 → t.2 = (t.1.2, 0)) := by
  induction l with
  | nil => intro k; exact ⟨rfl, fun t ht => by simp [splitVals] at ht⟩
  | cons p l ih =>
    intro k
    obtain ⟨i, d⟩ := p
    unfold splitVals
    by_cases h1 : 99999999 / 100000000 ≤ removal
    · obtain ⟨e1, e2⟩ := ih k
      rw [if_pos h1]
      refine ⟨by simp [e1], ?_⟩
      intro t ht
      rw [List.zip_cons_cons, List.mem_cons] at ht
      rcases ht with rfl | ht
      · by_cases h2 : i ∈ cols
        · refine ⟨.inr ⟨by simp [h2], h2⟩, fun _ _ => by simp [h2], fun _ h => absurd h1 (not_le.mpr h)⟩
        · exact ⟨.inl (by simp [h2]), fun _ h => absurd h h2, fun _ h => absurd h1 (not_le.mpr h)⟩
      · exact e2 t ht
    · rw [if_neg h1]
      by_cases h2 : i ∈ cols
      · rw [if_pos h2]
        obtain ⟨e1, e2⟩ := ih (k + 1)
        refine ⟨by simp [e1], ?_⟩
        intro t ht
        rw [List.zip_cons_cons, List.mem_cons] at ht
        rcases ht with rfl | ht
        · by_cases h3 : rand k < removal
          · exact ⟨.inr ⟨by simp [h3], h2⟩, fun h => absurd h h1, fun h => absurd h3 (not_lt.mpr (h k))⟩
          · exact ⟨.inl (by simp [h3]), fun h => absurd h h1, fun _ _ => by simp [h3]⟩
        · exact e2 t ht
      · rw [if_neg h2]
        obtain ⟨e1, e2⟩ := ih k
        refine ⟨by simp [e1], ?_⟩
        intro t ht
        rw [List.zip_cons_cons, List.mem_cons] at ht
        rcases ht with rfl | ht
        · exact ⟨.inl rfl, fun h => absurd h h1, fun _ _ => rfl⟩
        · exact e2 t ht

/-! ### Removing stored zeros -/

theorem eliminateZeros_row (m : Csr ℚ) (r : Nat) (hr : r < m.rows) :
    (eliminateZeros m).row r = (m.row r).filter (fun p => p.2 ≠ 0) := by
  unfold eliminateZeros
  rw [Csr.ofRows_row _ _ _ (by simpa using hr)]
  simp

theorem eliminateZeros_wf (m : Csr ℚ) (h : m.WF) : (eliminateZeros m).WF := by
  apply Csr.ofRows_wf
  intro l hl p hp
  obtain ⟨r, _, rfl⟩ := List.mem_map.mp hl
  have hp' : p ∈ m.row r := (List.mem_filter.mp hp).1
  have : p ∈ m.pairs := List.mem_of_mem_drop (List.mem_of_mem_take hp')
  exact h.cols p.1 (List.of_mem_zip this).1

theorem sum_filter_zero (c : Nat) (l : List (Nat × ℚ)) :
    (((l.filter (fun p => p.2 ≠ 0)).filter (fun p => p.1 = c)).map Prod.snd).sum =
      ((l.filter (fun p => p.1 = c)).map Prod.snd).sum := by
  induction l with
  | nil => rfl
  | cons p l ih =>
    by_cases h1 : p.2 = 0 <;> by_cases h2 : p.1 = c <;>
      simp [h1, h2] at ih ⊢ <;> rw [ih]

theorem eliminateZeros_entry (m : Csr ℚ) (r : Nat) (hr : r < m.rows) (c : Nat) :
    (eliminateZeros m).entry r c = m.entry r c := by
  unfold Csr.entry
  rw [eliminateZeros_row m r hr]
  exact sum_filter_zero c _

/-! ### The split -/

theorem zip_map_left {β γ δ : Type} (l : List β) (d : List γ) (f : β → δ) :
    (l.map f).zip d = (l.zip d).map (fun t => (f t.1, t.2)) := by
  induction l generalizing d with
  | nil => rfl
  | cons x xs ih => cases d with
    | nil => rfl
    | cons y ys => simp only [List.map_cons, List.zip_cons_cons, ih]

theorem zip_map_right' {β γ δ : Type} (l : List β) (d : List γ) (f : γ → δ) :
    l.zip (d.map f) = (l.zip d).map (fun t => (t.1, f t.2)) := by
  induction l generalizing d with
  | nil => rfl
  | cons x xs ih => cases d with
    | nil => rfl
    | cons y ys => simp only [List.map_cons, List.zip_cons_cons, ih]

/-- The stored entries of row `r` with what becomes of each. -/
def rowSplit (m : Csr ℚ) (cols : List Nat) (rand : Nat → ℚ) (removal : ℚ) (r : Nat) :
    List ((Nat × ℚ) × (ℚ × ℚ)) :=
  ((m.pairs.zip (splitVals cols removal rand 0 m.pairs)).drop (m.ptr r)).take (m.ptr (r + 1) - m.ptr r)

theorem row_eq (m : Csr ℚ) (cols : List Nat) (rand : Nat → ℚ) (removal : ℚ) (r : Nat) :
    m.row r = (rowSplit m cols rand removal r).map Prod.fst := by
  unfold rowSplit Csr.row
  rw [List.map_take, List.map_drop, List.map_fst_zip (by rw [(splitVals_spec cols removal rand _ 0).1])]

theorem row_proj (m : Csr ℚ) (h : m.WF) (cols : List Nat) (rand : Nat → ℚ) (removal : ℚ) (f : ℚ × ℚ → ℚ)
    (r : Nat) :
    Csr.row { m with data := (splitVals cols removal rand 0 m.pairs).map f } r =
      (rowSplit m cols rand removal r).map (fun t => (t.1.1, f t.2)) := by
  have hp : Csr.pairs { m with data := (splitVals cols removal rand 0 m.pairs).map f } =
      (m.pairs.zip (splitVals cols removal rand 0 m.pairs)).map (fun t => (t.1.1, f t.2)) := by
    change m.indices.zip ((splitVals cols removal rand 0 m.pairs).map f) = _
    have e := Csr.indices_eq m h
    rw [zip_map_right']
    generalize splitVals cols removal rand 0 m.pairs = v
    rw [e, zip_map_left, List.map_map]
    rfl
  unfold Csr.row
  rw [hp, ← List.map_drop, ← List.map_take]
  rfl

theorem rowSplit_mem (m : Csr ℚ) (cols : List Nat) (rand : Nat → ℚ) (removal : ℚ) (r : Nat)
    (t : (Nat × ℚ) × (ℚ × ℚ)) (ht : t ∈ rowSplit m cols rand removal r) :
    t ∈ m.pairs.zip (splitVals cols removal rand 0 m.pairs) :=
  List.mem_of_mem_drop (List.mem_of_mem_take ht)

theorem proj_wf (m : Csr ℚ) (h : m.WF) (cols : List Nat) (rand : Nat → ℚ) (removal : ℚ) (f : ℚ × ℚ → ℚ) :
    Csr.WF { m with data := (splitVals cols removal rand 0 m.pairs).map f } := by
  refine ⟨h.len, h.zero, h.mono, h.last, ?_, h.cols⟩
  simp only [List.length_map]
  rw [(splitVals_spec cols removal rand _ 0).1, Csr.pairs_length m h]

/-- sum of a quantity over the stored entries of column `c` -/
def colSum (c : Nat) (f : (Nat × ℚ) × (ℚ × ℚ) → ℚ) (l : List ((Nat × ℚ) × (ℚ × ℚ))) : ℚ :=
  ((l.filter (fun t => t.1.1 = c)).map f).sum

theorem entry_colSum {l : List ((Nat × ℚ) × (ℚ × ℚ))} (c : Nat) (f : (Nat × ℚ) × (ℚ × ℚ) → ℚ) :
    (((l.map (fun t => (t.1.1, f t))).filter (fun p => p.1 = c)).map Prod.snd).sum = colSum c f l := by
  unfold colSum
  rw [List.filter_map, List.map_map]
  rfl

theorem split_entries (m : Csr ℚ) (h : m.WF) (cols : List Nat) (rand : Nat → ℚ) (removal : ℚ)
    (r : Nat) (hr : r < m.rows) (c : Nat) :
    (softSplit m cols rand removal).1.entry r c =
      colSum c (fun t => t.2.1) (rowSplit m cols rand removal r) ∧
    (softSplit m cols rand removal).2.entry r c =
      colSum c (fun t => t.2.2) (rowSplit m cols rand removal r) ∧
    m.entry r c = colSum c (fun t => t.1.2) (rowSplit m cols rand removal r) := by
  refine ⟨?_, ?_, ?_⟩
  · unfold softSplit
    simp only
    rw [eliminateZeros_entry _ r (by exact hr)]
    unfold Csr.entry
    rw [row_proj m h, entry_colSum c (fun t => t.2.1)]
  · unfold softSplit
    simp only
    rw [eliminateZeros_entry _ r (by exact hr)]
    unfold Csr.entry
    rw [row_proj m h, entry_colSum c (fun t => t.2.2)]
  · unfold Csr.entry
    rw [row_eq m cols rand removal, ← entry_colSum]

theorem colSum_congr (c : Nat) (f g : (Nat × ℚ) × (ℚ × ℚ) → ℚ) (l : List ((Nat × ℚ) × (ℚ × ℚ)))
    (hfg : ∀ t ∈ l, t.1.1 = c → f t = g t) : colSum c f l = colSum c g l := by
  unfold colSum
  congr 1
  apply List.map_congr_left
  intro t ht
  rw [List.mem_filter] at ht
  exact hfg t ht.1 (by simpa using ht.2)

theorem colSum_zero (c : Nat) (l : List ((Nat × ℚ) × (ℚ × ℚ))) : colSum c (fun _ => 0) l = 0 := by
  unfold colSum; simp

theorem colSum_add (c : Nat) (f g : (Nat × ℚ) × (ℚ × ℚ) → ℚ) (l : List ((Nat × ℚ) × (ℚ × ℚ))) :
    colSum c f l + colSum c g l = colSum c (fun t => f t + g t) l := by
  unfold colSum
  rw [← List.sum_map_add]

/-- C30: both parts are well-formed matrices of the same shape without stored zeros; they
add up to the original; outside the chosen columns the left part is the original and the right part zero. -/
theorem soft_split_spec (m : Csr ℚ) (h : m.WF) (cols : List Nat) (rand : Nat → ℚ) (removal : ℚ)
    (L R : Csr ℚ) (hs : softSplit m cols rand removal = (L, R)) :
    L.WF ∧ R.WF ∧ L.rows = m.rows ∧ R.rows = m.rows ∧ L.cols = m.cols ∧ R.cols = m.cols ∧
    ∀ r, r < m.rows →
      (∀ p ∈ L.row r, p.2 ≠ 0) ∧ (∀ p ∈ R.row r, p.2 ≠ 0) ∧
      ∀ c, L.entry r c + R.entry r c = m.entry r c ∧
        (c ∉ cols → L.entry r c = m.entry r c ∧ R.entry r c = 0) := by
  have hL : L = (softSplit m cols rand removal).1 := by rw [hs]
  have hR : R = (softSplit m cols rand removal).2 := by rw [hs]
  subst hL hR
  refine ⟨eliminateZeros_wf _ (proj_wf m h ..), eliminateZeros_wf _ (proj_wf m h ..), ?_, ?_, rfl, rfl, ?_⟩
  · simp [softSplit, eliminateZeros, Csr.ofRows]
  · simp [softSplit, eliminateZeros, Csr.ofRows]
  intro r hr
  refine ⟨?_, ?_, ?_⟩
  · intro p hp
    unfold softSplit at hp
    simp only at hp
    rw [eliminateZeros_row _ r (by exact hr), List.mem_filter] at hp
    simpa using hp.2
  · intro p hp
    unfold softSplit at hp
    simp only at hp
    rw [eliminateZeros_row _ r (by exact hr), List.mem_filter] at hp
    simpa using hp.2
  intro c
  obtain ⟨e1, e2, e3⟩ := split_entries m h cols rand removal r hr c
  have hmem := fun t ht => (splitVals_spec cols removal rand m.pairs 0).2 t
    (rowSplit_mem m cols rand removal r t ht)
  rw [e1, e2, e3]
  refine ⟨?_, ?_⟩
  · rw [colSum_add]
    apply colSum_congr
    intro t ht _
    rcases (hmem t ht).1 with h1 | ⟨h1, _⟩ <;> rw [h1] <;> simp
  · intro hc
    refine ⟨?_, ?_⟩
    · apply colSum_congr
      intro t ht htc
      rcases (hmem t ht).1 with h1 | ⟨_, h2⟩
      · rw [h1]
      · rw [htc] at h2; exact absurd h2 hc
    · rw [← colSum_zero c (rowSplit m cols rand removal r)]
      apply colSum_congr
      intro t ht htc
      rcases (hmem t ht).1 with h1 | ⟨_, h2⟩
      · rw [h1]
      · rw [htc] at h2; exact absurd h2 hc

/-- C30: no position is non-zero in both parts (for matrices that store each position once). -/
theorem soft_split_disjoint (m : Csr ℚ) (h : m.WF) (cols : List Nat) (rand : Nat → ℚ) (removal : ℚ)
    (r : Nat) (hr : r < m.rows) (hnd : ((m.row r).map Prod.fst).Nodup) (c : Nat) :
    (softSplit m cols rand removal).1.entry r c = 0 ∨ (softSplit m cols rand removal).2.entry r c = 0 := by
  obtain ⟨e1, e2, _⟩ := split_entries m h cols rand removal r hr c
  have hmem := fun t ht => (splitVals_spec cols removal rand m.pairs 0).2 t
    (rowSplit_mem m cols rand removal r t ht)
  rw [e1, e2]
  rw [row_eq m cols rand removal, List.map_map] at hnd
  unfold colSum
  have hlen : ((rowSplit m cols rand removal r).filter (fun t => t.1.1 = c)).length ≤ 1 := by
    generalize rowSplit m cols rand removal r = l at hnd
    induction l with
    | nil => simp
    | cons t l ih =>
      rw [List.map_cons, List.nodup_cons] at hnd
      rw [List.filter_cons]
      by_cases htc : t.1.1 = c
      · have : l.filter (fun t => t.1.1 = c) = [] := by
          rw [List.filter_eq_nil_iff]
          intro u hu huc
          apply hnd.1
          rw [List.mem_map]
          exact ⟨u, hu, by simp only [Function.comp]; rw [htc]; simpa using huc⟩
        simp [htc, this]
      · simp only [htc, decide_false]
        exact ih hnd.2
  rcases hf : (rowSplit m cols rand removal r).filter (fun t => t.1.1 = c) with _ | ⟨t, l⟩
  · left; rw [hf]; rfl
  · rw [hf] at hlen
    have hl : l = [] := by
      cases l with
      | nil => rfl
      | cons _ _ => simp at hlen
    subst hl
    have ht : t ∈ rowSplit m cols rand removal r := by
      have : t ∈ (rowSplit m cols rand removal r).filter (fun t => t.1.1 = c) := by rw [hf]; simp
      exact (List.mem_filter.mp this).1
    rcases (hmem t ht).1 with h1 | ⟨h1, _⟩
    · right; rw [hf]; simp [h1]
    · left; rw [hf]; simp [h1]

/-- C30: with removal probability one every entry of the chosen columns moves. -/
theorem soft_split_all (m : Csr ℚ) (h : m.WF) (cols : List Nat) (rand : Nat → ℚ) (removal : ℚ)
    (h1 : removal = 1) (r : Nat) (hr : r < m.rows) (c : Nat) (hc : c ∈ cols) :
    (softSplit m cols rand removal).1.entry r c = 0 ∧
    (softSplit m cols rand removal).2.entry r c = m.entry r c := by
  obtain ⟨e1, e2, e3⟩ := split_entries m h cols rand removal r hr c
  have hmem := fun t ht => (splitVals_spec cols removal rand m.pairs 0).2 t
    (rowSplit_mem m cols rand removal r t ht)
  have hp : (99999999 / 100000000 : ℚ) ≤ removal := by rw [h1]; norm_num
  rw [e1, e2, e3]
  refine ⟨?_, ?_⟩
  · rw [← colSum_zero c (rowSplit m cols rand removal r)]
    apply colSum_congr
    intro t ht htc
    rw [(hmem t ht).2.1 hp (by rw [htc]; exact hc)]
  · apply colSum_congr
    intro t ht htc
    rw [(hmem t ht).2.1 hp (by rw [htc]; exact hc)]

/-- With removal probability zero (and random numbers from `[0, 1)`) nothing moves. -/
theorem soft_split_none (m : Csr ℚ) (h : m.WF) (cols : List Nat) (rand : Nat → ℚ)
    (hrand : ∀ n, 0 ≤ rand n) (r : Nat) (hr : r < m.rows) (c : Nat) :
    (softSplit m cols rand 0).1.entry r c = m.entry r c ∧ (softSplit m cols rand 0).2.entry r c = 0 := by
  obtain ⟨e1, e2, e3⟩ := split_entries m h cols rand 0 r hr c
  have hmem := fun t ht => (splitVals_spec cols 0 rand m.pairs 0).2 t
    (rowSplit_mem m cols rand 0 r t ht)
  rw [e1, e2, e3]
  refine ⟨?_, ?_⟩
  · apply colSum_congr
    intro t ht _
    rw [(hmem t ht).2.2 hrand (by norm_num)]
  · refine (colSum_congr c _ (fun _ => 0) _ ?_).trans (colSum_zero c _)
    intro t ht _
    rw [(hmem t ht).2.2 hrand (by norm_num)]

/-- A 2 × 3 matrix; columns 0 and 2 are chosen; the first random number keeps, the second moves. -/
def exM : Csr ℚ := ⟨2, 3, [0, 2, 4], [0, 1, 0, 2], [3, 4, 5, 6]⟩

theorem exM_wf : exM.WF := by
  refine ⟨by decide, by decide, ?_, by decide, by decide, by decide⟩
  intro r hr
  have hr' : r < 2 := hr
  rcases r with _ | _ | r
  · decide
  · decide
  · omega

def exRand (n : Nat) : ℚ := if n = 1 then 1 / 4 else 3 / 4

example : ((softSplit exM [0, 2] exRand (1/2)).1.pairs, (softSplit exM [0, 2] exRand (1/2)).2.pairs) =
    ([(0, 3), (1, 4), (2, 6)], [(0, 5)]) := by decide +kernel

example : (softSplit exM [0, 2] exRand (1/2)).1.entry 1 0 + (softSplit exM [0, 2] exRand (1/2)).2.entry 1 0 =
    exM.entry 1 0 :=
  ((soft_split_spec exM exM_wf [0, 2] exRand (1/2) _ _ rfl).2.2.2.2.2.2 1 (by decide)).2.2 0 |>.1

/-- A position stored twice can be torn apart: the hypothesis of `soft_split_disjoint` is needed. -/
theorem soft_split_duplicates :
    let m : Csr ℚ := ⟨1, 1, [0, 2], [0, 0], [1, 1]⟩
    (softSplit m [0] exRand (1/2)).1.entry 0 0 = 1 ∧ (softSplit m [0] exRand (1/2)).2.entry 0 0 = 1 := by
  decide +kernel

end Verif.Props.SoftSplit
