import Mathlib.Tactic.Ring
import Mathlib.Tactic.FieldSimp
import Mathlib.Algebra.BigOperators.Group.List.Basic
import Verif.Model.RunMain

/-!
# Pooling the results of folds (C29)
-/

namespace Verif.Props.CombineMap

open Verif Verif.Evals Verif.RunMain

/-- The results of one fold: an average per group and cut-off, a document count per group. -/
structure Fold where
  avg : Group → Nat → ℚ
  docs : Group → Nat

/-- The dictionaries a fold passes on, for the given groups and number of cut-offs. -/
def Fold.dicts (gs : List Group) (cuts : Nat) (f : Fold) : Dict (List ℚ) × Dict Nat :=
  (gs.map (fun g => (g, (List.range cuts).map (f.avg g))), gs.map (fun g => (g, f.docs g)))

/-- total number of documents -/
def total (fs : List Fold) (g : Group) : Nat := (fs.map (fun f => f.docs g)).sum

/-- sum of the averages weighted by documents -/
def weighted (fs : List Fold) (g : Group) (i : Nat) : ℚ := (fs.map (fun f => f.avg g i * (f.docs g : ℚ))).sum

theorem get_map {β : Type} (gs : List Group) (v : Group → β) (g : Group) (hg : g ∈ gs) :
    Dict.get (gs.map (fun g => (g, v g))) g = .ok (v g) := by
  unfold Dict.get
  have : (gs.map (fun g => (g, v g))).find? (fun p => p.1 = g) = some (g, v g) := by
    induction gs with
    | nil => cases hg
    | cons h gs ih =>
      rw [List.map_cons, List.find?_cons]
      by_cases e : h = g
      · subst e; simp
      · simp only [e, decide_false]
        rcases List.mem_cons.mp hg with rfl | h'
        · exact absurd rfl e
        · exact ih h'
  rw [this]

theorem mapM_ok {β γ : Type} (l : List β) (f : β → Py γ) (g : β → γ) (h : ∀ x ∈ l, f x = .ok (g x)) :
    l.mapM f = .ok (l.map g) := by
  induction l with
  | nil => rfl
  | cons x xs ih =>
    rw [List.mapM_cons, h x (by simp), ih (fun y hy => h y (List.mem_cons_of_mem _ hy))]
    rfl

/-- the first error is the result, when all errors are alike -/
theorem mapM_error {β γ : Type} (l : List β) (f : β → Py γ) (e : PyErr)
    (h : ∀ x ∈ l, (∃ y, f x = .ok y) ∨ f x = .error e) (hbad : ∃ x ∈ l, f x = .error e) :
    l.mapM f = .error e := by
  induction l with
  | nil => obtain ⟨x, hx, _⟩ := hbad; cases hx
  | cons x xs ih =>
    rw [List.mapM_cons]
    rcases h x (by simp) with ⟨y, hy⟩ | he
    · rw [hy]
      have hb : ∃ z ∈ xs, f z = .error e := by
        obtain ⟨z, hz, hze⟩ := hbad
        rcases List.mem_cons.mp hz with rfl | hz'
        · rw [hy] at hze; cases hze
        · exact ⟨z, hz', hze⟩
      rw [show xs.mapM f = .error e from ih (fun z hz => h z (List.mem_cons_of_mem _ hz)) hb]
      rfl
    · rw [he]; rfl

/-- What the combination of two results is: counts add up, averages are averaged by weight. -/
def merge (f h : Fold) : Fold where
  avg := fun g i => (f.avg g i * f.docs g + h.avg g i * h.docs g) / ((f.docs g + h.docs g : Nat) : ℚ)
  docs := fun g => f.docs g + h.docs g

theorem combine_counts (gs : List Group) (f h : Fold) :
    (gs.map (fun g => (g, f.docs g))).mapM (updCount (gs.map (fun g => (g, h.docs g)))) =
      .ok (gs.map (fun g => (g, (merge f h).docs g))) := by
  rw [mapM_ok _ _ (fun p => (p.1, p.2 + h.docs p.1)) ?_]
  · rw [List.map_map]; rfl
  · intro p hp
    obtain ⟨g, hg, rfl⟩ := List.mem_map.mp hp
    unfold updCount
    simp only
    rw [get_map gs h.docs g hg]
    rfl

theorem zip_self_map {β γ : Type} (l : List Nat) (a : Nat → β) (b : Nat → γ) :
    (l.map a).zip (l.map b) = l.map (fun i => (a i, b i)) := by
  induction l with
  | nil => rfl
  | cons x xs ih => simp only [List.map_cons, List.zip_cons_cons, ih]

theorem updAvg_run (gs : List Group) (cuts : Nat) (f h : Fold) (g : Group) (hg : g ∈ gs) :
    updAvg (gs.map (fun g => (g, f.docs g))) (gs.map (fun g => (g, (List.range cuts).map (h.avg g))))
        (gs.map (fun g => (g, h.docs g))) (gs.map (fun g => (g, (merge f h).docs g)))
        (g, (List.range cuts).map (f.avg g)) =
      (((List.range cuts).map (fun i => (f.avg g i, h.avg g i))).mapM
        (fun on => pyDiv (on.1 * f.docs g + on.2 * h.docs g) ((merge f h).docs g))).map
        (fun l => (g, l)) := by
  unfold updAvg
  simp only
  rw [get_map gs (fun g => (List.range cuts).map (h.avg g)) g hg, get_map gs f.docs g hg,
    get_map gs h.docs g hg, get_map gs (merge f h).docs g hg]
  simp only [bind, Except.bind]
  rw [zip_self_map]
  generalize List.mapM (m := Except PyErr) (fun on : ℚ × ℚ => pyDiv (on.1 * f.docs g + on.2 * h.docs g)
    ((merge f h).docs g)) ((List.range cuts).map (fun i => (f.avg g i, h.avg g i))) = r
  cases r <;> rfl

theorem updAvg_ok (gs : List Group) (cuts : Nat) (f h : Fold) (g : Group) (hg : g ∈ gs)
    (hpos : 0 < f.docs g + h.docs g) :
    updAvg (gs.map (fun g => (g, f.docs g))) (gs.map (fun g => (g, (List.range cuts).map (h.avg g))))
        (gs.map (fun g => (g, h.docs g))) (gs.map (fun g => (g, (merge f h).docs g)))
        (g, (List.range cuts).map (f.avg g)) = .ok (g, (List.range cuts).map ((merge f h).avg g)) := by
  rw [updAvg_run gs cuts f h g hg]
  have hne : (((merge f h).docs g : Nat) : ℚ) ≠ 0 := by
    have : f.docs g + h.docs g ≠ 0 := by omega
    exact_mod_cast this
  rw [mapM_ok _ _ (fun on : ℚ × ℚ => (on.1 * (f.docs g : ℚ) + on.2 * (h.docs g : ℚ)) / (((merge f h).docs g : Nat) : ℚ))]
  · rw [List.map_map]; rfl
  · intro p _
    unfold pyDiv
    rw [if_neg hne]

theorem updAvg_err (gs : List Group) (cuts : Nat) (hc : 0 < cuts) (f h : Fold) (g : Group) (hg : g ∈ gs)
    (hpos : f.docs g + h.docs g = 0) :
    updAvg (gs.map (fun g => (g, f.docs g))) (gs.map (fun g => (g, (List.range cuts).map (h.avg g))))
        (gs.map (fun g => (g, h.docs g))) (gs.map (fun g => (g, (merge f h).docs g)))
        (g, (List.range cuts).map (f.avg g)) = .error .zeroDivisionError := by
  rw [updAvg_run gs cuts f h g hg]
  have hne : (((merge f h).docs g : Nat) : ℚ) = 0 := by
    exact_mod_cast hpos
  rw [mapM_error _ _ .zeroDivisionError]
  · rfl
  · intro p _
    right
    unfold pyDiv
    rw [if_pos hne]
  · refine ⟨(f.avg g 0, h.avg g 0), List.mem_map.mpr ⟨0, List.mem_range.mpr hc, rfl⟩, ?_⟩
    unfold pyDiv
    rw [if_pos hne]

theorem combine_ok (gs : List Group) (cuts : Nat) (f h : Fold)
    (hpos : ∀ g ∈ gs, 0 < f.docs g + h.docs g) :
    combineMap (some (f.dicts gs cuts).1) (some (f.dicts gs cuts).2) (h.dicts gs cuts).1 (h.dicts gs cuts).2 =
      .ok ((merge f h).dicts gs cuts) := by
  unfold combineMap Fold.dicts
  simp only
  rw [combine_counts gs f h]
  change (do
    let updAvgs ← (gs.map (fun g => (g, (List.range cuts).map (f.avg g)))).mapM _
    return (updAvgs, gs.map (fun g => (g, (merge f h).docs g))) : Py _) = _
  rw [mapM_ok _ _ (fun p => (p.1, (List.range cuts).map ((merge f h).avg p.1)))]
  · rw [List.map_map]; rfl
  · intro p hp
    obtain ⟨g, hg, rfl⟩ := List.mem_map.mp hp
    exact updAvg_ok gs cuts f h g hg (hpos g hg)

theorem combine_err (gs : List Group) (cuts : Nat) (hc : 0 < cuts) (f h : Fold)
    (hbad : ∃ g ∈ gs, f.docs g + h.docs g = 0) :
    combineMap (some (f.dicts gs cuts).1) (some (f.dicts gs cuts).2) (h.dicts gs cuts).1 (h.dicts gs cuts).2 =
      .error .zeroDivisionError := by
  unfold combineMap Fold.dicts
  simp only
  rw [combine_counts gs f h]
  change (do
    let updAvgs ← (gs.map (fun g => (g, (List.range cuts).map (f.avg g)))).mapM _
    return (updAvgs, gs.map (fun g => (g, (merge f h).docs g))) : Py _) = _
  rw [mapM_error _ _ .zeroDivisionError]
  · rfl
  · intro p hp
    obtain ⟨g, hg, rfl⟩ := List.mem_map.mp hp
    rcases Nat.eq_zero_or_pos (f.docs g + h.docs g) with h0 | h0
    · exact .inr (updAvg_err gs cuts hc f h g hg h0)
    · exact .inl ⟨_, updAvg_ok gs cuts f h g hg h0⟩
  · obtain ⟨g, hg, h0⟩ := hbad
    exact ⟨_, List.mem_map.mpr ⟨g, hg, rfl⟩, updAvg_err gs cuts hc f h g hg h0⟩

/-- the remaining folds, from a non-empty state -/
theorem combine_rest (gs : List Group) (cuts : Nat) (rest : List Fold) : ∀ f : Fold,
    (∀ g ∈ gs, rest ≠ [] → 0 < f.docs g + (rest.headD f).docs g) →
    ∃ r : Fold, (rest.map (Fold.dicts gs cuts)).foldlM (fun acc f => do
        let r ← combineMap acc.1 acc.2 f.1 f.2
        return (some r.1, some r.2)) (some (f.dicts gs cuts).1, some (f.dicts gs cuts).2) =
      (.ok (some (r.dicts gs cuts).1, some (r.dicts gs cuts).2) : Py _) ∧
      (∀ g, r.docs g = f.docs g + total rest g) ∧
      ∀ g ∈ gs, ∀ i, r.avg g i * r.docs g = f.avg g i * f.docs g + weighted rest g i := by
  induction rest with
  | nil => intro f _; exact ⟨f, rfl, fun g => by simp [total], fun g _ i => by simp [weighted]⟩
  | cons h rest ih =>
    intro f hpos
    have hpos' : ∀ g ∈ gs, 0 < f.docs g + h.docs g := fun g hg => hpos g hg (by simp)
    have hstep := combine_ok gs cuts f h hpos'
    obtain ⟨r, e1, e2, e3⟩ := ih (merge f h) (by
      intro g hg _
      have := hpos' g hg
      have e : (merge f h).docs g = f.docs g + h.docs g := rfl
      omega)
    refine ⟨r, ?_, ?_, ?_⟩
    · rw [List.map_cons, List.foldlM_cons]
      simp only [hstep]
      exact e1
    · intro g
      rw [e2 g]
      simp only [merge, total, List.map_cons, List.sum_cons]
      omega
    · intro g hg i
      rw [e3 g hg i]
      have hne : ((f.docs g + h.docs g : Nat) : ℚ) ≠ 0 := by
        have : f.docs g + h.docs g ≠ 0 := by have := hpos' g hg; omega
        exact_mod_cast this
      simp only [merge, weighted, List.map_cons, List.sum_cons]
      rw [div_mul_cancel₀ _ hne]
      ring

/-- C29: after any number of folds the combined results are the total document counts and the averages over all
folds weighted by documents (zero documents in total leave the sum of no contributions). -/
theorem combine_pooled (gs : List Group) (cuts : Nat) (f : Fold) (rest : List Fold)
    (hpos : ∀ g ∈ gs, ∀ h, rest.head? = some h → 0 < f.docs g + h.docs g) :
    ∃ r : Fold, combineAll ((f :: rest).map (Fold.dicts gs cuts)) =
        .ok (some (r.dicts gs cuts).1, some (r.dicts gs cuts).2) ∧
      ∀ g ∈ gs, r.docs g = total (f :: rest) g ∧
        ∀ i, 0 < total (f :: rest) g → r.avg g i = weighted (f :: rest) g i / total (f :: rest) g := by
  obtain ⟨r, e1, e2, e3⟩ := combine_rest gs cuts rest f (by
    intro g hg hne
    rcases rest with _ | ⟨h, t⟩
    · exact absurd rfl hne
    · exact hpos g hg h rfl)
  refine ⟨r, ?_, ?_⟩
  · unfold combineAll
    rw [List.map_cons, List.foldlM_cons]
    exact e1
  · intro g hg
    have hd : r.docs g = total (f :: rest) g := by
      rw [e2 g]; simp only [total, List.map_cons, List.sum_cons]
    refine ⟨hd, ?_⟩
    intro i htot
    have hne : ((total (f :: rest) g : Nat) : ℚ) ≠ 0 := by
      have : total (f :: rest) g ≠ 0 := by omega
      exact_mod_cast this
    rw [eq_div_iff hne, ← hd, e3 g hg i]
    simp only [weighted, List.map_cons, List.sum_cons]

/-- C29, failure: combining fails exactly when there is a second fold and some group has no documents in the
first two folds (later on the count of that group would be positive or the run would have failed already). -/
theorem combine_fails_iff (gs : List Group) (cuts : Nat) (hc : 0 < cuts) (fs : List Fold) :
    combineAll (fs.map (Fold.dicts gs cuts)) = .error .zeroDivisionError ↔
      ∃ k, k + 1 < fs.length ∧ ∃ g ∈ gs, total (fs.take (k + 2)) g = 0 := by
  rcases fs with _ | ⟨f, rest⟩
  · constructor
    · intro h; cases h
    · rintro ⟨k, hk, _⟩; simp at hk
  rcases rest with _ | ⟨h, rest⟩
  · constructor
    · intro h
      obtain ⟨r, e1, _⟩ := combine_pooled gs cuts f [] (by intro g _ h hh; cases hh)
      rw [e1] at h; cases h
    · rintro ⟨k, hk, _⟩; simp at hk
  by_cases hbad : ∃ g ∈ gs, f.docs g + h.docs g = 0
  · constructor
    · intro _
      obtain ⟨g, hg, h0⟩ := hbad
      refine ⟨0, by simp, g, hg, ?_⟩
      simp only [total, List.take_succ_cons, List.take_zero, List.map_cons, List.map_nil, List.sum_cons,
        List.sum_nil]
      omega
    · intro _
      unfold combineAll
      rw [List.map_cons, List.foldlM_cons]
      have h1 : combineMap none none (f.dicts gs cuts).1 (f.dicts gs cuts).2 =
        .ok ((f.dicts gs cuts).1, (f.dicts gs cuts).2) := rfl
      simp only [h1, bind, Except.bind, pure, Except.pure]
      rw [List.map_cons, List.foldlM_cons]
      simp only [combine_err gs cuts hc f h hbad, bind, Except.bind]
  · push Not at hbad
    constructor
    · intro he
      obtain ⟨r, e1, _⟩ := combine_pooled gs cuts f (h :: rest) (by
        intro g hg h' hh
        cases hh
        have := hbad g hg; omega)
      rw [e1] at he; cases he
    · rintro ⟨k, _, g, hg, h0⟩
      simp only [total, List.take_succ_cons, List.map_cons, List.sum_cons] at h0
      have := hbad g hg
      omega

/-- The pooled averages lie between the smallest and the largest average of folds. -/
theorem combine_between (gs : List Group) (cuts : Nat) (f : Fold) (rest : List Fold)
    (hpos : ∀ g ∈ gs, ∀ h, rest.head? = some h → 0 < f.docs g + h.docs g)
    (g : Group) (hg : g ∈ gs) (htot : 0 < total (f :: rest) g) (i : Nat) (lo hi : ℚ)
    (hb : ∀ x ∈ f :: rest, lo ≤ x.avg g i ∧ x.avg g i ≤ hi) :
    ∃ r : Fold, combineAll ((f :: rest).map (Fold.dicts gs cuts)) =
        .ok (some (r.dicts gs cuts).1, some (r.dicts gs cuts).2) ∧ lo ≤ r.avg g i ∧ r.avg g i ≤ hi := by
  obtain ⟨r, e1, e2⟩ := combine_pooled gs cuts f rest hpos
  refine ⟨r, e1, ?_⟩
  rw [(e2 g hg).2 i htot]
  have hq : (0 : ℚ) < total (f :: rest) g := by exact_mod_cast htot
  rw [le_div_iff₀ hq, div_le_iff₀ hq]
  clear e1 e2 htot hq hpos r
  generalize f :: rest = fs at hb
  induction fs with
  | nil => simp [total, weighted]
  | cons x xs ih =>
    obtain ⟨h1, h2⟩ := ih (fun y hy => hb y (List.mem_cons_of_mem _ hy))
    obtain ⟨h3, h4⟩ := hb x (by simp)
    have h5 : (0 : ℚ) ≤ x.docs g := Nat.cast_nonneg _
    simp only [total, weighted, List.map_cons, List.sum_cons] at h1 h2 ⊢
    rw [Nat.cast_add, mul_add, mul_add]
    exact ⟨add_le_add (mul_le_mul_of_nonneg_right h3 h5) h1,
      add_le_add (mul_le_mul_of_nonneg_right h4 h5) h2⟩

set_option synthInstance.maxSize 1000 in
/-- Three folds, two groups, one cut-off: the second group is absent from the first fold. -/
example : (combineAll [([((0, 3), [1]), ((3, 5), [0])], [((0, 3), 1), ((3, 5), 0)]),
      ([((0, 3), [0]), ((3, 5), [1/2])], [((0, 3), 3), ((3, 5), 2)]),
      ([((0, 3), [1/2]), ((3, 5), [0])], [((0, 3), 4), ((3, 5), 0)])]) =
    .ok (some [((0, 3), [3/8]), ((3, 5), [1/2])], some [((0, 3), 8), ((3, 5), 2)]) := by decide +kernel

set_option synthInstance.maxSize 1000 in
/-- A group without documents in the first two folds makes the second combination fail. -/
example : (combineAll [([((0, 3), [1]), ((3, 5), [0])], [((0, 3), 1), ((3, 5), 0)]),
      ([((0, 3), [0]), ((3, 5), [0])], [((0, 3), 3), ((3, 5), 0)])]) =
    .error .zeroDivisionError := by decide +kernel

/-- A group of the first fold that has no documents counted in the second one is a KeyError. -/
theorem combine_missing_group (oldAvgs newAvgs : Dict (List ℚ)) (oldCounts newCounts : Dict Nat) (g : Group) (n : Nat) (hg : (g, n) ∈ oldCounts)
    (hm : ∀ p ∈ newCounts, p.1 ≠ g) : combineAll [(oldAvgs, oldCounts), (newAvgs, newCounts)] = .error .keyError := by
  have hget : ∀ g' : Group, (∃ v, Dict.get newCounts g' = .ok v) ∨ Dict.get newCounts g' = .error .keyError := by
    intro g'
    unfold Dict.get
    cases newCounts.find? (fun p => p.1 = g') with
    | none => exact Or.inr rfl
    | some p => exact Or.inl ⟨_, rfl⟩
  have hnone : Dict.get newCounts g = .error .keyError := by
    unfold Dict.get
    rw [List.find?_eq_none.2 (fun p hp => by simpa using hm p hp)]
  have : oldCounts.mapM (updCount newCounts) = .error .keyError := by
    refine mapM_error oldCounts (updCount newCounts) .keyError (fun p _ => ?_) ⟨(g, n), hg, ?_⟩
    · unfold updCount
      rcases hget p.1 with ⟨v, hv⟩ | he
      · rw [hv]; exact Or.inl ⟨_, rfl⟩
      · rw [he]; exact Or.inr rfl
    · unfold updCount
      rw [hnone]
      rfl
  simp only [combineAll, List.foldlM_cons, combineMap, this, bind, Except.bind, pure, Except.pure]

example : combineAll [([((0, 3), [1])], [((0, 3), 1)]), ([((3, 5), [1])], [((3, 5), 2)])] = .error .keyError :=
  combine_missing_group _ _ _ _ (0, 3) 1 (by decide) (by decide)

end Verif.Props.CombineMap
