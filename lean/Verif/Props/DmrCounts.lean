import Verif.Model.DmrCounts
import Mathlib.Algebra.BigOperators.Field
import Mathlib.Algebra.Order.BigOperators.Group.Finset
import Mathlib.Data.List.GetD
import Mathlib.Tactic.Ring
import Mathlib.Tactic.Linarith
import Mathlib.Tactic.FieldSimp
import Mathlib.Data.Rat.Cast.Order

/-!
# Counts of topics of long documents (C274)
-/

namespace Verif.Props.DmrCounts

open Verif Verif.DmrCounts

/-- The number of tokens of a document in a topic -/
def inTopic (lens : List Nat) (z : Nat → Nat) (d k : Nat) : Nat := ((List.range (lens.getD d 0)).filter fun i => z ((lens.take d).sum + i) = k).length

/-- The same, among a list of tokens -/
def among (ts : List (Nat × Nat)) (z : Nat → Nat) (d k : Nat) : Nat := (ts.filter fun t => t.1 = d ∧ z t.2 = k).length

theorem sum_ite (c d n : Nat) : ((List.range n).map fun a => if a = d then c else 0).sum = if d < n then c else 0 := by
  induction n with
  | zero => simp
  | succ n ih =>
    rw [List.range_succ, List.map_append, List.sum_append, ih]
    by_cases h : d < n
    · rw [if_pos h, if_pos (by omega)]
      simp [show n ≠ d by omega]
    · rw [if_neg h]
      by_cases h' : n = d
      · subst h'; simp
      · rw [if_neg (by omega)]
        simp [h']

theorem among_tokens (lens : List Nat) (z : Nat → Nat) (d k : Nat) (hd : d < lens.length) : among (tokens lens) z d k = inTopic lens z d k := by
  unfold among tokens inTopic
  rw [List.filter_flatMap, List.length_flatMap]
  have h : ∀ e ∈ List.range lens.length, (List.filter (fun t : Nat × Nat => decide (t.1 = d ∧ z t.2 = k)) (List.map (fun i => (e, start lens e + i)) (List.range (lens.getD e 0)))).length
      = if e = d then ((List.range (lens.getD d 0)).filter fun i => z ((lens.take d).sum + i) = k).length else 0 := by
    intro e _
    rw [List.filter_map, List.length_map]
    by_cases he : e = d
    · subst he
      rw [if_pos rfl]
      congr 1
      apply List.filter_congr
      intro i _
      simp [start]
    · rw [if_neg he]
      simp [he]
  rw [List.map_congr_left h]
  rw [sum_ite, if_pos hd]

theorem among_other (lens : List Nat) (z : Nat → Nat) (d k : Nat) (hd : lens.length ≤ d) : among (tokens lens) z d k = 0 := by
  unfold among
  rw [List.length_eq_zero_iff, List.filter_eq_nil_iff]
  rintro ⟨e, n⟩ he
  unfold tokens at he
  rw [List.mem_flatMap] at he
  obtain ⟨e', h1, h2⟩ := he
  rw [List.mem_range] at h1
  obtain ⟨i, _, h3⟩ := List.mem_map.mp h2
  simp only [Prod.mk.injEq] at h3
  simp
  omega

/-- The tokens are numbered without gaps -/
theorem tokens_snd (lens : List Nat) : (tokens lens).map (·.2) = List.range lens.sum := by
  induction lens using List.reverseRecOn with
  | nil => rfl
  | append_singleton lens m ih =>
    have h1 : tokens (lens ++ [m]) = tokens lens ++ (List.range m).map fun i => (lens.length, lens.sum + i) := by
      unfold tokens
      rw [List.length_append, List.length_singleton, List.range_succ, List.flatMap_append]
      congr 1
      · apply List.flatMap_congr
        intro d hd
        rw [List.mem_range] at hd
        unfold start
        rw [List.take_append_of_le_length hd.le, List.getD_eq_getElem?_getD, List.getD_eq_getElem?_getD, List.getElem?_append_left hd]
      · simp [start]
    rw [h1, List.map_append, ih, List.map_map, List.sum_append, List.sum_singleton, List.range_add]
    rfl

theorem among_update (ts : List (Nat × Nat)) (hn : (ts.map (·.2)).Nodup) (z : Nat → Nat) (t : Nat × Nat) (ht : t ∈ ts) (j d k : Nat) :
    among ts (Function.update z t.2 j) d k + (if d = t.1 ∧ k = z t.2 then 1 else 0) = among ts z d k + (if d = t.1 ∧ k = j then 1 else 0) := by
  obtain ⟨l1, l2, rfl⟩ := List.append_of_mem ht
  rw [List.map_append, List.map_cons, List.nodup_append] at hn
  obtain ⟨_, h2, h3⟩ := hn
  rw [List.nodup_cons] at h2
  have e1 : ∀ l : List (Nat × Nat), t.2 ∉ l.map (·.2) → among l (Function.update z t.2 j) d k = among l z d k := by
    intro l hl
    unfold among
    congr 1
    apply List.filter_congr
    intro u hu
    have : u.2 ≠ t.2 := fun he => hl (List.mem_map.mpr ⟨u, hu, he⟩)
    rw [Function.update_of_ne this]
  have split : ∀ z', among (l1 ++ t :: l2) z' d k = among l1 z' d k + (if d = t.1 ∧ k = z' t.2 then 1 else 0) + among l2 z' d k := by
    intro z'
    unfold among
    rw [List.filter_append, List.length_append, List.filter_cons]
    by_cases h : t.1 = d ∧ z' t.2 = k
    · rw [if_pos (by simpa using h), if_pos ⟨h.1.symm, h.2.symm⟩, List.length_cons]
      omega
    · rw [if_neg (by simpa using h), if_neg (fun hh => h ⟨hh.1.symm, hh.2.symm⟩)]
      omega
  rw [split, split, e1 l1 (fun hm => h3 _ hm _ (by simp) rfl), e1 l2 h2.1, Function.update_self]
  omega

/-! ## The table -/

/-- The table holds the numbers of tokens, up to multiples of 65,536 -/
def Tracks (lens : List Nat) (c : Counts) : Prop := ∀ d k, c.ndk d k = among (tokens lens) c.z d k % 65536

theorem sumStats_tracks (lens : List Nat) (z : Nat → Nat) : Tracks lens (sumStats lens z) ∧ (sumStats lens z).z = z := by
  have h : ∀ (l : List (Nat × Nat)), (l.foldl (fun c t => inc c t.1 (c.z t.2)) ⟨z, fun _ _ => 0⟩).z = z
      ∧ ∀ d k, (l.foldl (fun c t => inc c t.1 (c.z t.2)) ⟨z, fun _ _ => 0⟩).ndk d k = among l z d k % 65536 := by
    intro l
    induction l using List.reverseRecOn with
    | nil => exact ⟨rfl, fun _ _ => rfl⟩
    | append_singleton l t ih =>
      rw [List.foldl_append]
      obtain ⟨h1, h2⟩ := ih
      refine ⟨h1, fun d k => ?_⟩
      simp only [List.foldl_cons, List.foldl_nil]
      generalize List.foldl (fun c t => inc c t.1 (c.z t.2)) ⟨z, fun _ _ => 0⟩ l = c at h1 h2 ⊢
      unfold inc
      simp only
      rw [h1]
      have : among (l ++ [t]) z d k = among l z d k + if d = t.1 ∧ k = z t.2 then 1 else 0 := by
        unfold among
        rw [List.filter_append, List.length_append]
        congr 1
        by_cases hh : t.1 = d ∧ z t.2 = k
        · rw [if_pos ⟨hh.1.symm, hh.2.symm⟩]
          simp [hh]
        · rw [if_neg (fun h => hh ⟨h.1.symm, h.2.symm⟩)]
          simpa using hh
      rw [this]
      split
      · next hd => rw [← hd.1, ← hd.2, h2]; omega
      · rw [h2, add_zero]
  have hh := h (tokens lens)
  refine ⟨fun d k => ?_, hh.1⟩
  rw [show (sumStats lens z).z = z from hh.1]
  exact hh.2 d k

theorem visit_tracks (lens : List Nat) (pick : (Nat → Nat) → Nat) (c : Counts) (hc : Tracks lens c) (t : Nat × Nat) (ht : t ∈ tokens lens) :
    Tracks lens (visit pick c t) := by
  intro d k
  have hn : ((tokens lens).map (·.2)).Nodup := by rw [tokens_snd]; exact List.nodup_range
  set j := pick ((dec c t.1 (c.z t.2)).ndk t.1) with hj
  have hz : (visit pick c t).z = Function.update c.z t.2 j := rfl
  have hu := among_update (tokens lens) hn c.z t ht j d k
  have hnd : (visit pick c t).ndk d k = if d = t.1 ∧ k = j then ((dec c t.1 (c.z t.2)).ndk t.1 j + 1) % 65536 else (dec c t.1 (c.z t.2)).ndk d k := rfl
  have hd : ∀ d k, (dec c t.1 (c.z t.2)).ndk d k = if d = t.1 ∧ k = c.z t.2 then (c.ndk t.1 (c.z t.2) + 65535) % 65536 else c.ndk d k := fun _ _ => rfl
  rw [hnd, hz]
  clear_value j
  clear hnd hz hj
  by_cases h1 : d = t.1 ∧ k = j
  · obtain ⟨rfl, rfl⟩ := h1
    rw [if_pos ⟨rfl, rfl⟩, hd, hc]
    rw [if_pos (show t.1 = t.1 ∧ k = k from ⟨rfl, rfl⟩)] at hu
    by_cases h2 : k = c.z t.2
    · subst h2
      rw [if_pos ⟨rfl, rfl⟩] at hu ⊢
      omega
    · rw [if_neg (fun h => h2 h.2)] at hu ⊢
      rw [hc]
      omega
  · rw [if_neg h1, hd]
    rw [if_neg h1] at hu
    by_cases h2 : d = t.1 ∧ k = c.z t.2
    · obtain ⟨rfl, rfl⟩ := h2
      rw [if_pos ⟨rfl, rfl⟩] at hu ⊢
      rw [hc]
      omega
    · rw [if_neg h2] at hu ⊢
      rw [hc]
      omega

/-- Every token that is visited is one of the corpus -/
def Visits (lens : List Nat) (vs : List ((Nat × Nat) × ((Nat → Nat) → Nat))) : Prop := ∀ v ∈ vs, v.1 ∈ tokens lens

theorem run_tracks (lens : List Nat) (vs : List ((Nat × Nat) × ((Nat → Nat) → Nat))) (hv : Visits lens vs) (c : Counts) (hc : Tracks lens c) :
    Tracks lens (run vs c) := by
  induction vs generalizing c with
  | nil => exact hc
  | cons v vs ih => exact ih (fun w hw => hv w (List.mem_cons_of_mem _ hw)) _ (visit_tracks lens v.2 c hc v.1 (hv v (by simp)))

/-- **Exact behaviour.** At all times, the table of a query holds the numbers of tokens of the documents in the topics, up to multiples of 65,536 -/
theorem query_counts (lens : List Nat) (z : Nat → Nat) (vs : List ((Nat × Nat) × ((Nat → Nat) → Nat))) (hv : Visits lens vs) :
    ∃ c, queryCounts lens z vs = .ok c ∧ ∀ d, d < lens.length → ∀ k, c.ndk d k = inTopic lens c.z d k % 65536 := by
  refine ⟨_, rfl, fun d hd k => ?_⟩
  rw [run_tracks lens vs hv _ (sumStats_tracks lens z).1 d k, among_tokens _ _ _ _ hd]

theorem inTopic_le (lens : List Nat) (z : Nat → Nat) (d k : Nat) : inTopic lens z d k ≤ lens.getD d 0 := by
  unfold inTopic
  exact le_trans (List.length_filter_le _ _) (by simp)

/-- Training either refuses the corpus, because a document has 65,536 words or more, or its counts are the numbers of tokens -/
theorem train_counts (lens : List Nat) (z : Nat → Nat) (vs : List ((Nat × Nat) × ((Nat → Nat) → Nat))) (hv : Visits lens vs) :
    ((∃ n ∈ lens, 65536 ≤ n) ∧ trainCounts lens z vs = .error .assertionError)
    ∨ (∀ n ∈ lens, n < 65536) ∧ ∃ c, trainCounts lens z vs = .ok c ∧ ∀ d, d < lens.length → ∀ k, c.ndk d k = inTopic lens c.z d k := by
  unfold trainCounts
  by_cases h : ∀ n ∈ lens, n < 65536
  · right
    refine ⟨h, _, if_pos (by simpa using h), fun d hd k => ?_⟩
    rw [run_tracks lens vs hv _ (sumStats_tracks lens z).1 d k, among_tokens _ _ _ _ hd]
    apply Nat.mod_eq_of_lt
    refine lt_of_le_of_lt (inTopic_le _ _ _ _) ?_
    rw [List.getD_eq_getElem _ _ hd]
    exact h _ (List.getElem_mem hd)
  · left
    refine ⟨by push Not at h; exact h, if_neg (by simpa using h)⟩

/-- What holds of queries: the counts are the numbers of tokens if the documents have fewer than 65,536 words -/
theorem query_counts_partial (lens : List Nat) (hl : ∀ n ∈ lens, n < 65536) (z : Nat → Nat) (vs : List ((Nat × Nat) × ((Nat → Nat) → Nat)))
    (hv : Visits lens vs) : ∃ c, queryCounts lens z vs = .ok c ∧ ∀ d, d < lens.length → ∀ k, c.ndk d k = inTopic lens c.z d k := by
  obtain ⟨c, h1, h2⟩ := query_counts lens z vs hv
  refine ⟨c, h1, fun d hd k => ?_⟩
  rw [h2 d hd k]
  apply Nat.mod_eq_of_lt
  refine lt_of_le_of_lt (inTopic_le _ _ _ _) ?_
  rw [List.getD_eq_getElem _ _ hd]
  exact hl _ (List.getElem_mem hd)

/-! ## The topics estimated -/

theorem sum_inTopic (K : Nat) (lens : List Nat) (z : Nat → Nat) (hz : ∀ n, z n < K) (d : Nat) :
    ∑ k ∈ Finset.range K, inTopic lens z d k = lens.getD d 0 := by
  unfold inTopic
  generalize lens.getD d 0 = n
  induction n with
  | zero => simp
  | succ n ih =>
    have : ∀ k, ((List.range (n + 1)).filter fun i => decide (z ((lens.take d).sum + i) = k)).length
        = ((List.range n).filter fun i => decide (z ((lens.take d).sum + i) = k)).length + if z ((lens.take d).sum + n) = k then 1 else 0 := by
      intro k
      rw [List.range_succ, List.filter_append, List.length_append]
      congr 1
      by_cases h : z ((lens.take d).sum + n) = k
      · simp [h]
      · simp [h]
    rw [Finset.sum_congr rfl (fun k _ => this k), Finset.sum_add_distrib, ih, Finset.sum_ite_eq, if_pos (Finset.mem_range.mpr (hz _))]

/-- The topics that a sample of a query estimates for a document add up to one exactly when no topic has 65,536 tokens of it -/
theorem estimate_sum_iff (K : Nat) (lens : List Nat) (z : Nat → Nat) (vs : List ((Nat × Nat) × ((Nat → Nat) → Nat))) (hv : Visits lens vs)
    (alpha : Nat → Nat → ℚ) (d : Nat) (hd : d < lens.length) (hpos : 0 < (lens.getD d 0 : ℚ) + ∑ j ∈ Finset.range K, alpha d j) (c : Counts)
    (hc : queryCounts lens z vs = .ok c) (hz : ∀ n, c.z n < K) :
    (∑ k ∈ Finset.range K, estimate K lens alpha c d k = 1) ↔ ∀ k, k < K → inTopic lens c.z d k < 65536 := by
  obtain ⟨c', h1, h2⟩ := query_counts lens z vs hv
  rw [hc] at h1
  cases h1
  have hs := sum_inTopic K lens c.z hz d
  unfold estimate
  rw [← Finset.sum_div, Finset.sum_add_distrib, div_eq_one_iff_eq hpos.ne', add_left_inj]
  rw [Finset.sum_congr rfl (fun k _ => by rw [h2 d hd k])]
  rw [← hs]
  have hle : ∀ k ∈ Finset.range K, inTopic lens c.z d k % 65536 ≤ inTopic lens c.z d k := fun k _ => Nat.mod_le _ _
  constructor
  · intro he k hk
    have he' : ∑ k ∈ Finset.range K, inTopic lens c.z d k % 65536 = ∑ k ∈ Finset.range K, inTopic lens c.z d k := by exact_mod_cast he
    have := (Finset.sum_eq_sum_iff_of_le hle).mp he' k (Finset.mem_range.mpr hk)
    rw [← this]
    exact Nat.mod_lt _ (by norm_num)
  · intro h
    have : ∑ k ∈ Finset.range K, inTopic lens c.z d k % 65536 = ∑ k ∈ Finset.range K, inTopic lens c.z d k :=
      Finset.sum_congr rfl fun k hk => Nat.mod_eq_of_lt (h k (Finset.mem_range.mp hk))
    exact_mod_cast this

/-- A document of 65,536 words, all in the first topic -/
theorem exLong_inTopic : inTopic [65536] (fun _ => 0) 0 0 = 65536 := by
  unfold inTopic
  simp

/-- **Violation.** Training refuses a document of 65,536 words, a query accepts it; when all its words are in the first topic, the table says that none is,
and the estimate gives the two topics equal shares which do not add up to one -/
theorem query_long_violation (vs : List ((Nat × Nat) × ((Nat → Nat) → Nat))) (hv : Visits [65536] vs) (hp : ∀ v ∈ vs, ∀ row, v.2 row = 0) :
    trainCounts [65536] (fun _ => 0) vs = .error .assertionError
    ∧ ∃ c, queryCounts [65536] (fun _ => 0) vs = .ok c ∧ (∀ n, c.z n = 0) ∧ c.ndk 0 0 = 0
      ∧ ∑ k ∈ Finset.range 2, estimate 2 [65536] (fun _ _ => 1) c 0 k ≠ 1 := by
  refine ⟨rfl, ?_⟩
  obtain ⟨c, h1, h2⟩ := query_counts [65536] (fun _ => 0) vs hv
  have hz : ∀ (vs : List ((Nat × Nat) × ((Nat → Nat) → Nat))) (c : Counts), (∀ v ∈ vs, ∀ row, v.2 row = 0) → (∀ n, c.z n = 0) → ∀ n, (run vs c).z n = 0 := by
    intro vs
    induction vs with
    | nil => exact fun c _ hc => hc
    | cons v vs ih =>
      intro c hp hc
      refine ih _ (fun w hw => hp w (List.mem_cons_of_mem _ hw)) ?_
      intro n
      show Function.update c.z v.1.2 _ n = 0
      rw [hp v (by simp)]
      by_cases hn : n = v.1.2
      · subst hn; rw [Function.update_self]
      · rw [Function.update_of_ne hn]; exact hc n
  have hcz : ∀ n, c.z n = 0 := by
    have : c = run vs (sumStats [65536] fun _ => 0) := by
      unfold queryCounts at h1
      exact (Except.ok.inj h1).symm
    rw [this]
    exact hz vs _ hp (fun n => by rw [(sumStats_tracks [65536] fun _ => 0).2])
  have hc0 : c.z = fun _ => 0 := funext hcz
  have hin : inTopic [65536] c.z 0 0 = 65536 := by rw [hc0]; exact exLong_inTopic
  refine ⟨c, h1, hcz, ?_, ?_⟩
  · rw [h2 0 (by simp) 0, hin]
  · intro he
    have := (estimate_sum_iff 2 [65536] (fun _ => 0) vs hv (fun _ _ => 1) 0 (by simp) (by norm_num) c h1 (fun n => by rw [hcz n]; norm_num)).mp he 0 (by norm_num)
    omega

example : Visits [65536] [((0, 7), fun _ => 0)] := by
  intro v hv
  simp only [List.mem_cons, List.not_mem_nil, or_false] at hv
  subst hv
  simp only [tokens, List.length_singleton, List.range_one, List.flatMap_cons, List.flatMap_nil, List.append_nil]
  exact List.mem_map.mpr ⟨7, by simp, rfl⟩

/-- Three words in two documents; the second word moves to the other topic -/
example : ∃ c, queryCounts [2, 1] (fun _ => 0) [((0, 1), fun _ => 1)] = .ok c ∧ c.ndk 0 0 = 1 ∧ c.ndk 0 1 = 1 ∧ c.ndk 1 0 = 1 := ⟨_, rfl, by decide⟩

end Verif.Props.DmrCounts
