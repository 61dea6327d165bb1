import Verif.Props.RankingUp

/-!
# Predictions that are not expected (C323)
-/

namespace Verif.Props.ExtraPrediction

open Verif Verif.Evals
open Verif.Props.Evals Verif.Props.Ranking Verif.Props.RankingUp

/-- In `d'` a link that is not expected is predicted in addition, with any score that no other link has. -/
structure Extra (d d' : Doc) : Prop where
  expected : d'.expected = d.expected
  stored : ∃ a b x s, x ∉ d.expected ∧ d.stored = a ++ b ∧ d'.stored = a ++ (x, s) :: b
  distinct : ∀ p ∈ d'.stored, ∀ q ∈ d'.stored, p.2 = q.2 → p = q
  once : d.expected.Nodup
  ids : (d'.stored.map Prod.fst).Nodup

variable {rank : List (Nat × ℚ) → List (Nat × ℚ)} {d d' : Doc}

theorem ids_before (h : Extra d d') : (d.stored.map Prod.fst).Nodup := by
  obtain ⟨a, b, x, s, _, h1, h2⟩ := h.stored
  have h3 := h.ids
  rw [h2] at h3
  rw [h1]
  refine List.Nodup.sublist ?_ h3
  exact ((List.Sublist.refl a).append (List.sublist_cons_self _ b)).map _

theorem stored_after (h : Extra d d') : d'.stored ≠ [] := by
  obtain ⟨a, b, x, s, _, _, h2⟩ := h.stored
  rw [h2]
  simp

/-- The additional link is put somewhere into the ranking, and the order of the others is left alone. -/
theorem extra_recv (hr : IsRanking rank) (h : Extra d d') : ∃ l m x, x ∉ d.expected ∧ x ∉ l ++ m ∧ recvIndices rank d = l ++ m
    ∧ recvIndices rank d' = l ++ x :: m := by
  obtain ⟨a, b, x, s, hx, h1, h2⟩ := h.stored
  have hp := (hr d'.stored).1
  have hs := (hr d'.stored).2
  obtain ⟨u, v, huv⟩ := List.append_of_mem (hp.mem_iff.2 (show (x, s) ∈ d'.stored by rw [h2]; simp))
  have hperm : (u ++ v).Perm d.stored := by
    have : (u ++ (x, s) :: v).Perm (a ++ (x, s) :: b) := by rw [← huv, ← h2]; exact hp
    rw [h1]
    exact (List.perm_cons (x, s)).1 ((List.perm_middle.symm.trans this).trans List.perm_middle)
  have hsub : List.Sublist (u ++ v) (u ++ (x, s) :: v) := (List.Sublist.refl u).append (List.sublist_cons_self _ v)
  have hrank : rank d.stored = u ++ v := by
    apply List.Perm.eq_of_pairwise (le := fun a b => b.2 ≤ a.2)
    · intro p q hp' hq h3 h4
      have hin : ∀ y ∈ d.stored, y ∈ d'.stored := by
        intro y hy
        rw [h1] at hy
        rw [h2]
        exact ((List.Sublist.refl a).append (List.sublist_cons_self _ b)).subset hy
      exact h.distinct p (hin p ((hr _).1.mem_iff.1 hp')) q (hin q (hperm.mem_iff.1 hq)) (le_antisymm h4 h3)
    · exact (hr _).2
    · rw [huv] at hs
      exact hs.sublist hsub
    · exact (hr _).1.trans hperm.symm
  refine ⟨u.map Prod.fst, v.map Prod.fst, x, hx, ?_, ?_, ?_⟩
  · have hn := recv_nodup hr d' h.ids
    unfold recvIndices at hn
    rw [huv, List.map_append, List.map_cons] at hn
    exact (List.nodup_cons.1 (List.perm_middle.nodup_iff.1 hn)).1
  · unfold recvIndices
    rw [hrank, List.map_append]
  · unfold recvIndices
    rw [huv, List.map_append, List.map_cons]

theorem precTerm_extra (l m : List Nat) (x e : Nat) (E : Finset Nat) (hx : x ∉ E) (he : e ∈ E) : precTerm (l ++ x :: m) E e ≤ precTerm (l ++ m) E e := by
  by_cases h : e ∈ l
  · rw [precTerm_prefix l _ E e h, precTerm_prefix l _ E e h]
  · have hxe : x ≠ e := fun h1 => hx (h1 ▸ he)
    unfold precTerm
    rw [findPos_append e l _ h, findPos_append e l _ h]
    have h1 : findPos e (x :: m) = findPos e m + 1 := if_pos hxe
    rw [h1, show l.length + (findPos e m + 1) + 1 = l.length + (findPos e m + 1 + 1) from rfl,
      show l.length + findPos e m + 1 = l.length + (findPos e m + 1) from rfl, List.take_length_add_append, List.take_length_add_append, List.take_succ_cons, List.toFinset_append,
      List.toFinset_append, List.toFinset_cons, Finset.union_insert, Finset.insert_inter_of_notMem hx]
    set S := l.toFinset ∪ (m.take (findPos e m + 1)).toFinset
    rcases Nat.eq_zero_or_pos S.card with h0 | h0
    · have h2 : S = ∅ := Finset.card_eq_zero.1 h0
      rw [h2]
      simp
    · apply div_le_div_of_nonneg_left
      · positivity
      · exact_mod_cast h0
      · exact_mod_cast Finset.card_le_card (Finset.subset_insert x S)

theorem ap_extra (hr : IsRanking rank) (h : Extra d d') : ap rank d' ≤ ap rank d := by
  obtain ⟨l, m, x, hx, _, h1, h2⟩ := extra_recv hr h
  unfold ap
  rw [h.expected]
  split
  · exact le_refl _
  · apply div_le_div_of_nonneg_right _ (by positivity)
    apply List.sum_le_sum
    intro e he
    rw [h1, h2]
    exact precTerm_extra l m x e _ (by rwa [List.mem_toFinset]) (List.mem_toFinset.2 he)

theorem recips_extra (hr : IsRanking rank) (h : Extra d d') :
    (recips (recvIndices rank d') d'.expected).sum ≤ (recips (recvIndices rank d) d.expected).sum
      ∧ (recips (recvIndices rank d') d'.expected).length = (recips (recvIndices rank d) d.expected).length := by
  obtain ⟨l, m, x, hx, _, h1, h2⟩ := extra_recv hr h
  rw [h.expected, h1, h2]
  unfold recips
  have hf : d.expected.filter (fun a => decide (a ∈ l ++ x :: m)) = d.expected.filter (fun a => decide (a ∈ l ++ m)) := by
    refine List.filter_congr fun a ha => ?_
    have : a ≠ x := fun h3 => hx (h3 ▸ ha)
    simp [this]
  rw [hf]
  refine ⟨?_, by rw [List.length_map, List.length_map]⟩
  apply List.sum_le_sum
  intro e he
  have hex : x ≠ e := fun h3 => hx (h3 ▸ (List.mem_filter.1 he).1)
  apply one_div_le_one_div_of_le
  · positivity
  · have : (l ++ m).idxOf e ≤ (l ++ x :: m).idxOf e := by
      by_cases hl : e ∈ l
      · rw [List.idxOf_append_of_mem hl, List.idxOf_append_of_mem hl]
      · rw [List.idxOf_append_of_notMem hl, List.idxOf_append_of_notMem hl, List.idxOf_cons_ne _ hex]
        omega
    have h4 : (((l ++ m).idxOf e : Nat) : ℚ) ≤ ((l ++ x :: m).idxOf e : Nat) := by exact_mod_cast this
    linarith

theorem hits_extra (hr : IsRanking rank) (h : Extra d d') (k : Nat) : hits rank d' k ≤ hits rank d k := by
  obtain ⟨l, m, x, hx, _, h1, h2⟩ := extra_recv hr h
  unfold hits
  rw [h.expected, h1, h2]
  apply Finset.card_le_card
  intro y hy
  rw [Finset.mem_inter, List.mem_toFinset, List.mem_toFinset] at hy ⊢
  refine ⟨?_, hy.2⟩
  have hyx : y ≠ x := fun h3 => hx (h3 ▸ hy.2)
  rcases Nat.lt_or_ge l.length (k + 1) with hk | hk
  · obtain ⟨n, hn⟩ : ∃ n, k + 1 = l.length + (n + 1) := ⟨k + 1 - l.length - 1, by omega⟩
    have h3 := hy.1
    rw [hn, List.take_length_add_append] at h3 ⊢
    rw [List.take_succ_cons, List.mem_append, List.mem_cons] at h3
    rw [List.mem_append]
    rcases h3 with h3 | h3 | h3
    · exact Or.inl h3
    · exact absurd h3 hyx
    · exact Or.inr ((List.take_sublist_take_left (Nat.le_succ n)).subset h3)
  · have h3 := hy.1
    rw [List.take_append_of_le_length hk] at h3 ⊢
    exact h3

/-- **C323**: a prediction that is not expected never raises mean average precision. -/
theorem map_extra (hr : IsRanking rank) (h : Extra d d') (pre post : List Doc) (r : ℚ) (hm : meanAveragePrec rank (pre ++ d :: post) = .ok r) :
    ∃ r', meanAveragePrec rank (pre ++ d' :: post) = .ok r' ∧ r' ≤ r := by
  obtain ⟨hne, hall⟩ := (map_defined_iff rank hr _).1.1 ⟨r, hm⟩
  have hall' : ∀ c ∈ pre ++ d' :: post, c.expected ≠ [] → c.stored ≠ [] := by
    intro c hc
    rcases List.mem_append.1 hc with hc | hc
    · exact hall c (by simp [hc])
    · rcases List.mem_cons.1 hc with rfl | hc
      · exact fun _ => stored_after h
      · exact hall c (by simp [hc])
  rw [map_ok rank _ hne fun c hc h1 h2 => hall c hc h1 ((recv_nil hr c).1 h2)] at hm
  refine ⟨_, map_ok rank _ (by simp) fun c hc h1 h2 => hall' c hc h1 ((recv_nil hr c).1 h2), ?_⟩
  rw [← Except.ok.inj hm]
  simp only [List.map_append, List.map_cons, List.sum_append, List.sum_cons, List.length_append, List.length_cons]
  apply div_le_div_of_nonneg_right
  · have := ap_extra hr h
    linarith
  · positivity

/-- **C323**: a prediction that is not expected never raises the mean reciprocal rank. -/
theorem mrr_extra (hr : IsRanking rank) (h : Extra d d') (pre post : List Doc)
    (hn : ∀ c ∈ pre ++ post, c.expected.Nodup ∧ (c.stored.map Prod.fst).Nodup) (r : ℚ)
    (hm : meanReciprocalRank rank (pre ++ d :: post) = .ok r) : ∃ r', meanReciprocalRank rank (pre ++ d' :: post) = .ok r' ∧ r' ≤ r := by
  have hN : ∀ c ∈ pre ++ d :: post, c.expected.Nodup ∧ (c.stored.map Prod.fst).Nodup := by
    intro c hc
    rcases List.mem_append.1 hc with hc | hc
    · exact hn c (by simp [hc])
    · rcases List.mem_cons.1 hc with rfl | hc
      · exact ⟨h.once, ids_before h⟩
      · exact hn c (by simp [hc])
  have hN' : ∀ c ∈ pre ++ d' :: post, c.expected.Nodup ∧ (c.stored.map Prod.fst).Nodup := by
    intro c hc
    rcases List.mem_append.1 hc with hc | hc
    · exact hn c (by simp [hc])
    · rcases List.mem_cons.1 hc with rfl | hc
      · exact ⟨h.expected ▸ h.once, h.ids⟩
      · exact hn c (by simp [hc])
  obtain ⟨a1, a2, _⟩ := mrr_mean rank hr _ hN
  obtain ⟨b1, _, _⟩ := mrr_mean rank hr _ hN'
  obtain ⟨h1, h2⟩ := recips_extra hr h
  have hlen : (allRecips rank (pre ++ d' :: post)).length = (allRecips rank (pre ++ d :: post)).length := by
    unfold allRecips
    simp only [List.flatMap_append, List.flatMap_cons, List.length_append, h2]
  have hsum : (allRecips rank (pre ++ d' :: post)).sum ≤ (allRecips rank (pre ++ d :: post)).sum := by
    unfold allRecips
    simp only [List.flatMap_append, List.flatMap_cons, List.sum_append]
    linarith
  by_cases he : allRecips rank (pre ++ d :: post) = []
  · rw [a2 he] at hm
    cases hm
  · rw [a1 he] at hm
    refine ⟨_, b1 fun h3 => he (List.length_eq_zero_iff.1 (by rw [← hlen, h3]; rfl)), ?_⟩
    rw [← Except.ok.inj hm, hlen]
    exact div_le_div_of_nonneg_right hsum (by positivity)

/-- **C323**: a prediction that is not expected never raises precision and recall, at any cut-off and in any group. -/
theorem prec_rec_extra (hr : IsRanking rank) (h : Extra d d') (pre post : List Doc) (ms : List Nat) (hms : ∀ m ∈ ms, 0 < m)
    (groups : Option (List Group))
    (hg : ∀ c ∈ pre ++ d :: post, c.expected ≠ [] → (firstGroup (usedGroups groups) c.expected.length).isSome) :
    ∃ R R', meanPrecRecAt rank (pre ++ d :: post) ms groups = .ok R ∧ meanPrecRecAt rank (pre ++ d' :: post) ms groups = .ok R'
      ∧ R'.counts = R.counts ∧ ∀ g i, i < ms.length → R'.precs g i ≤ R.precs g i ∧ R'.recs g i ≤ R.recs g i := by
  have hg' : ∀ c ∈ pre ++ d' :: post, c.expected ≠ [] → (firstGroup (usedGroups groups) c.expected.length).isSome := by
    intro c hc
    rcases List.mem_append.1 hc with hc | hc
    · exact hg c (by simp [hc])
    · rcases List.mem_cons.1 hc with rfl | hc
      · rw [h.expected]
        exact hg d (by simp)
      · exact hg c (by simp [hc])
  obtain ⟨R, e1, e2, e3, e4⟩ := prec_rec_closed rank ms hms groups _ hg
  obtain ⟨R', f1, f2, f3, f4⟩ := prec_rec_closed rank ms hms groups _ hg'
  have key : ∀ g, ∃ p q c c', members (usedGroups groups) (pre ++ d :: post) g = p ++ c ++ q ∧ members (usedGroups groups) (pre ++ d' :: post) g = p ++ c' ++ q
      ∧ ((c = [] ∧ c' = []) ∨ (c = [d] ∧ c' = [d'])) := by
    intro g
    unfold members
    rw [List.filter_append, List.filter_append, List.filter_cons, List.filter_cons, h.expected]
    split
    · exact ⟨_, _, [d], [d'], (List.append_cons _ _ _), (List.append_cons _ _ _), Or.inr ⟨rfl, rfl⟩⟩
    · refine ⟨_, _, [], [], congrArg (· ++ _) (List.append_nil _).symm, congrArg (· ++ _) (List.append_nil _).symm, Or.inl ⟨rfl, rfl⟩⟩
  have mean : ∀ g (f : Doc → ℚ), f d' ≤ f d → meanOver (members (usedGroups groups) (pre ++ d' :: post) g) f
      ≤ meanOver (members (usedGroups groups) (pre ++ d :: post) g) f := by
    intro g f hf
    obtain ⟨p, q, c, c', h1, h2, h3⟩ := key g
    rw [h1, h2]
    unfold meanOver
    rcases h3 with ⟨rfl, rfl⟩ | ⟨rfl, rfl⟩
    · exact le_refl _
    · simp only [List.map_append, List.map_cons, List.map_nil, List.sum_append, List.sum_cons, List.sum_nil, List.length_append, List.length_cons,
        List.length_nil]
      apply div_le_div_of_nonneg_right
      · linarith
      · positivity
  refine ⟨R, R', e1, f1, ?_, fun g i hi => ⟨?_, ?_⟩⟩
  · funext g
    obtain ⟨p, q, c, c', h1, h2, h3⟩ := key g
    rw [e2, f2, h1, h2]
    rcases h3 with ⟨rfl, rfl⟩ | ⟨rfl, rfl⟩ <;> simp
  · rw [e3 g i ms[i] (List.getElem?_eq_getElem hi), f3 g i ms[i] (List.getElem?_eq_getElem hi)]
    refine mean g (fun d => (hits rank d ms[i] : ℚ) / (ms[i] : ℚ)) (div_le_div_of_nonneg_right ?_ (by positivity))
    exact_mod_cast hits_extra hr h _
  · rw [e4 g i ms[i] (List.getElem?_eq_getElem hi), f4 g i ms[i] (List.getElem?_eq_getElem hi)]
    refine mean g (fun d => (hits rank d ms[i] : ℚ) / (d.expected.toFinset.card : ℚ)) ?_
    rw [h.expected]
    refine div_le_div_of_nonneg_right ?_ (by positivity)
    exact_mod_cast hits_extra hr h _

/-! ## Example -/

/-- Link 5 is predicted in addition, second. -/
theorem ex_extra : Extra ⟨[4, 7], [(7, 2), (1, 3), (4, 9)]⟩ ⟨[4, 7], [(7, 2), (5, 4), (1, 3), (4, 9)]⟩ :=
  ⟨rfl, ⟨[(7, 2)], [(1, 3), (4, 9)], 5, 4, by decide, rfl, rfl⟩, by decide +kernel, by decide, by decide +kernel⟩

example : meanAveragePrec sortRank [⟨[4, 7], [(7, 2), (1, 3), (4, 9)]⟩] = .ok (5 / 6)
    ∧ meanAveragePrec sortRank [⟨[4, 7], [(7, 2), (5, 4), (1, 3), (4, 9)]⟩] = .ok (3 / 4) := by decide +kernel

example : ∃ r', meanAveragePrec sortRank [⟨[4, 7], [(7, 2), (5, 4), (1, 3), (4, 9)]⟩] = .ok r' ∧ r' ≤ (5 / 6 : ℚ) :=
  map_extra sortRank_isRanking ex_extra [] [] _ (by decide +kernel)

example : ∃ r', meanReciprocalRank sortRank [⟨[4, 7], [(7, 2), (5, 4), (1, 3), (4, 9)]⟩] = .ok r' ∧ r' ≤ (2 / 3 : ℚ) :=
  mrr_extra sortRank_isRanking ex_extra [] [] (by simp) _ (by decide +kernel)

end Verif.Props.ExtraPrediction
