import Verif.Props.RankingUp

/-!
# Predicting an expected link (C324)
-/

namespace Verif.Props.FoundPrediction

open Verif Verif.Evals
open Verif.Props.Evals Verif.Props.Ranking Verif.Props.RankingUp

/-- In `d'` an expected link is predicted that is not predicted in `d`, with any score that no other link has. -/
structure Found (d d' : Doc) : Prop where
  expected : d'.expected = d.expected
  stored : ∃ a b x s, x ∈ d.expected ∧ d.stored = a ++ b ∧ d'.stored = a ++ (x, s) :: b
  distinct : ∀ p ∈ d'.stored, ∀ q ∈ d'.stored, p.2 = q.2 → p = q
  once : d.expected.Nodup
  ids : (d'.stored.map Prod.fst).Nodup

variable {rank : List (Nat × ℚ) → List (Nat × ℚ)} {d d' : Doc}

theorem ids_before (h : Found d d') : (d.stored.map Prod.fst).Nodup := by
  obtain ⟨a, b, x, s, _, h1, h2⟩ := h.stored
  have h3 := h.ids
  rw [h2] at h3
  rw [h1]
  refine List.Nodup.sublist ?_ h3
  exact ((List.Sublist.refl a).append (List.sublist_cons_self _ b)).map _

theorem stored_after (h : Found d d') : d'.stored ≠ [] := by
  obtain ⟨a, b, x, s, _, _, h2⟩ := h.stored
  rw [h2]
  simp

/-- The additional link is put somewhere into the ranking, and the order of the others is left alone. -/
theorem found_recv (hr : IsRanking rank) (h : Found d d') : ∃ l m x, x ∈ d.expected ∧ x ∉ l ++ m ∧ recvIndices rank d = l ++ m
    ∧ recvIndices rank d' = l ++ x :: m := by
  obtain ⟨a, b, x, s, hx, h1, h2⟩ := h.stored
  have hp := (hr d'.stored).1
  have hs := (hr d'.stored).2
  obtain ⟨u, v, huv⟩ := List.append_of_mem (hp.mem_iff.2 (show (x, s) ∈ d'.stored by rw [h2]; simp))
  have hperm : (u ++ v).Perm d.stored := by
    have : (u ++ (x, s) :: v).Perm (a ++ (x, s) :: b) := by rw [← huv, ← h2]; exact hp
    rw [h1]
    exact (List.perm_cons (x, s)).1 ((List.perm_middle.symm.trans this).trans List.perm_middle)
  have hsub : List.Sublist (u ++ v) (u ++ (x, s) :: v) := (List.Sublist.refl u).append (List.sublist_cons_self _ v)
  have hrank : rank d.stored = u ++ v := by
    apply List.Perm.eq_of_pairwise (le := fun a b => b.2 ≤ a.2)
    · intro p q hp' hq h3 h4
      have hin : ∀ y ∈ d.stored, y ∈ d'.stored := by
        intro y hy
        rw [h1] at hy
        rw [h2]
        exact ((List.Sublist.refl a).append (List.sublist_cons_self _ b)).subset hy
      exact h.distinct p (hin p ((hr _).1.mem_iff.1 hp')) q (hin q (hperm.mem_iff.1 hq)) (le_antisymm h4 h3)
    · exact (hr _).2
    · rw [huv] at hs
      exact hs.sublist hsub
    · exact (hr _).1.trans hperm.symm
  refine ⟨u.map Prod.fst, v.map Prod.fst, x, hx, ?_, ?_, ?_⟩
  · have hn := recv_nodup hr d' h.ids
    unfold recvIndices at hn
    rw [huv, List.map_append, List.map_cons] at hn
    exact (List.nodup_cons.1 (List.perm_middle.nodup_iff.1 hn)).1
  · unfold recvIndices
    rw [hrank, List.map_append]
  · unfold recvIndices
    rw [huv, List.map_append, List.map_cons]

theorem findPos_absent (e : Nat) (l : List Nat) (h : e ∉ l) : findPos e l = l.length := by
  have := findPos_append e l [] h
  rw [List.append_nil] at this
  exact this

/-- Predicting an expected link last lowers no term. -/
theorem precTerm_last (l : List Nat) (x e : Nat) (E : Finset Nat) (hx : x ∈ E) (hl : x ∉ l) : precTerm l E e ≤ precTerm (l ++ [x]) E e := by
  by_cases h : e ∈ l
  · rw [precTerm_prefix l _ E e h]
  · unfold precTerm
    rw [findPos_append e l _ h, findPos_absent e l h, List.take_of_length_le (Nat.le_succ _)]
    have h2 : (l ++ [x]).take (l.length + findPos e [x] + 1) = l ++ [x] := by
      apply List.take_of_length_le
      rw [List.length_append, List.length_singleton]
      omega
    rw [h2, List.toFinset_append]
    have hxl : x ∉ l.toFinset := by rwa [List.mem_toFinset]
    have c1 : (l.toFinset ∪ [x].toFinset).card = l.toFinset.card + 1 := by
      rw [Finset.card_union_of_disjoint] <;> simp [hl]
    have c2 : ((l.toFinset ∪ [x].toFinset) ∩ E).card = (l.toFinset ∩ E).card + 1 := by
      rw [show [x].toFinset = {x} from rfl, Finset.union_inter_distrib_right, Finset.singleton_inter_of_mem hx, Finset.card_union_of_disjoint,
        Finset.card_singleton]
      rw [Finset.disjoint_singleton_right, Finset.mem_inter]
      exact fun h3 => hxl h3.1
    rw [c1, c2]
    have hle : (l.toFinset ∩ E).card ≤ l.toFinset.card := Finset.card_le_card Finset.inter_subset_left
    have hle' : (((l.toFinset ∩ E).card : Nat) : ℚ) ≤ (l.toFinset.card : Nat) := by exact_mod_cast hle
    rcases Nat.eq_zero_or_pos l.toFinset.card with h0 | h0
    · rw [h0]
      simp only [Nat.cast_zero, div_zero]
      positivity
    · have h0' : (0 : ℚ) < l.toFinset.card := by exact_mod_cast h0
      push_cast
      rw [div_le_div_iff₀ h0' (by positivity)]
      nlinarith

theorem last_ups (l m : List Nat) (x : Nat) (E : Finset Nat) (hx : x ∈ E) : Ups E (l ++ m ++ [x]) (l ++ x :: m) := by
  have := ups_move l m [] x hx
  rw [List.append_nil] at this
  rwa [List.append_assoc]

theorem ap_found (hr : IsRanking rank) (h : Found d d') : ap rank d ≤ ap rank d' := by
  obtain ⟨l, m, x, hx, hn, h1, h2⟩ := found_recv hr h
  have hnd : (l ++ m ++ [x]).Nodup := by
    have := recv_nodup hr d' h.ids
    rw [h2] at this
    exact (ups_perm (last_ups l m x d.expected.toFinset (List.mem_toFinset.2 hx))).nodup_iff.1 this
  unfold ap
  rw [h.expected]
  split
  · exact le_refl _
  · apply div_le_div_of_nonneg_right _ (by positivity)
    rw [h1, h2]
    refine le_trans (List.sum_le_sum fun e _ => precTerm_last (l ++ m) x e _ (List.mem_toFinset.2 hx) hn) ?_
    have hu := last_ups l m x d.expected.toFinset (List.mem_toFinset.2 hx)
    generalize l ++ x :: m = recv' at hu
    induction hu with
    | refl => exact le_refl _
    | tail h3 h4 ih => exact ih.trans (ap_up h4 ((ups_perm h3).nodup_iff.2 hnd) h.once rfl)

theorem hits_found (hr : IsRanking rank) (h : Found d d') (k : Nat) : hits rank d k ≤ hits rank d' k := by
  obtain ⟨l, m, x, hx, hn, h1, h2⟩ := found_recv hr h
  have hnd : (l ++ m ++ [x]).Nodup := by
    have := recv_nodup hr d' h.ids
    rw [h2] at this
    exact (ups_perm (last_ups l m x d.expected.toFinset (List.mem_toFinset.2 hx))).nodup_iff.1 this
  unfold hits
  rw [h.expected, h1, h2]
  have h0 : (((l ++ m).take (k + 1)).toFinset ∩ d.expected.toFinset).card ≤ (((l ++ m ++ [x]).take (k + 1)).toFinset ∩ d.expected.toFinset).card := by
    apply Finset.card_le_card
    apply Finset.inter_subset_inter_right
    intro y hy
    rw [List.mem_toFinset] at hy ⊢
    rw [List.take_append]
    exact List.mem_append_left _ hy
  refine h0.trans ?_
  have hu := last_ups l m x d.expected.toFinset (List.mem_toFinset.2 hx)
  generalize l ++ x :: m = recv' at hu
  induction hu with
  | refl => exact le_refl _
  | tail h3 h4 ih => exact ih.trans (hits_up h4 ((ups_perm h3).nodup_iff.2 hnd) _)

/-- **C324**: predicting an expected link never lowers mean average precision. -/
theorem map_found (hr : IsRanking rank) (h : Found d d') (pre post : List Doc) (r : ℚ) (hm : meanAveragePrec rank (pre ++ d :: post) = .ok r) :
    ∃ r', meanAveragePrec rank (pre ++ d' :: post) = .ok r' ∧ r ≤ r' := by
  obtain ⟨hne, hall⟩ := (map_defined_iff rank hr _).1.1 ⟨r, hm⟩
  have hall' : ∀ c ∈ pre ++ d' :: post, c.expected ≠ [] → c.stored ≠ [] := by
    intro c hc
    rcases List.mem_append.1 hc with hc | hc
    · exact hall c (by simp [hc])
    · rcases List.mem_cons.1 hc with rfl | hc
      · exact fun _ => stored_after h
      · exact hall c (by simp [hc])
  rw [map_ok rank _ hne fun c hc h1 h2 => hall c hc h1 ((recv_nil hr c).1 h2)] at hm
  refine ⟨_, map_ok rank _ (by simp) fun c hc h1 h2 => hall' c hc h1 ((recv_nil hr c).1 h2), ?_⟩
  rw [← Except.ok.inj hm]
  simp only [List.map_append, List.map_cons, List.sum_append, List.sum_cons, List.length_append, List.length_cons]
  apply div_le_div_of_nonneg_right
  · have := ap_found hr h
    linarith
  · positivity

/-- **C324**: predicting an expected link never lowers precision and recall, at any cut-off and in any group. -/
theorem prec_rec_found (hr : IsRanking rank) (h : Found d d') (pre post : List Doc) (ms : List Nat) (hms : ∀ m ∈ ms, 0 < m)
    (groups : Option (List Group))
    (hg : ∀ c ∈ pre ++ d :: post, c.expected ≠ [] → (firstGroup (usedGroups groups) c.expected.length).isSome) :
    ∃ R R', meanPrecRecAt rank (pre ++ d :: post) ms groups = .ok R ∧ meanPrecRecAt rank (pre ++ d' :: post) ms groups = .ok R'
      ∧ R'.counts = R.counts ∧ ∀ g i, i < ms.length → R.precs g i ≤ R'.precs g i ∧ R.recs g i ≤ R'.recs g i := by
  have hg' : ∀ c ∈ pre ++ d' :: post, c.expected ≠ [] → (firstGroup (usedGroups groups) c.expected.length).isSome := by
    intro c hc
    rcases List.mem_append.1 hc with hc | hc
    · exact hg c (by simp [hc])
    · rcases List.mem_cons.1 hc with rfl | hc
      · rw [h.expected]
        exact hg d (by simp)
      · exact hg c (by simp [hc])
  obtain ⟨R, e1, e2, e3, e4⟩ := prec_rec_closed rank ms hms groups _ hg
  obtain ⟨R', f1, f2, f3, f4⟩ := prec_rec_closed rank ms hms groups _ hg'
  have key : ∀ g, ∃ p q c c', members (usedGroups groups) (pre ++ d :: post) g = p ++ c ++ q ∧ members (usedGroups groups) (pre ++ d' :: post) g = p ++ c' ++ q
      ∧ ((c = [] ∧ c' = []) ∨ (c = [d] ∧ c' = [d'])) := by
    intro g
    unfold members
    rw [List.filter_append, List.filter_append, List.filter_cons, List.filter_cons, h.expected]
    split
    · exact ⟨_, _, [d], [d'], (List.append_cons _ _ _), (List.append_cons _ _ _), Or.inr ⟨rfl, rfl⟩⟩
    · refine ⟨_, _, [], [], congrArg (· ++ _) (List.append_nil _).symm, congrArg (· ++ _) (List.append_nil _).symm, Or.inl ⟨rfl, rfl⟩⟩
  have mean : ∀ g (f : Doc → ℚ), f d ≤ f d' → meanOver (members (usedGroups groups) (pre ++ d :: post) g) f
      ≤ meanOver (members (usedGroups groups) (pre ++ d' :: post) g) f := by
    intro g f hf
    obtain ⟨p, q, c, c', h1, h2, h3⟩ := key g
    rw [h1, h2]
    unfold meanOver
    rcases h3 with ⟨rfl, rfl⟩ | ⟨rfl, rfl⟩
    · exact le_refl _
    · simp only [List.map_append, List.map_cons, List.map_nil, List.sum_append, List.sum_cons, List.sum_nil, List.length_append, List.length_cons,
        List.length_nil]
      apply div_le_div_of_nonneg_right
      · linarith
      · positivity
  refine ⟨R, R', e1, f1, ?_, fun g i hi => ⟨?_, ?_⟩⟩
  · funext g
    obtain ⟨p, q, c, c', h1, h2, h3⟩ := key g
    rw [e2, f2, h1, h2]
    rcases h3 with ⟨rfl, rfl⟩ | ⟨rfl, rfl⟩ <;> simp
  · rw [e3 g i ms[i] (List.getElem?_eq_getElem hi), f3 g i ms[i] (List.getElem?_eq_getElem hi)]
    refine mean g (fun d => (hits rank d ms[i] : ℚ) / (ms[i] : ℚ)) (div_le_div_of_nonneg_right ?_ (by positivity))
    exact_mod_cast hits_found hr h _
  · rw [e4 g i ms[i] (List.getElem?_eq_getElem hi), f4 g i ms[i] (List.getElem?_eq_getElem hi)]
    refine mean g (fun d => (hits rank d ms[i] : ℚ) / (d.expected.toFinset.card : ℚ)) ?_
    rw [h.expected]
    refine div_le_div_of_nonneg_right ?_ (by positivity)
    exact_mod_cast hits_found hr h _

/-- An expected link that is predicted first, and another that is not predicted or predicted last -/
theorem ex_found : Found ⟨[4, 7], [(4, 9)]⟩ ⟨[4, 7], [(4, 9), (7, 2)]⟩ :=
  ⟨rfl, ⟨[(4, 9)], [], 7, 2, by decide, rfl, rfl⟩, by decide +kernel, by decide, by decide +kernel⟩

/-- **C324**, violated by the mean reciprocal rank: predicting an expected link that was left out lowers it from one to three quarters. -/
theorem mrr_found_violation (hr : IsRanking rank) : ∃ d d', Found d d' ∧ meanReciprocalRank rank [d] = .ok 1 ∧ meanReciprocalRank rank [d'] = .ok (3 / 4) := by
  refine ⟨⟨[4, 7], [(4, 9)]⟩, ⟨[4, 7], [(4, 9), (7, 2)]⟩, ex_found, ?_, ?_⟩
  · have h1 : rank [(4, 9)] = [(4, 9)] := List.perm_singleton.1 (hr [(4, 9)]).1
    have h2 : meanReciprocalRank rank [⟨[4, 7], [(4, 9)]⟩] = meanReciprocalRank id [⟨[4, 7], [(4, 9)]⟩] := by
      unfold meanReciprocalRank recvIndices
      simp only [List.foldl_cons, List.foldl_nil, h1, id]
    rw [h2]
    decide +kernel
  · have h1 : rank [(4, 9), (7, 2)] = [(4, 9), (7, 2)] := by
      apply List.Perm.eq_of_pairwise (le := fun a b => b.2 ≤ a.2)
      · intro p q hp hq h3 h4
        exact ex_found.distinct p ((hr _).1.mem_iff.1 hp) q hq (le_antisymm h4 h3)
      · exact (hr _).2
      · exact List.pairwise_pair.2 (by norm_num)
      · exact (hr _).1
    have h2 : meanReciprocalRank rank [⟨[4, 7], [(4, 9), (7, 2)]⟩] = meanReciprocalRank id [⟨[4, 7], [(4, 9), (7, 2)]⟩] := by
      unfold meanReciprocalRank recvIndices
      simp only [List.foldl_cons, List.foldl_nil, h1, id]
    rw [h2]
    decide +kernel

/-! ## Mean reciprocal rank -/

/-- The number of expected links that are predicted -/
def foundLinks (docs : List Doc) : Nat := (docs.map fun d => (d.expected.filter (· ∈ d.stored.map Prod.fst)).length).sum

theorem recips_length (hr : IsRanking rank) (c : Doc) :
    (recips (recvIndices rank c) c.expected).length = (c.expected.filter (· ∈ c.stored.map Prod.fst)).length := by
  unfold recips
  rw [List.length_map]
  congr 2
  funext e
  rw [Bool.eq_iff_iff, decide_eq_true_eq, decide_eq_true_eq]
  exact ((hr c.stored).1.map Prod.fst).mem_iff

theorem allRecips_length (hr : IsRanking rank) (docs : List Doc) : (allRecips rank docs).length = foundLinks docs := by
  unfold allRecips foundLinks
  rw [List.length_flatMap]
  congr 2
  funext c
  exact recips_length hr c

theorem recips_perm (recv : List Nat) {E E' : List Nat} (h : E.Perm E') : (recips recv E).Perm (recips recv E') := (h.filter _).map _

/-- An expected link that is predicted last adds one reciprocal rank. -/
theorem recips_last (l E : List Nat) (x : Nat) (hE : E.Nodup) (hx : x ∈ E) (hl : x ∉ l) :
    (recips l E).sum ≤ (recips (l ++ [x]) E).sum ∧ (recips (l ++ [x]) E).length = (recips l E).length + 1 := by
  have hp := List.perm_cons_erase hx
  have hxE : x ∉ E.erase x := fun h => hE.not_mem_erase h
  rw [(recips_perm l hp).sum_eq, (recips_perm l hp).length_eq, (recips_perm (l ++ [x]) hp).sum_eq, (recips_perm (l ++ [x]) hp).length_eq]
  have e1 : recips l (x :: E.erase x) = recips l (E.erase x) := by
    unfold recips
    rw [List.filter_cons_of_neg (by simpa using hl)]
  have e2 : recips (l ++ [x]) (x :: E.erase x) = 1 / (((l ++ [x]).idxOf x : ℚ) + 1) :: recips l (E.erase x) := by
    unfold recips
    rw [List.filter_cons_of_pos (by simp), List.map_cons]
    congr 1
    have hf : (E.erase x).filter (· ∈ l ++ [x]) = (E.erase x).filter (· ∈ l) := by
      apply List.filter_congr
      intro e he
      have hne : e ≠ x := fun h => hxE (h ▸ he)
      simp [hne]
    rw [hf]
    apply List.map_congr_left
    intro e he
    rw [List.idxOf_append_of_mem (by simpa using (List.mem_filter.1 he).2)]
  rw [e1, e2, List.sum_cons, List.length_cons]
  exact ⟨le_add_of_nonneg_left (by positivity), rfl⟩

theorem recips_found (hr : IsRanking rank) (h : Found d d') :
    (recips (recvIndices rank d) d.expected).sum ≤ (recips (recvIndices rank d') d'.expected).sum
      ∧ (recips (recvIndices rank d') d'.expected).length = (recips (recvIndices rank d) d.expected).length + 1 := by
  obtain ⟨l, m, x, hx, hn, h1, h2⟩ := found_recv hr h
  have hu := last_ups l m x d.expected.toFinset (List.mem_toFinset.2 hx)
  have hnd : (l ++ m ++ [x]).Nodup := by
    have := recv_nodup hr d' h.ids
    rw [h2] at this
    exact (ups_perm hu).nodup_iff.1 this
  rw [h.expected, h1, h2]
  obtain ⟨h3, h4⟩ := recips_last (l ++ m) d.expected x h.once hx hn
  have key : (recips (l ++ m ++ [x]) d.expected).sum ≤ (recips (l ++ x :: m) d.expected).sum
      ∧ (recips (l ++ x :: m) d.expected).length = (recips (l ++ m ++ [x]) d.expected).length := by
    generalize l ++ x :: m = recv' at hu
    induction hu with
    | refl => exact ⟨le_refl _, rfl⟩
    | tail h5 h6 ih =>
      have h7 := recips_up h6 ((ups_perm h5).nodup_iff.2 hnd) h.once rfl
      exact ⟨ih.1.trans h7.1, h7.2.trans ih.2⟩
  exact ⟨h3.trans key.1, key.2.trans h4⟩

/-- **C324**, what holds of the mean reciprocal rank: the score times the number of expected links that are predicted never falls,
so that predicting one more of them lowers the score by a factor of `n / (n + 1)` at most. -/
theorem mrr_found_partial (hr : IsRanking rank) (h : Found d d') (pre post : List Doc)
    (hn : ∀ c ∈ pre ++ post, c.expected.Nodup ∧ (c.stored.map Prod.fst).Nodup) (r : ℚ)
    (hm : meanReciprocalRank rank (pre ++ d :: post) = .ok r) :
    foundLinks (pre ++ d' :: post) = foundLinks (pre ++ d :: post) + 1 ∧
    ∃ r', meanReciprocalRank rank (pre ++ d' :: post) = .ok r' ∧ r * foundLinks (pre ++ d :: post) ≤ r' * foundLinks (pre ++ d' :: post) := by
  have hN : ∀ c ∈ pre ++ d :: post, c.expected.Nodup ∧ (c.stored.map Prod.fst).Nodup := by
    intro c hc
    rcases List.mem_append.1 hc with hc | hc
    · exact hn c (by simp [hc])
    · rcases List.mem_cons.1 hc with rfl | hc
      · exact ⟨h.once, ids_before h⟩
      · exact hn c (by simp [hc])
  have hN' : ∀ c ∈ pre ++ d' :: post, c.expected.Nodup ∧ (c.stored.map Prod.fst).Nodup := by
    intro c hc
    rcases List.mem_append.1 hc with hc | hc
    · exact hn c (by simp [hc])
    · rcases List.mem_cons.1 hc with rfl | hc
      · exact ⟨h.expected ▸ h.once, h.ids⟩
      · exact hn c (by simp [hc])
  obtain ⟨a1, a2, _⟩ := mrr_mean rank hr _ hN
  obtain ⟨b1, _, _⟩ := mrr_mean rank hr _ hN'
  obtain ⟨h1, h2⟩ := recips_found hr h
  have hlen : (allRecips rank (pre ++ d' :: post)).length = (allRecips rank (pre ++ d :: post)).length + 1 := by
    unfold allRecips
    simp only [List.flatMap_append, List.flatMap_cons, List.length_append, h2]
    omega
  have hsum : (allRecips rank (pre ++ d :: post)).sum ≤ (allRecips rank (pre ++ d' :: post)).sum := by
    unfold allRecips
    simp only [List.flatMap_append, List.flatMap_cons, List.sum_append]
    linarith
  rw [← allRecips_length hr, ← allRecips_length hr]
  refine ⟨hlen, ?_⟩
  by_cases he : allRecips rank (pre ++ d :: post) = []
  · rw [a2 he] at hm
    cases hm
  · rw [a1 he] at hm
    have he' : allRecips rank (pre ++ d' :: post) ≠ [] := by
      intro h3
      rw [h3] at hlen
      simp at hlen
    refine ⟨_, b1 he', ?_⟩
    rw [← Except.ok.inj hm, div_mul_cancel₀ _ (Nat.cast_ne_zero.2 (by rwa [Ne, List.length_eq_zero_iff])),
      div_mul_cancel₀ _ (Nat.cast_ne_zero.2 (by rwa [Ne, List.length_eq_zero_iff]))]
    exact hsum

/-! ## Example -/

example : ∃ r', meanAveragePrec sortRank [⟨[4, 7], [(4, 9), (7, 2)]⟩] = .ok r' ∧ (1 : ℚ) ≤ r' :=
  map_found sortRank_isRanking ex_found [] [] _ (by decide +kernel)

example : ∃ r', meanReciprocalRank sortRank [⟨[4, 7], [(4, 9), (7, 2)]⟩] = .ok r' ∧ (1 : ℚ) * 1 ≤ r' * 2 := by
  obtain ⟨_, r', h1, h2⟩ := mrr_found_partial sortRank_isRanking ex_found [] [] (by simp) 1 (by decide +kernel)
  have e1 : foundLinks [⟨[4, 7], [(4, 9)]⟩] = 1 := by decide +kernel
  have e2 : foundLinks [⟨[4, 7], [(4, 9), (7, 2)]⟩] = 2 := by decide +kernel
  rw [List.nil_append, List.nil_append, e1, e2] at h2
  exact ⟨r', h1, by exact_mod_cast h2⟩

example : meanAveragePrec sortRank [⟨[4, 7], [(4, 9), (1, 8), (2, 7)]⟩] = .ok (2 / 3)
    ∧ meanAveragePrec sortRank [⟨[4, 7], [(4, 9), (1, 8), (2, 7), (7, 1)]⟩] = .ok (3 / 4) := by decide +kernel

end Verif.Props.FoundPrediction
