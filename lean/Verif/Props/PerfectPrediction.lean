import Verif.Props.FoundPrediction
import Mathlib.Data.Finset.Max

/-!
# Perfect predictions of links (C327)
-/

namespace Verif.Props.PerfectPrediction

open Verif Verif.Evals
open Verif.Props.Evals Verif.Props.Ranking
open Verif.Props.FoundPrediction (foundLinks allRecips_length)

variable {rank : List (Nat × ℚ) → List (Nat × ℚ)}

/-- All expected links are predicted, with higher scores than all others. -/
structure Perfect (d : Doc) : Prop where
  once : d.expected.Nodup
  ids : (d.stored.map Prod.fst).Nodup
  all : ∀ e ∈ d.expected, e ∈ d.stored.map Prod.fst
  ahead : ∀ p ∈ d.stored, ∀ q ∈ d.stored, p.1 ∈ d.expected → q.1 ∉ d.expected → q.2 < p.2

/-- The sum of the first `n` reciprocal ranks -/
def firstRecips (n : Nat) : ℚ := ∑ i ∈ Finset.range n, 1 / ((i : ℚ) + 1)

/-! ## Rankings -/

theorem split_prefix (E : List Nat) (l : List Nat) (h : l.Pairwise fun a b => b ∈ E → a ∈ E) :
    l = l.filter (· ∈ E) ++ l.filter (fun a => ¬ a ∈ E) := by
  induction l with
  | nil => rfl
  | cons a l ih =>
    obtain ⟨h1, h2⟩ := List.pairwise_cons.1 h
    by_cases ha : a ∈ E
    · rw [List.filter_cons_of_pos (by simpa using ha), List.filter_cons_of_neg (by simpa using ha), List.cons_append, ← ih h2]
    · have hl : ∀ b ∈ l, b ∉ E := fun b hb h3 => ha (h1 b hb h3)
      rw [List.filter_cons_of_neg (by simpa using ha), List.filter_cons_of_pos (by simpa using ha),
        List.filter_eq_nil_iff.2 (by simpa using hl), List.filter_eq_self.2 (by simpa using hl), List.nil_append]

/-- In a perfect prediction the expected links come first. -/
theorem perfect_recv (hr : IsRanking rank) {d : Doc} (h : Perfect d) : ∃ u v, recvIndices rank d = u ++ v ∧ u.Perm d.expected := by
  have hn := recv_nodup hr d h.ids
  have hp : (recvIndices rank d).Pairwise fun a b => b ∈ d.expected → a ∈ d.expected := by
    unfold recvIndices
    rw [List.pairwise_map]
    refine (hr d.stored).2.imp_of_mem fun {p q} hp hq h1 h2 => ?_
    by_contra h3
    exact absurd (h.ahead q ((hr _).1.mem_iff.1 hq) p ((hr _).1.mem_iff.1 hp) h2 h3) (not_lt.2 h1)
  refine ⟨_, _, split_prefix d.expected _ hp, ?_⟩
  rw [List.perm_ext_iff_of_nodup (hn.filter _) h.once]
  intro e
  rw [List.mem_filter, decide_eq_true_eq]
  exact ⟨fun h1 => h1.2, fun h1 => ⟨((hr d.stored).1.map Prod.fst).mem_iff.2 (h.all e h1), h1⟩⟩

/-! ## Mean reciprocal rank -/

theorem positions (g : Nat → ℚ) (u : List Nat) (hu : u.Nodup) : (u.map fun e => g (u.idxOf e)).sum = ∑ i ∈ Finset.range u.length, g i := by
  have : (u.map fun e => g (u.idxOf e)) = (List.range u.length).map g := by
    apply List.ext_getElem
    · simp
    · intro i h1 h2
      simp only [List.getElem_map, List.getElem_range]
      rw [hu.idxOf_getElem]
  rw [this]
  generalize u.length = n
  induction n with
  | zero => rfl
  | succ n ih => rw [List.range_succ, List.map_append, List.sum_append, ih, Finset.sum_range_succ, List.map_singleton, List.sum_singleton]

theorem recips_perfect (hr : IsRanking rank) {d : Doc} (h : Perfect d) : (recips (recvIndices rank d) d.expected).sum = firstRecips d.expected.length := by
  obtain ⟨u, v, h1, h2⟩ := perfect_recv hr h
  have hu : u.Nodup := h2.nodup_iff.2 h.once
  rw [(FoundPrediction.recips_perm _ h2.symm).sum_eq, h1, ← h2.length_eq]
  unfold recips firstRecips
  rw [List.filter_eq_self.2 (by intro e he; simp [he]), ← positions (fun i => 1 / ((i : ℚ) + 1)) u hu]
  congr 1
  apply List.map_congr_left
  intro e he
  rw [List.idxOf_append_of_mem he]

theorem sum_positions_le (S : Finset Nat) : ∑ i ∈ S, 1 / ((i : ℚ) + 1) ≤ firstRecips S.card := by
  unfold firstRecips
  induction S using Finset.induction_on_max with
  | empty => simp
  | insert a s hs ih =>
    have ha : a ∉ s := fun h => lt_irrefl a (hs a h)
    have hc : s.card ≤ a := by
      have : s ⊆ Finset.range a := fun x hx => Finset.mem_range.2 (hs x hx)
      simpa using Finset.card_le_card this
    rw [Finset.sum_insert ha, Finset.card_insert_of_notMem ha, Finset.sum_range_succ, add_comm]
    have hc' : (s.card : ℚ) ≤ a := by exact_mod_cast hc
    exact add_le_add ih (one_div_le_one_div_of_le (by positivity) (by linarith))

theorem recips_le (recv E : List Nat) (hE : E.Nodup) : (recips recv E).sum ≤ firstRecips (recips recv E).length := by
  unfold recips
  rw [List.length_map]
  have hF : (E.filter (· ∈ recv)).Nodup := hE.filter _
  have hmem : ∀ e ∈ E.filter (· ∈ recv), e ∈ recv := fun e he => by simpa using (List.mem_filter.1 he).2
  generalize E.filter (· ∈ recv) = F at hF hmem
  have e1 : (F.map fun e => 1 / ((recv.idxOf e : ℚ) + 1)).sum = ∑ i ∈ F.toFinset.image (fun e => recv.idxOf e), 1 / ((i : ℚ) + 1) := by
    rw [Finset.sum_image, List.sum_toFinset _ hF]
    intro a ha b hb hab
    exact (List.idxOf_inj (hmem a (List.mem_toFinset.1 ha))).1 hab
  have e2 : (F.toFinset.image (fun e => recv.idxOf e)).card = F.length := by
    rw [Finset.card_image_of_injOn, List.toFinset_card_of_nodup hF]
    intro a ha b hb hab
    exact (List.idxOf_inj (hmem a (List.mem_toFinset.1 ha))).1 hab
  rw [e1, ← e2]
  exact sum_positions_le _

theorem allRecips_sum (docs : List Doc) : (allRecips rank docs).sum = (docs.map fun d => (recips (recvIndices rank d) d.expected).sum).sum := by
  unfold allRecips
  induction docs with
  | nil => rfl
  | cons d l ih => rw [List.flatMap_cons, List.sum_append, ih, List.map_cons, List.sum_cons]

theorem found_all (docs : List Doc) (h : ∀ d ∈ docs, ∀ e ∈ d.expected, e ∈ d.stored.map Prod.fst) :
    foundLinks docs = (docs.map fun d => d.expected.length).sum := by
  unfold foundLinks
  congr 1
  apply List.map_congr_left
  intro d hd
  rw [List.filter_eq_self.2 (by intro e he; exact decide_eq_true (h d hd e he))]

/-- **C327**, exact: the mean reciprocal rank of a perfect prediction is the mean of the first reciprocal ranks, as many as there are expected
links in each document. -/
theorem mrr_perfect_exact (hr : IsRanking rank) (docs : List Doc) (h : ∀ d ∈ docs, Perfect d) (he : ∃ d ∈ docs, d.expected ≠ []) :
    meanReciprocalRank rank docs = .ok ((docs.map fun d => firstRecips d.expected.length).sum / ((docs.map fun d => d.expected.length).sum : Nat)) := by
  obtain ⟨a1, _, a3⟩ := mrr_mean rank hr docs fun d hd => ⟨(h d hd).once, (h d hd).ids⟩
  have hne : allRecips rank docs ≠ [] := by
    intro h0
    obtain ⟨d, hd, h1⟩ := he
    obtain ⟨e, h2⟩ := List.exists_mem_of_ne_nil _ h1
    obtain ⟨p, hp, hp2⟩ := List.mem_map.1 ((h d hd).all e h2)
    exact a3.1 h0 d hd e h2 p.2 (hp2 ▸ hp)
  rw [a1 hne, allRecips_length hr, found_all docs fun d hd => (h d hd).all, allRecips_sum]
  congr 3
  apply List.map_congr_left
  exact fun d hd => recips_perfect hr (h d hd)

/-- **C327**, what holds of the mean reciprocal rank: among the predictions that contain all expected links a perfect one scores highest. -/
theorem mrr_best_partial (hr : IsRanking rank) (docs docs' : List Doc) (hs : docs'.map Doc.expected = docs.map Doc.expected) (h : ∀ d ∈ docs', Perfect d)
    (hn : ∀ d ∈ docs, d.expected.Nodup ∧ (d.stored.map Prod.fst).Nodup) (hall : ∀ d ∈ docs, ∀ e ∈ d.expected, e ∈ d.stored.map Prod.fst) (r : ℚ)
    (hm : meanReciprocalRank rank docs = .ok r) : ∃ r', meanReciprocalRank rank docs' = .ok r' ∧ r ≤ r' := by
  obtain ⟨a1, a2, _⟩ := mrr_mean rank hr docs hn
  have hne : allRecips rank docs ≠ [] := by
    intro h0
    rw [a2 h0] at hm
    cases hm
  have hlen : ∀ g : Nat → ℚ, (docs'.map fun d => g d.expected.length) = docs.map fun d => g d.expected.length := by
    intro g
    have := congrArg (List.map fun E : List Nat => g E.length) hs
    rwa [List.map_map, List.map_map] at this
  have hlen' : (docs'.map fun d => d.expected.length) = docs.map fun d => d.expected.length := by
    have := congrArg (List.map List.length) hs
    rwa [List.map_map, List.map_map] at this
  have he : ∃ d ∈ docs', d.expected ≠ [] := by
    by_contra h0
    push Not at h0
    apply hne
    rw [← List.length_eq_zero_iff, allRecips_length hr, found_all docs hall, ← hlen']
    apply List.sum_eq_zero
    intro n h1
    obtain ⟨d, hd, rfl⟩ := List.mem_map.1 h1
    rw [h0 d hd, List.length_nil]
  refine ⟨_, mrr_perfect_exact hr docs' h he, ?_⟩
  rw [a1 hne, allRecips_length hr, found_all docs hall, allRecips_sum] at hm
  rw [← Except.ok.inj hm, hlen, hlen']
  apply div_le_div_of_nonneg_right _ (by positivity)
  apply List.sum_le_sum
  intro d hd
  have h1 := recips_le (recvIndices rank d) d.expected (hn d hd).1
  rwa [FoundPrediction.recips_length hr d, List.filter_eq_self.2 (by intro e he; exact decide_eq_true (hall d hd e he))] at h1

/-- **C327**, violated: with two or more expected links a perfect prediction has a mean reciprocal rank below one, whereas predicting one
of the links only scores one. -/
theorem mrr_perfect_violation (hr : IsRanking rank) (d : Doc) (h : Perfect d) (h2 : 2 ≤ d.expected.length) :
    (∃ r, meanReciprocalRank rank [d] = .ok r ∧ r < 1) ∧ ∀ e ∈ d.expected, ∀ s, meanReciprocalRank rank [⟨d.expected, [(e, s)]⟩] = .ok 1 := by
  have hne : d.expected ≠ [] := fun h0 => by rw [h0] at h2; simp at h2
  refine ⟨⟨_, mrr_perfect_exact hr [d] (by simpa using h) ⟨d, by simp, hne⟩, ?_⟩, fun e he s => ?_⟩
  · simp only [List.map_cons, List.map_nil, List.sum_cons, List.sum_nil, add_zero]
    obtain ⟨n, hn⟩ : ∃ n, d.expected.length = n + 2 := ⟨d.expected.length - 2, by omega⟩
    rw [hn, div_lt_one (by positivity)]
    have key : ∀ n, firstRecips (n + 2) < ((n + 2 : Nat) : ℚ) := by
      intro n
      induction n with
      | zero => simp [firstRecips, Finset.sum_range_succ]; norm_num
      | succ n ih =>
        have e1 : firstRecips (n + 1 + 2) = firstRecips (n + 2) + 1 / (((n + 2 : Nat) : ℚ) + 1) := by
          unfold firstRecips
          rw [show n + 1 + 2 = n + 2 + 1 by omega, Finset.sum_range_succ]
        have e2 : 1 / (((n + 2 : Nat) : ℚ) + 1) ≤ 1 := by
          rw [div_le_one (by positivity)]
          have : (0 : ℚ) ≤ ((n + 2 : Nat) : ℚ) := Nat.cast_nonneg _
          linarith
        rw [e1]
        push_cast at ih e2 ⊢
        linarith
    exact key n
  · have hd : ∀ c ∈ [(⟨d.expected, [(e, s)]⟩ : Doc)], c.expected.Nodup ∧ (c.stored.map Prod.fst).Nodup := by
      intro c hc
      rw [List.mem_singleton.1 hc]
      exact ⟨h.once, by simp⟩
    obtain ⟨a1, _, _⟩ := mrr_mean rank hr _ hd
    have hrec : recvIndices rank ⟨d.expected, [(e, s)]⟩ = [e] := by
      unfold recvIndices
      rw [List.perm_singleton.1 (hr [(e, s)]).1]
      rfl
    have hfil : d.expected.filter (· ∈ [e]) = [e] := by
      have h4 : (d.expected.filter (· ∈ [e])).Perm [e] := by
        rw [List.perm_ext_iff_of_nodup (h.once.filter _) (by simp)]
        intro a
        rw [List.mem_filter, decide_eq_true_eq, List.mem_singleton]
        exact ⟨fun h5 => h5.2, fun h5 => ⟨h5 ▸ he, h5⟩⟩
      exact List.perm_singleton.1 h4
    have hall : allRecips rank [⟨d.expected, [(e, s)]⟩] = [1] := by
      unfold allRecips recips
      rw [List.flatMap_singleton, hrec, hfil]
      simp
    rw [a1 (by rw [hall]; simp), hall]
    simp

theorem paired (docs docs' : List Doc) (hs : docs'.map Doc.expected = docs.map Doc.expected) (h : ∀ d ∈ docs', Perfect d) :
    List.Forall₂ (fun d d' => d'.expected = d.expected ∧ Perfect d') docs docs' := by
  have hl : docs.length = docs'.length := by
    have := congrArg List.length hs
    simpa using this.symm
  rw [List.forall₂_iff_get]
  refine ⟨hl, fun i h1 h2 => ⟨?_, h _ (List.get_mem _ _)⟩⟩
  have h3 : (docs'.map Doc.expected)[i]? = (docs.map Doc.expected)[i]? := by rw [hs]
  rw [List.getElem?_map, List.getElem?_map, List.getElem?_eq_getElem h1, List.getElem?_eq_getElem h2] at h3
  simpa using h3

/-! ## Mean average precision -/

theorem ap_perfect (hr : IsRanking rank) {d : Doc} (h : Perfect d) (he : d.expected ≠ []) : ap rank d = 1 := by
  have hs : d.stored ≠ [] := by
    obtain ⟨e, h1⟩ := List.exists_mem_of_ne_nil _ he
    have h2 := h.all e h1
    intro h0
    rw [h0] at h2
    simp at h2
  have h1 : meanAveragePrec rank [d] = .ok 1 := by
    refine map_perfect rank hr [d] (by simp) (by simpa using he) ?_ ?_
    · intro c hc e h2
      rw [List.mem_singleton.1 hc] at h2 ⊢
      obtain ⟨p, hp, h3⟩ := List.mem_map.1 (h.all e h2)
      exact ⟨p.2, h3 ▸ hp⟩
    · intro c hc x s e t h2 h3 h4 h5
      rw [List.mem_singleton.1 hc] at h2 h3 h4 h5
      exact h.ahead (e, t) h3 (x, s) h2 h4 h5
  rw [map_ok rank [d] (by simp) fun c hc _ h2 => hs ((recv_nil hr d).1 (List.mem_singleton.1 hc ▸ h2))] at h1
  simpa using h1

/-- **C327**: no prediction has a higher mean average precision than a perfect one. -/
theorem map_best (hr : IsRanking rank) (docs docs' : List Doc) (hs : docs'.map Doc.expected = docs.map Doc.expected) (h : ∀ d ∈ docs', Perfect d) (r : ℚ)
    (hm : meanAveragePrec rank docs = .ok r) : ∃ r', meanAveragePrec rank docs' = .ok r' ∧ r ≤ r' := by
  have hf := paired docs docs' hs h
  obtain ⟨hne, hall⟩ := (map_defined_iff rank hr docs).1.1 ⟨r, hm⟩
  have hne' : docs' ≠ [] := by
    intro h0
    rw [h0] at hf
    exact hne (List.forall₂_nil_right_iff.1 hf)
  have hall' : ∀ d ∈ docs', d.expected ≠ [] → d.stored ≠ [] := by
    intro d hd h1 h0
    obtain ⟨e, h2⟩ := List.exists_mem_of_ne_nil _ h1
    have h3 := (h d hd).all e h2
    rw [h0] at h3
    simp at h3
  rw [map_ok rank docs hne fun c hc h1 h2 => hall c hc h1 ((recv_nil hr c).1 h2)] at hm
  refine ⟨_, map_ok rank docs' hne' fun c hc h1 h2 => hall' c hc h1 ((recv_nil hr c).1 h2), ?_⟩
  rw [← Except.ok.inj hm, hf.length_eq]
  apply div_le_div_of_nonneg_right _ (by positivity)
  clear hs h hne hall hne' hall' hm
  induction hf with
  | nil => exact le_refl _
  | @cons d d' l l' h1 _ ih =>
    rw [List.map_cons, List.map_cons, List.sum_cons, List.sum_cons]
    refine add_le_add ?_ ih
    by_cases he : d.expected = []
    · have e1 : ap rank d = 0 := if_pos he
      have e2 : ap rank d' = 0 := if_pos (h1.1.trans he)
      rw [e1, e2]
    · rw [ap_perfect hr h1.2 (h1.1 ▸ he)]
      exact (ap_bounds rank d).2

/-! ## Precision and recall -/

theorem hits_le (d : Doc) (m : Nat) : hits rank d m ≤ min (m + 1) d.expected.length := by
  unfold hits
  refine le_min ?_ ?_
  · exact (Finset.card_le_card Finset.inter_subset_left).trans ((List.toFinset_card_le _).trans (List.length_take_le _ _))
  · exact (Finset.card_le_card Finset.inter_subset_right).trans (List.toFinset_card_le _)

theorem hits_perfect (hr : IsRanking rank) {d : Doc} (h : Perfect d) (m : Nat) : hits rank d m = min (m + 1) d.expected.length := by
  refine le_antisymm (hits_le d m) ?_
  obtain ⟨u, v, h1, h2⟩ := perfect_recv hr h
  have hu : u.Nodup := h2.nodup_iff.2 h.once
  unfold hits
  rw [h1, ← h2.length_eq, ← List.length_take, ← List.toFinset_card_of_nodup (hu.sublist (List.take_sublist _ _))]
  apply Finset.card_le_card
  intro e he
  rw [List.mem_toFinset] at he
  rw [Finset.mem_inter, List.mem_toFinset, List.mem_toFinset, List.take_append]
  exact ⟨List.mem_append_left _ he, h2.mem_iff.1 (List.mem_of_mem_take he)⟩

/-- **C327**: no prediction has a higher precision or recall than a perfect one, at any cut-off and in any group. -/
theorem prec_rec_best (hr : IsRanking rank) (docs docs' : List Doc) (hs : docs'.map Doc.expected = docs.map Doc.expected) (h : ∀ d ∈ docs', Perfect d)
    (ms : List Nat) (hms : ∀ m ∈ ms, 0 < m) (groups : Option (List Group))
    (hg : ∀ c ∈ docs, c.expected ≠ [] → (firstGroup (usedGroups groups) c.expected.length).isSome) :
    ∃ R R', meanPrecRecAt rank docs ms groups = .ok R ∧ meanPrecRecAt rank docs' ms groups = .ok R' ∧ R'.counts = R.counts
      ∧ ∀ g i, i < ms.length → R.precs g i ≤ R'.precs g i ∧ R.recs g i ≤ R'.recs g i := by
  have hf := paired docs docs' hs h
  have hg' : ∀ c ∈ docs', c.expected ≠ [] → (firstGroup (usedGroups groups) c.expected.length).isSome := by
    intro c hc
    have h1 : c.expected ∈ docs.map Doc.expected := hs ▸ List.mem_map_of_mem hc
    obtain ⟨b, hb, h2⟩ := List.mem_map.1 h1
    rw [← h2]
    exact hg b hb
  obtain ⟨R, e1, e2, e3, e4⟩ := prec_rec_closed rank ms hms groups docs hg
  obtain ⟨R', f1, f2, f3, f4⟩ := prec_rec_closed rank ms hms groups docs' hg'
  have hmem : ∀ g, List.Forall₂ (fun d d' => d'.expected = d.expected ∧ Perfect d') (members (usedGroups groups) docs g) (members (usedGroups groups) docs' g) := by
    intro g
    unfold members
    clear hs h hg hg' e1 e2 e3 e4 f1 f2 f3 f4
    induction hf with
    | nil => exact List.Forall₂.nil
    | @cons d d' l l' h1 _ ih =>
      rw [List.filter_cons, List.filter_cons, h1.1]
      split
      · exact List.Forall₂.cons h1 ih
      · exact ih
  have mean : ∀ g (f : Doc → ℚ), (∀ d d' : Doc, d'.expected = d.expected ∧ Perfect d' → f d ≤ f d') →
      meanOver (members (usedGroups groups) docs g) f ≤ meanOver (members (usedGroups groups) docs' g) f := by
    intro g f hfd
    unfold meanOver
    rw [(hmem g).length_eq]
    apply div_le_div_of_nonneg_right _ (by positivity)
    have := hmem g
    generalize members (usedGroups groups) docs g = A at this
    generalize members (usedGroups groups) docs' g = B at this
    induction this with
    | nil => exact le_refl _
    | cons h1 _ ih =>
      rw [List.map_cons, List.map_cons, List.sum_cons, List.sum_cons]
      exact add_le_add (hfd _ _ h1) ih
  have hhits : ∀ m (d d' : Doc), d'.expected = d.expected ∧ Perfect d' → (hits rank d m : ℚ) ≤ hits rank d' m := by
    intro m d d' h1
    rw [hits_perfect hr h1.2, h1.1]
    exact_mod_cast hits_le d m
  refine ⟨R, R', e1, f1, funext fun g => by rw [e2, f2, (hmem g).length_eq], fun g i hi => ?_⟩
  have him : ms[i]? = some ms[i] := List.getElem?_eq_getElem hi
  rw [e3 g i _ him, e4 g i _ him, f3 g i _ him, f4 g i _ him]
  constructor
  · exact mean g _ fun d d' h1 => div_le_div_of_nonneg_right (hhits _ d d' h1) (by positivity)
  · refine mean g _ fun d d' h1 => ?_
    rw [h1.1]
    exact div_le_div_of_nonneg_right (hhits _ d d' h1) (by positivity)

/-! ## Example -/

/-- Two expected links and one other, which comes last -/
def exDoc : Doc := ⟨[4, 7], [(4, 9), (1, 2), (7, 8)]⟩

theorem exPerfect : Perfect exDoc := ⟨by decide, by decide +kernel, by decide +kernel, by decide +kernel⟩

example : ∃ r, meanReciprocalRank sortRank [exDoc] = .ok r ∧ r < 1 := (mrr_perfect_violation sortRank_isRanking exDoc exPerfect (by decide)).1

example : meanReciprocalRank sortRank [exDoc] = .ok (3 / 4) := by decide +kernel

example : ∃ r', meanReciprocalRank sortRank [exDoc] = .ok r' ∧ 5 / 12 ≤ r' :=
  mrr_best_partial sortRank_isRanking [⟨[4, 7], [(4, 2), (1, 9), (7, 8)]⟩] [exDoc] rfl (by simpa using exPerfect) (by decide +kernel) (by decide +kernel) _
    (by decide +kernel)

example : ∃ r', meanAveragePrec sortRank [exDoc] = .ok r' ∧ 7 / 12 ≤ r' :=
  map_best sortRank_isRanking [⟨[4, 7], [(4, 2), (1, 9), (7, 8)]⟩] [exDoc] rfl (by simpa using exPerfect) _ (by decide +kernel)

end Verif.Props.PerfectPrediction
