import Verif.Props.Ranking

/-!
# Renumbering documents in the evaluation of links (C308)
-/

namespace Verif.Props.RenumberScores

open Verif Verif.Evals
open Verif.Props.Evals Verif.Props.Ranking

/-- The same links and scores with other numbers `σ` for the documents, stored in any order -/
structure Renamed (σ : Equiv.Perm Nat) (d d' : Doc) : Prop where
  expected : d'.expected.Perm (d.expected.map σ)
  stored : d'.stored.Perm (d.stored.map fun p => (σ p.1, p.2))

/-- The same for all documents, which may come in another order -/
def RenamedAll (σ : Equiv.Perm Nat) (docs docs' : List Doc) : Prop := ∃ l, List.Forall₂ (Renamed σ) docs l ∧ l.Perm docs'

/-- No two scores of a document are equal. -/
def Distinct (d : Doc) : Prop := ∀ p ∈ d.stored, ∀ q ∈ d.stored, p.2 = q.2 → p = q

variable {σ : Equiv.Perm Nat} {rank : List (Nat × ℚ) → List (Nat × ℚ)} {d d' : Doc} {docs docs' : List Doc}

theorem recv_eq (hr : IsRanking rank) (h : Renamed σ d d') (hd : Distinct d) : recvIndices rank d' = (recvIndices rank d).map σ := by
  have h1 : rank d'.stored = (rank d.stored).map fun p => (σ p.1, p.2) := by
    apply List.Perm.eq_of_pairwise (le := fun a b => b.2 ≤ a.2)
    · intro a b ha hb h1 h2
      obtain ⟨a', ha', rfl⟩ := List.mem_map.1 (h.stored.mem_iff.1 ((hr _).1.mem_iff.1 ha))
      obtain ⟨b', hb', rfl⟩ := List.mem_map.1 hb
      rw [hd a' ha' b' ((hr _).1.mem_iff.1 hb') (le_antisymm h2 h1)]
    · exact (hr _).2
    · exact List.Pairwise.map _ (fun _ _ h => h) (hr d.stored).2
    · exact (hr _).1.trans (h.stored.trans ((hr d.stored).1.map _).symm)
  unfold recvIndices
  rw [h1, List.map_map, List.map_map]
  rfl

theorem expt_eq (h : Renamed σ d d') : d'.expected.toFinset = d.expected.toFinset.map σ.toEmbedding := by
  ext a
  rw [List.mem_toFinset, h.expected.mem_iff, Finset.mem_map]
  simp

theorem take_eq (l : List Nat) (n : Nat) : ((l.map σ).take n).toFinset = (l.take n).toFinset.map σ.toEmbedding := by
  ext a
  rw [List.mem_toFinset, ← List.map_take, List.mem_map, Finset.mem_map]
  simp only [List.mem_toFinset, Equiv.coe_toEmbedding]

theorem findPos_map (e : Nat) (l : List Nat) : findPos (σ e) (l.map σ) = findPos e l := by
  induction l with
  | nil => rfl
  | cons x l ih =>
    show (if σ x ≠ σ e then findPos (σ e) (l.map σ) + 1 else 0) = if x ≠ e then findPos e l + 1 else 0
    rw [ih]
    simp

theorem precTerm_map (l : List Nat) (s : Finset Nat) (e : Nat) : precTerm (l.map σ) (s.map σ.toEmbedding) (σ e) = precTerm l s e := by
  unfold precTerm
  rw [findPos_map, take_eq, ← Finset.map_inter, Finset.card_map, Finset.card_map]

theorem ap_eq (hr : IsRanking rank) (h : Renamed σ d d') (hd : Distinct d) : ap rank d' = ap rank d := by
  have h0 : d'.expected = [] ↔ d.expected = [] := by
    rw [← List.length_eq_zero_iff, h.expected.length_eq, List.length_map, List.length_eq_zero_iff]
  unfold ap
  simp only [h0]
  split
  · rfl
  · rw [recv_eq hr h hd, expt_eq h, h.expected.length_eq, List.length_map, (h.expected.map _).sum_eq, List.map_map]
    congr 3
    funext e
    exact precTerm_map _ _ _

theorem hits_eq (hr : IsRanking rank) (h : Renamed σ d d') (hd : Distinct d) (m : Nat) : hits rank d' m = hits rank d m := by
  unfold hits
  rw [recv_eq hr h hd, expt_eq h, take_eq, ← Finset.map_inter, Finset.card_map]

theorem idxOf_map (e : Nat) (l : List Nat) : (l.map σ).idxOf (σ e) = l.idxOf e := by
  induction l with
  | nil => rfl
  | cons x l ih =>
    rw [List.map_cons, List.idxOf_cons, List.idxOf_cons, ih]
    have : (σ x == σ e) = (x == e) := by
      rw [Bool.eq_iff_iff, beq_iff_eq, beq_iff_eq, σ.apply_eq_iff_eq]
    rw [this]

theorem recips_eq (hr : IsRanking rank) (h : Renamed σ d d') (hd : Distinct d) :
    (recips (recvIndices rank d') d'.expected).Perm (recips (recvIndices rank d) d.expected) := by
  unfold recips
  rw [recv_eq hr h hd]
  refine ((h.expected.filter _).map _).trans (List.Perm.of_eq ?_)
  rw [List.filter_map, List.map_map]
  have h1 : ((fun a => decide (a ∈ (recvIndices rank d).map σ)) ∘ σ) = fun a => decide (a ∈ recvIndices rank d) := by
    funext a
    simp
  rw [h1]
  refine List.map_congr_left fun e _ => ?_
  show 1 / ((((recvIndices rank d).map σ).idxOf (σ e) : ℚ) + 1) = _
  rw [idxOf_map]

/-- What follows the documents one by one is, over all documents, the same up to order. -/
theorem all_perm {β : Type} (f : Doc → β) (h : RenamedAll σ docs docs') (hf : ∀ d ∈ docs, ∀ d', Renamed σ d d' → f d' = f d) :
    (docs'.map f).Perm (docs.map f) := by
  obtain ⟨l, h1, h2⟩ := h
  refine (h2.symm.map f).trans (List.Perm.of_eq ?_)
  clear h2
  induction h1 with
  | nil => rfl
  | cons h _ ih => rw [List.map_cons, List.map_cons, hf _ (by simp) _ h, ih fun d hd => hf d (by simp [hd])]

theorem all_mem (h : RenamedAll σ docs docs') : ∀ d' ∈ docs', ∃ d ∈ docs, Renamed σ d d' := by
  obtain ⟨l, h1, h2⟩ := h
  intro d' hd'
  have h3 := h2.mem_iff.2 hd'
  clear h2 hd'
  induction h1 with
  | nil => cases h3
  | cons h _ ih =>
    rcases List.mem_cons.1 h3 with rfl | h3
    · exact ⟨_, by simp, h⟩
    · obtain ⟨d, hd, h4⟩ := ih h3
      exact ⟨d, by simp [hd], h4⟩

theorem all_back (h : RenamedAll σ docs docs') : ∀ d ∈ docs, ∃ d' ∈ docs', Renamed σ d d' := by
  obtain ⟨l, h1, h2⟩ := h
  have key : ∀ d ∈ docs, ∃ d' ∈ l, Renamed σ d d' := by
    clear h2
    induction h1 with
    | nil => exact fun d hd => by cases hd
    | cons h _ ih =>
      intro d hd
      rcases List.mem_cons.1 hd with rfl | hd
      · exact ⟨_, by simp, h⟩
      · obtain ⟨d', hd', h4⟩ := ih d hd
        exact ⟨d', by simp [hd'], h4⟩
  intro d hd
  obtain ⟨d', hd', h4⟩ := key d hd
  exact ⟨d', h2.mem_iff.1 hd', h4⟩

theorem nil_iff (h : Renamed σ d d') : (d'.expected = [] ↔ d.expected = []) ∧ (d'.stored = [] ↔ d.stored = []) := by
  constructor
  · rw [← List.length_eq_zero_iff, h.expected.length_eq, List.length_map, List.length_eq_zero_iff]
  · rw [← List.length_eq_zero_iff, h.stored.length_eq, List.length_map, List.length_eq_zero_iff]

theorem docs_length (h : RenamedAll σ docs docs') : docs'.length = docs.length := by
  obtain ⟨l, h1, h2⟩ := h
  rw [← h2.length_eq, h1.length_eq]

/-- **C308** (with distinct scores): mean average precision does not depend on the numbers and the order of the documents.  Missing: documents with
links of equal scores. -/
theorem map_same_partial (hr : IsRanking rank) (h : RenamedAll σ docs docs') (hd : ∀ d ∈ docs, Distinct d) :
    meanAveragePrec rank docs' = meanAveragePrec rank docs := by
  have h0 : docs' = [] ↔ docs = [] := by rw [← List.length_eq_zero_iff, docs_length h, List.length_eq_zero_iff]
  have hc : (docs' ≠ [] ∧ ∀ d ∈ docs', d.expected ≠ [] → d.stored ≠ []) ↔ docs ≠ [] ∧ ∀ d ∈ docs, d.expected ≠ [] → d.stored ≠ [] := by
    refine and_congr (not_congr h0) ⟨fun h1 d hm => ?_, fun h1 d' hm => ?_⟩
    · obtain ⟨d', hm', h2⟩ := all_back h d hm
      have := h1 d' hm'
      rwa [ne_eq, ne_eq, (nil_iff h2).1, (nil_iff h2).2] at this
    · obtain ⟨d, hm', h2⟩ := all_mem h d' hm
      have := h1 d hm'
      rwa [ne_eq, ne_eq, (nil_iff h2).1, (nil_iff h2).2]
  by_cases hok : docs ≠ [] ∧ ∀ d ∈ docs, d.expected ≠ [] → d.stored ≠ []
  · have hok' := hc.2 hok
    rw [map_ok rank docs hok.1 fun d hm h1 h2 => hok.2 d hm h1 ((recv_nil hr d).1 h2),
      map_ok rank docs' hok'.1 fun d hm h1 h2 => hok'.2 d hm h1 ((recv_nil hr d).1 h2),
      (all_perm (ap rank) h fun d hm d' h1 => ap_eq hr h1 (hd d hm)).sum_eq, docs_length h]
  · have h1 := map_defined_iff rank hr docs
    have h2 := map_defined_iff rank hr docs'
    rw [h1.2 fun h3 => hok (h1.1.1 h3), h2.2 fun h3 => hok (hc.1 (h2.1.1 h3))]

/-- **C308** (with distinct scores): the mean reciprocal rank does not depend on the numbers and the order of the documents. -/
theorem mrr_same_partial (hr : IsRanking rank) (h : RenamedAll σ docs docs') (hd : ∀ d ∈ docs, Distinct d)
    (hn : ∀ d ∈ docs, d.expected.Nodup ∧ (d.stored.map Prod.fst).Nodup) :
    meanReciprocalRank rank docs' = meanReciprocalRank rank docs := by
  have hn' : ∀ d' ∈ docs', d'.expected.Nodup ∧ (d'.stored.map Prod.fst).Nodup := by
    intro d' hm
    obtain ⟨d, hm', h1⟩ := all_mem h d' hm
    refine ⟨h1.expected.nodup_iff.2 ((List.nodup_map_iff σ.injective).2 (hn d hm').1), (h1.stored.map Prod.fst).nodup_iff.2 ?_⟩
    rw [List.map_map]
    have : (Prod.fst ∘ fun p : Nat × ℚ => (σ p.1, p.2)) = σ ∘ Prod.fst := rfl
    rw [this, ← List.map_map]
    exact (List.nodup_map_iff σ.injective).2 (hn d hm').2
  have hp : (allRecips rank docs').Perm (allRecips rank docs) := by
    obtain ⟨l, h1, h2⟩ := h
    unfold allRecips
    refine (h2.symm.flatMap_right _).trans ?_
    clear h2 hn hn'
    induction h1 with
    | nil => exact List.Perm.refl _
    | cons h _ ih =>
      rw [List.flatMap_cons, List.flatMap_cons]
      exact (recips_eq hr h (hd _ (by simp))).append (ih fun d hm => hd d (by simp [hm]))
  obtain ⟨a1, a2, _⟩ := mrr_mean rank hr docs hn
  obtain ⟨b1, b2, _⟩ := mrr_mean rank hr docs' hn'
  have h0 : allRecips rank docs' = [] ↔ allRecips rank docs = [] := by
    rw [← List.length_eq_zero_iff, hp.length_eq, List.length_eq_zero_iff]
  by_cases he : allRecips rank docs = []
  · rw [a2 he, b2 (h0.2 he)]
  · rw [a1 he, b1 fun h1 => he (h0.1 h1), hp.sum_eq, hp.length_eq]

/-- **C308** (with distinct scores): precision, recall and counts by group do not depend on the numbers and the order of the documents. -/
theorem prec_rec_same_partial (hr : IsRanking rank) (h : RenamedAll σ docs docs') (hd : ∀ d ∈ docs, Distinct d) (ms : List Nat)
    (hms : ∀ m ∈ ms, 0 < m) (groups : Option (List Group))
    (hg : ∀ d ∈ docs, d.expected ≠ [] → (firstGroup (usedGroups groups) d.expected.length).isSome) :
    ∃ R R', meanPrecRecAt rank docs ms groups = .ok R ∧ meanPrecRecAt rank docs' ms groups = .ok R' ∧ R'.counts = R.counts
      ∧ ∀ g i, i < ms.length → R'.precs g i = R.precs g i ∧ R'.recs g i = R.recs g i := by
  have hlen : ∀ {d d'}, Renamed σ d d' → d'.expected.length = d.expected.length := fun h => by rw [h.expected.length_eq, List.length_map]
  have hg' : ∀ d' ∈ docs', d'.expected ≠ [] → (firstGroup (usedGroups groups) d'.expected.length).isSome := by
    intro d' hm h1
    obtain ⟨d, hm', h2⟩ := all_mem h d' hm
    rw [hlen h2]
    exact hg d hm' fun h3 => h1 ((nil_iff h2).1.2 h3)
  obtain ⟨R, e1, e2, e3, e4⟩ := prec_rec_closed rank ms hms groups docs hg
  obtain ⟨R', f1, f2, f3, f4⟩ := prec_rec_closed rank ms hms groups docs' hg'
  have hmem : ∀ g, RenamedAll σ (members (usedGroups groups) docs g) (members (usedGroups groups) docs' g) := by
    intro g
    obtain ⟨l, h1, h2⟩ := h
    refine ⟨members (usedGroups groups) l g, ?_, h2.filter _⟩
    clear h2 hg hd e1 e2 e3 e4
    induction h1 with
    | nil => exact List.Forall₂.nil
    | @cons a b l1 l2 h h1 ih =>
      have hab : (b.expected ≠ [] ∧ (g = allGroups ∨ firstGroup (usedGroups groups) b.expected.length = some g))
          ↔ (a.expected ≠ [] ∧ (g = allGroups ∨ firstGroup (usedGroups groups) a.expected.length = some g)) := by
        rw [hlen h, ne_eq, ne_eq, (nil_iff h).1]
      unfold members at ih ⊢
      rw [List.filter_cons, List.filter_cons]
      simp only [decide_eq_true_eq, hab]
      split
      · exact List.Forall₂.cons h ih
      · exact ih
  have hin : ∀ g, ∀ d ∈ members (usedGroups groups) docs g, d ∈ docs := fun g d hm => (members_expected hm).1
  refine ⟨R, R', e1, f1, ?_, fun g i hi => ⟨?_, ?_⟩⟩
  · funext g
    rw [e2, f2, docs_length (hmem g)]
  · rw [e3 g i ms[i] (List.getElem?_eq_getElem hi), f3 g i ms[i] (List.getElem?_eq_getElem hi)]
    unfold meanOver
    rw [(all_perm (fun d => (hits rank d ms[i] : ℚ) / (ms[i] : ℚ)) (hmem g) fun d hm d' h1 => by rw [hits_eq hr h1 (hd d (hin g d hm))]).sum_eq,
      docs_length (hmem g)]
  · rw [e4 g i ms[i] (List.getElem?_eq_getElem hi), f4 g i ms[i] (List.getElem?_eq_getElem hi)]
    unfold meanOver
    rw [(all_perm (fun d => (hits rank d ms[i] : ℚ) / (d.expected.toFinset.card : ℚ)) (hmem g) fun d hm d' h1 => by
      rw [hits_eq hr h1 (hd d (hin g d hm)), expt_eq h1, Finset.card_map]).sum_eq, docs_length (hmem g)]

/-- **C308** (violated): however the links are sorted by score, there are two corpora that differ in the numbers of the documents only, with different
mean average precisions and mean reciprocal ranks.  Two links have the same score; which comes first depends on the numbers. -/
theorem scores_depend_on_numbers (rank : List (Nat × ℚ) → List (Nat × ℚ)) (hr : IsRanking rank) :
    ∃ (σ : Equiv.Perm Nat) (docs docs' : List Doc), RenamedAll σ docs docs' ∧ meanAveragePrec rank docs = .ok 1 ∧ meanAveragePrec rank docs' = .ok (1 / 2)
      ∧ meanReciprocalRank rank docs = .ok 1 ∧ meanReciprocalRank rank docs' = .ok (1 / 2) := by
  have h1 : rank [(1, 5), (2, 5)] = [(1, 5), (2, 5)] ∨ rank [(1, 5), (2, 5)] = [(2, 5), (1, 5)] := by
    have h := (hr [(1, 5), (2, 5)]).1
    have h2 := h.length_eq
    match hl : rank [(1, 5), (2, 5)], h2 with
    | [a, b], _ =>
      rw [hl] at h
      have ha : a = (1, 5) ∨ a = (2, 5) := by simpa using h.mem_iff.1 (show a ∈ [a, b] by simp)
      rcases ha with rfl | rfl
      · left
        have := (List.perm_cons _).1 h
        rw [List.perm_singleton.1 this]
      · right
        have := (List.perm_cons _).1 (h.trans (List.Perm.swap _ _ _))
        rw [List.perm_singleton.1 this]
  have hswap : ∀ a b, (a = 1 ∧ b = 2) ∨ (a = 2 ∧ b = 1) →
      RenamedAll (Equiv.swap 1 2) [⟨[a], [(1, 5), (2, 5)]⟩] [⟨[b], [(1, 5), (2, 5)]⟩] := by
    intro a b hab
    refine ⟨_, List.Forall₂.cons ⟨?_, ?_⟩ List.Forall₂.nil, List.Perm.refl _⟩
    · rcases hab with ⟨rfl, rfl⟩ | ⟨rfl, rfl⟩ <;> exact List.Perm.of_eq rfl
    · exact List.Perm.swap _ _ _
  rcases h1 with h1 | h1
  · refine ⟨Equiv.swap 1 2, [⟨[1], [(1, 5), (2, 5)]⟩], [⟨[2], [(1, 5), (2, 5)]⟩], hswap 1 2 (Or.inl ⟨rfl, rfl⟩), ?_, ?_, ?_, ?_⟩
    all_goals
      simp only [meanAveragePrec, meanReciprocalRank, List.foldlM_cons, List.foldlM_nil, List.foldl_cons, List.foldl_nil, apDoc, recvIndices, h1]
      decide +kernel
  · refine ⟨Equiv.swap 1 2, [⟨[2], [(1, 5), (2, 5)]⟩], [⟨[1], [(1, 5), (2, 5)]⟩], hswap 2 1 (Or.inr ⟨rfl, rfl⟩), ?_, ?_, ?_, ?_⟩
    all_goals
      simp only [meanAveragePrec, meanReciprocalRank, List.foldlM_cons, List.foldlM_nil, List.foldl_cons, List.foldl_nil, apDoc, recvIndices, h1]
      decide +kernel

/-- The documents of `exDocs` with numbers 1 and 3 exchanged and in the other order -/
def exDocs' : List Doc := [⟨[4, 7], [(7, 2), (3, 3), (4, 9), (2, 0)]⟩, ⟨[1, 3], [(1, 4), (2, 1), (3, 5)]⟩]

theorem exDocs_renamed : RenamedAll (Equiv.swap 1 3) exDocs exDocs' :=
  ⟨[⟨[1, 3], [(1, 4), (2, 1), (3, 5)]⟩, ⟨[4, 7], [(7, 2), (3, 3), (4, 9), (2, 0)]⟩],
    List.Forall₂.cons ⟨by decide, by decide +kernel⟩ (List.Forall₂.cons ⟨by decide, by decide +kernel⟩ List.Forall₂.nil), List.Perm.swap _ _ _⟩

theorem exDocs_distinct : ∀ d ∈ exDocs, Distinct d := by
  unfold Distinct
  decide +kernel

example : meanAveragePrec sortRank exDocs' = .ok (11 / 12) := by
  rw [map_same_partial sortRank_isRanking exDocs_renamed exDocs_distinct]
  decide +kernel

example : meanReciprocalRank sortRank exDocs' = meanReciprocalRank sortRank exDocs :=
  mrr_same_partial sortRank_isRanking exDocs_renamed exDocs_distinct (by decide +kernel)

example : ∃ R R', meanPrecRecAt sortRank exDocs [1, 3] (some [(0, 2), (3, 9)]) = .ok R ∧ meanPrecRecAt sortRank exDocs' [1, 3] (some [(0, 2), (3, 9)]) = .ok R'
    ∧ R'.counts = R.counts ∧ ∀ g i, i < 2 → R'.precs g i = R.precs g i ∧ R'.recs g i = R.recs g i :=
  prec_rec_same_partial sortRank_isRanking exDocs_renamed exDocs_distinct [1, 3] (by decide) _ (by decide)

end Verif.Props.RenumberScores
