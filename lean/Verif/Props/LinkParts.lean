import Verif.Props.FoundPrediction

/-!
# The link scores of the parts of a corpus (C325)
-/

namespace Verif.Props.LinkParts

open Verif Verif.Evals
open Verif.Props.Evals Verif.Props.Ranking
open Verif.Props.FoundPrediction (foundLinks allRecips_length)

variable {rank : List (Nat × ℚ) → List (Nat × ℚ)}

/-- The mean of `r` and `s`, weighted with `m` and `n` -/
def weighted (m n : Nat) (r s : ℚ) : ℚ := (m * r + n * s) / ((m + n : Nat) : ℚ)

/-- A weighted mean lies between its arguments. -/
theorem weighted_between (m n : Nat) (r s : ℚ) (h : m + n ≠ 0) : min r s ≤ weighted m n r s ∧ weighted m n r s ≤ max r s := by
  unfold weighted
  have h0 : (0 : ℚ) < ((m + n : Nat) : ℚ) := by exact_mod_cast Nat.pos_of_ne_zero h
  rw [le_div_iff₀ h0, div_le_iff₀ h0]
  push_cast
  have hm : (0 : ℚ) ≤ m := Nat.cast_nonneg m
  have hn : (0 : ℚ) ≤ n := Nat.cast_nonneg n
  constructor
  · have h1 := mul_le_mul_of_nonneg_left (min_le_left r s) hm
    have h2 := mul_le_mul_of_nonneg_left (min_le_right r s) hn
    linarith
  · have h1 := mul_le_mul_of_nonneg_left (le_max_left r s) hm
    have h2 := mul_le_mul_of_nonneg_left (le_max_right r s) hn
    linarith

/-- **C325**: the mean average precision of a corpus is the mean of those of its parts, weighted with their numbers of documents. -/
theorem map_parts (hr : IsRanking rank) (a b : List Doc) (r s : ℚ) (ha : meanAveragePrec rank a = .ok r) (hb : meanAveragePrec rank b = .ok s) :
    meanAveragePrec rank (a ++ b) = .ok (weighted a.length b.length r s) ∧ min r s ≤ weighted a.length b.length r s
      ∧ weighted a.length b.length r s ≤ max r s := by
  obtain ⟨na, da⟩ := (map_defined_iff rank hr a).1.1 ⟨r, ha⟩
  obtain ⟨nb, db⟩ := (map_defined_iff rank hr b).1.1 ⟨s, hb⟩
  have la : a.length ≠ 0 := fun h => na (List.length_eq_zero_iff.1 h)
  have lb : b.length ≠ 0 := fun h => nb (List.length_eq_zero_iff.1 h)
  refine ⟨?_, weighted_between _ _ _ _ (by omega)⟩
  rw [map_ok rank a na fun c hc h1 h2 => da c hc h1 ((recv_nil hr c).1 h2)] at ha
  rw [map_ok rank b nb fun c hc h1 h2 => db c hc h1 ((recv_nil hr c).1 h2)] at hb
  rw [map_ok rank (a ++ b) (by simp [na]) fun c hc h1 h2 => (List.mem_append.1 hc).elim (fun h3 => da c h3 h1 ((recv_nil hr c).1 h2))
    fun h3 => db c h3 h1 ((recv_nil hr c).1 h2), ← Except.ok.inj ha, ← Except.ok.inj hb]
  unfold weighted
  have la' : (a.length : ℚ) ≠ 0 := Nat.cast_ne_zero.2 la
  have lb' : (b.length : ℚ) ≠ 0 := Nat.cast_ne_zero.2 lb
  rw [mul_div_cancel₀ _ la', mul_div_cancel₀ _ lb', List.map_append, List.sum_append, List.length_append]

theorem allRecips_append (a b : List Doc) : allRecips rank (a ++ b) = allRecips rank a ++ allRecips rank b := by
  unfold allRecips
  rw [List.flatMap_append]

/-- **C325**: the mean reciprocal rank of a corpus is the mean of those of its parts, weighted with their numbers of expected links that
are predicted. -/
theorem mrr_parts (hr : IsRanking rank) (a b : List Doc) (hn : ∀ c ∈ a ++ b, c.expected.Nodup ∧ (c.stored.map Prod.fst).Nodup) (r s : ℚ)
    (ha : meanReciprocalRank rank a = .ok r) (hb : meanReciprocalRank rank b = .ok s) :
    meanReciprocalRank rank (a ++ b) = .ok (weighted (foundLinks a) (foundLinks b) r s) ∧ min r s ≤ weighted (foundLinks a) (foundLinks b) r s
      ∧ weighted (foundLinks a) (foundLinks b) r s ≤ max r s := by
  obtain ⟨a1, a2, _⟩ := mrr_mean rank hr a fun c hc => hn c (List.mem_append_left _ hc)
  obtain ⟨b1, b2, _⟩ := mrr_mean rank hr b fun c hc => hn c (List.mem_append_right _ hc)
  obtain ⟨c1, _, _⟩ := mrr_mean rank hr (a ++ b) hn
  have na : allRecips rank a ≠ [] := by
    intro h
    rw [a2 h] at ha
    cases ha
  have nb : allRecips rank b ≠ [] := by
    intro h
    rw [b2 h] at hb
    cases hb
  have la : foundLinks a ≠ 0 := by rwa [← allRecips_length hr, Ne, List.length_eq_zero_iff]
  have lb : foundLinks b ≠ 0 := by rwa [← allRecips_length hr, Ne, List.length_eq_zero_iff]
  refine ⟨?_, weighted_between _ _ _ _ (by omega)⟩
  rw [a1 na, allRecips_length hr] at ha
  rw [b1 nb, allRecips_length hr] at hb
  rw [c1 (by rw [allRecips_append]; simp [na]), allRecips_append, List.sum_append, List.length_append, allRecips_length hr, allRecips_length hr,
    ← Except.ok.inj ha, ← Except.ok.inj hb]
  unfold weighted
  rw [mul_div_cancel₀ _ (Nat.cast_ne_zero.2 la), mul_div_cancel₀ _ (Nat.cast_ne_zero.2 lb)]

/-- **C325**: a part in which no expected link is predicted has no mean reciprocal rank, and leaves that of the other part as it is. -/
theorem mrr_part_without (hr : IsRanking rank) (a b : List Doc) (hn : ∀ c ∈ a ++ b, c.expected.Nodup ∧ (c.stored.map Prod.fst).Nodup)
    (h : foundLinks a = 0) : meanReciprocalRank rank a = .error .zeroDivisionError ∧ meanReciprocalRank rank (a ++ b) = meanReciprocalRank rank b
      ∧ meanReciprocalRank rank (b ++ a) = meanReciprocalRank rank b := by
  have hna : ∀ c ∈ a, c.expected.Nodup ∧ (c.stored.map Prod.fst).Nodup := fun c hc => hn c (List.mem_append_left _ hc)
  have hnb : ∀ c ∈ b, c.expected.Nodup ∧ (c.stored.map Prod.fst).Nodup := fun c hc => hn c (List.mem_append_right _ hc)
  obtain ⟨_, a2, _⟩ := mrr_mean rank hr a hna
  obtain ⟨b1, b2, _⟩ := mrr_mean rank hr b hnb
  obtain ⟨c1, c2, _⟩ := mrr_mean rank hr (a ++ b) hn
  obtain ⟨d1, d2, _⟩ := mrr_mean rank hr (b ++ a) fun c hc => (List.mem_append.1 hc).elim (hnb c) (hna c)
  have na : allRecips rank a = [] := List.length_eq_zero_iff.1 (by rw [allRecips_length hr, h])
  have ec : allRecips rank (a ++ b) = allRecips rank b := by rw [allRecips_append, na, List.nil_append]
  have ed : allRecips rank (b ++ a) = allRecips rank b := by rw [allRecips_append, na, List.append_nil]
  rw [ec] at c1 c2
  rw [ed] at d1 d2
  refine ⟨a2 na, ?_, ?_⟩
  · by_cases nb : allRecips rank b = []
    · rw [c2 nb, b2 nb]
    · rw [c1 nb, b1 nb]
  · by_cases nb : allRecips rank b = []
    · rw [d2 nb, b2 nb]
    · rw [d1 nb, b1 nb]

theorem meanOver_append (p q : List Doc) (f : Doc → ℚ) : meanOver (p ++ q) f = weighted p.length q.length (meanOver p f) (meanOver q f) := by
  have key : ∀ l : List Doc, (l.length : ℚ) * meanOver l f = (l.map f).sum := by
    intro l
    unfold meanOver
    rcases l with _ | ⟨c, l⟩
    · simp
    · rw [show max 1 (c :: l).length = (c :: l).length from max_eq_right (by simp)]
      exact mul_div_cancel₀ _ (Nat.cast_ne_zero.2 (by simp))
  unfold weighted
  rw [key, key, ← List.sum_append, ← List.map_append, ← List.length_append]
  unfold meanOver
  rcases h : p ++ q with _ | ⟨c, l⟩
  · simp
  · rw [show max 1 (c :: l).length = (c :: l).length from max_eq_right (by simp)]

/-- **C325**: precision and recall of a corpus, at any cut-off and in any group, are the means of those of its parts, weighted with their
numbers of documents in the group. -/
theorem prec_rec_link_parts (a b : List Doc) (ms : List Nat) (hms : ∀ m ∈ ms, 0 < m) (groups : Option (List Group))
    (hg : ∀ c ∈ a ++ b, c.expected ≠ [] → (firstGroup (usedGroups groups) c.expected.length).isSome) :
    ∃ A B R, meanPrecRecAt rank a ms groups = .ok A ∧ meanPrecRecAt rank b ms groups = .ok B ∧ meanPrecRecAt rank (a ++ b) ms groups = .ok R
      ∧ (∀ g, R.counts g = A.counts g + B.counts g)
      ∧ ∀ g i, i < ms.length → R.precs g i = weighted (A.counts g) (B.counts g) (A.precs g i) (B.precs g i)
        ∧ R.recs g i = weighted (A.counts g) (B.counts g) (A.recs g i) (B.recs g i) := by
  obtain ⟨A, a1, a2, a3, a4⟩ := prec_rec_closed rank ms hms groups a fun c hc => hg c (List.mem_append_left _ hc)
  obtain ⟨B, b1, b2, b3, b4⟩ := prec_rec_closed rank ms hms groups b fun c hc => hg c (List.mem_append_right _ hc)
  obtain ⟨R, r1, r2, r3, r4⟩ := prec_rec_closed rank ms hms groups (a ++ b) hg
  have hmem : ∀ g, members (usedGroups groups) (a ++ b) g = members (usedGroups groups) a g ++ members (usedGroups groups) b g := by
    intro g
    unfold members
    rw [List.filter_append]
  refine ⟨A, B, R, a1, b1, r1, fun g => by rw [r2, a2, b2, hmem, List.length_append], fun g i hi => ?_⟩
  have him : ms[i]? = some ms[i] := List.getElem?_eq_getElem hi
  rw [r3 g i _ him, r4 g i _ him, a3 g i _ him, a4 g i _ him, b3 g i _ him, b4 g i _ him, a2, b2, hmem]
  exact ⟨meanOver_append _ _ _, meanOver_append _ _ _⟩

/-! ## Example -/

/-- A document whose links are both found, with another between them -/
def exA : Doc := ⟨[4, 7], [(4, 9), (1, 8), (7, 2)]⟩

/-- A document whose link is ranked second -/
def exB : Doc := ⟨[3], [(3, 1), (5, 2)]⟩

example : meanAveragePrec sortRank [exA, exB, exB] = .ok (weighted 1 2 (5 / 6) (1 / 2)) :=
  (map_parts sortRank_isRanking [exA] [exB, exB] _ _ (by decide +kernel) (by decide +kernel)).1

example : meanReciprocalRank sortRank [exA, exB, exB] = .ok (weighted 2 2 (2 / 3) (1 / 2)) :=
  (mrr_parts sortRank_isRanking [exA] [exB, exB] (by decide +kernel) _ _ (by decide +kernel) (by decide +kernel)).1

example : ∃ A B R, meanPrecRecAt sortRank [exA] [1, 2] (some [(0, 5)]) = .ok A ∧ meanPrecRecAt sortRank [exB] [1, 2] (some [(0, 5)]) = .ok B
    ∧ meanPrecRecAt sortRank [exA, exB] [1, 2] (some [(0, 5)]) = .ok R ∧ R.precs allGroups 1 = weighted 1 1 (A.precs allGroups 1) (B.precs allGroups 1) := by
  have hg : ∀ c ∈ [exA] ++ [exB], c.expected ≠ [] → (firstGroup (usedGroups (some [(0, 5)])) c.expected.length).isSome := by decide +kernel
  obtain ⟨A, B, R, h1, h2, h3, _, h4⟩ := prec_rec_link_parts (rank := sortRank) [exA] [exB] [1, 2] (by decide) (some [(0, 5)]) hg
  have c1 : A.counts allGroups = 1 := by
    obtain ⟨A', e1, e2, _⟩ := prec_rec_closed sortRank [1, 2] (by decide) (some [(0, 5)]) [exA] (by decide +kernel)
    rw [h1] at e1
    rw [Except.ok.inj e1, e2]
    decide +kernel
  have c2 : B.counts allGroups = 1 := by
    obtain ⟨A', e1, e2, _⟩ := prec_rec_closed sortRank [1, 2] (by decide) (some [(0, 5)]) [exB] (by decide +kernel)
    rw [h2] at e1
    rw [Except.ok.inj e1, e2]
    decide +kernel
  refine ⟨A, B, R, h1, h2, h3, ?_⟩
  rw [(h4 allGroups 1 (by decide)).1, c1, c2]

end Verif.Props.LinkParts
