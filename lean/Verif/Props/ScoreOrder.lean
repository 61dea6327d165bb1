import Verif.Props.Ranking

/-!
# The order of the scores of predicted links (C326)
-/

namespace Verif.Props.ScoreOrder

open Verif Verif.Evals Verif.Props.Evals

variable {rank : List (Nat × ℚ) → List (Nat × ℚ)}

/-- In `d'` the same links are predicted as in `d`, with other scores in the same order. -/
structure SameOrder (d d' : Doc) : Prop where
  expected : d'.expected = d.expected
  stored : ∃ f : ℚ → ℚ, d'.stored = d.stored.map (fun p => (p.1, f p.2)) ∧ ∀ p ∈ d.stored, ∀ q ∈ d.stored, p.2 < q.2 → f p.2 < f q.2
  distinct : ∀ p ∈ d.stored, ∀ q ∈ d.stored, p.2 = q.2 → p = q

theorem recv_same (hr : IsRanking rank) {d d' : Doc} (h : SameOrder d d') : recvIndices rank d' = recvIndices rank d := by
  obtain ⟨f, h1, h2⟩ := h.stored
  have hmono : ∀ p ∈ d.stored, ∀ q ∈ d.stored, p.2 ≤ q.2 → f p.2 ≤ f q.2 := by
    intro p hp q hq hpq
    rcases hpq.lt_or_eq with h3 | h3
    · exact (h2 p hp q hq h3).le
    · rw [h3]
  have hp := (hr d.stored).1
  have key : rank d'.stored = (rank d.stored).map (fun p => (p.1, f p.2)) := by
    apply List.Perm.eq_of_pairwise (le := fun a b => b.2 ≤ a.2)
    · intro p q hp' hq h3 h4
      have hp2 := (hr _).1.mem_iff.1 hp'
      rw [h1] at hp2
      obtain ⟨u, hu, rfl⟩ := List.mem_map.1 hp2
      obtain ⟨v, hv, rfl⟩ := List.mem_map.1 hq
      have hv' := hp.mem_iff.1 hv
      have huv : u = v := by
        apply h.distinct u hu v hv'
        rcases lt_trichotomy u.2 v.2 with h5 | h5 | h5
        · exact absurd (h2 u hu v hv' h5) (not_lt.2 h3)
        · exact h5
        · exact absurd (h2 v hv' u hu h5) (not_lt.2 h4)
      rw [huv]
    · exact (hr _).2
    · rw [List.pairwise_map]
      exact (hr d.stored).2.imp_of_mem fun hu hv h3 => hmono _ (hp.mem_iff.1 hv) _ (hp.mem_iff.1 hu) h3
    · refine (hr _).1.trans ?_
      rw [h1]
      exact (hp.map _).symm
  unfold recvIndices
  rw [key, List.map_map]
  rfl

/-- **C326**: the scores of predicted links, and whether they are defined, depend on the order of the predictions only. -/
theorem only_order_matters (hr : IsRanking rank) {docs docs' : List Doc} (h : List.Forall₂ SameOrder docs docs') :
    meanAveragePrec rank docs' = meanAveragePrec rank docs ∧ meanReciprocalRank rank docs' = meanReciprocalRank rank docs
      ∧ ∀ ms groups, meanPrecRecAt rank docs' ms groups = meanPrecRecAt rank docs ms groups := by
  refine ⟨?_, ?_, fun ms groups => ?_⟩
  · have key : ∀ s, docs'.foldlM (apDoc rank) s = docs.foldlM (apDoc rank) s := by
      induction h with
      | nil => exact fun _ => rfl
      | @cons d d' l l' h1 _ ih =>
        intro s
        have e : apDoc rank s d' = apDoc rank s d := by
          unfold apDoc
          rw [recv_same hr h1, h1.expected]
        rw [List.foldlM_cons, List.foldlM_cons, e]
        exact congrArg _ (funext ih)
    unfold meanAveragePrec
    rw [key, h.length_eq]
  · have key : ∀ acc, docs'.foldl (fun acc d => if d.expected.length = 0 then acc else mrrOuter 0 (recvIndices rank d) d.expected acc) acc
        = docs.foldl (fun acc d => if d.expected.length = 0 then acc else mrrOuter 0 (recvIndices rank d) d.expected acc) acc := by
      induction h with
      | nil => exact fun _ => rfl
      | @cons d d' l l' h1 _ ih =>
        intro acc
        rw [List.foldl_cons, List.foldl_cons, recv_same hr h1, h1.expected]
        exact ih _
    unfold meanReciprocalRank
    rw [key]
  · have key : ∀ s, docs'.foldlM (docStep rank ms (usedGroups groups)) s = docs.foldlM (docStep rank ms (usedGroups groups)) s := by
      induction h with
      | nil => exact fun _ => rfl
      | @cons d d' l l' h1 _ ih =>
        intro s
        have e : docStep rank ms (usedGroups groups) s d' = docStep rank ms (usedGroups groups) s d := by
          unfold docStep
          rw [recv_same hr h1, h1.expected]
        rw [List.foldlM_cons, List.foldlM_cons, e]
        exact congrArg _ (funext ih)
    unfold meanPrecRecAt
    rw [key]

/-- **C326** for one rule applied to all scores: any strictly increasing function leaves the scores of the links as they are. -/
theorem increasing_scores (hr : IsRanking rank) (f : ℚ → ℚ) (hf : StrictMono f) (docs : List Doc)
    (hd : ∀ d ∈ docs, ∀ p ∈ d.stored, ∀ q ∈ d.stored, p.2 = q.2 → p = q) :
    let docs' := docs.map fun d => ⟨d.expected, d.stored.map fun p => (p.1, f p.2)⟩
    meanAveragePrec rank docs' = meanAveragePrec rank docs ∧ meanReciprocalRank rank docs' = meanReciprocalRank rank docs
      ∧ ∀ ms groups, meanPrecRecAt rank docs' ms groups = meanPrecRecAt rank docs ms groups := by
  apply only_order_matters hr
  rw [List.forall₂_map_right_iff, List.forall₂_same]
  exact fun d h => ⟨rfl, ⟨f, rfl, fun _ _ _ _ h1 => hf h1⟩, hd d h⟩

/-! ## Example -/

/-- Three links, two of them expected; twice the score plus one -/
example : meanAveragePrec sortRank [⟨[4, 7], [(4, 19), (1, 17), (7, 5)]⟩] = meanAveragePrec sortRank [⟨[4, 7], [(4, 9), (1, 8), (7, 2)]⟩] := by
  have := (increasing_scores sortRank_isRanking (fun x => 2 * x + 1) (fun a b h => by simp only; linarith) [⟨[4, 7], [(4, 9), (1, 8), (7, 2)]⟩]
    (by decide +kernel)).1
  norm_num at this
  exact this

/-- The scores in the other order give another result. -/
example : meanAveragePrec sortRank [⟨[4, 7], [(4, 9), (1, 8), (7, 2)]⟩] = .ok (5 / 6)
    ∧ meanAveragePrec sortRank [⟨[4, 7], [(4, 2), (1, 8), (7, 9)]⟩] = .ok (5 / 6)
    ∧ meanAveragePrec sortRank [⟨[4, 7], [(4, 2), (1, 9), (7, 8)]⟩] = .ok (7 / 12) := by decide +kernel

end Verif.Props.ScoreOrder
