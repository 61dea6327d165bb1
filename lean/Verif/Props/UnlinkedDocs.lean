import Verif.Props.Evals

/-!
# Documents without expected links in the scores of predicted links (C321)
-/

namespace Verif.Props.UnlinkedDocs

open Verif Verif.Evals Verif.Props.Evals

/-- The documents that have expected links -/
def linked (docs : List Doc) : List Doc := docs.filter fun d => !d.expected.isEmpty

theorem linked_cons_none (d : Doc) (docs : List Doc) (h : d.expected = []) : linked (d :: docs) = linked docs := by
  unfold linked
  rw [List.filter_cons_of_neg (by simp [h])]

theorem linked_cons_some (d : Doc) (docs : List Doc) (h : d.expected ≠ []) : linked (d :: docs) = d :: linked docs := by
  unfold linked
  rw [List.filter_cons_of_pos (by simp [h])]

/-- **C321**: documents without expected links do not enter the mean reciprocal rank. -/
theorem mrr_unlinked (rank : List (Nat × ℚ) → List (Nat × ℚ)) (docs : List Doc) :
    meanReciprocalRank rank docs = meanReciprocalRank rank (linked docs) := by
  have : ∀ acc : ℚ × Nat, docs.foldl (fun acc d => if d.expected.length = 0 then acc else mrrOuter 0 (recvIndices rank d) d.expected acc) acc
      = (linked docs).foldl (fun acc d => if d.expected.length = 0 then acc else mrrOuter 0 (recvIndices rank d) d.expected acc) acc := by
    induction docs with
    | nil => exact fun _ => rfl
    | cons d docs ih =>
      intro acc
      by_cases h : d.expected = []
      · rw [linked_cons_none d docs h, List.foldl_cons, if_pos (by rw [h]; rfl), ih]
      · rw [linked_cons_some d docs h, List.foldl_cons, List.foldl_cons, ih]
  unfold meanReciprocalRank
  rw [this]

/-- **C321**: documents without expected links do not enter precision and recall, in any group. -/
theorem prec_rec_unlinked (rank : List (Nat × ℚ) → List (Nat × ℚ)) (docs : List Doc) (ms : List Nat) (groups : Option (List Group)) :
    meanPrecRecAt rank docs ms groups = meanPrecRecAt rank (linked docs) ms groups := by
  have : ∀ s : PrecRec, docs.foldlM (docStep rank ms (usedGroups groups)) s = (linked docs).foldlM (docStep rank ms (usedGroups groups)) s := by
    induction docs with
    | nil => exact fun _ => rfl
    | cons d docs ih =>
      intro s
      by_cases h : d.expected = []
      · rw [linked_cons_none d docs h, List.foldlM_cons]
        have h1 : docStep rank ms (usedGroups groups) s d = .ok s := by
          unfold docStep
          rw [if_pos (by rw [h]; rfl)]
        rw [h1]
        exact ih s
      · rw [linked_cons_some d docs h, List.foldlM_cons, List.foldlM_cons]
        congr 1
        funext s'
        exact ih s'
  unfold meanPrecRecAt
  rw [this]

theorem sum_unlinked (rank : List (Nat × ℚ) → List (Nat × ℚ)) (docs : List Doc) : ∀ s : ℚ,
    docs.foldlM (apDoc rank) s = (linked docs).foldlM (apDoc rank) s := by
  induction docs with
  | nil => exact fun _ => rfl
  | cons d docs ih =>
    intro s
    by_cases h : d.expected = []
    · rw [linked_cons_none d docs h, List.foldlM_cons]
      have h1 : apDoc rank s d = .ok s := by
        unfold apDoc
        rw [if_pos (by rw [h]; rfl)]
      rw [h1]
      exact ih s
    · rw [linked_cons_some d docs h, List.foldlM_cons, List.foldlM_cons]
      congr 1
      funext s'
      exact ih s'

/-- **C321**, what the mean average precision is instead: the score of the documents with expected links, multiplied with their share of the corpus. -/
theorem map_unlinked_exact (rank : List (Nat × ℚ) → List (Nat × ℚ)) (docs : List Doc) (h0 : linked docs ≠ []) :
    meanAveragePrec rank docs = match meanAveragePrec rank (linked docs) with
      | .error e => .error e
      | .ok r => .ok (r * (linked docs).length / docs.length) := by
  have hl : (linked docs).length ≠ 0 := by simpa using h0
  have hd : docs.length ≠ 0 := by
    intro h
    have := List.length_filter_le (fun d : Doc => !d.expected.isEmpty) docs
    unfold linked at hl
    omega
  unfold meanAveragePrec
  rw [sum_unlinked rank docs 0]
  generalize (linked docs).foldlM (apDoc rank) (0 : ℚ) = r
  rcases r with e | r
  · rfl
  · show (if docs.length = 0 then (.error .zeroDivisionError : Py ℚ) else .ok (r / docs.length)) =
      match (if (linked docs).length = 0 then (.error .zeroDivisionError : Py ℚ) else .ok (r / (linked docs).length)) with
      | .error e => .error e
      | .ok r => .ok (r * (linked docs).length / docs.length)
    rw [if_neg hd, if_neg hl]
    have : ((linked docs).length : ℚ) ≠ 0 := by exact_mod_cast hl
    show Except.ok _ = Except.ok _
    rw [div_mul_cancel₀ r this]

/-- **C321**, violated by the mean average precision: a document without expected links lowers the score of every prediction that is not worthless. -/
theorem map_unlinked_violation (rank : List (Nat × ℚ) → List (Nat × ℚ)) (docs : List Doc) (r : ℚ) (hr : 0 < r)
    (h : meanAveragePrec rank (linked docs) = .ok r) (hu : ∃ d ∈ docs, d.expected = []) :
    ∃ r', meanAveragePrec rank docs = .ok r' ∧ r' < r := by
  have h0 : linked docs ≠ [] := by
    intro h1
    rw [h1] at h
    exact absurd h (by intro h2; cases h2)
  refine ⟨r * (linked docs).length / docs.length, by rw [map_unlinked_exact rank docs h0, h], ?_⟩
  have hlt : (linked docs).length < docs.length := by
    obtain ⟨d, hd, he⟩ := hu
    exact List.length_filter_lt_length_iff_exists.mpr ⟨d, hd, by simp [he]⟩
  have hpos : (0 : ℚ) < docs.length := by
    have : 0 < docs.length := by omega
    exact_mod_cast this
  rw [div_lt_iff₀ hpos]
  exact mul_lt_mul_of_pos_left (by exact_mod_cast hlt) hr

/-- **C321**, what holds of the mean average precision: which of two predictions scores higher on a corpus does not depend on the documents without
expected links. -/
theorem map_order_partial (rank rank' : List (Nat × ℚ) → List (Nat × ℚ)) (docs docs' : List Doc) (hs : docs.map Doc.expected = docs'.map Doc.expected)
    (r r' q q' : ℚ) (h1 : meanAveragePrec rank docs = .ok r) (h2 : meanAveragePrec rank' docs' = .ok r')
    (h3 : meanAveragePrec rank (linked docs) = .ok q) (h4 : meanAveragePrec rank' (linked docs') = .ok q') : r ≤ r' ↔ q ≤ q' := by
  have hlen : docs.length = docs'.length := by simpa using congrArg List.length hs
  have hlin : (linked docs).length = (linked docs').length := by
    have : ∀ l : List Doc, (linked l).length = ((l.map Doc.expected).filter fun e => !e.isEmpty).length := by
      intro l
      unfold linked
      rw [List.filter_map, List.length_map]
      rfl
    rw [this, this, hs]
  have hne : ∀ (rk : List (Nat × ℚ) → List (Nat × ℚ)) (l : List Doc) (v : ℚ), meanAveragePrec rk (linked l) = .ok v → linked l ≠ [] := by
    intro rk l v h h1
    rw [h1] at h
    exact absurd h (by intro h2; cases h2)
  have e1 := map_unlinked_exact rank docs (hne _ _ _ h3)
  have e2 := map_unlinked_exact rank' docs' (hne _ _ _ h4)
  rw [h1, h3] at e1
  rw [h2, h4, ← hlin, ← hlen] at e2
  have e1' : r = q * (linked docs).length / docs.length := by injection e1
  have e2' : r' = q' * (linked docs).length / docs.length := by injection e2
  have hn : 0 < (linked docs).length := List.length_pos_of_ne_nil (hne _ _ _ h3)
  have hn' : (0 : ℚ) < (linked docs).length := by exact_mod_cast hn
  have hd : 0 < docs.length := lt_of_lt_of_le hn (List.length_filter_le _ _)
  have hd' : (0 : ℚ) < docs.length := by exact_mod_cast hd
  rw [e1', e2', div_le_div_iff_of_pos_right hd', mul_le_mul_iff_left₀ hn']

/-! ## Examples -/

/-- A document whose only expected link is predicted first, and one without expected links -/
def exDocs : List Doc := [⟨[3], [(3, 1 / 2), (4, 1 / 3)]⟩, ⟨[], [(4, 1 / 2)]⟩]

theorem exLinked : linked exDocs = [⟨[3], [(3, 1 / 2), (4, 1 / 3)]⟩] := by rfl

/-- A perfect prediction scores one half. -/
example : meanAveragePrec sortRank (linked exDocs) = .ok 1 ∧ meanAveragePrec sortRank exDocs = .ok (1 / 2) := by
  have h : meanAveragePrec sortRank (linked exDocs) = .ok 1 := by
    rw [exLinked]
    decide +kernel
  refine ⟨h, ?_⟩
  rw [map_unlinked_exact sortRank exDocs (by rw [exLinked]; simp), h, exLinked]
  norm_num [exDocs]

example : ∃ r', meanAveragePrec sortRank exDocs = .ok r' ∧ r' < 1 :=
  map_unlinked_violation sortRank exDocs 1 one_pos (by rw [exLinked]; decide +kernel) ⟨⟨[], [(4, 1 / 2)]⟩, by simp [exDocs], rfl⟩

example : meanReciprocalRank sortRank exDocs = .ok 1 := by
  rw [mrr_unlinked, exLinked]
  decide +kernel

/-- A worse prediction of the same links scores lower with and without the document that has none. -/
example (q q' r r' : ℚ) (h1 : meanAveragePrec sortRank [⟨[3], [(3, 1 / 2), (4, 2 / 3)]⟩, ⟨[], [(4, 1 / 2)]⟩] = .ok r)
    (h2 : meanAveragePrec sortRank exDocs = .ok r') (h3 : meanAveragePrec sortRank (linked [⟨[3], [(3, 1 / 2), (4, 2 / 3)]⟩, ⟨[], [(4, 1 / 2)]⟩]) = .ok q)
    (h4 : meanAveragePrec sortRank (linked exDocs) = .ok q') : r ≤ r' ↔ q ≤ q' :=
  map_order_partial sortRank sortRank _ exDocs (by rfl) r r' q q' h1 h2 h3 h4

end Verif.Props.UnlinkedDocs
