import Verif.Model.SparseKernels
import Verif.Model.RunMain
import Verif.Props.SparseKernels
import Verif.Props.Evals

/-!
# The tag prediction driver's scores (C85)

`cross_val_and_eval_tag_prec_rec_at_m` (`__main__.py`:640-641) computes the predictions with
`sparseScalarProductOfDot(expected_links, topics, words)`, whose result is stored only where
`expected_links` is.
-/

namespace Verif.Props.TagEval

open Verif Verif.Evals Verif.RunMain Verif.SparseKernels Verif.Props.Evals

/-- the documents the driver evaluates, for topics `B` and words `C` -/
def driverDocs (expected : Csr ℚ) (B C : Mat ℚ) : List Doc :=
  evalDocs expected (productOfDot expected B C)

/-- number of documents with at least one held-out tag -/
def taggedDocs (m : Csr ℚ) : Nat := ((List.range m.rows).filter (fun r => m.row r ≠ [])).length

theorem driverDocs_eq (E : Csr ℚ) (h : E.WF) (B C : Mat ℚ) :
    driverDocs E B C = (List.range E.rows).map (fun r => ⟨(E.row r).map Prod.fst,
      (E.row r).map (fun e => (e.1, e.2 * SparseKernels.prodEntry B C r e.1))⟩) := by
  unfold driverDocs evalDocs
  apply List.map_congr_left
  intro r hr
  rw [(SparseKernels.product_of_dot_spec E h B C).2.2.2.2 r (List.mem_range.mp hr)]

theorem precTerm_one (recv : List Nat) (expt : Finset Nat) (e : Nat) (hne : recv ≠ [])
    (hsub : ∀ x ∈ recv, x ∈ expt) : precTerm recv expt e = 1 := by
  unfold precTerm
  have : (recv.take (findPos e recv + 1)).toFinset ∩ expt = (recv.take (findPos e recv + 1)).toFinset := by
    apply Finset.inter_eq_left.mpr
    intro x hx
    exact hsub x (List.mem_of_mem_take (List.mem_toFinset.mp hx))
  rw [this]
  apply div_self
  exact_mod_cast take_nonempty hne _

/-- C85, exact behaviour: whatever the model predicts, the mean average precision reported is the share of
documents which have held-out tags. -/
theorem tag_map_constant (rank : List (Nat × ℚ) → List (Nat × ℚ)) (hr : IsRanking rank) (E : Csr ℚ)
    (h : E.WF) (hrows : 0 < E.rows) (B C : Mat ℚ) :
    meanAveragePrec rank (driverDocs E B C) = .ok (taggedDocs E / E.rows) := by
  rw [driverDocs_eq E h B C]
  rw [map_ok]
  · rw [List.length_map, List.length_range, List.map_map]
    congr 2
    unfold taggedDocs
    generalize List.range E.rows = l
    induction l with
    | nil => rfl
    | cons r l ih =>
      rw [List.map_cons, List.sum_cons, ih, List.filter_cons]
      by_cases hrow : E.row r = []
      · simp [hrow, ap]
      · have : (ap rank ∘ fun r => (⟨(E.row r).map Prod.fst,
            (E.row r).map (fun e => (e.1, e.2 * SparseKernels.prodEntry B C r e.1))⟩ : Doc)) r = 1 := by
          simp only [Function.comp]
          unfold ap
          rw [if_neg (by simpa using hrow)]
          have hall : ∀ e ∈ (E.row r).map Prod.fst, precTerm (recvIndices rank
              ⟨(E.row r).map Prod.fst, (E.row r).map (fun e => (e.1, e.2 * SparseKernels.prodEntry B C r e.1))⟩)
              ((E.row r).map Prod.fst).toFinset e = 1 := by
            intro e _
            apply precTerm_one
            · intro hnil
              have := (recv_nil hr _).mp hnil
              simp only [List.map_eq_nil_iff] at this
              exact hrow this
            · intro x hx
              obtain ⟨s, hs⟩ := (recv_mem hr _ x).mp hx
              obtain ⟨p, hp, he⟩ := List.mem_map.mp hs
              rw [List.mem_toFinset, List.mem_map]
              exact ⟨p, hp, congrArg Prod.fst he⟩
          rw [List.map_congr_left hall]
          simp only [List.map_const', List.sum_replicate, nsmul_eq_mul, mul_one]
          apply div_self
          have : ((E.row r).map Prod.fst).length ≠ 0 := by simpa using hrow
          exact_mod_cast this
        rw [this]
        simp [hrow]
        ring
  · intro hc
    have := congrArg List.length hc
    simp at this
    omega
  · intro d hd he hnil
    obtain ⟨r, _, rfl⟩ := List.mem_map.mp hd
    have := (recv_nil hr _).mp hnil
    simp only [List.map_eq_nil_iff] at this
    simp only [ne_eq, List.map_eq_nil_iff] at he
    exact he this

/-- one document whose held-out tag is word 0 -/
def exE : Csr ℚ := ⟨1, 2, [0, 1], [0], [1]⟩

theorem exE_wf : exE.WF := by
  refine ⟨by decide, by decide, ?_, by decide, by decide, by decide⟩
  intro r hr
  have : r = 0 := by have : r < 1 := hr; omega
  subst this; decide

/-- one topic -/
def exB : Mat ℚ := ⟨1, 1, fun _ _ => 1⟩

/-- the topic of a good model and that of a bad one -/
def goodC : Mat ℚ := ⟨1, 2, fun _ w => if w = 0 then 9/10 else 1/10⟩
def badC : Mat ℚ := ⟨1, 2, fun _ w => if w = 0 then 1/10 else 9/10⟩

/-- C85 is violated: a model which prefers the wrong tag gets the same score as one which prefers the held-out
tag, although the metric on the full predictions tells them apart. -/
theorem tag_map_blind :
    meanAveragePrec sortRank (driverDocs exE exB goodC) = .ok 1 ∧
    meanAveragePrec sortRank (driverDocs exE exB badC) = .ok 1 ∧
    meanAveragePrec sortRank [⟨[0], [(0, 9/10), (1, 1/10)]⟩] = .ok 1 ∧
    meanAveragePrec sortRank [⟨[0], [(0, 1/10), (1, 9/10)]⟩] = .ok (1/2) := by
  refine ⟨?_, ?_, ?_, ?_⟩ <;> decide +kernel

/-- What holds when the predictions are computed at a larger set of positions `cand` (for instance all
tags): a model whose highest prediction for some tagged document is not a held-out tag scores less than 1.
Missing: the driver passes the held-out positions themselves. -/
theorem tag_map_candidates_partial (rank : List (Nat × ℚ) → List (Nat × ℚ)) (hr : IsRanking rank)
    (E cand : Csr ℚ) (hc : cand.WF) (hrows : cand.rows = E.rows) (B C : Mat ℚ) (r : Nat) (hrE : r < E.rows)
    (hE : E.row r ≠ []) (x : Nat) (hx : ∀ p ∈ E.row r, p.1 ≠ x)
    (htop : ∃ v, (x, v) ∈ cand.row r ∧ ∀ p ∈ cand.row r, p.1 ≠ x →
      p.2 * SparseKernels.prodEntry B C r p.1 < v * SparseKernels.prodEntry B C r x)
    (res : ℚ) (hres : meanAveragePrec rank (evalDocs E (productOfDot cand B C)) = .ok res) : res < 1 := by
  have hrow := (SparseKernels.product_of_dot_spec cand hc B C).2.2.2.2 r (by omega)
  let d : Doc := ⟨(E.row r).map Prod.fst, (productOfDot cand B C).row r⟩
  have hd : d ∈ evalDocs E (productOfDot cand B C) :=
    List.mem_map.mpr ⟨r, List.mem_range.mpr hrE, rfl⟩
  refine map_missing_partial rank hr _ d hd (by simpa [d] using hE) x ?_ ?_ res hres
  · intro hm
    obtain ⟨p, hp, he⟩ := List.mem_map.mp hm
    exact hx p hp he
  · obtain ⟨v, hv, hbest⟩ := htop
    unfold recvIndices
    have hperm := (hr d.stored).1
    have hsort := (hr d.stored).2
    have hmem : (x, v * SparseKernels.prodEntry B C r x) ∈ rank d.stored := by
      rw [hperm.mem_iff]
      change _ ∈ (productOfDot cand B C).row r
      rw [hrow]
      exact List.mem_map.mpr ⟨(x, v), hv, rfl⟩
    rcases hrk : rank d.stored with _ | ⟨p, l⟩
    · rw [hrk] at hmem; cases hmem
    · rw [hrk] at hmem hsort
      rw [List.map_cons, List.head?_cons]
      congr 1
      by_contra hne
      have hp : p ∈ d.stored := by rw [← hperm.mem_iff, hrk]; simp
      have hp' : p ∈ (cand.row r).map (fun e => (e.1, e.2 * SparseKernels.prodEntry B C r e.1)) := by
        rw [← hrow]; exact hp
      obtain ⟨q, hq, rfl⟩ := List.mem_map.mp hp'
      have h1 := hbest q hq hne
      rcases List.mem_cons.mp hmem with h2 | h2
      · exact hne (congrArg Prod.fst h2).symm
      · have := (List.pairwise_cons.mp hsort).1 _ h2
        exact absurd h1 (not_lt.mpr this)

/-- all tags as candidates -/
def exCand : Csr ℚ := ⟨1, 2, [0, 2], [0, 1], [1, 1]⟩

/-- the hypotheses of `tag_map_candidates_partial` -/
example : (∃ v, (1, v) ∈ exCand.row 0 ∧ ∀ p ∈ exCand.row 0, p.1 ≠ 1 →
      p.2 * SparseKernels.prodEntry exB badC 0 p.1 < v * SparseKernels.prodEntry exB badC 0 1) ∧
    (∀ p ∈ exE.row 0, p.1 ≠ 1) ∧
    meanAveragePrec sortRank (evalDocs exE (productOfDot exCand exB badC)) = .ok (1/2) := by
  refine ⟨⟨1, ?_⟩, ?_, ?_⟩ <;> decide +kernel

example : meanAveragePrec sortRank (driverDocs exE exB badC) = .ok (1 / 1) := by
  have := tag_map_constant sortRank sortRank_isRanking exE exE_wf (by decide) exB badC
  rw [this]; decide +kernel

end Verif.Props.TagEval
