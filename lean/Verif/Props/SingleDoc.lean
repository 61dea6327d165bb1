import Verif.Model.SingleDoc
import Verif.Props.CombineMap
import Mathlib.Tactic.Common

/-!
# Corpora with one document (C157)
-/

namespace Verif.Props.SingleDoc

open Verif Verif.SingleDoc

theorem docLens_one (lens : Nat → Nat) : (docLens 1 lens).shape = [] := rfl

theorem docLens_many (D : Nat) (hD : D ≠ 1) (lens : Nat → Nat) :
    (docLens D lens).shape = [D] ∧ ∀ d, (docLens D lens).get [d] = lens d := by
  have hs : (docLens D lens).shape = [D] := by
    show [D, 1].filter (· ≠ 1) = [D]
    simp [hD]
  refine ⟨hs, fun d => ?_⟩
  show (column D lens).get (unsqueeze [D, 1] [d]) = lens d
  unfold unsqueeze
  rw [if_neg hD]
  rfl

/-- C157: for every number of documents other than one the lengths are used as intended: the topic distributions of every document are
multiplied by its length, every term of an update has the factor of its document, the loops read the lengths of the documents. -/
theorem lengths_partial (D : Nat) (hD : D ≠ 1) (lens : Nat → Nat) (m : Nat → Nat → Int) (prior : Nat → Int) :
    newTopicDists D lens m prior = .ok (fun d k => m d k * lens d + prior k) ∧
    lengthTerm D lens m = .ok (fun d k => m d k * lens d) ∧
    gibbsDocCount D lens = .ok D ∧
    lengthsRead D lens = .ok ((List.range D).map lens) := by
  obtain ⟨hs, hg⟩ := docLens_many D hD lens
  have hax : newAxis (docLens D lens) = .ok ⟨[D, 1], fun i => (docLens D lens).get (i.headD 0 :: i.tail.tail)⟩ := by
    unfold newAxis
    rw [hs]
  have hsc : scaleRows D ⟨[D, 1], fun i => (docLens D lens).get (i.headD 0 :: i.tail.tail)⟩ m = .ok fun d k => m d k * lens d := by
    unfold scaleRows
    rw [if_pos rfl]
    congr 1
    funext d k
    show m d k * ((docLens D lens).get [d] : Nat) = _
    rw [hg]
  refine ⟨?_, ?_, ?_, ?_⟩
  · unfold newTopicDists
    simp only [hax, bind, Except.bind, hsc]
  · unfold lengthTerm
    simp only [hax, bind, Except.bind, hsc]
  · unfold gibbsDocCount firstDim
    rw [hs]
  · unfold lengthsRead
    refine CombineMap.mapM_ok _ _ _ fun d hd => ?_
    unfold entry
    rw [hs]
    simp only
    rw [if_pos (List.mem_range.mp hd), hg]

/-- C157 is violated: for a corpus of one document, whatever it contains, each of these fails with an index error. -/
theorem single_document_violation (lens : Nat → Nat) (m : Nat → Nat → Int) (prior : Nat → Int) :
    newTopicDists 1 lens m prior = .error .indexError ∧ lengthTerm 1 lens m = .error .indexError ∧
    gibbsDocCount 1 lens = .error .indexError ∧ lengthsRead 1 lens = .error .indexError := ⟨rfl, rfl, rfl, rfl⟩

example : lengthsRead 3 (fun d => d + 4) = .ok [4, 5, 6] := (lengths_partial 3 (by decide) _ (fun _ _ => 0) fun _ => 0).2.2.2

/-- The second document has length seven. -/
example : ∃ f, newTopicDists 2 (fun d => 6 + d) (fun _ _ => 3) (fun _ => 1) = .ok f ∧ f 1 0 = 22 :=
  ⟨_, (lengths_partial 2 (by decide) _ _ _).1, rfl⟩

end Verif.Props.SingleDoc
