import Verif.Props.Likelihoods
import Verif.Model.RecLikely

/-!
# Corpora in which every word is counted several times (C329)
-/

namespace Verif.Props.ScaledCounts

open Verif Verif.Likelihoods
open Verif.Mom (Data)
open Verif.Props.Likelihoods (Fits ln_dot_sum)
open Verif.Props.SkWrapped (corpusLike)

/-- `w'` has the counts of `w`, multiplied with `c`. -/
structure Scaled (c : ℝ) (w w' : Csr ℝ) : Prop where
  rows : w'.rows = w.rows
  row : ∀ d, d < w.rows → w'.row d = (w.row d).map fun e => (e.1, c * e.2)

theorem kernel_scaled (tiny c : ℝ) (w w' : Csr ℝ) (h : Scaled c w w') (hw : w.WF) (hw' : w'.WF) (B C : Mat ℝ) (hC : B.cols ≤ C.rows)
    (hf : Fits w B.rows C.cols) : ∃ v, lnDotSum tiny w B C = some v ∧ lnDotSum tiny w' B C = some (c * v) := by
  have hf' : Fits w' B.rows C.cols := by
    intro r hr e he
    have hr' : r < w.rows := h.rows ▸ hr
    rw [h.row r hr'] at he
    obtain ⟨a, ha, rfl⟩ := List.mem_map.1 he
    exact hf r hr' a ha
  refine ⟨_, ln_dot_sum tiny w hw B C hC hf, ?_⟩
  rw [ln_dot_sum tiny w' hw' B C hC hf']
  unfold corpusLike
  rw [h.rows, Finset.mul_sum]
  refine congrArg some (Finset.sum_congr rfl fun d hd => ?_)
  rw [h.row d (Finset.mem_range.1 hd), List.map_map, ← List.sum_map_mul_left]
  refine congrArg List.sum (List.map_congr_left fun e _ => ?_)
  simp only [Function.comp_def]
  ring

/-- **C329**: in LDA, the recommenders, the mixture sampler, the relational topic model and the first matrix topic model the log-likelihood is
multiplied with the same number as the counts. -/
theorem word_scaled (tiny c : ℝ) (w w' : Csr ℝ) (h : Scaled c w w') (hw : w.WF) (hw' : w'.WF) (links : Csr ℝ) (X C : Mat ℝ) (hC : X.cols ≤ C.rows)
    (hf : Fits w X.rows C.cols) :
    (∃ v, RecLikely.ldaLikelihood tiny w C X none = some v ∧ RecLikely.ldaLikelihood tiny w' C X none = some (c * v)) ∧
    (∃ v, momGibbsPoint tiny w X C = some v ∧ momGibbsPoint tiny w' X C = some (c * v)) ∧
    (∃ v, rtmLikelihood tiny w links X C = some v ∧ rtmLikelihood tiny w' links X C = some (c * v)) ∧
    ∃ v, mtmLikelihood tiny w links X C = some v ∧ mtmLikelihood tiny w' links X C = some (c * v) := by
  refine ⟨?_, ?_, ?_, ?_⟩
  · exact kernel_scaled tiny c w w' h hw hw' (RecLikely.topicDists X) (RecLikely.wordDists C) hC hf
  · exact kernel_scaled tiny c w w' h hw hw' X (SkWrapped.componentDists C) hC hf
  · obtain ⟨v, h1, h2⟩ := kernel_scaled tiny c w w' h hw hw' (leadingDists X) (SkWrapped.componentDists C) (le_trans (Nat.sub_le _ _) hC) hf
    refine ⟨v, ?_, ?_⟩
    · unfold rtmLikelihood
      rw [h1]
      exact congrArg some (add_zero _)
    · unfold rtmLikelihood
      rw [h2]
      exact congrArg some (add_zero _)
  · obtain ⟨v, h1, h2⟩ := kernel_scaled tiny c w w' h hw hw' (softDists X) (SkWrapped.componentDists C) hC hf
    refine ⟨v, ?_, ?_⟩
    · unfold mtmLikelihood
      rw [h1]
      exact congrArg some (add_zero _)
    · unfold mtmLikelihood
      rw [h2]
      exact congrArg some (add_zero _)

theorem kernel_any (tiny c : ℝ) (w w' : Csr ℝ) (h : Scaled c w w') (hw : w.WF) (hw' : w'.WF) (B C : Mat ℝ) :
    lnDotSum tiny w' B C = (lnDotSum tiny w B C).map (c * ·) := by
  have hi : inside w' B C = inside w B C := by
    unfold inside
    rw [h.rows, Bool.eq_iff_iff, List.all_eq_true, List.all_eq_true]
    refine forall₂_congr fun r hr => ?_
    rw [h.row r (List.mem_range.1 hr), List.all_map]
    rfl
  unfold lnDotSum
  rw [hi, SkWrapped.product_sum tiny w hw, SkWrapped.product_sum tiny w' hw']
  split
  · rw [Option.map_some]
    unfold corpusLike
    rw [h.rows, Finset.mul_sum]
    refine congrArg some (Finset.sum_congr rfl fun d hd => ?_)
    rw [h.row d (Finset.mem_range.1 hd), List.map_map, ← List.sum_map_mul_left]
    refine congrArg List.sum (List.map_congr_left fun e _ => ?_)
    simp only [Function.comp_def]
    ring
  · rfl

/-- **C329**: in the self-linked LDA and the second and third matrix topic model, where defined, the log-likelihood of words and links is multiplied
with the same number as the counts of both. -/
theorem linked_scaled (tiny c : ℝ) (w w' l l' : Csr ℝ) (h : Scaled c w w') (hl : Scaled c l l') (hw : w.WF) (hw' : w'.WF) (hlw : l.WF) (hlw' : l'.WF)
    (X Y C : Mat ℝ) :
    selfLikelihood tiny w' l' X C = (selfLikelihood tiny w l X C).map (c * ·) ∧
    matrixLikelihood tiny w' l' X Y C = (matrixLikelihood tiny w l X Y C).map (c * ·) := by
  have add : ∀ p q : Option ℝ, (do let a ← p.map (c * ·); let b ← q.map (c * ·); return a + b : Option ℝ)
      = (do let a ← p; let b ← q; return a + b : Option ℝ).map (c * ·) := by
    intro p q
    cases p with
    | none => rfl
    | some a =>
      cases q with
      | none => rfl
      | some b => exact congrArg some (mul_add c a b).symm
  constructor
  · unfold selfLikelihood
    simp only [kernel_any tiny c w w' h hw hw']
    exact add _ _
  · unfold matrixLikelihood
    simp only [kernel_any tiny c w w' h hw hw', kernel_any tiny c l l' hl hlw hlw']
    exact add _ _

/-- **C329**: the same for the correlated topic models and the models with features. -/
theorem ctm_scaled (c : Nat) (x x' : Data) (hD : x'.D = x.D) (hT : x'.T = x.T) (h : ∀ d t, x'.words d t = c * x.words d t) (K : Nat) (tiny : ℝ)
    (means vocab : Nat → Nat → ℝ) : Ctm.logLikelihood x' K tiny means vocab = c * Ctm.logLikelihood x K tiny means vocab := by
  unfold Ctm.logLikelihood
  rw [hD, hT, Finset.mul_sum]
  refine Finset.sum_congr rfl fun d _ => ?_
  rw [Finset.mul_sum]
  refine Finset.sum_congr rfl fun t _ => ?_
  rw [h]
  push_cast
  ring

/-- **C329**: so perplexities do not change. -/
theorem perplexity_scaled (c like n : ℝ) (hc : c ≠ 0) : RunMain.perplexityFromLike (c * like) (c * n) = RunMain.perplexityFromLike like n := by
  unfold RunMain.perplexityFromLike
  rw [← mul_neg, mul_div_mul_left _ _ hc]

theorem mixture_value (c : Nat) : momEmPoint 1 2 2 (fun _ t => if t = 0 then c else 0) (fun k t => if k = t then 3 else 1) (fun _ => corpusTopicDist 2 fun _ => 1)
    = Real.log (1 / 2 * (3 / 4) ^ c + 1 / 2 * (1 / 4) ^ c) := by
  rw [Likelihoods.em_point_corpus 1 2 2 two_pos _ _ (fun k _ t _ => by split <;> norm_num) _ (fun k _ => by
    have h1 : ((1 : ℝ) / 10) ^ 300 ≤ (1 / 10) ^ 1 := pow_le_pow_of_le_one (by norm_num) (by norm_num) (by norm_num)
    simp only [corpusTopicDist, Finset.sum_const, Finset.card_range, Numerics.almostZero]
    refine h1.trans ?_
    norm_num)]
  rw [Finset.sum_range_one]
  unfold Numerics.mixtureLikelihood
  simp only [Finset.sum_range_succ, Finset.sum_range_zero, Finset.prod_range_succ, Finset.prod_range_zero]
  norm_num

/-- **C329**, the exception: in the mixture fitted by expectation maximisation a document has one topic, which is the more certain the more words
there are, and the log-likelihood is not proportional to the counts. -/
theorem mixture_not_scaled : ∃ (words : Nat → Nat → Nat) (param weight : Nat → Nat → ℝ),
    2 * momEmPoint 1 2 2 words param weight < momEmPoint 1 2 2 (fun d t => 2 * words d t) param weight := by
  refine ⟨fun _ t => if t = 0 then 1 else 0, fun k t => if k = t then 3 else 1, fun _ => corpusTopicDist 2 fun _ => 1, ?_⟩
  have e1 : (fun _ t : Nat => 2 * if t = 0 then 1 else 0) = fun _ t : Nat => if t = 0 then 2 else 0 := by
    funext d t
    split <;> rfl
  rw [e1, mixture_value, mixture_value, show (2 : ℝ) = ((2 : Nat) : ℝ) from rfl, ← Real.log_pow]
  apply Real.log_lt_log <;> norm_num

/-! ## Example -/

example (tiny : ℝ) (means vocab : Nat → Nat → ℝ) :
    Ctm.logLikelihood ⟨2, 2, fun d t => 3 * (d + t)⟩ 2 tiny means vocab = (3 : Nat) * Ctm.logLikelihood ⟨2, 2, fun d t => d + t⟩ 2 tiny means vocab :=
  ctm_scaled 3 ⟨2, 2, fun d t => d + t⟩ ⟨2, 2, fun d t => 3 * (d + t)⟩ rfl rfl (fun _ _ => rfl) 2 tiny means vocab

/-- One document with one word, counted once or four times -/
theorem exScaled : Scaled 4 (Csr.ofRows 2 [[(1, 1)]]) (Csr.ofRows 2 [[(1, 4)]]) := by
  refine ⟨rfl, fun d hd => ?_⟩
  have h0 : d = 0 := by have : (Csr.ofRows 2 [[(1, (1 : ℝ))]]).rows = 1 := rfl; omega
  subst h0
  rw [Csr.ofRows_row 2 [[(1, (1 : ℝ))]] 0 (by simp), Csr.ofRows_row 2 [[(1, (4 : ℝ))]] 0 (by simp)]
  simp

example (tiny : ℝ) (X C : Mat ℝ) (hC : X.cols ≤ C.rows) (hX : 0 < X.rows) (hT : 1 < C.cols) :
    ∃ v, RecLikely.ldaLikelihood tiny (Csr.ofRows 2 [[(1, 1)]]) C X none = some v
      ∧ RecLikely.ldaLikelihood tiny (Csr.ofRows 2 [[(1, 4)]]) C X none = some (4 * v) := by
  refine (word_scaled tiny 4 _ _ exScaled (Csr.ofRows_wf _ _ (by simp)) (Csr.ofRows_wf _ _ (by simp)) (Csr.ofRows 2 []) X C hC ?_).1
  intro r hr e he
  have h0 : r = 0 := by have : (Csr.ofRows 2 [[(1, (1 : ℝ))]]).rows = 1 := rfl; omega
  subst h0
  rw [Csr.ofRows_row 2 [[(1, (1 : ℝ))]] 0 (by simp)] at he
  have : e = (1, 1) := by simpa using he
  subst this
  exact ⟨hX, hT⟩

/-- Words and links, both once or four times -/
example (tiny : ℝ) (X Y C : Mat ℝ) : matrixLikelihood tiny (Csr.ofRows 2 [[(1, 4)]]) (Csr.ofRows 2 [[(1, 4)]]) X Y C
    = (matrixLikelihood tiny (Csr.ofRows 2 [[(1, 1)]]) (Csr.ofRows 2 [[(1, 1)]]) X Y C).map (4 * ·) :=
  (linked_scaled tiny 4 _ _ _ _ exScaled exScaled (Csr.ofRows_wf _ _ (by simp)) (Csr.ofRows_wf _ _ (by simp)) (Csr.ofRows_wf _ _ (by simp))
    (Csr.ofRows_wf _ _ (by simp)) X Y C).2

end Verif.Props.ScaledCounts
