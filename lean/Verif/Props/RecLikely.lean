import Verif.Model.RecLikely
import Verif.Props.Likelihoods

/-!
# C279: the likelihoods of the recommenders
-/

namespace Verif.Props.RecLikely

open Verif Verif.RecLikely
open Verif.Props.SkWrapped (corpusLike data_sum)
open Verif.Props.Likelihoods (Fits ln_dot_sum)

/-! ## Specification -/

/-- An entry divided by the sum of its row -/
noncomputable def part (m : Mat ℝ) (i j : Nat) : ℝ := m.get i j / ∑ l ∈ Finset.range m.cols, m.get i l

/-- The log-likelihood of the words given the topics of the documents and the words of the topics -/
noncomputable def wordsLike (tiny : ℝ) (words : Csr ℝ) (vocab topics : Mat ℝ) : ℝ :=
  corpusLike tiny words topics.cols (part topics) (part vocab)

/-- No topic weight is negative. -/
def Weights (topics : Mat ℝ) : Prop := ∀ d k, 0 ≤ topics.get d k

/-- All stored counts are positive, and there is at least one. -/
def Counts (words : Csr ℝ) : Prop :=
  (∀ d < words.rows, ∀ e ∈ words.row d, 0 < e.2) ∧ ∃ d < words.rows, words.row d ≠ []

/-- Every word that occurs has a probability below one. -/
def Uncertain (words : Csr ℝ) (vocab topics : Mat ℝ) : Prop :=
  ∀ d < words.rows, ∀ e ∈ words.row d, (∑ k ∈ Finset.range topics.cols, part topics d k * part vocab k e.1) < 1

/-! ## What works -/

/-- C279 (what works): the offset model reports the likelihood of the words under its topics, whatever the offsets. -/
theorem lro_partial (tiny : ℝ) (words : Csr ℝ) (hw : words.WF) (vocab topics offsets : Mat ℝ) (hK : topics.cols ≤ vocab.rows)
    (hf : Fits words topics.rows vocab.cols) :
    lroLikelihood tiny words vocab topics offsets = some (wordsLike tiny words vocab topics) :=
  ln_dot_sum tiny words hw (topicDists topics) (wordDists vocab) hK hf

theorem reps_sq (topics : Mat ℝ) (h : Weights topics) (d k : Nat) : (ldaReps topics).get d k ^ 2 = part topics d k :=
  Real.sq_sqrt (div_nonneg (h d k) (Finset.sum_nonneg fun j _ => h d j))

/-- C279 (what works): comparing documents by their topics, the similarity model reports the likelihood of the words under
these topics, although it keeps only their square roots. -/
theorem sim_lda_partial (tiny : ℝ) (words : Csr ℝ) (hw : words.WF) (vocab topics : Mat ℝ) (h : Weights topics)
    (hK : topics.cols ≤ vocab.rows) (hf : Fits words topics.rows vocab.cols) :
    simLikelihood tiny .lda words vocab (ldaReps topics) = .ok (some (wordsLike tiny words vocab topics)) := by
  have hr : (fun d k => (ldaReps topics).get d k ^ 2) = part topics := funext fun d => funext fun k => reps_sq topics h d k
  have := ln_dot_sum tiny words hw ⟨topics.rows, topics.cols, fun d k => (ldaReps topics).get d k ^ 2⟩ (wordDists vocab) hK hf
  rw [hr] at this
  show Except.ok (Likelihoods.lnDotSum tiny words ⟨topics.rows, topics.cols, fun d k => (ldaReps topics).get d k ^ 2⟩ (wordDists vocab)) = _
  rw [hr, this]
  rfl

/-! ## What does not -/

theorem sum_neg_of {l : List ℝ} (h : ∀ x ∈ l, x < 0) : l.sum ≤ 0 ∧ (l ≠ [] → l.sum < 0) := by
  induction l with
  | nil => exact ⟨le_refl _, fun h => absurd rfl h⟩
  | cons a l ih =>
    have h1 := h a List.mem_cons_self
    have h2 := (ih fun x hx => h x (List.mem_cons_of_mem _ hx)).1
    rw [List.sum_cons]
    exact ⟨by linarith, fun _ => by linarith⟩

theorem wordsLike_neg (tiny : ℝ) (h0 : 0 < tiny) (h1 : tiny < 1) (words : Csr ℝ) (hc : Counts words) (vocab topics : Mat ℝ)
    (hu : Uncertain words vocab topics) : wordsLike tiny words vocab topics < 0 := by
  have key : ∀ d < words.rows, ∀ x ∈ (words.row d).map (fun e => e.2 *
      Real.log (max (∑ k ∈ Finset.range topics.cols, part topics d k * part vocab k e.1) tiny)), x < 0 := by
    intro d hd x hx
    obtain ⟨e, he, rfl⟩ := List.mem_map.mp hx
    exact mul_neg_of_pos_of_neg (hc.1 d hd e he)
      (Real.log_neg (lt_of_lt_of_le h0 (le_max_right _ _)) (max_lt (hu d hd e he) h1))
  obtain ⟨d, hd, hne⟩ := hc.2
  refine Finset.sum_neg' (fun i hi => (sum_neg_of (key i (Finset.mem_range.mp hi))).1)
    ⟨d, Finset.mem_range.mpr hd, (sum_neg_of (key d hd)).2 ?_⟩
  simpa using hne

theorem wordCount_pos (words : Csr ℝ) (hw : words.WF) (hc : Counts words) : 0 < SkWrapped.wordCount words := by
  rw [SkWrapped.wordCount, data_sum words hw]
  obtain ⟨d, hd, hne⟩ := hc.2
  refine Finset.sum_pos' (fun i hi => List.sum_nonneg fun x hx => ?_) ⟨d, Finset.mem_range.mpr hd, List.sum_pos _ (fun x hx => ?_) ?_⟩
  · obtain ⟨e, he, rfl⟩ := List.mem_map.mp hx
    exact (hc.1 i (Finset.mem_range.mp hi) e he).le
  · obtain ⟨e, he, rfl⟩ := List.mem_map.mp hx
    exact hc.1 d hd e he
  · simpa using hne

/-- C279 is violated: comparing documents by their words, the similarity model reports the log-likelihood 0, that is the perplexity 1,
for every corpus; every model that is not certain of all the words has a perplexity above that. -/
theorem tfidf_violation (tiny : ℝ) (h0 : 0 < tiny) (h1 : tiny < 1) (words : Csr ℝ) (hw : words.WF) (hc : Counts words)
    (vocab topics reps offsets : Mat ℝ) (hK : topics.cols ≤ vocab.rows) (hf : Fits words topics.rows vocab.cols)
    (hu : Uncertain words vocab topics) :
    simLikelihood tiny .tfIdf words vocab reps = .ok (some 0) ∧ perplexity words (some 0) = some 1
      ∧ ∃ p, perplexity words (lroLikelihood tiny words vocab topics offsets) = some p ∧ 1 < p := by
  refine ⟨rfl, by simp [perplexity, RunMain.perplexityFromLike], ?_⟩
  rw [lro_partial tiny words hw vocab topics offsets hK hf]
  refine ⟨_, rfl, Real.one_lt_exp_iff.mpr (div_pos ?_ (wordCount_pos words hw hc))⟩
  linarith [wordsLike_neg tiny h0 h1 words hc vocab topics hu]

/-- Other methods are refused. -/
theorem unknown_method (tiny : ℝ) (words : Csr ℝ) (vocab reps : Mat ℝ) :
    simLikelihood tiny .other words vocab reps = .error .valueError := rfl

/-! ## Examples -/

/-- Three words in two documents -/
def exWords : Csr ℝ := Csr.ofRows 2 [[(0, 2)], [(1, 1)]]

/-- Two documents with two topics, as counts -/
def exTopics : Mat ℝ := ⟨2, 2, fun d k => if d = k then 3 else 1⟩

/-- Two topics with two words, as counts -/
def exVocab : Mat ℝ := ⟨2, 2, fun _ _ => 5⟩

theorem exWords_wf : exWords.WF := Csr.ofRows_wf 2 _ (by simp)

theorem exWords_row (r : Nat) (hr : r < 2) : exWords.row r = if r = 0 then [(0, 2)] else [(1, 1)] := by
  have := Csr.ofRows_row 2 ([[(0, 2)], [(1, 1)]] : List (List (Nat × ℝ))) r (by simpa using hr)
  rw [exWords, this]
  interval_cases r <;> rfl

theorem exFits : Fits exWords 2 2 := by
  intro r hr e he
  rw [exWords_row r hr] at he
  split at he <;> (rw [List.mem_singleton] at he; subst he; exact ⟨hr, by norm_num⟩)

theorem exCounts : Counts exWords := by
  refine ⟨fun d hd e he => ?_, 0, by decide, ?_⟩
  · rw [exWords_row d hd] at he
    split at he <;> (rw [List.mem_singleton] at he; subst he; norm_num)
  · rw [exWords_row 0 (by norm_num)]; simp

theorem exPart (d : Nat) (hd : d < 2) (t : Nat) :
    (∑ k ∈ Finset.range 2, part exTopics d k * part exVocab k t) = 1 / 2 := by
  interval_cases d <;> norm_num [part, exTopics, exVocab, Finset.sum_range_succ]

theorem exUncertain : Uncertain exWords exVocab exTopics := by
  intro d hd e _
  rw [show exTopics.cols = 2 from rfl, exPart d hd]
  norm_num

/-- Both models report three times the logarithm of one half; the documents' words alone are reported as certain. -/
example : simLikelihood (1 / 1000) .lda exWords exVocab (ldaReps exTopics) = .ok (some (3 * Real.log (1 / 2)))
    ∧ ∃ p, perplexity exWords (lroLikelihood (1 / 1000) exWords exVocab exTopics exTopics) = some p ∧ 1 < p := by
  refine ⟨?_, (tfidf_violation (1 / 1000) (by norm_num) (by norm_num) exWords exWords_wf exCounts exVocab exTopics exTopics exTopics
    (le_refl _) exFits exUncertain).2.2⟩
  rw [sim_lda_partial _ _ exWords_wf _ _ (fun d k => by simp only [exTopics]; split <;> norm_num) (le_refl _) exFits]
  congr 2
  unfold wordsLike corpusLike
  rw [show exWords.rows = 2 from rfl, Finset.sum_range_succ, Finset.sum_range_one, exWords_row 0 (by norm_num), exWords_row 1 (by norm_num)]
  simp only [show exTopics.cols = 2 from rfl, if_true, List.map_cons, List.map_nil, List.sum_cons, List.sum_nil,
    exPart 0 (by norm_num), exPart 1 (by norm_num), one_ne_zero, if_false]
  norm_num
  ring

end Verif.Props.RecLikely
