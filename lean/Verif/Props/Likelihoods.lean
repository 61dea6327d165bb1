import Verif.Model.Likelihoods
import Verif.Props.SkWrapped
import Verif.Props.Ctm
import Verif.Props.MtmLinks
import Verif.Props.Numerics

/-!
# C250, C251: likelihoods of linked documents and of mixtures
-/

namespace Verif.Props.Likelihoods

open Verif Verif.Likelihoods
open Verif.Props.SkWrapped (corpusLike share product_sum)
open Verif.Props.Numerics (mixtureLikelihood softmax)

/-! ## Reading inside the tables -/

/-- Every stored element of `A` is in the first `D` rows and the first `T` columns -/
def Fits (A : Csr ℝ) (D T : Nat) : Prop := ∀ r, r < A.rows → ∀ e ∈ A.row r, r < D ∧ e.1 < T

theorem inside_iff (A : Csr ℝ) (B C : Mat ℝ) (h : B.cols ≤ C.rows) : inside A B C = true ↔ Fits A B.rows C.cols := by
  simp only [inside, Fits, List.all_eq_true, List.mem_range, Bool.and_eq_true, decide_eq_true_eq]
  exact ⟨fun h r hr e he => ⟨(h r hr e he).1.1, (h r hr e he).1.2⟩, fun g r hr e he => ⟨⟨(g r hr e he).1, (g r hr e he).2⟩, h⟩⟩

theorem ln_dot_sum (tiny : ℝ) (A : Csr ℝ) (hA : A.WF) (B C : Mat ℝ) (h : B.cols ≤ C.rows) (hf : Fits A B.rows C.cols) :
    lnDotSum tiny A B C = some (corpusLike tiny A B.cols B.get C.get) := by
  rw [lnDotSum, if_pos ((inside_iff A B C h).mpr hf), product_sum tiny A hA]

theorem ln_dot_outside (tiny : ℝ) (A : Csr ℝ) (B C : Mat ℝ) (r : Nat) (hr : r < A.rows) (e : Nat × ℝ) (he : e ∈ A.row r)
    (hout : C.cols ≤ e.1) : lnDotSum tiny A B C = none := by
  rw [lnDotSum, if_neg]
  intro h
  simp only [inside, List.all_eq_true, List.mem_range, Bool.and_eq_true, decide_eq_true_eq] at h
  have := (h r hr e he).1.2
  omega

/-- No element is stored -/
def Empty (A : Csr ℝ) : Prop := ∀ r, r < A.rows → A.row r = []

theorem corpusLike_empty (tiny : ℝ) (A : Csr ℝ) (h : Empty A) (K : Nat) (y φ : Nat → Nat → ℝ) : corpusLike tiny A K y φ = 0 := by
  refine Finset.sum_eq_zero fun d hd => ?_
  rw [h d (Finset.mem_range.mp hd)]
  rfl

/-! ## C250: what the reported likelihoods are -/

/-- The share of a topic in a document, without the last column -/
noncomputable def lead (t : Mat ℝ) (d k : Nat) : ℝ := t.get d k / ∑ j ∈ Finset.range (t.cols - 1), t.get d j

/-- C250, what the code does: the relational topic model and the first matrix topic model report the likelihood of the words alone, whatever the links. -/
theorem word_likelihood_only (tiny : ℝ) (words links : Csr ℝ) (hw : words.WF) (topics vocab : Mat ℝ) (hf : Fits words topics.rows vocab.cols) :
    (topics.cols - 1 ≤ vocab.rows → rtmLikelihood tiny words links topics vocab = some (corpusLike tiny words (topics.cols - 1) (lead topics) (share vocab)))
      ∧ (topics.cols ≤ vocab.rows → mtmLikelihood tiny words links topics vocab
          = some (corpusLike tiny words topics.cols (fun d => softmax topics.cols (topics.get d)) (share vocab))) := by
  refine ⟨fun h => ?_, fun h => ?_⟩
  · have := ln_dot_sum tiny words hw (leadingDists topics) (SkWrapped.componentDists vocab) h hf
    unfold rtmLikelihood
    rw [this]
    exact congrArg some (add_zero _)
  · have := ln_dot_sum tiny words hw (softDists topics) (SkWrapped.componentDists vocab) h hf
    unfold mtmLikelihood
    rw [this]
    have e : (softDists topics).get = fun d => softmax topics.cols (topics.get d) := by
      funext d
      exact Ctm.softmaxRows_eq _ _ _
    rw [e]
    exact congrArg some (add_zero _)

/-- C250, what the code does: the self-linking model adds the likelihood of the words read as links, whatever the links are -/
theorem self_adds_words (tiny : ℝ) (words links : Csr ℝ) (hw : words.WF) (topics vocab : Mat ℝ) (hf : Fits words topics.rows vocab.cols)
    (hf' : Fits words topics.rows topics.rows) (h : topics.cols - 1 ≤ vocab.rows) :
    selfLikelihood tiny words links topics vocab = some (corpusLike tiny words (topics.cols - 1) (lead topics) (share vocab)
      + corpusLike tiny words (topics.cols - 1) (lead topics) (fun k d => lead topics d k)) := by
  have h1 := ln_dot_sum tiny words hw (leadingDists topics) (SkWrapped.componentDists vocab) h hf
  have h2 := ln_dot_sum tiny words hw (leadingDists topics) ⟨topics.cols - 1, topics.rows, fun k d => (leadingDists topics).get d k⟩ (le_refl _) hf'
  unfold selfLikelihood
  have e1 : (leadingDists topics).cols = topics.cols - 1 := rfl
  have e2 : (leadingDists topics).rows = topics.rows := rfl
  simp only [e1, e2]
  rw [h1, h2]
  rfl

/-- C250 is violated: a word whose number is not that of a document makes the self-linking model read outside its tables. -/
theorem self_reads_outside (tiny : ℝ) (words links : Csr ℝ) (topics vocab : Mat ℝ) (r : Nat) (hr : r < words.rows) (e : Nat × ℝ)
    (he : e ∈ words.row r) (hout : topics.rows ≤ e.1) : selfLikelihood tiny words links topics vocab = none := by
  unfold selfLikelihood
  simp only
  rw [ln_dot_outside tiny words (leadingDists topics) ⟨(leadingDists topics).cols, (leadingDists topics).rows, fun k d => (leadingDists topics).get d k⟩ r hr e he hout]
  cases lnDotSum tiny words (leadingDists topics) (SkWrapped.componentDists vocab) <;> rfl

/-- The probability of a document as the target of a link of topic `k` -/
noncomputable def target (ins : Mat ℝ) (k p : Nat) : ℝ := Real.exp (ins.get p k) / ∑ q ∈ Finset.range ins.rows, Real.exp (ins.get q k)

theorem colDists_eq (ins : Mat ℝ) (d k : Nat) : (colDists ins).get d k = target ins k d := by
  show Mtm.docVocab ins.rows ins.get k d = _
  rw [MtmLinks.docVocab_eq]
  rfl

/-- The log-likelihood asked for: that of the words and that of the links -/
noncomputable def linkedLike (tiny : ℝ) (words links : Csr ℝ) (out ins vocab : Mat ℝ) : ℝ :=
  corpusLike tiny words out.cols (fun d => softmax out.cols (out.get d)) vocab.get
    + corpusLike tiny links out.cols (fun d => softmax out.cols (out.get d)) (target ins)

/-- C250, what the code does: the later matrix topic models take the topic for the document and the document for the topic. -/
theorem matrix_exact (tiny : ℝ) (words links : Csr ℝ) (hw : words.WF) (hl : links.WF) (out ins vocab : Mat ℝ) (hf : Fits words out.rows vocab.cols)
    (hv : out.cols ≤ vocab.rows) (hi : out.cols ≤ ins.rows) (hfl : Fits links out.rows ins.cols) :
    matrixLikelihood tiny words links out ins vocab
      = some (corpusLike tiny words out.cols (fun d => softmax out.cols (out.get d)) vocab.get
        + corpusLike tiny links out.cols (fun d => softmax out.cols (out.get d)) (fun k p => target ins p k)) := by
  have e : (softDists out).get = fun d => softmax out.cols (out.get d) := by
    funext d
    exact Ctm.softmaxRows_eq _ _ _
  have e' : (colDists ins).get = fun k p => target ins p k := by
    funext k p
    exact colDists_eq ins k p
  have h1 := ln_dot_sum tiny words hw (softDists out) vocab hv hf
  have h2 := ln_dot_sum tiny links hl (softDists out) (colDists ins) hi hfl
  rw [e] at h1
  rw [e, e'] at h2
  unfold matrixLikelihood
  simp only
  rw [h1, h2]
  rfl

/-- C250 is violated: a link to a document whose number is not that of a topic is read outside the tables. -/
theorem matrix_reads_outside (tiny : ℝ) (words links : Csr ℝ) (out ins vocab : Mat ℝ) (r : Nat) (hr : r < links.rows) (e : Nat × ℝ)
    (he : e ∈ links.row r) (hout : ins.cols ≤ e.1) : matrixLikelihood tiny words links out ins vocab = none := by
  unfold matrixLikelihood
  simp only
  rw [ln_dot_outside tiny links (softDists out) (colDists ins) r hr e he hout]
  cases lnDotSum tiny words (softDists out) vocab <;> rfl

/-- C250, what holds: without links the later matrix topic models report the likelihood asked for.  Missing: a corpus with links. -/
theorem matrix_partial (tiny : ℝ) (words links : Csr ℝ) (hw : words.WF) (hl : links.WF) (out ins vocab : Mat ℝ) (hf : Fits words out.rows vocab.cols)
    (hv : out.cols ≤ vocab.rows) (hi : out.cols ≤ ins.rows) (hno : Empty links) :
    matrixLikelihood tiny words links out ins vocab = some (linkedLike tiny words links out ins vocab) := by
  rw [matrix_exact tiny words links hw hl out ins vocab hf hv hi (fun r hr e he => by rw [hno r hr] at he; cases he), linkedLike,
    corpusLike_empty tiny links hno, corpusLike_empty tiny links hno]

/-- Two documents, two topics: the first document is three times as much about the second topic -/
noncomputable def exMeans : Mat ℝ := ⟨2, 2, fun d k => if d = 0 ∧ k = 1 then Real.log 3 else 0⟩

/-- one word in each document -/
def exWords : Csr ℝ := Csr.ofRows 1 [[(0, 1)], [(0, 1)]]

/-- the first document links to the second -/
def exLinks : Csr ℝ := Csr.ofRows 2 [[(1, 1)], []]

theorem exWords_wf : exWords.WF := Csr.ofRows_wf 1 _ (by simp)

theorem exLinks_wf : exLinks.WF := Csr.ofRows_wf 2 _ (by simp)

theorem exWords_row (r : Nat) (hr : r < 2) : exWords.row r = [(0, 1)] := by
  have := Csr.ofRows_row 1 ([[(0, 1)], [(0, 1)]] : List (List (Nat × ℝ))) r (by simpa using hr)
  rw [exWords, this]
  interval_cases r <;> rfl

theorem exLinks_row (r : Nat) (hr : r < 2) : exLinks.row r = if r = 0 then [(1, 1)] else [] := by
  have := Csr.ofRows_row 2 ([[(1, 1)], []] : List (List (Nat × ℝ))) r (by simpa using hr)
  rw [exLinks, this]
  interval_cases r <;> rfl

theorem exMeans_theta (k : Nat) : softmax 2 (exMeans.get 0) k = if k = 1 then 3 / 4 else 1 / 4 := by
  unfold softmax
  simp only [exMeans, Finset.sum_range_succ, Finset.sum_range_zero, true_and]
  split
  · norm_num [Real.exp_log]
  · norm_num [Real.exp_log]

theorem exMeans_target : target exMeans 0 0 = 1 / 2 ∧ target exMeans 0 1 = 1 / 2 ∧ target exMeans 1 0 = 3 / 4 ∧ target exMeans 1 1 = 1 / 4 := by
  refine ⟨?_, ?_, ?_, ?_⟩ <;>
  · unfold target
    simp only [exMeans, Finset.sum_range_succ, Finset.sum_range_zero]
    norm_num [Real.exp_log]

/-- C250 is violated: with as many documents as topics nothing is read outside, and the likelihood of the link is 6/16 instead of 5/16. -/
theorem matrix_wrong : matrixLikelihood (1 / 100) exWords exLinks exMeans exMeans ⟨2, 1, fun _ _ => 1⟩ = some (Real.log (6 / 16))
    ∧ linkedLike (1 / 100) exWords exLinks exMeans exMeans ⟨2, 1, fun _ _ => 1⟩ = Real.log (5 / 16) := by
  have hw : corpusLike (1 / 100) exWords 2 (fun d => softmax 2 (exMeans.get d)) (fun _ _ => 1) = 0 := by
    refine Finset.sum_eq_zero fun d hd => ?_
    rw [exWords_row d (Finset.mem_range.mp hd)]
    simp only [mul_one]
    rw [(MomEm.softmax_dist 2 (exMeans.get d) two_pos).2]
    norm_num
  have hl : ∀ f : Nat → Nat → ℝ, corpusLike (1 / 100) exLinks 2 (fun d => softmax 2 (exMeans.get d)) f
      = Real.log (max (1 / 4 * f 0 1 + 3 / 4 * f 1 1) (1 / 100)) := by
    intro f
    have : exLinks.rows = 2 := rfl
    unfold corpusLike
    rw [this, Finset.sum_range_succ, Finset.sum_range_one, exLinks_row 0 (by norm_num), exLinks_row 1 (by norm_num)]
    simp only [Finset.sum_range_succ, Finset.sum_range_zero, exMeans_theta]
    norm_num
  obtain ⟨t00, t01, t10, t11⟩ := exMeans_target
  constructor
  · rw [matrix_exact _ _ _ exWords_wf exLinks_wf]
    · have : exMeans.cols = 2 := rfl
      simp only [this]
      rw [hw, hl, t10, t11]
      norm_num
    · intro r hr e he
      rw [exWords_row r hr, List.mem_singleton] at he
      subst he
      exact ⟨hr, by norm_num⟩
    · exact le_refl _
    · exact le_refl _
    · intro r hr e he
      rw [exLinks_row r hr] at he
      split at he
      · rw [List.mem_singleton] at he
        subst he
        exact ⟨hr, by norm_num [exMeans]⟩
      · cases he
  · have : exMeans.cols = 2 := rfl
    simp only [linkedLike, this]
    rw [hw, hl, t01, t11]
    norm_num

/-! ## C251: mixtures -/

theorem lse_stable (K : Nat) (hK : 0 < K) (l : Nat → ℝ) (m : ℝ) : m + Real.log (∑ k ∈ Finset.range K, Real.exp (l k - m))
    = Real.log (∑ k ∈ Finset.range K, Real.exp (l k)) := by
  have hp : 0 < ∑ k ∈ Finset.range K, Real.exp (l k - m) := Finset.sum_pos (fun _ _ => Real.exp_pos _) ⟨0, Finset.mem_range.mpr hK⟩
  have : ∑ k ∈ Finset.range K, Real.exp (l k) = Real.exp m * ∑ k ∈ Finset.range K, Real.exp (l k - m) := by
    rw [Finset.mul_sum]
    refine Finset.sum_congr rfl fun k _ => ?_
    rw [← Real.exp_add]
    congr 1
    ring
  rw [this, Real.log_mul (Real.exp_pos _).ne' hp.ne', Real.log_exp]

theorem exp_safeLog (x : ℝ) : Real.exp (Numerics.safeLogOut false x) = max x (Numerics.almostZero false) := by
  have hz : 0 < Numerics.almostZero false := by unfold Numerics.almostZero; positivity
  unfold Numerics.safeLogOut
  split
  · next h => rw [Real.exp_log (lt_of_lt_of_le hz h), max_eq_left h]
  · next h => rw [Real.exp_log hz, max_eq_right (not_le.mp h).le]

/-- C251, what holds: the point likelihood of the mixture fitted by EM is that of a mixture, each document's weights being at least 1E-300. -/
theorem em_point_partial (D K T : Nat) (hK : 0 < K) (x : Nat → Nat → Nat) (param : Nat → Nat → ℝ) (hp : ∀ k, k < K → ∀ t, t < T → 0 < param k t)
    (weight : Nat → Nat → ℝ) :
    momEmPoint D K T x param weight = ∑ d ∈ Finset.range D, Real.log (mixtureLikelihood K T (x d) (fun k => max (weight d k) (Numerics.almostZero false))
      (fun k t => param k t / ∑ u ∈ Finset.range T, param k u)) := by
  unfold momEmPoint
  refine Finset.sum_congr rfl fun d _ => ?_
  rw [lse_stable K hK]
  unfold mixtureLikelihood
  congr 1
  refine Finset.sum_congr rfl fun k hk => ?_
  rw [Real.exp_add, exp_safeLog, Real.exp_sum, mul_comm]
  congr 1
  refine Finset.prod_congr rfl fun t ht => ?_
  have hpos : 0 < param k t / ∑ u ∈ Finset.range T, param k u :=
    div_pos (hp k (Finset.mem_range.mp hk) t (Finset.mem_range.mp ht)) (Finset.sum_pos (fun u hu => hp k (Finset.mem_range.mp hk) u (Finset.mem_range.mp hu)) ⟨t, ht⟩)
  rw [mul_comm, Real.exp_mul, Real.exp_log hpos, Real.rpow_natCast]

/-- C251: with the topic distribution of the corpus as weights it is exactly the likelihood of the mixture. -/
theorem em_point_corpus (D K T : Nat) (hK : 0 < K) (x : Nat → Nat → Nat) (param : Nat → Nat → ℝ) (hp : ∀ k, k < K → ∀ t, t < T → 0 < param k t)
    (alpha : Nat → ℝ) (ha : ∀ k, k < K → Numerics.almostZero false ≤ corpusTopicDist K alpha k) :
    momEmPoint D K T x param (fun _ => corpusTopicDist K alpha) = ∑ d ∈ Finset.range D, Real.log (mixtureLikelihood K T (x d)
      (fun k => alpha k / ∑ j ∈ Finset.range K, alpha j) (fun k t => param k t / ∑ u ∈ Finset.range T, param k u)) := by
  rw [em_point_partial D K T hK x param hp]
  refine Finset.sum_congr rfl fun d _ => ?_
  congr 1
  refine Finset.sum_congr rfl fun k hk => ?_
  simp only
  rw [max_eq_left (ha k (Finset.mem_range.mp hk))]
  rfl

/-- C251, what the sampler's code does: each word has a topic of its own, drawn with the document's weights. -/
theorem gibbs_point_exact (tiny : ℝ) (words : Csr ℝ) (hw : words.WF) (topics vocab : Mat ℝ) (hf : Fits words topics.rows vocab.cols)
    (h : topics.cols ≤ vocab.rows) :
    momGibbsPoint tiny words topics vocab = some (corpusLike tiny words topics.cols topics.get (share vocab)) :=
  ln_dot_sum tiny words hw topics (SkWrapped.componentDists vocab) h hf

/-- The likelihood of the mixture for the documents of a sparse table: one topic for all words of a document -/
noncomputable def mixtureLike (w : Csr ℝ) (K : Nat) (y φ : Nat → Nat → ℝ) : ℝ :=
  ∑ d ∈ Finset.range w.rows, Real.log (∑ k ∈ Finset.range K, y d k * ((w.row d).map (fun e => φ k e.1 ^ e.2)).prod)

/-- C251, what holds of the sampler: when each document certainly has one topic, the value is that of the mixture. -/
theorem gibbs_point_partial (tiny : ℝ) (words : Csr ℝ) (hw : words.WF) (topics vocab : Mat ℝ) (hf : Fits words topics.rows vocab.cols)
    (h : topics.cols ≤ vocab.rows) (ht : 0 < tiny) (z : Nat → Nat) (hz : ∀ d, z d < topics.cols)
    (hone : ∀ d, d < words.rows → ∀ k, k < topics.cols → topics.get d k = if k = z d then 1 else 0)
    (hφ : ∀ k, k < topics.cols → ∀ t, t < vocab.cols → tiny ≤ share vocab k t) :
    momGibbsPoint tiny words topics vocab = some (mixtureLike words topics.cols topics.get (share vocab)) := by
  rw [gibbs_point_exact tiny words hw topics vocab hf h]
  congr 1
  refine Finset.sum_congr rfl fun d hd => ?_
  have hd := Finset.mem_range.mp hd
  have hs : ∀ f : Nat → ℝ, ∑ k ∈ Finset.range topics.cols, topics.get d k * f k = f (z d) := by
    intro f
    rw [Finset.sum_eq_single (z d)]
    · rw [hone d hd _ (hz d), if_pos rfl, one_mul]
    · intro k hk hn
      rw [hone d hd k (Finset.mem_range.mp hk), if_neg hn, zero_mul]
    · intro hn
      exact absurd (Finset.mem_range.mpr (hz d)) hn
  simp only [hs]
  have hl : ∀ e ∈ words.row d, tiny ≤ share vocab (z d) e.1 := fun e he => hφ _ (hz d) _ (hf d hd e he).2
  generalize words.row d = l at hl ⊢
  induction l with
  | nil => simp
  | cons a l ih =>
    have ha := hl a (List.mem_cons_self ..)
    have hpos : 0 < share vocab (z d) a.1 := lt_of_lt_of_le ht ha
    have hp : 0 < (l.map (fun e => share vocab (z d) e.1 ^ e.2)).prod := by
      refine List.prod_pos ?_
      intro x hx
      obtain ⟨e, he, rfl⟩ := List.mem_map.mp hx
      exact Real.rpow_pos_of_pos (lt_of_lt_of_le ht (hl e (List.mem_cons_of_mem _ he))) _
    rw [List.map_cons, List.sum_cons, List.map_cons, List.prod_cons, ih (fun e he => hl e (List.mem_cons_of_mem _ he)), max_eq_left ha,
      Real.log_mul (Real.rpow_pos_of_pos hpos _).ne' hp.ne', Real.log_rpow hpos]

/-- A document with two different words -/
def exPair : Csr ℝ := Csr.ofRows 2 [[(0, 1), (1, 1)]]

/-- Each topic prefers its word three to one -/
noncomputable def exVocab : Mat ℝ := ⟨2, 2, fun k t => if k = t then 3 / 4 else 1 / 4⟩

theorem exPair_wf : exPair.WF := Csr.ofRows_wf 2 _ (by simp; omega)

theorem exVocab_share (k t : Nat) (hk : k < 2) : share exVocab k t = exVocab.get k t := by
  have : exVocab.cols = 2 := rfl
  unfold share
  rw [this, Finset.sum_range_succ, Finset.sum_range_one]
  interval_cases k <;> norm_num [exVocab]

/-- C251 is violated by the sampler: a document of two words, half in each topic, has probability 3/16 under the mixture; 1/4 is reported. -/
theorem gibbs_point_violation : momGibbsPoint (1 / 100) exPair ⟨1, 2, fun _ _ => 1 / 2⟩ exVocab = some (Real.log (1 / 4))
    ∧ mixtureLike exPair 2 (fun _ _ => 1 / 2) (share exVocab) = Real.log (3 / 16) := by
  have hrow : exPair.row 0 = [(0, 1), (1, 1)] := Csr.ofRows_row 2 [[(0, 1), (1, 1)]] 0 (by simp)
  have hr : exPair.rows = 1 := rfl
  constructor
  · rw [gibbs_point_exact _ _ exPair_wf]
    · unfold corpusLike
      rw [hr, Finset.sum_range_one, hrow]
      simp only [List.map_cons, List.map_nil, List.sum_cons, List.sum_nil, Finset.sum_range_succ, Finset.sum_range_zero]
      rw [exVocab_share 0 _ (by norm_num), exVocab_share 1 _ (by norm_num), exVocab_share 0 _ (by norm_num), exVocab_share 1 _ (by norm_num)]
      simp only [exVocab]
      have h4 : Real.log (1 / 4) = 2 * Real.log (1 / 2) := by
        rw [show (1 / 4 : ℝ) = (1 / 2) ^ 2 by norm_num, Real.log_pow]
        norm_num
      rw [h4]
      norm_num
      ring
    · intro r hr' e he
      have : r = 0 := by rw [hr] at hr'; omega
      subst this
      rw [hrow] at he
      refine ⟨by norm_num, ?_⟩
      rcases List.mem_cons.mp he with rfl | he
      · norm_num [exVocab]
      · rw [List.mem_singleton.mp he]; norm_num [exVocab]
    · exact le_refl _
  · unfold mixtureLike
    rw [hr, Finset.sum_range_one, hrow]
    simp only [List.map_cons, List.map_nil, List.prod_cons, List.prod_nil, Finset.sum_range_succ, Finset.sum_range_zero]
    rw [exVocab_share 0 _ (by norm_num), exVocab_share 1 _ (by norm_num), exVocab_share 0 _ (by norm_num), exVocab_share 1 _ (by norm_num)]
    simp only [exVocab]
    norm_num

/-! ## Examples -/

example : selfLikelihood (1 / 100) (Csr.ofRows 3 [[(2, 1)], []]) exLinks ⟨2, 3, fun _ _ => 1⟩ ⟨2, 3, fun _ _ => 1⟩ = none :=
  self_reads_outside _ _ _ _ _ 0 (by decide) (2, 1) (by rw [Csr.ofRows_row 3 [[(2, (1 : ℝ))], []] 0 (by simp)]; simp) (by decide)

example : matrixLikelihood (1 / 100) exWords (Csr.ofRows 3 [[(2, 1)], [], []]) ⟨3, 2, fun _ _ => 0⟩ ⟨3, 2, fun _ _ => 0⟩ ⟨2, 1, fun _ _ => 1⟩ = none :=
  matrix_reads_outside _ _ _ _ _ _ 0 (by decide) (2, 1) (by rw [Csr.ofRows_row 3 [[(2, (1 : ℝ))], [], []] 0 (by simp)]; simp) (by decide)

example : momGibbsPoint (1 / 100) exPair ⟨1, 2, fun _ k => if k = 1 then 1 else 0⟩ exVocab
    = some (mixtureLike exPair 2 (fun _ k => if k = 1 then 1 else 0) (share exVocab)) := by
  refine gibbs_point_partial _ _ exPair_wf ⟨1, 2, fun _ k => if k = 1 then 1 else 0⟩ exVocab ?_ (le_refl _) (by norm_num) (fun _ => 1) (fun _ => by norm_num)
    (fun _ _ _ _ => rfl) (fun k hk t _ => ?_)
  · intro r hr e he
    have : r = 0 := by have hr' : exPair.rows = 1 := rfl; omega
    subst this
    rw [show exPair.row 0 = [(0, 1), (1, 1)] from Csr.ofRows_row 2 [[(0, 1), (1, 1)]] 0 (by simp)] at he
    refine ⟨by norm_num, ?_⟩
    rcases List.mem_cons.mp he with rfl | he
    · norm_num [exVocab]
    · rw [List.mem_singleton.mp he]; norm_num [exVocab]
  · rw [exVocab_share k t hk]
    simp only [exVocab]
    split <;> norm_num

example : ∃ v, rtmLikelihood (1 / 100) exWords exLinks ⟨2, 2, fun _ _ => 1⟩ ⟨1, 1, fun _ _ => 1⟩ = some v
    ∧ rtmLikelihood (1 / 100) exWords (Csr.ofRows 2 [[], []]) ⟨2, 2, fun _ _ => 1⟩ ⟨1, 1, fun _ _ => 1⟩ = some v := by
  have hf : Fits exWords 2 1 := by
    intro r hr e he
    rw [exWords_row r hr, List.mem_singleton] at he
    subst he
    exact ⟨hr, by norm_num⟩
  exact ⟨_, (word_likelihood_only _ _ _ exWords_wf ⟨2, 2, fun _ _ => 1⟩ ⟨1, 1, fun _ _ => 1⟩ hf).1 (by decide),
    (word_likelihood_only _ _ _ exWords_wf ⟨2, 2, fun _ _ => 1⟩ ⟨1, 1, fun _ _ => 1⟩ hf).1 (by decide)⟩

example : momEmPoint 1 2 2 (fun _ _ => 1) (fun k t => if k = t then 3 else 1) (fun _ => corpusTopicDist 2 fun _ => 1) = Real.log (3 / 16) := by
  rw [em_point_corpus 1 2 2 two_pos _ _ (fun k _ t _ => by split <;> norm_num) _ (fun k _ => by
    have h1 : ((1 : ℝ) / 10) ^ 300 ≤ (1 / 10) ^ 1 := pow_le_pow_of_le_one (by norm_num) (by norm_num) (by norm_num)
    simp only [corpusTopicDist, Finset.sum_const, Finset.card_range, Numerics.almostZero]
    refine h1.trans ?_
    norm_num)]
  rw [Finset.sum_range_one]
  unfold mixtureLikelihood
  simp only [Finset.sum_range_succ, Finset.sum_range_zero, Finset.prod_range_succ, Finset.prod_range_zero]
  norm_num

end Verif.Props.Likelihoods
