import Verif.Props.Likelihoods
import Verif.Model.RecLikely
import Mathlib.Analysis.SpecialFunctions.Log.Basic

/-!
# The likelihood of documents under their own word frequencies (C328)
-/

namespace Verif.Props.OwnWords

open Verif Verif.Likelihoods
open Verif.Mom (Data)
open Verif.Props.Likelihoods (Fits ln_dot_sum)
open Verif.Props.SkWrapped (corpusLike list_range_sum)

/-- The log-likelihood of a list of words and counts under the shares of the words in this list -/
noncomputable def ownRow (l : List (Nat × ℝ)) : ℝ := (l.map fun e => e.2 * Real.log (e.2 / (l.map Prod.snd).sum)).sum

/-- The log-likelihood of a corpus if each document has its own word frequencies -/
noncomputable def ownLike (w : Csr ℝ) : ℝ := ∑ d ∈ Finset.range w.rows, ownRow (w.row d)

/-- The number of words in a corpus -/
noncomputable def tokens (w : Csr ℝ) : ℝ := ∑ d ∈ Finset.range w.rows, ((w.row d).map Prod.snd).sum

/-- Counts that are not negative, and each word stored once in a document -/
structure Counts (w : Csr ℝ) : Prop where
  wf : w.WF
  nonneg : ∀ d, d < w.rows → ∀ e ∈ w.row d, 0 ≤ e.2
  once : ∀ d, d < w.rows → ((w.row d).map Prod.fst).Nodup

/-! ## One document -/

/-- Gibbs' inequality for weights `q` that sum to `Q` at most -/
theorem gibbs_row (l : List (Nat × ℝ)) (q : Nat → ℝ) (Q : ℝ) (hc : ∀ e ∈ l, 0 ≤ e.2) (hq : ∀ e ∈ l, 0 < q e.1) (hQ : 0 < Q)
    (hs : (l.map fun e => q e.1).sum ≤ Q) :
    (l.map fun e => e.2 * Real.log (q e.1)).sum ≤ ownRow l + (l.map Prod.snd).sum * Real.log Q := by
  unfold ownRow
  have hn0 : 0 ≤ (l.map Prod.snd).sum := List.sum_nonneg fun c h => by
    obtain ⟨e, he, rfl⟩ := List.mem_map.1 h
    exact hc e he
  have hle : ∀ e ∈ l, e.2 ≤ (l.map Prod.snd).sum := fun e he => List.single_le_sum (fun c h => by
    obtain ⟨e, he, rfl⟩ := List.mem_map.1 h
    exact hc e he) _ (List.mem_map_of_mem he)
  generalize hn : (l.map Prod.snd).sum = n at hn0 hle
  have key : ∀ e ∈ l, e.2 * Real.log (q e.1) ≤ e.2 * Real.log (e.2 / n) + e.2 * Real.log Q + (n / Q * q e.1 - e.2) := by
    intro e he
    rcases (hc e he).eq_or_lt with h0 | h0
    · rw [← h0]
      have := mul_nonneg (div_nonneg hn0 hQ.le) (hq e he).le
      linarith
    · have hn' : 0 < n := lt_of_lt_of_le h0 (hle e he)
      have h1 : Real.log (q e.1 * n / (Q * e.2)) ≤ q e.1 * n / (Q * e.2) - 1 := Real.log_le_sub_one_of_pos (by have := hq e he; positivity)
      have h2 : Real.log (q e.1 * n / (Q * e.2)) = Real.log (q e.1) - Real.log (e.2 / n) - Real.log Q := by
        rw [Real.log_div (by have := hq e he; positivity) (by positivity), Real.log_mul (hq e he).ne' hn'.ne', Real.log_mul hQ.ne' h0.ne',
          Real.log_div h0.ne' hn'.ne']
        ring
      rw [h2] at h1
      have h3 := mul_le_mul_of_nonneg_left h1 h0.le
      have h4 : e.2 * (q e.1 * n / (Q * e.2) - 1) = n / Q * q e.1 - e.2 := by
        field_simp
      rw [h4] at h3
      linarith
  refine (List.sum_le_sum key).trans ?_
  rw [List.sum_map_add, List.sum_map_add, List.sum_map_mul_right]
  have h5 : (l.map fun e => n / Q * q e.1 - e.2).sum = n / Q * (l.map fun e => q e.1).sum - n := by
    rw [← hn]
    generalize (l.map Prod.snd).sum / Q = a
    clear key hle hn0 hn hs hq hc
    induction l with
    | nil => simp
    | cons e l ih =>
      simp only [List.map_cons, List.sum_cons] at ih ⊢
      rw [ih]
      ring
  have h6 : n / Q * (l.map fun e => q e.1).sum ≤ n := by
    rw [div_mul_eq_mul_div, div_le_iff₀ hQ]
    exact mul_le_mul_of_nonneg_left hs hn0
  have h7 : (l.map fun e => e.2).sum = n := hn
  rw [h5, h7]
  linarith

/-- Words that are listed once have a probability of one at most together. -/
theorem listed_le (l : List (Nat × ℝ)) (T : Nat) (p : Nat → ℝ) (tiny : ℝ) (hl : (l.map Prod.fst).Nodup) (hT : ∀ e ∈ l, e.1 < T) (hp : ∀ t, t < T → 0 ≤ p t)
    (hs : ∑ t ∈ Finset.range T, p t ≤ 1) (ht : 0 < tiny) : (l.map fun e => max (p e.1) tiny).sum ≤ 1 + T * tiny := by
  have e1 : (l.map fun e => max (p e.1) tiny) = (l.map Prod.fst).map fun t => max (p t) tiny := by
    rw [List.map_map]
    rfl
  rw [e1, ← List.sum_toFinset _ hl]
  have hsub : (l.map Prod.fst).toFinset ⊆ Finset.range T := by
    intro t h
    obtain ⟨e, he, rfl⟩ := List.mem_map.1 (List.mem_toFinset.1 h)
    exact Finset.mem_range.2 (hT e he)
  refine (Finset.sum_le_sum_of_subset_of_nonneg hsub fun t _ _ => le_max_of_le_right ht.le).trans ?_
  have h1 : ∑ t ∈ Finset.range T, max (p t) tiny ≤ ∑ t ∈ Finset.range T, (p t + tiny) := by
    apply Finset.sum_le_sum
    intro t h
    have := hp t (Finset.mem_range.1 h)
    exact max_le (by linarith) (by linarith)
  refine h1.trans ?_
  rw [Finset.sum_add_distrib, Finset.sum_const, Finset.card_range, nsmul_eq_mul]
  linarith

/-- A mixture of distributions is a distribution. -/
theorem mixed (K T : Nat) (y : Nat → ℝ) (φ : Nat → Nat → ℝ) (hy : ∀ k, k < K → 0 ≤ y k) (hys : ∑ k ∈ Finset.range K, y k = 1)
    (hφ : ∀ k, k < K → ∀ t, t < T → 0 ≤ φ k t) (hφs : ∀ k, k < K → ∑ t ∈ Finset.range T, φ k t = 1) :
    (∀ t, t < T → 0 ≤ ∑ k ∈ Finset.range K, y k * φ k t) ∧ ∑ t ∈ Finset.range T, ∑ k ∈ Finset.range K, y k * φ k t = 1 := by
  refine ⟨fun t ht => Finset.sum_nonneg fun k hk => mul_nonneg (hy k (Finset.mem_range.1 hk)) (hφ k (Finset.mem_range.1 hk) t ht), ?_⟩
  rw [Finset.sum_comm, ← hys]
  refine Finset.sum_congr rfl fun k hk => ?_
  rw [← Finset.mul_sum, hφs k (Finset.mem_range.1 hk), mul_one]

/-! ## The kernel -/

theorem kernel_own (tiny : ℝ) (ht : 0 < tiny) (w : Csr ℝ) (hw : Counts w) (B C : Mat ℝ) (hC : B.cols ≤ C.rows) (hf : Fits w B.rows C.cols)
    (hy : ∀ d, d < w.rows → ∀ k, k < B.cols → 0 ≤ B.get d k) (hys : ∀ d, d < w.rows → ∑ k ∈ Finset.range B.cols, B.get d k = 1)
    (hφ : ∀ k, k < B.cols → ∀ t, t < C.cols → 0 ≤ C.get k t) (hφs : ∀ k, k < B.cols → ∑ t ∈ Finset.range C.cols, C.get k t = 1) :
    ∃ v, lnDotSum tiny w B C = some v ∧ v ≤ ownLike w + tokens w * Real.log (1 + C.cols * tiny) := by
  refine ⟨_, ln_dot_sum tiny w hw.wf B C hC hf, ?_⟩
  unfold corpusLike ownLike tokens
  rw [Finset.sum_mul, ← Finset.sum_add_distrib]
  refine Finset.sum_le_sum fun d hd => ?_
  have hd' := Finset.mem_range.1 hd
  obtain ⟨h1, h2⟩ := mixed B.cols C.cols (B.get d) C.get (hy d hd') (hys d hd') hφ hφs
  exact gibbs_row (w.row d) (fun t => max (∑ k ∈ Finset.range B.cols, B.get d k * C.get k t) tiny) _ (hw.nonneg d hd')
    (fun e _ => lt_max_of_lt_right ht) (by positivity) (listed_le _ _ _ tiny (hw.once d hd') (fun e he => (hf d hd' e he).2) h1 h2.le ht)

/-! ## Models -/

/-- Weights that are not negative, with a positive sum in each of the first `n` rows -/
structure Weights (n m : Nat) (f : Nat → Nat → ℝ) : Prop where
  nonneg : ∀ i, i < n → ∀ j, j < m → 0 ≤ f i j
  pos : ∀ i, i < n → 0 < ∑ j ∈ Finset.range m, f i j

theorem Weights.shares {n m : Nat} {f : Nat → Nat → ℝ} (h : Weights n m f) :
    (∀ i, i < n → ∀ j, j < m → 0 ≤ f i j / ∑ u ∈ Finset.range m, f i u) ∧
      ∀ i, i < n → ∑ j ∈ Finset.range m, f i j / ∑ u ∈ Finset.range m, f i u = 1 := by
  refine ⟨fun i hi j hj => div_nonneg (h.nonneg i hi j hj) (h.pos i hi).le, fun i hi => ?_⟩
  rw [← Finset.sum_div, div_self (h.pos i hi).ne']

theorem softmax_dist (K : Nat) (hK : 0 < K) (means : Nat → Nat → ℝ) (d : Nat) :
    (∀ k, k < K → 0 ≤ Ctm.softmaxRows K means d k) ∧ ∑ k ∈ Finset.range K, Ctm.softmaxRows K means d k = 1 := by
  unfold Ctm.softmaxRows
  have hpos : 0 < ∑ j ∈ Finset.range K, Real.exp (means d j - Numerics.rowMax K (means d)) :=
    Finset.sum_pos (fun _ _ => Real.exp_pos _) ⟨0, Finset.mem_range.2 hK⟩
  refine ⟨fun k _ => div_nonneg (Real.exp_pos _).le hpos.le, ?_⟩
  rw [← Finset.sum_div, div_self hpos.ne']

/-- **C328**: in LDA, the recommenders, the mixture sampler, the relational topic model and the first matrix topic model no model has a higher
log-likelihood than the word frequencies of each document, apart from the smallest number that replaces zero probabilities. -/
theorem word_own (tiny : ℝ) (ht : 0 < tiny) (w : Csr ℝ) (hw : Counts w) (links : Csr ℝ) (X C : Mat ℝ) (hC : X.cols ≤ C.rows) (hf : Fits w X.rows C.cols)
    (hc : Weights X.cols C.cols C.get) :
    (Weights w.rows X.cols X.get → ∃ v, RecLikely.ldaLikelihood tiny w C X none = some v ∧ v ≤ ownLike w + tokens w * Real.log (1 + C.cols * tiny)) ∧
    (Weights w.rows X.cols X.get → (∀ d, d < w.rows → ∑ k ∈ Finset.range X.cols, X.get d k = 1) →
      ∃ v, momGibbsPoint tiny w X C = some v ∧ v ≤ ownLike w + tokens w * Real.log (1 + C.cols * tiny)) ∧
    (Weights w.rows (X.cols - 1) X.get → ∃ v, rtmLikelihood tiny w links X C = some v ∧ v ≤ ownLike w + tokens w * Real.log (1 + C.cols * tiny)) ∧
    (0 < X.cols → ∃ v, mtmLikelihood tiny w links X C = some v ∧ v ≤ ownLike w + tokens w * Real.log (1 + C.cols * tiny)) := by
  refine ⟨fun hx => ?_, fun hx h1 => ?_, fun hx => ?_, fun hx => ?_⟩
  · exact kernel_own tiny ht w hw (RecLikely.topicDists X) (RecLikely.wordDists C) hC hf hx.shares.1 hx.shares.2 hc.shares.1 hc.shares.2
  · exact kernel_own tiny ht w hw X (SkWrapped.componentDists C) hC hf hx.nonneg h1 hc.shares.1 hc.shares.2
  · obtain ⟨v, h1, h2⟩ := kernel_own tiny ht w hw (leadingDists X) (SkWrapped.componentDists C) (le_trans (Nat.sub_le _ _) hC) hf hx.shares.1 hx.shares.2
      (fun k hk => hc.shares.1 k (lt_of_lt_of_le hk (Nat.sub_le _ _))) (fun k hk => hc.shares.2 k (lt_of_lt_of_le hk (Nat.sub_le _ _)))
    refine ⟨v, ?_, h2⟩
    unfold rtmLikelihood
    rw [h1]
    exact congrArg some (add_zero _)
  · obtain ⟨v, h1, h2⟩ := kernel_own tiny ht w hw (softDists X) (SkWrapped.componentDists C) hC hf (fun d _ => (softmax_dist X.cols hx X.get d).1)
      (fun d _ => (softmax_dist X.cols hx X.get d).2) hc.shares.1 hc.shares.2
    refine ⟨v, ?_, h2⟩
    unfold mtmLikelihood
    rw [h1]
    exact congrArg some (add_zero _)

/-- **C328**: the same for the correlated topic models and the models with features, whose word counts are a table. -/
theorem ctm_own (x : Data) (K : Nat) (hK : 0 < K) (tiny : ℝ) (ht : 0 < tiny) (means vocab : Nat → Nat → ℝ)
    (hφ : ∀ k, k < K → ∀ t, t < x.T → 0 ≤ vocab k t) (hφs : ∀ k, k < K → ∑ t ∈ Finset.range x.T, vocab k t = 1) :
    Ctm.logLikelihood x K tiny means vocab
      ≤ ∑ d ∈ Finset.range x.D, ∑ t ∈ Finset.range x.T, (x.words d t : ℝ) * Real.log (x.words d t / ∑ u ∈ Finset.range x.T, (x.words d u : ℝ))
        + (∑ d ∈ Finset.range x.D, ∑ t ∈ Finset.range x.T, (x.words d t : ℝ)) * Real.log (1 + x.T * tiny) := by
  unfold Ctm.logLikelihood
  rw [Finset.sum_mul, ← Finset.sum_add_distrib]
  refine Finset.sum_le_sum fun d _ => ?_
  obtain ⟨h1, h2⟩ := mixed K x.T (Ctm.softmaxRows K means d) vocab (softmax_dist K hK means d).1 (softmax_dist K hK means d).2 hφ hφs
  have hsafe : ∀ p, SparseKernels.safeLn tiny p = Real.log (max p tiny) := by
    intro p
    unfold SparseKernels.safeLn
    split
    · rw [max_eq_left (by linarith)]
    · rw [max_eq_right (by linarith)]
  have h3 := gibbs_row ((List.range x.T).map fun t => (t, (x.words d t : ℝ)))
    (fun t => max (∑ k ∈ Finset.range K, Ctm.softmaxRows K means d k * vocab k t) tiny) (1 + x.T * tiny)
    (fun e he => by obtain ⟨t, _, rfl⟩ := List.mem_map.1 he; exact Nat.cast_nonneg _) (fun e _ => lt_max_of_lt_right ht) (by positivity)
    (listed_le _ x.T _ tiny (by rw [List.map_map]; exact List.map_id _ ▸ List.nodup_range)
      (fun e he => by obtain ⟨t, h4, rfl⟩ := List.mem_map.1 he; exact List.mem_range.1 h4) h1 h2.le ht)
  unfold ownRow at h3
  simp only [List.map_map, Function.comp_def, list_range_sum] at h3
  simp only [hsafe]
  exact h3

/-- **C328**: the same for the mixture fitted by expectation maximisation, with the topic distribution of the corpus. -/
theorem mixture_own (D K T : Nat) (hK : 0 < K) (x : Nat → Nat → Nat) (param : Nat → Nat → ℝ) (hp : ∀ k, k < K → ∀ t, t < T → 0 < param k t)
    (alpha : Nat → ℝ) (ha : ∀ k, k < K → Numerics.almostZero false ≤ corpusTopicDist K alpha k) :
    momEmPoint D K T x param (fun _ => corpusTopicDist K alpha)
      ≤ ∑ d ∈ Finset.range D, ∑ t ∈ Finset.range T, (x d t : ℝ) * Real.log (x d t / ∑ u ∈ Finset.range T, (x d u : ℝ)) := by
  rw [Likelihoods.em_point_corpus D K T hK x param hp alpha ha]
  refine Finset.sum_le_sum fun d _ => ?_
  have hθ : ∀ k, k < K → 0 < alpha k / ∑ j ∈ Finset.range K, alpha j := fun k hk => lt_of_lt_of_le (Props.Numerics.almostZero_pos false).1 (ha k hk)
  have hφ : ∀ k, k < K → ∀ t, t < T → 0 < param k t / ∑ u ∈ Finset.range T, param k u := fun k hk t ht =>
    div_pos (hp k hk t ht) (Finset.sum_pos (fun u hu => hp k hk u (Finset.mem_range.1 hu)) ⟨t, Finset.mem_range.2 ht⟩)
  have row : ∀ k, k < K → ∏ t ∈ Finset.range T, (param k t / ∑ u ∈ Finset.range T, param k u) ^ x d t
      ≤ Real.exp (∑ t ∈ Finset.range T, (x d t : ℝ) * Real.log (x d t / ∑ u ∈ Finset.range T, (x d u : ℝ))) := by
    intro k hk
    have h3 := gibbs_row ((List.range T).map fun t => (t, (x d t : ℝ))) (fun t => param k t / ∑ u ∈ Finset.range T, param k u) 1
      (fun e he => by obtain ⟨t, _, rfl⟩ := List.mem_map.1 he; exact Nat.cast_nonneg _)
      (fun e he => by obtain ⟨t, h4, rfl⟩ := List.mem_map.1 he; exact hφ k hk t (List.mem_range.1 h4)) one_pos
      (by
        simp only [List.map_map, Function.comp_def, list_range_sum]
        rw [← Finset.sum_div]
        exact div_self_le_one _)
    unfold ownRow at h3
    simp only [List.map_map, Function.comp_def, list_range_sum, Real.log_one, mul_zero, add_zero] at h3
    have h5 : ∏ t ∈ Finset.range T, (param k t / ∑ u ∈ Finset.range T, param k u) ^ x d t
        = Real.exp (∑ t ∈ Finset.range T, (x d t : ℝ) * Real.log (param k t / ∑ u ∈ Finset.range T, param k u)) := by
      rw [Real.exp_sum]
      refine Finset.prod_congr rfl fun t ht => ?_
      rw [Real.exp_nat_mul, Real.exp_log (hφ k hk t (Finset.mem_range.1 ht))]
    rw [h5]
    exact Real.exp_le_exp.2 h3
  have hpos : 0 < Props.Numerics.mixtureLikelihood K T (x d) (fun k => alpha k / ∑ j ∈ Finset.range K, alpha j)
      (fun k t => param k t / ∑ u ∈ Finset.range T, param k u) := by
    unfold Props.Numerics.mixtureLikelihood
    refine Finset.sum_pos (fun k hk => mul_pos (hθ k (Finset.mem_range.1 hk)) (Finset.prod_pos fun t ht => ?_)) ⟨0, Finset.mem_range.2 hK⟩
    exact pow_pos (hφ k (Finset.mem_range.1 hk) t (Finset.mem_range.1 ht)) _
  rw [Real.log_le_iff_le_exp hpos]
  unfold Props.Numerics.mixtureLikelihood
  refine (Finset.sum_le_sum fun k hk => mul_le_mul_of_nonneg_left (row k (Finset.mem_range.1 hk)) (hθ k (Finset.mem_range.1 hk)).le).trans ?_
  rw [← Finset.sum_mul, ← Finset.sum_div]
  exact mul_le_of_le_one_left (Real.exp_pos _).le (div_self_le_one _)

/-- **C328**: no perplexity is below that of the word frequencies of each document, apart from a factor next to one. -/
theorem perplexity_own (like own n s : ℝ) (hn : 0 < n) (hs : 0 < s) (h : like ≤ own + n * Real.log s) :
    RunMain.perplexityFromLike own n / s ≤ RunMain.perplexityFromLike like n := by
  unfold RunMain.perplexityFromLike
  rw [div_le_iff₀ hs]
  have e1 : Real.exp (-like / n) * s = Real.exp (-like / n + Real.log s) := by rw [Real.exp_add, Real.exp_log hs]
  rw [e1]
  apply Real.exp_le_exp.2
  rw [div_add' _ _ _ hn.ne', div_le_div_iff_of_pos_right hn]
  linarith

/-- **C328**: the value is attained, by a topic with the word frequencies of a document. -/
theorem own_attained (x : Data) (hD : x.D = 1) (tiny : ℝ) (means : Nat → Nat → ℝ) (n : ℝ)
    (hp : ∀ t, t < x.T → tiny < (x.words 0 t : ℝ) / n) :
    Ctm.logLikelihood x 1 tiny means (fun _ t => (x.words 0 t : ℝ) / n)
      = ∑ t ∈ Finset.range x.T, (x.words 0 t : ℝ) * Real.log (x.words 0 t / n) := by
  unfold Ctm.logLikelihood
  rw [hD, Finset.sum_range_one]
  refine Finset.sum_congr rfl fun t h => ?_
  have h1 : Ctm.softmaxRows 1 means 0 0 = 1 := by
    have := (softmax_dist 1 Nat.one_pos means 0).2
    rwa [Finset.sum_range_one] at this
  rw [Finset.sum_range_one, h1, one_mul, SparseKernels.safeLn, if_pos (hp t (Finset.mem_range.1 h))]

/-! ## Example -/

example : momEmPoint 1 2 2 (fun _ t => t + 1) (fun k t => if k = t then 3 else 1) (fun _ => corpusTopicDist 2 fun _ => 1)
    ≤ ∑ _d ∈ Finset.range 1, ∑ t ∈ Finset.range 2, ((t + 1 : Nat) : ℝ) * Real.log ((t + 1 : Nat) / ∑ u ∈ Finset.range 2, ((u + 1 : Nat) : ℝ)) :=
  mixture_own 1 2 2 two_pos _ _ (fun k _ t _ => by split <;> norm_num) _ (fun k _ => by
    have h1 : ((1 : ℝ) / 10) ^ 300 ≤ (1 / 10) ^ 1 := pow_le_pow_of_le_one (by norm_num) (by norm_num) (by norm_num)
    simp only [corpusTopicDist, Finset.sum_const, Finset.card_range, Numerics.almostZero]
    refine h1.trans ?_
    norm_num)

/-- One document with two words, one of them twice, stored once each -/
def exW : Csr ℝ := Csr.ofRows 2 [[(0, 2), (1, 1)]]

theorem exRow : exW.row 0 = [(0, 2), (1, 1)] := Csr.ofRows_row 2 [[(0, (2 : ℝ)), (1, 1)]] 0 (by simp)

theorem exCounts : Counts exW := by
  refine ⟨Csr.ofRows_wf _ _ (by simp; rintro a b (⟨rfl, -⟩ | ⟨rfl, -⟩) <;> omega), fun d hd e he => ?_, fun d hd => ?_⟩
  · have h0 : d = 0 := by have : exW.rows = 1 := rfl; omega
    subst h0
    rw [exRow] at he
    rcases List.mem_cons.1 he with rfl | he
    · norm_num
    · rw [List.mem_singleton.1 he]
      norm_num
  · have h0 : d = 0 := by have : exW.rows = 1 := rfl; omega
    subst h0
    rw [exRow]
    simp

/-- One topic with equal weights -/
example (tiny : ℝ) (ht : 0 < tiny) : ∃ v, RecLikely.ldaLikelihood tiny exW ⟨1, 2, fun _ _ => 1⟩ ⟨1, 1, fun _ _ => 1⟩ none = some v
    ∧ v ≤ ownLike exW + tokens exW * Real.log (1 + (2 : Nat) * tiny) := by
  refine (word_own tiny ht exW exCounts exW ⟨1, 1, fun _ _ => 1⟩ ⟨1, 2, fun _ _ => 1⟩ le_rfl ?_ ⟨fun _ _ _ _ => zero_le_one, fun _ _ => ?_⟩).1
    ⟨fun _ _ _ _ => zero_le_one, fun _ _ => ?_⟩
  · intro r hr e he
    have h0 : r = 0 := by have : exW.rows = 1 := rfl; omega
    subst h0
    rw [exRow] at he
    rcases List.mem_cons.1 he with rfl | he
    · exact ⟨Nat.one_pos, by decide⟩
    · rw [List.mem_singleton.1 he]
      exact ⟨Nat.one_pos, by decide⟩
  · simp
  · simp

end Verif.Props.OwnWords
