import Verif.Props.OwnWords

/-!
# Corpora in which words are merged (C330)
-/

namespace Verif.Props.MergedWords

open Verif Verif.Likelihoods
open Verif.Mom (Data)
open Verif.Props.Likelihoods (Fits ln_dot_sum)
open Verif.Props.SkWrapped (corpusLike)
open Verif.Props.OwnWords (Counts Weights softmax_dist)

/-- The sum of the values of all words below `T` that become the word `u` -/
noncomputable def mergedValue (g : Nat → Nat) (T : Nat) (f : Nat → ℝ) (u : Nat) : ℝ := ∑ t ∈ (Finset.range T).filter (fun t => g t = u), f t

/-- The weights of the merged words, of which there are `U` -/
noncomputable def merge (g : Nat → Nat) (U : Nat) (C : Mat ℝ) : Mat ℝ := ⟨C.rows, U, fun k u => mergedValue g C.cols (C.get k) u⟩

/-- In `w'` each word of `w` is replaced with the word it becomes. -/
structure Merged (g : Nat → Nat) (w w' : Csr ℝ) : Prop where
  rows : w'.rows = w.rows
  row : ∀ d, d < w.rows → w'.row d = (w.row d).map fun e => (g e.1, e.2)

theorem merged_sum (g : Nat → Nat) (T U : Nat) (hg : ∀ t, t < T → g t < U) (f : Nat → ℝ) :
    ∑ u ∈ Finset.range U, mergedValue g T f u = ∑ t ∈ Finset.range T, f t :=
  Finset.sum_fiberwise_of_maps_to (fun t ht => Finset.mem_range.2 (hg t (Finset.mem_range.1 ht))) f

theorem le_merged (g : Nat → Nat) (T : Nat) (f : Nat → ℝ) (hf : ∀ t, t < T → 0 ≤ f t) (t : Nat) (ht : t < T) : f t ≤ mergedValue g T f (g t) :=
  Finset.single_le_sum (fun s hs => hf s (Finset.mem_range.1 (Finset.mem_filter.1 hs).1)) (Finset.mem_filter.2 ⟨Finset.mem_range.2 ht, rfl⟩)

/-- Shares of merged words are the merged shares. -/
theorem shares_merge (g : Nat → Nat) (U : Nat) (C : Mat ℝ) (hg : ∀ t, t < C.cols → g t < U) :
    SkWrapped.componentDists (merge g U C) = merge g U (SkWrapped.componentDists C) := by
  unfold SkWrapped.componentDists merge
  simp only [Mat.mk.injEq, true_and]
  funext k u
  rw [merged_sum g C.cols U hg]
  unfold mergedValue
  rw [Finset.sum_div]

theorem words_merge (g : Nat → Nat) (U : Nat) (C : Mat ℝ) (hg : ∀ t, t < C.cols → g t < U) :
    RecLikely.wordDists (merge g U C) = merge g U (RecLikely.wordDists C) := shares_merge g U C hg

theorem kernel_merged (tiny : ℝ) (ht : 0 < tiny) (g : Nat → Nat) (U : Nat) (w w' : Csr ℝ) (h : Merged g w w') (hw : Counts w) (hw' : w'.WF) (B C : Mat ℝ)
    (hg : ∀ t, t < C.cols → g t < U) (hC : B.cols ≤ C.rows) (hf : Fits w B.rows C.cols)
    (hy : ∀ d, d < w.rows → ∀ k, k < B.cols → 0 ≤ B.get d k) (hφ : ∀ k, k < B.cols → ∀ t, t < C.cols → 0 ≤ C.get k t) :
    ∃ v v', lnDotSum tiny w B C = some v ∧ lnDotSum tiny w' B (merge g U C) = some v' ∧ v ≤ v' := by
  have hf' : Fits w' B.rows (merge g U C).cols := by
    intro r hr e he
    have hr' : r < w.rows := h.rows ▸ hr
    rw [h.row r hr'] at he
    obtain ⟨a, ha, rfl⟩ := List.mem_map.1 he
    exact ⟨(hf r hr' a ha).1, hg _ (hf r hr' a ha).2⟩
  refine ⟨_, _, ln_dot_sum tiny w hw.wf B C hC hf, ln_dot_sum tiny w' hw' B (merge g U C) hC hf', ?_⟩
  unfold corpusLike
  rw [h.rows]
  refine Finset.sum_le_sum fun d hd => ?_
  have hd' := Finset.mem_range.1 hd
  rw [h.row d hd', List.map_map]
  refine List.sum_le_sum fun e he => ?_
  refine mul_le_mul_of_nonneg_left (Real.log_le_log (lt_max_of_lt_right ht) (max_le_max_right tiny ?_)) (hw.nonneg d hd' e he)
  refine Finset.sum_le_sum fun k hk => ?_
  have hk' := Finset.mem_range.1 hk
  exact mul_le_mul_of_nonneg_left (le_merged g C.cols (C.get k) (hφ k hk') e.1 (hf d hd' e he).2) (hy d hd' k hk')

/-- **C330**: in LDA, the recommenders, the mixture sampler, the relational topic model and the first matrix topic model merging words of the corpus and
of the model never lowers the log-likelihood. -/
theorem word_merged (tiny : ℝ) (ht : 0 < tiny) (g : Nat → Nat) (U : Nat) (w w' : Csr ℝ) (h : Merged g w w') (hw : Counts w) (hw' : w'.WF) (links : Csr ℝ)
    (X C : Mat ℝ) (hg : ∀ t, t < C.cols → g t < U) (hC : X.cols ≤ C.rows) (hf : Fits w X.rows C.cols) (hc : Weights X.cols C.cols C.get) :
    (Weights w.rows X.cols X.get → ∃ v v', RecLikely.ldaLikelihood tiny w C X none = some v
      ∧ RecLikely.ldaLikelihood tiny w' (merge g U C) X none = some v' ∧ v ≤ v') ∧
    (Weights w.rows X.cols X.get → ∃ v v', momGibbsPoint tiny w X C = some v ∧ momGibbsPoint tiny w' X (merge g U C) = some v' ∧ v ≤ v') ∧
    (Weights w.rows (X.cols - 1) X.get → ∃ v v', rtmLikelihood tiny w links X C = some v ∧ rtmLikelihood tiny w' links X (merge g U C) = some v' ∧ v ≤ v') ∧
    (0 < X.cols → ∃ v v', mtmLikelihood tiny w links X C = some v ∧ mtmLikelihood tiny w' links X (merge g U C) = some v' ∧ v ≤ v') := by
  refine ⟨fun hx => ?_, fun hx => ?_, fun hx => ?_, fun hx => ?_⟩
  · unfold RecLikely.ldaLikelihood
    rw [words_merge g U C hg]
    exact kernel_merged tiny ht g U w w' h hw hw' (RecLikely.topicDists X) (RecLikely.wordDists C) hg hC hf hx.shares.1 hc.shares.1
  · unfold momGibbsPoint
    rw [shares_merge g U C hg]
    exact kernel_merged tiny ht g U w w' h hw hw' X (SkWrapped.componentDists C) hg hC hf hx.nonneg hc.shares.1
  · unfold rtmLikelihood
    rw [shares_merge g U C hg]
    obtain ⟨v, v', h1, h2, h3⟩ := kernel_merged tiny ht g U w w' h hw hw' (leadingDists X) (SkWrapped.componentDists C) hg (le_trans (Nat.sub_le _ _) hC) hf
      hx.shares.1 (fun k hk => hc.shares.1 k (lt_of_lt_of_le hk (Nat.sub_le _ _)))
    refine ⟨v, v', ?_, ?_, h3⟩
    · rw [h1]
      exact congrArg some (add_zero _)
    · rw [h2]
      exact congrArg some (add_zero _)
  · unfold mtmLikelihood
    rw [shares_merge g U C hg]
    obtain ⟨v, v', h1, h2, h3⟩ := kernel_merged tiny ht g U w w' h hw hw' (softDists X) (SkWrapped.componentDists C) hg hC hf
      (fun d _ => (softmax_dist X.cols hx X.get d).1) hc.shares.1
    refine ⟨v, v', ?_, ?_, h3⟩
    · rw [h1]
      exact congrArg some (add_zero _)
    · rw [h2]
      exact congrArg some (add_zero _)

/-- **C330**: the same for the correlated topic models and the models with features; the counts of merged words are added. -/
theorem ctm_merged (g : Nat → Nat) (x x' : Data) (hD : x'.D = x.D) (hg : ∀ t, t < x.T → g t < x'.T)
    (hx : ∀ d u, x'.words d u = ∑ t ∈ (Finset.range x.T).filter (fun t => g t = u), x.words d t) (K : Nat) (hK : 0 < K) (tiny : ℝ) (ht : 0 < tiny)
    (means vocab : Nat → Nat → ℝ) (hφ : ∀ k, k < K → ∀ t, t < x.T → 0 ≤ vocab k t) :
    Ctm.logLikelihood x K tiny means vocab ≤ Ctm.logLikelihood x' K tiny means (fun k => mergedValue g x.T (vocab k)) := by
  have hsafe : ∀ p, SparseKernels.safeLn tiny p = Real.log (max p tiny) := by
    intro p
    unfold SparseKernels.safeLn
    split
    · rw [max_eq_left (by linarith)]
    · rw [max_eq_right (by linarith)]
  unfold Ctm.logLikelihood
  rw [hD]
  refine Finset.sum_le_sum fun d _ => ?_
  simp only [hsafe]
  generalize hp : (fun u => Real.log (max (∑ k ∈ Finset.range K, Ctm.softmaxRows K means d k * mergedValue g x.T (vocab k) u) tiny)) = p
  have e1 : ∑ u ∈ Finset.range x'.T, (x'.words d u : ℝ) * p u = ∑ t ∈ Finset.range x.T, (x.words d t : ℝ) * p (g t) := by
    rw [← Finset.sum_fiberwise_of_maps_to (fun t h => Finset.mem_range.2 (hg t (Finset.mem_range.1 h))) fun t => (x.words d t : ℝ) * p (g t)]
    refine Finset.sum_congr rfl fun u _ => ?_
    rw [hx]
    push_cast
    rw [Finset.sum_mul]
    refine Finset.sum_congr rfl fun t h => ?_
    rw [(Finset.mem_filter.1 h).2]
  have e2 : ∀ u, Real.log (max (∑ k ∈ Finset.range K, Ctm.softmaxRows K means d k * mergedValue g x.T (vocab k) u) tiny) = p u := fun u => congrFun hp u
  simp only [e2]
  rw [e1]
  refine Finset.sum_le_sum fun t h => ?_
  have ht' := Finset.mem_range.1 h
  refine mul_le_mul_of_nonneg_left ?_ (Nat.cast_nonneg _)
  rw [← e2]
  refine Real.log_le_log (lt_max_of_lt_right ht) (max_le_max_right tiny (Finset.sum_le_sum fun k hk => ?_))
  have hk' := Finset.mem_range.1 hk
  exact mul_le_mul_of_nonneg_left (le_merged g x.T (vocab k) (hφ k hk') t ht') ((softmax_dist K hK means d).1 k hk')

/-- **C330**: the same for the second and third matrix topic model, whose links stay as they are. -/
theorem matrix_merged (tiny : ℝ) (ht : 0 < tiny) (g : Nat → Nat) (U : Nat) (w w' : Csr ℝ) (h : Merged g w w') (hw : Counts w) (hw' : w'.WF) (links : Csr ℝ)
    (X Y C : Mat ℝ) (hX : 0 < X.cols) (hg : ∀ t, t < C.cols → g t < U) (hC : X.cols ≤ C.rows) (hf : Fits w X.rows C.cols)
    (hφ : ∀ k, k < X.cols → ∀ t, t < C.cols → 0 ≤ C.get k t) (y : ℝ) (hy : matrixLikelihood tiny w links X Y C = some y) :
    ∃ y', matrixLikelihood tiny w' links X Y (merge g U C) = some y' ∧ y ≤ y' := by
  obtain ⟨v, v', h1, h2, h3⟩ := kernel_merged tiny ht g U w w' h hw hw' (softDists X) C hg hC hf (fun d _ => (softmax_dist X.cols hX X.get d).1) hφ
  unfold matrixLikelihood at hy ⊢
  simp only [h1, h2] at hy ⊢
  cases hl : lnDotSum tiny links (softDists X) (colDists Y) with
  | none =>
    rw [hl] at hy
    exact absurd hy (by simp)
  | some l =>
    rw [hl] at hy
    have e : v + l = y := Option.some.inj hy
    exact ⟨v' + l, rfl, by linarith⟩

/-- **C330**: the same for the mixture fitted by expectation maximisation, with the topic distribution of the corpus. -/
theorem mixture_merged (D K T U : Nat) (hK : 0 < K) (g : Nat → Nat) (hg : ∀ t, t < T → g t < U) (hs : ∀ u, u < U → ∃ t, t < T ∧ g t = u)
    (x x' : Nat → Nat → Nat) (hx : ∀ d u, x' d u = ∑ t ∈ (Finset.range T).filter (fun t => g t = u), x d t)
    (param : Nat → Nat → ℝ) (hp : ∀ k, k < K → ∀ t, t < T → 0 < param k t)
    (alpha : Nat → ℝ) (ha : ∀ k, k < K → Numerics.almostZero false ≤ corpusTopicDist K alpha k) :
    momEmPoint D K T x param (fun _ => corpusTopicDist K alpha)
      ≤ momEmPoint D K U x' (fun k => mergedValue g T (param k)) (fun _ => corpusTopicDist K alpha) := by
  have hp' : ∀ k, k < K → ∀ u, u < U → 0 < mergedValue g T (param k) u := by
    intro k hk u hu
    obtain ⟨t, ht, rfl⟩ := hs u hu
    exact lt_of_lt_of_le (hp k hk t ht) (le_merged g T (param k) (fun s h => (hp k hk s h).le) t ht)
  rw [Likelihoods.em_point_corpus D K T hK x param hp alpha ha, Likelihoods.em_point_corpus D K U hK x' _ hp' alpha ha]
  refine Finset.sum_le_sum fun d _ => ?_
  have hθ : ∀ k, k < K → 0 < alpha k / ∑ j ∈ Finset.range K, alpha j := fun k hk => lt_of_lt_of_le (Props.Numerics.almostZero_pos false).1 (ha k hk)
  have hφ : ∀ k, k < K → ∀ t, t < T → 0 < param k t / ∑ u ∈ Finset.range T, param k u := fun k hk t ht =>
    div_pos (hp k hk t ht) (Finset.sum_pos (fun u hu => hp k hk u (Finset.mem_range.1 hu)) ⟨t, Finset.mem_range.2 ht⟩)
  unfold Props.Numerics.mixtureLikelihood
  refine Real.log_le_log (Finset.sum_pos (fun k hk => mul_pos (hθ k (Finset.mem_range.1 hk)) (Finset.prod_pos fun t ht =>
    pow_pos (hφ k (Finset.mem_range.1 hk) t (Finset.mem_range.1 ht)) _)) ⟨0, Finset.mem_range.2 hK⟩) ?_
  refine Finset.sum_le_sum fun k hk => ?_
  have hk' := Finset.mem_range.1 hk
  refine mul_le_mul_of_nonneg_left ?_ (hθ k hk').le
  simp only [merged_sum g T U hg]
  rw [show ∏ u ∈ Finset.range U, (mergedValue g T (param k) u / ∑ t ∈ Finset.range T, param k t) ^ x' d u
      = ∏ t ∈ Finset.range T, (mergedValue g T (param k) (g t) / ∑ t ∈ Finset.range T, param k t) ^ x d t from by
    rw [← Finset.prod_fiberwise_of_maps_to (fun t h => Finset.mem_range.2 (hg t (Finset.mem_range.1 h)))]
    refine Finset.prod_congr rfl fun u _ => ?_
    rw [hx, ← Finset.prod_pow_eq_pow_sum]
    refine Finset.prod_congr rfl fun t h => ?_
    rw [(Finset.mem_filter.1 h).2]]
  refine Finset.prod_le_prod (fun t ht => (pow_pos (hφ k hk' t (Finset.mem_range.1 ht)) _).le) fun t ht => ?_
  have ht' := Finset.mem_range.1 ht
  refine pow_le_pow_left₀ (hφ k hk' t ht').le (div_le_div_of_nonneg_right (le_merged g T (param k) (fun s h => (hp k hk' s h).le) t ht') ?_) _
  exact Finset.sum_nonneg fun s h => (hp k hk' s (Finset.mem_range.1 h)).le

/-- **C330**: so perplexities do not rise. -/
theorem perplexity_merged (v v' n : ℝ) (hn : 0 < n) (h : v ≤ v') : RunMain.perplexityFromLike v' n ≤ RunMain.perplexityFromLike v n := by
  unfold RunMain.perplexityFromLike
  exact Real.exp_le_exp.2 (div_le_div_of_nonneg_right (neg_le_neg h) hn.le)

/-! ## Examples -/

/-- Three words, of which the last two become one -/
def exG (t : Nat) : Nat := min t 1

example (tiny : ℝ) (ht : 0 < tiny) (means : Nat → Nat → ℝ) :
    Ctm.logLikelihood ⟨1, 3, fun _ t => t⟩ 2 tiny means (fun _ _ => 1 / 3)
      ≤ Ctm.logLikelihood ⟨1, 2, fun _ u => ∑ t ∈ (Finset.range 3).filter (fun t => exG t = u), t⟩ 2 tiny means (fun _ => mergedValue exG 3 fun _ => 1 / 3) :=
  ctm_merged exG ⟨1, 3, fun _ t => t⟩ ⟨1, 2, fun _ u => ∑ t ∈ (Finset.range 3).filter (fun t => exG t = u), t⟩ rfl
    (fun t _ => by change min t 1 < 2; omega) (fun _ _ => rfl) 2 two_pos tiny ht means (fun _ _ => 1 / 3) (fun _ _ _ _ => by norm_num)

example (D : Nat) (x : Nat → Nat → Nat) : momEmPoint D 2 3 x (fun k t => k + t + 1) (fun _ => corpusTopicDist 2 fun _ => 1)
    ≤ momEmPoint D 2 2 (fun d u => ∑ t ∈ (Finset.range 3).filter (fun t => exG t = u), x d t) (fun k => mergedValue exG 3 fun t => (k : ℝ) + t + 1)
      (fun _ => corpusTopicDist 2 fun _ => 1) := by
  refine mixture_merged D 2 3 2 two_pos exG (fun t _ => by unfold exG; omega) (fun u hu => ⟨u, by omega, by unfold exG; omega⟩) x _ (fun _ _ => rfl)
    (fun k t => (k : ℝ) + t + 1) (fun k _ t _ => by positivity) _ (fun k _ => ?_)
  have h1 : ((1 : ℝ) / 10) ^ 300 ≤ (1 / 10) ^ 1 := pow_le_pow_of_le_one (by norm_num) (by norm_num) (by norm_num)
  simp only [corpusTopicDist, Finset.sum_const, Finset.card_range, Numerics.almostZero]
  refine h1.trans ?_
  norm_num

/-- Both words of a document become one. -/
theorem exMerged : Merged (fun _ => 0) OwnWords.exW (Csr.ofRows 1 [[(0, 2), (0, 1)]]) := by
  refine ⟨rfl, fun d hd => ?_⟩
  have h0 : d = 0 := by have : OwnWords.exW.rows = 1 := rfl; omega
  subst h0
  rw [OwnWords.exRow, Csr.ofRows_row 1 [[(0, (2 : ℝ)), (0, 1)]] 0 (by simp)]
  rfl

theorem exFits : Fits OwnWords.exW 1 2 := by
  intro r hr e he
  have h0 : r = 0 := by have : OwnWords.exW.rows = 1 := rfl; omega
  subst h0
  rw [OwnWords.exRow] at he
  rcases List.mem_cons.1 he with rfl | he
  · exact ⟨Nat.one_pos, by decide⟩
  · rw [List.mem_singleton.1 he]
    exact ⟨Nat.one_pos, by decide⟩

theorem exWf : (Csr.ofRows 1 [[(0, (2 : ℝ)), (0, 1)]]).WF := Csr.ofRows_wf _ _ (by simp; rintro a b (⟨rfl, -⟩ | ⟨rfl, -⟩) <;> omega)

example (tiny : ℝ) (ht : 0 < tiny) : ∃ v v', RecLikely.ldaLikelihood tiny OwnWords.exW ⟨1, 2, fun _ _ => 1⟩ ⟨1, 1, fun _ _ => 1⟩ none = some v
    ∧ RecLikely.ldaLikelihood tiny (Csr.ofRows 1 [[(0, 2), (0, 1)]]) (merge (fun _ => 0) 1 ⟨1, 2, fun _ _ => 1⟩) ⟨1, 1, fun _ _ => 1⟩ none = some v' ∧ v ≤ v' := by
  refine (word_merged tiny ht (fun _ => 0) 1 _ _ exMerged OwnWords.exCounts exWf
    OwnWords.exW ⟨1, 1, fun _ _ => 1⟩ ⟨1, 2, fun _ _ => 1⟩ (fun _ _ => Nat.one_pos) le_rfl exFits ⟨fun _ _ _ _ => zero_le_one, fun _ _ => ?_⟩).1
    ⟨fun _ _ _ _ => zero_le_one, fun _ _ => ?_⟩
  all_goals simp

/-- The only document is linked with itself. -/
example (tiny : ℝ) (ht : 0 < tiny) :
    ∃ y y', matrixLikelihood tiny OwnWords.exW (Csr.ofRows 1 [[(0, 1)]]) ⟨1, 1, fun _ _ => 0⟩ ⟨1, 1, fun _ _ => 0⟩ ⟨1, 2, fun _ _ => 1 / 2⟩ = some y
      ∧ matrixLikelihood tiny (Csr.ofRows 1 [[(0, 2), (0, 1)]]) (Csr.ofRows 1 [[(0, 1)]]) ⟨1, 1, fun _ _ => 0⟩ ⟨1, 1, fun _ _ => 0⟩
        (merge (fun _ => 0) 1 ⟨1, 2, fun _ _ => 1 / 2⟩) = some y' ∧ y ≤ y' := by
  have hl : Fits (Csr.ofRows 1 [[(0, (1 : ℝ))]]) 1 1 := by
    intro r hr e he
    have h0 : r = 0 := by have : (Csr.ofRows 1 [[(0, (1 : ℝ))]]).rows = 1 := rfl; omega
    subst h0
    rw [Csr.ofRows_row 1 [[(0, (1 : ℝ))]] 0 (by simp)] at he
    rw [List.mem_singleton.1 he]
    exact ⟨Nat.one_pos, Nat.one_pos⟩
  have h1 := ln_dot_sum tiny OwnWords.exW OwnWords.exCounts.wf (softDists ⟨1, 1, fun _ _ => 0⟩) ⟨1, 2, fun _ _ => 1 / 2⟩ le_rfl exFits
  have h2 := ln_dot_sum tiny (Csr.ofRows 1 [[(0, (1 : ℝ))]]) (Csr.ofRows_wf _ _ (by simp)) (softDists ⟨1, 1, fun _ _ => 0⟩) (colDists ⟨1, 1, fun _ _ => 0⟩) le_rfl hl
  obtain ⟨y, hy⟩ : ∃ y, matrixLikelihood tiny OwnWords.exW (Csr.ofRows 1 [[(0, 1)]]) ⟨1, 1, fun _ _ => 0⟩ ⟨1, 1, fun _ _ => 0⟩ ⟨1, 2, fun _ _ => 1 / 2⟩ = some y := by
    unfold matrixLikelihood
    simp only [h1, h2]
    exact ⟨_, rfl⟩
  exact ⟨_, _, hy, (matrix_merged tiny ht (fun _ => 0) 1 _ _ exMerged OwnWords.exCounts exWf _ _ _ _ Nat.one_pos (fun _ _ => Nat.one_pos) le_rfl exFits
    (fun _ _ _ _ => by norm_num) _ hy).choose_spec⟩

end Verif.Props.MergedWords
