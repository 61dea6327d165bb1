import Mathlib.Tactic.Ring
import Mathlib.Tactic.Linarith
import Mathlib.Tactic.FieldSimp
import Mathlib.Tactic.Positivity
import Mathlib.Algebra.Order.BigOperators.Group.Finset
import Mathlib.Algebra.Order.BigOperators.Ring.Finset
import Mathlib.Algebra.BigOperators.Field
import Verif.Model.Ctm
import Verif.Props.Numerics
import Verif.Props.MomEm

/-!
# Vocabulary, topic counts and training of the correlated topic models (C127, C128, C129, C130, C131, C132)
-/

namespace Verif.Props.Ctm

open Verif Verif.Ctm
open Verif.Mom (Data)
open Verif.Props.Numerics (softmax shifted sum_exp_pos)
open Verif.Props.MomEm (IsDist softmax_dist)

/-! ## Specification -/

/-- Every topic is a distribution over words without zeros. -/
def Topics (K T : Nat) (vocab : Nat → Nat → ℝ) : Prop := ∀ k, k < K → IsDist T (vocab k)

/-- The probability of word `t` in document `d`: the mixture of the topics with weights `softmax means` -/
noncomputable def wordProb (K : Nat) (means vocab : Nat → Nat → ℝ) (d t : Nat) : ℝ :=
  ∑ k ∈ Finset.range K, softmax K (means d) k * vocab k t

/-- The posterior probability (Bayes) that a token `t` of document `d` comes from topic `k` -/
noncomputable def posterior (K : Nat) (means vocab : Nat → Nat → ℝ) (d t k : Nat) : ℝ :=
  softmax K (means d) k * vocab k t / wordProb K means vocab d t

/-- The expected number of tokens `t` in topic `k` over the whole corpus -/
noncomputable def expectedCount (x : Data) (K : Nat) (means vocab : Nat → Nat → ℝ) (k t : Nat) : ℝ :=
  ∑ d ∈ Finset.range x.D, (x.words d t : ℝ) * posterior K means vocab d t k

/-- The logarithm of the likelihood of the corpus plus that of a (symmetric) prior of the topics -/
noncomputable def penalised (x : Data) (K : Nat) (prior : ℝ) (means vocab : Nat → Nat → ℝ) : ℝ :=
  ∑ d ∈ Finset.range x.D, ∑ t ∈ Finset.range x.T, (x.words d t : ℝ) * Real.log (wordProb K means vocab d t)
    + prior * ∑ k ∈ Finset.range K, ∑ t ∈ Finset.range x.T, Real.log (vocab k t)

/-! ## Lemmas -/

theorem softmaxRows_eq (K : Nat) (means : Nat → Nat → ℝ) (d : Nat) : softmaxRows K means d = softmax K (means d) := by
  funext k
  exact shifted _ _ _ _

/-- `expMeans` is the softmax up to a positive factor. -/
theorem expRows_eq (K : Nat) (means : Nat → Nat → ℝ) (hK : 0 < K) (d k : Nat) :
    expRows K means d k
      = softmax K (means d) k * ∑ j ∈ Finset.range K, Real.exp (means d j - Numerics.rowMax K (means d)) := by
  have hZ := sum_exp_pos K (fun j => means d j - Numerics.rowMax K (means d)) hK
  rw [← shifted K (means d) (Numerics.rowMax K (means d)) k, div_mul_cancel₀ _ hZ.ne']
  rfl

theorem wordProb_pos (K : Nat) (means vocab : Nat → Nat → ℝ) (hK : 0 < K) (d t : Nat) (hv : ∀ k, k < K → 0 < vocab k t) :
    0 < wordProb K means vocab d t :=
  Finset.sum_pos (fun k hk => mul_pos ((softmax_dist K (means d) hK).1 k (Finset.mem_range.mp hk)) (hv k (Finset.mem_range.mp hk)))
    ⟨0, Finset.mem_range.mpr hK⟩

theorem posterior_pos (K : Nat) (means vocab : Nat → Nat → ℝ) (hK : 0 < K) (d t : Nat) (hv : ∀ k, k < K → 0 < vocab k t)
    (k : Nat) (hk : k < K) : 0 < posterior K means vocab d t k :=
  div_pos (mul_pos ((softmax_dist K (means d) hK).1 k hk) (hv k hk)) (wordProb_pos K means vocab hK d t hv)

theorem posterior_sum (K : Nat) (means vocab : Nat → Nat → ℝ) (hK : 0 < K) (d t : Nat) (hv : ∀ k, k < K → 0 < vocab k t) :
    ∑ k ∈ Finset.range K, posterior K means vocab d t k = 1 := by
  unfold posterior
  rw [← Finset.sum_div]
  exact div_self (wordProb_pos K means vocab hK d t hv).ne'

theorem quotient_resp (x : Data) (K : Nat) (means vocab : Nat → Nat → ℝ) (hK : 0 < K) (d t k : Nat) :
    vocab k t * (quotient x K (expRows K means) vocab d t * expRows K means d k)
      = (x.words d t : ℝ) * posterior K means vocab d t k := by
  have hZ := sum_exp_pos K (fun j => means d j - Numerics.rowMax K (means d)) hK
  unfold quotient posterior wordProb
  simp only [expRows_eq K means hK]
  set Z := ∑ j ∈ Finset.range K, Real.exp (means d j - Numerics.rowMax K (means d)) with hZd
  have h1 : ∑ j ∈ Finset.range K, softmax K (means d) j * Z * vocab j t
      = (∑ j ∈ Finset.range K, softmax K (means d) j * vocab j t) * Z := by
    rw [Finset.sum_mul]
    exact Finset.sum_congr rfl fun j _ => by ring
  rw [h1]
  have hZ' : Z ≠ 0 := hZ.ne'
  rw [div_mul_eq_mul_div, mul_div_assoc', mul_div_assoc',
    show vocab k t * ((x.words d t : ℝ) * (softmax K (means d) k * Z))
      = ((x.words d t : ℝ) * (softmax K (means d) k * vocab k t)) * Z by ring, mul_div_mul_right _ _ hZ']

/-! ## The update of the topics -/

/-- C128: the new probability of a word in a topic is its expected count plus the prior, divided by their total. -/
theorem vocab_update (x : Data) (K : Nat) (prior : ℝ) (means vocab : Nat → Nat → ℝ) (hK : 0 < K) (k t : Nat) :
    newVocab x K prior (expRows K means) vocab k t
      = (expectedCount x K means vocab k t + prior) / ∑ t' ∈ Finset.range x.T, (expectedCount x K means vocab k t' + prior) := by
  have h : ∀ t', vocab k t' * ∑ d ∈ Finset.range x.D, quotient x K (expRows K means) vocab d t' * expRows K means d k
      = expectedCount x K means vocab k t' := by
    intro t'
    rw [Finset.mul_sum]
    exact Finset.sum_congr rfl fun d _ => quotient_resp x K means vocab hK d t' k
  unfold newVocab vocabWith normalizeRows
  simp only [h]

/-- C128: the expected counts hand out every token exactly once: they are not negative, and over the topics they sum to the
number of occurrences of the word. -/
theorem counts_conserved (x : Data) (K : Nat) (means vocab : Nat → Nat → ℝ) (hK : 0 < K) (hv : Topics K x.T vocab)
    (t : Nat) (ht : t < x.T) :
    (∀ k, k < K → 0 ≤ expectedCount x K means vocab k t) ∧
    ∑ k ∈ Finset.range K, expectedCount x K means vocab k t = ∑ d ∈ Finset.range x.D, (x.words d t : ℝ) := by
  have hp : ∀ k, k < K → 0 < vocab k t := fun k hk => (hv k hk).1 t ht
  refine ⟨fun k hk => Finset.sum_nonneg fun d _ =>
    mul_nonneg (Nat.cast_nonneg _) (posterior_pos K means vocab hK d t hp k hk).le, ?_⟩
  unfold expectedCount
  rw [Finset.sum_comm]
  refine Finset.sum_congr rfl fun d _ => ?_
  rw [← Finset.mul_sum, posterior_sum K means vocab hK d t hp, mul_one]

/-- C128: after the update every topic is again a distribution without zeros. -/
theorem vocab_dist (x : Data) (K : Nat) (prior : ℝ) (hp : 0 < prior) (means vocab : Nat → Nat → ℝ) (hK : 0 < K) (hT : 0 < x.T)
    (hv : Topics K x.T vocab) : Topics K x.T (newVocab x K prior (expRows K means) vocab) := by
  intro k hk
  have hpos : ∀ t, t < x.T → 0 < expectedCount x K means vocab k t + prior := fun t ht =>
    add_pos_of_nonneg_of_pos ((counts_conserved x K means vocab hK hv t ht).1 k hk) hp
  have hsum : 0 < ∑ t ∈ Finset.range x.T, (expectedCount x K means vocab k t + prior) :=
    Finset.sum_pos (fun t ht => hpos t (Finset.mem_range.mp ht)) ⟨0, Finset.mem_range.mpr hT⟩
  refine ⟨fun t ht => ?_, ?_⟩
  · rw [vocab_update x K prior means vocab hK]
    exact div_pos (hpos t ht) hsum
  · simp only [vocab_update x K prior means vocab hK]
    rw [← Finset.sum_div, div_self hsum.ne']

/-- C129: the topic counts of a document are the expected numbers of its tokens in each topic: positive in total and summing to
the length of the document. -/
theorem topic_counts (x : Data) (K : Nat) (means vocab : Nat → Nat → ℝ) (hK : 0 < K) (hv : Topics K x.T vocab) (d : Nat) :
    (∀ k, topicCounts x K (expRows K means) vocab d k
      = ∑ t ∈ Finset.range x.T, (x.words d t : ℝ) * posterior K means vocab d t k) ∧
    (∀ k, k < K → 0 ≤ topicCounts x K (expRows K means) vocab d k) ∧
    ∑ k ∈ Finset.range K, topicCounts x K (expRows K means) vocab d k = (x.len d : ℝ) := by
  have h : ∀ k, topicCounts x K (expRows K means) vocab d k
      = ∑ t ∈ Finset.range x.T, (x.words d t : ℝ) * posterior K means vocab d t k := by
    intro k
    unfold topicCounts
    rw [Finset.mul_sum]
    refine Finset.sum_congr rfl fun t _ => ?_
    rw [← quotient_resp x K means vocab hK d t k]
    ring
  refine ⟨h, fun k hk => ?_, ?_⟩
  · rw [h]
    exact Finset.sum_nonneg fun t ht => mul_nonneg (Nat.cast_nonneg _)
      (posterior_pos K means vocab hK d t (fun k hk => (hv k hk).1 t (Finset.mem_range.mp ht)) k hk).le
  · simp only [h]
    rw [Finset.sum_comm]
    unfold Data.len
    push_cast
    refine Finset.sum_congr rfl fun t ht => ?_
    rw [← Finset.mul_sum, posterior_sum K means vocab hK d t (fun k hk => (hv k hk).1 t (Finset.mem_range.mp ht)), mul_one]

/-! ## The update never lowers the likelihood -/

/-- Jensen for the logarithm, with weights summing to one -/
theorem log_mean_ge (K : Nat) (r y : Nat → ℝ) (hr : ∀ k, k < K → 0 ≤ r k) (hs : ∑ k ∈ Finset.range K, r k = 1)
    (hy : ∀ k, k < K → 0 < y k) :
    ∑ k ∈ Finset.range K, r k * Real.log (y k) ≤ Real.log (∑ k ∈ Finset.range K, r k * y k) := by
  have hM : 0 < ∑ k ∈ Finset.range K, r k * y k := by
    have hnn : ∀ k ∈ Finset.range K, 0 ≤ r k * y k := fun k hk =>
      mul_nonneg (hr k (Finset.mem_range.mp hk)) (hy k (Finset.mem_range.mp hk)).le
    rcases (Finset.sum_nonneg hnn).lt_or_eq with h | h
    · exact h
    · exfalso
      have h0 := (Finset.sum_eq_zero_iff_of_nonneg hnn).mp h.symm
      have : ∑ k ∈ Finset.range K, r k = 0 := Finset.sum_eq_zero fun k hk => by
        rcases mul_eq_zero.mp (h0 k hk) with h1 | h1
        · exact h1
        · exact absurd h1 (hy k (Finset.mem_range.mp hk)).ne'
      rw [this] at hs
      exact zero_ne_one hs
  set M := ∑ k ∈ Finset.range K, r k * y k with hMd
  have h1 : ∑ k ∈ Finset.range K, r k * Real.log (y k) - Real.log M
      = ∑ k ∈ Finset.range K, r k * Real.log (y k / M) := by
    have : ∀ k ∈ Finset.range K, r k * Real.log (y k / M) = r k * Real.log (y k) - r k * Real.log M := fun k hk => by
      rw [Real.log_div (hy k (Finset.mem_range.mp hk)).ne' hM.ne']
      ring
    rw [Finset.sum_congr rfl this, Finset.sum_sub_distrib, ← Finset.sum_mul, hs, one_mul]
  have h2 : ∑ k ∈ Finset.range K, r k * Real.log (y k / M) ≤ ∑ k ∈ Finset.range K, r k * (y k / M - 1) :=
    Finset.sum_le_sum fun k hk => mul_le_mul_of_nonneg_left
      (Real.log_le_sub_one_of_pos (div_pos (hy k (Finset.mem_range.mp hk)) hM)) (hr k (Finset.mem_range.mp hk))
  have h3 : ∑ k ∈ Finset.range K, r k * (y k / M - 1) = 0 := by
    have : ∀ k ∈ Finset.range K, r k * (y k / M - 1) = r k * y k / M - r k := fun k _ => by ring
    rw [Finset.sum_congr rfl this, Finset.sum_sub_distrib, ← Finset.sum_div, ← hMd, div_self hM.ne', hs, sub_self]
  linarith

/-- Gibbs' inequality -/
theorem gibbs (T : Nat) (p q : Nat → ℝ) (hp : IsDist T p) (hq : IsDist T q) :
    0 ≤ ∑ t ∈ Finset.range T, p t * Real.log (p t / q t) := by
  have h1 : ∀ t ∈ Finset.range T, p t - q t ≤ p t * Real.log (p t / q t) := fun t ht => by
    have hpt := hp.1 t (Finset.mem_range.mp ht)
    have hqt := hq.1 t (Finset.mem_range.mp ht)
    have h2 := Real.log_le_sub_one_of_pos (div_pos hqt hpt)
    have h3 : Real.log (p t / q t) = -Real.log (q t / p t) := by rw [← Real.log_inv, inv_div]
    rw [h3]
    have h4 := mul_le_mul_of_nonneg_left h2 hpt.le
    have h5 : p t * (q t / p t - 1) = q t - p t := by field_simp
    linarith
  have := Finset.sum_le_sum h1
  rw [Finset.sum_sub_distrib, hp.2, hq.2] at this
  linarith

/-- The new mixture is at least as likely as the posterior says. -/
theorem log_wordProb_ge (K : Nat) (means v v' : Nat → Nat → ℝ) (hK : 0 < K) (d t : Nat) (hv : ∀ k, k < K → 0 < v k t)
    (hv' : ∀ k, k < K → 0 < v' k t) :
    ∑ k ∈ Finset.range K, posterior K means v d t k * Real.log (v' k t / v k t)
      ≤ Real.log (wordProb K means v' d t) - Real.log (wordProb K means v d t) := by
  have hP := wordProb_pos K means v hK d t hv
  have hP' := wordProb_pos K means v' hK d t hv'
  rw [← Real.log_div hP'.ne' hP.ne']
  have h := log_mean_ge K (posterior K means v d t) (fun k => v' k t / v k t)
    (fun k hk => (posterior_pos K means v hK d t hv k hk).le) (posterior_sum K means v hK d t hv)
    (fun k hk => div_pos (hv' k hk) (hv k hk))
  refine h.trans (le_of_eq ?_)
  congr 1
  unfold posterior
  rw [show wordProb K means v' d t / wordProb K means v d t
    = ∑ k ∈ Finset.range K, softmax K (means d) k * v' k t / wordProb K means v d t by
      rw [← Finset.sum_div]; rfl]
  refine Finset.sum_congr rfl fun k hk => ?_
  have := (hv k (Finset.mem_range.mp hk)).ne'
  field_simp

/-- C130: an update of the topics never lowers the penalised likelihood of the corpus. -/
theorem vocab_monotone (x : Data) (K : Nat) (prior : ℝ) (hp : 0 < prior) (means vocab : Nat → Nat → ℝ) (hK : 0 < K)
    (hT : 0 < x.T) (hv : Topics K x.T vocab) :
    penalised x K prior means vocab ≤ penalised x K prior means (newVocab x K prior (expRows K means) vocab) := by
  set v' := newVocab x K prior (expRows K means) vocab with hv'd
  have hv' : Topics K x.T v' := vocab_dist x K prior hp means vocab hK hT hv
  -- the gain in the likelihood
  have h1 : ∑ d ∈ Finset.range x.D, ∑ t ∈ Finset.range x.T, (x.words d t : ℝ) *
        ∑ k ∈ Finset.range K, posterior K means vocab d t k * Real.log (v' k t / vocab k t)
      ≤ ∑ d ∈ Finset.range x.D, ∑ t ∈ Finset.range x.T, (x.words d t : ℝ) *
        (Real.log (wordProb K means v' d t) - Real.log (wordProb K means vocab d t)) :=
    Finset.sum_le_sum fun d _ => Finset.sum_le_sum fun t ht => mul_le_mul_of_nonneg_left
      (log_wordProb_ge K means vocab v' hK d t (fun k hk => (hv k hk).1 t (Finset.mem_range.mp ht))
        (fun k hk => (hv' k hk).1 t (Finset.mem_range.mp ht))) (Nat.cast_nonneg _)
  have h2 : ∑ d ∈ Finset.range x.D, ∑ t ∈ Finset.range x.T, (x.words d t : ℝ) *
        ∑ k ∈ Finset.range K, posterior K means vocab d t k * Real.log (v' k t / vocab k t)
      = ∑ k ∈ Finset.range K, ∑ t ∈ Finset.range x.T, expectedCount x K means vocab k t * Real.log (v' k t / vocab k t) := by
    unfold expectedCount
    simp only [Finset.mul_sum, Finset.sum_mul]
    rw [Finset.sum_congr rfl (fun d _ => Finset.sum_comm), Finset.sum_comm]
    refine Finset.sum_congr rfl fun k _ => ?_
    rw [Finset.sum_comm]
    exact Finset.sum_congr rfl fun t _ => Finset.sum_congr rfl fun d _ => by ring
  -- the gain in the prior
  have h3 : prior * ∑ k ∈ Finset.range K, ∑ t ∈ Finset.range x.T, Real.log (v' k t)
      - prior * ∑ k ∈ Finset.range K, ∑ t ∈ Finset.range x.T, Real.log (vocab k t)
      = ∑ k ∈ Finset.range K, ∑ t ∈ Finset.range x.T, prior * Real.log (v' k t / vocab k t) := by
    simp only [← mul_sub, ← Finset.sum_sub_distrib, Finset.mul_sum]
    refine Finset.sum_congr rfl fun k hk => Finset.sum_congr rfl fun t ht => ?_
    rw [Real.log_div ((hv' k (Finset.mem_range.mp hk)).1 t (Finset.mem_range.mp ht)).ne'
      ((hv k (Finset.mem_range.mp hk)).1 t (Finset.mem_range.mp ht)).ne']
  -- together they are multiples of divergences
  have h4 : 0 ≤ ∑ k ∈ Finset.range K, ∑ t ∈ Finset.range x.T,
      (expectedCount x K means vocab k t + prior) * Real.log (v' k t / vocab k t) := by
    refine Finset.sum_nonneg fun k hk => ?_
    have hk' := Finset.mem_range.mp hk
    have hpos : ∀ t, t < x.T → 0 < expectedCount x K means vocab k t + prior := fun t ht =>
      add_pos_of_nonneg_of_pos ((counts_conserved x K means vocab hK hv t ht).1 k hk') hp
    have hN : 0 < ∑ t ∈ Finset.range x.T, (expectedCount x K means vocab k t + prior) :=
      Finset.sum_pos (fun t ht => hpos t (Finset.mem_range.mp ht)) ⟨0, Finset.mem_range.mpr hT⟩
    have h5 : ∀ t ∈ Finset.range x.T, (expectedCount x K means vocab k t + prior) * Real.log (v' k t / vocab k t)
        = (∑ t ∈ Finset.range x.T, (expectedCount x K means vocab k t + prior)) * (v' k t * Real.log (v' k t / vocab k t)) := by
      intro t _
      have : (∑ t ∈ Finset.range x.T, (expectedCount x K means vocab k t + prior)) * v' k t
          = expectedCount x K means vocab k t + prior := by
        rw [hv'd, vocab_update x K prior means vocab hK, mul_div_cancel₀ _ hN.ne']
      rw [← mul_assoc, this]
    rw [Finset.sum_congr rfl h5, ← Finset.mul_sum]
    exact mul_nonneg hN.le (gibbs x.T (v' k) (vocab k) (hv' k hk') (hv k hk'))
  have h6 : ∑ k ∈ Finset.range K, ∑ t ∈ Finset.range x.T,
      (expectedCount x K means vocab k t + prior) * Real.log (v' k t / vocab k t)
      = ∑ k ∈ Finset.range K, ∑ t ∈ Finset.range x.T, expectedCount x K means vocab k t * Real.log (v' k t / vocab k t)
        + ∑ k ∈ Finset.range K, ∑ t ∈ Finset.range x.T, prior * Real.log (v' k t / vocab k t) := by
    rw [← Finset.sum_add_distrib]
    refine Finset.sum_congr rfl fun k _ => ?_
    rw [← Finset.sum_add_distrib]
    exact Finset.sum_congr rfl fun t _ => by ring
  have h7 : ∑ d ∈ Finset.range x.D, ∑ t ∈ Finset.range x.T, (x.words d t : ℝ) *
        (Real.log (wordProb K means v' d t) - Real.log (wordProb K means vocab d t))
      = ∑ d ∈ Finset.range x.D, ∑ t ∈ Finset.range x.T, (x.words d t : ℝ) * Real.log (wordProb K means v' d t)
        - ∑ d ∈ Finset.range x.D, ∑ t ∈ Finset.range x.T, (x.words d t : ℝ) * Real.log (wordProb K means vocab d t) := by
    simp only [mul_sub, Finset.sum_sub_distrib]
  unfold penalised
  rw [h2, h7] at h1
  linarith

/-! ## The log-likelihood -/

/-- C131: in every state whose topics are distributions, the words of each document have probabilities that sum to one. -/
theorem words_dist (K T : Nat) (means vocab : Nat → Nat → ℝ) (hK : 0 < K) (hv : Topics K T vocab) (d : Nat) :
    IsDist T (wordProb K means vocab d) := by
  refine ⟨fun t ht => wordProb_pos K means vocab hK d t (fun k hk => (hv k hk).1 t ht), ?_⟩
  unfold wordProb
  rw [Finset.sum_comm]
  have : ∀ k ∈ Finset.range K, ∑ t ∈ Finset.range T, softmax K (means d) k * vocab k t = softmax K (means d) k := fun k hk => by
    rw [← Finset.mul_sum, (hv k (Finset.mem_range.mp hk)).2, mul_one]
  rw [Finset.sum_congr rfl this, (softmax_dist K (means d) hK).2]

theorem dist_le_one (T : Nat) (f : Nat → ℝ) (h : IsDist T f) (t : Nat) (ht : t < T) : f t ≤ 1 := by
  rw [← h.2]
  exact Finset.single_le_sum (f := f) (fun i hi => (h.1 i (Finset.mem_range.mp hi)).le) (Finset.mem_range.mpr ht)

/-- C131: the reported log-likelihood is never positive, and if no word of a document is less likely than the smallest positive
number, it is the logarithm of the probability of the corpus. -/
theorem likelihood_spec (x : Data) (K : Nat) (tiny : ℝ) (ht0 : 0 < tiny) (ht1 : tiny ≤ 1) (means vocab : Nat → Nat → ℝ) (hK : 0 < K)
    (hv : Topics K x.T vocab) :
    logLikelihood x K tiny means vocab ≤ 0 ∧
    ((∀ d t, d < x.D → t < x.T → x.words d t ≠ 0 → tiny < wordProb K means vocab d t) →
      logLikelihood x K tiny means vocab
        = Real.log (∏ d ∈ Finset.range x.D, ∏ t ∈ Finset.range x.T, wordProb K means vocab d t ^ x.words d t)) := by
  have hw : ∀ d t, (∑ k ∈ Finset.range K, softmaxRows K means d k * vocab k t) = wordProb K means vocab d t := fun d t => by
    rw [softmaxRows_eq]; rfl
  unfold logLikelihood
  simp only [hw]
  refine ⟨?_, fun h => ?_⟩
  · refine Finset.sum_nonpos fun d _ => Finset.sum_nonpos fun t ht => ?_
    refine mul_nonpos_of_nonneg_of_nonpos (Nat.cast_nonneg _) ?_
    have hd := words_dist K x.T means vocab hK hv d
    unfold SparseKernels.safeLn
    split
    · exact Real.log_nonpos (hd.1 t (Finset.mem_range.mp ht)).le (dist_le_one x.T _ hd t (Finset.mem_range.mp ht))
    · exact Real.log_nonpos ht0.le ht1
  · have hd := fun d => words_dist K x.T means vocab hK hv d
    rw [Real.log_prod (fun d _ => Finset.prod_ne_zero_iff.mpr fun t ht =>
      pow_ne_zero _ ((hd d).1 t (Finset.mem_range.mp ht)).ne')]
    refine Finset.sum_congr rfl fun d hdd => ?_
    rw [Real.log_prod (fun t ht => pow_ne_zero _ ((hd d).1 t (Finset.mem_range.mp ht)).ne')]
    refine Finset.sum_congr rfl fun t ht => ?_
    rw [Real.log_pow]
    by_cases hz : x.words d t = 0
    · simp [hz]
    · unfold SparseKernels.safeLn
      rw [if_pos (h d t (Finset.mem_range.mp hdd) (Finset.mem_range.mp ht) hz)]

/-! ## Examples -/

/-- Two documents over two words: "a a b" and "b" -/
def exX : Data := ⟨2, 2, fun d t => if d = 0 then (if t = 0 then 2 else 1) else t⟩

/-- Two topics: one prefers the first word three to one, the other the second -/
noncomputable def exV : Nat → Nat → ℝ := fun k t => if k = t then 3 / 4 else 1 / 4

theorem exV_topics : Topics 2 exX.T exV := by
  intro k hk
  refine ⟨fun t _ => by unfold exV; split <;> norm_num, ?_⟩
  show ∑ t ∈ Finset.range 2, exV k t = 1
  rw [Finset.sum_range_succ, Finset.sum_range_one]
  unfold exV
  rcases Nat.lt_succ_iff_lt_or_eq.mp hk with h | rfl
  · rw [Nat.lt_one_iff.mp h]; norm_num
  · norm_num

/-- With equal weights, two of the three tokens of "a a b" are the word 0, each of which comes from topic 0 with probability 3/4. -/
example : topicCounts exX 2 (expRows 2 fun _ _ => 0) exV 0 0 = 2 * (3 / 4) + 1 * (1 / 4) := by
  rw [(topic_counts exX 2 (fun _ _ => 0) exV two_pos exV_topics 0).1]
  show ∑ t ∈ Finset.range 2, _ = _
  rw [Finset.sum_range_succ, Finset.sum_range_one]
  unfold posterior wordProb softmax
  simp only [Finset.sum_range_succ, Finset.sum_range_zero]
  norm_num [exX, exV, Real.exp_zero]

example : ∑ k ∈ Finset.range 2, expectedCount exX 2 (fun d _ => d) exV k 1 = 2 := by
  rw [(counts_conserved exX 2 (fun d _ => d) exV two_pos exV_topics 1 (by decide)).2]
  show ∑ d ∈ Finset.range 2, _ = _
  rw [Finset.sum_range_succ, Finset.sum_range_one]
  norm_num [exX]

example : penalised exX 2 1 (fun d k => d * k) exV
    ≤ penalised exX 2 1 (fun d k => d * k) (newVocab exX 2 1 (expRows 2 fun d k => d * k) exV) :=
  vocab_monotone exX 2 1 one_pos _ exV two_pos (by decide) exV_topics

example : logLikelihood exX 2 (1 / 100) (fun d k => d * k) exV ≤ 0 :=
  (likelihood_spec exX 2 (1 / 100) (by norm_num) (by norm_num) _ exV two_pos exV_topics).1

end Verif.Props.Ctm
