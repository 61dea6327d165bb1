import Mathlib.Analysis.SpecialFunctions.Log.Basic
import Mathlib.Tactic.Linarith
import Mathlib.Tactic.Positivity
import Mathlib.Tactic.NormNum
import Verif.Model.RunMain

/-!
# Perplexity (C28)
-/

namespace Verif.Props.Perplexity

open Verif Verif.RunMain

/-- C28: the logarithm of the perplexity is the negative log-likelihood per token. -/
theorem perplexity_log (ll n : ℝ) (hn : 0 < n) :
    0 < perplexityFromLike ll n ∧ n * Real.log (perplexityFromLike ll n) = -ll := by
  unfold perplexityFromLike
  refine ⟨Real.exp_pos _, ?_⟩
  rw [Real.log_exp, mul_div_cancel₀ _ hn.ne']

/-- C28: a perplexity is at least one exactly when the log-likelihood is not positive. -/
theorem perplexity_ge_one (ll n : ℝ) (hn : 0 < n) : 1 ≤ perplexityFromLike ll n ↔ ll ≤ 0 := by
  unfold perplexityFromLike
  rw [Real.one_le_exp_iff, le_div_iff₀ hn, zero_mul, neg_nonneg]

/-- C28: greater likelihood, smaller perplexity. -/
theorem perplexity_anti (ll ll' n : ℝ) (hn : 0 < n) :
    perplexityFromLike ll' n < perplexityFromLike ll n ↔ ll < ll' := by
  unfold perplexityFromLike
  rw [Real.exp_lt_exp, div_lt_div_iff_of_pos_right hn, neg_lt_neg_iff]

theorem sum_lt_of_forall (folds : List (ℝ × ℝ)) (c : ℝ) (hne : folds ≠ [])
    (h : ∀ f ∈ folds, f.1 < c * f.2) :
    (folds.map Prod.fst).sum < c * (folds.map Prod.snd).sum := by
  induction folds with
  | nil => exact absurd rfl hne
  | cons f fs ih =>
    have hf := h f (by simp)
    rcases fs with _ | ⟨g, gs⟩
    · simpa using hf
    · have := ih (by simp) (fun x hx => h x (List.mem_cons_of_mem _ hx))
      generalize g :: gs = l at this ⊢
      rw [List.map_cons, List.map_cons, List.sum_cons, List.sum_cons, mul_add]
      exact add_lt_add hf this

theorem sum_pos_snd (folds : List (ℝ × ℝ)) (hne : folds ≠ []) (hn : ∀ f ∈ folds, 0 < f.2) :
    0 < (folds.map Prod.snd).sum := by
  have h := sum_lt_of_forall (folds.map (fun f => (-f.2, f.2))) 0 (by simpa using hne) (by
    intro f hf
    obtain ⟨g, hg, rfl⟩ := List.mem_map.mp hf
    have := hn g hg
    simp only [zero_mul]; linarith)
  rw [List.map_map, zero_mul] at h
  have e : (List.map (Prod.fst ∘ fun f : ℝ × ℝ => (-f.2, f.2)) folds).sum =
      -(folds.map Prod.snd).sum := by
    clear h hn hne
    induction folds with
    | nil => simp
    | cons f fs ih =>
      rw [List.map_cons, List.map_cons, List.sum_cons, List.sum_cons, ih]
      simp only [Function.comp]; ring
  linarith

/-- C28: the perplexity of the summed log-likelihoods and token counts lies between the
smallest and the largest perplexity of the folds. -/
theorem perplexity_pooled (folds : List (ℝ × ℝ)) (hne : folds ≠ []) (hn : ∀ f ∈ folds, 0 < f.2) :
    (∃ f ∈ folds, perplexityFromLike f.1 f.2 ≤
      perplexityFromLike (folds.map Prod.fst).sum (folds.map Prod.snd).sum) ∧
    ∃ f ∈ folds, perplexityFromLike (folds.map Prod.fst).sum (folds.map Prod.snd).sum ≤
      perplexityFromLike f.1 f.2 := by
  have hpos := sum_pos_snd folds hne hn
  have key : ∀ f ∈ folds, ∀ x y : ℝ, 0 < y →
      (perplexityFromLike f.1 f.2 ≤ perplexityFromLike x y ↔ x * f.2 ≤ f.1 * y) := by
    intro f hf x y hy
    unfold perplexityFromLike
    rw [Real.exp_le_exp, div_le_div_iff₀ (hn f hf) hy, neg_mul, neg_mul, neg_le_neg_iff]
  constructor
  · by_contra hc
    push Not at hc
    have := sum_lt_of_forall folds ((folds.map Prod.fst).sum / (folds.map Prod.snd).sum) hne (by
      intro f hf
      have := hc f hf
      rw [← not_le, key f hf _ _ hpos, not_le] at this
      rw [div_mul_eq_mul_div, lt_div_iff₀ hpos]
      exact this)
    rw [div_mul_cancel₀ _ hpos.ne'] at this
    exact lt_irrefl _ this
  · by_contra hc
    push Not at hc
    have key2 : ∀ f ∈ folds, (folds.map Prod.fst).sum * f.2 < f.1 * (folds.map Prod.snd).sum := by
      intro f hf
      have := (key f hf _ _ hpos).mp (hc f hf).le
      refine lt_of_le_of_ne this ?_
      intro he
      have h2 := hc f hf
      unfold perplexityFromLike at h2
      rw [Real.exp_lt_exp, div_lt_div_iff₀ (hn f hf) hpos] at h2
      linarith
    have := sum_lt_of_forall (folds.map (fun f => (-f.1, f.2)))
      (-((folds.map Prod.fst).sum / (folds.map Prod.snd).sum)) (by simpa using hne) (by
      intro f hf
      obtain ⟨g, hg, rfl⟩ := List.mem_map.mp hf
      have := key2 g hg
      simp only
      rw [neg_mul, neg_lt_neg_iff, div_mul_eq_mul_div, div_lt_iff₀ hpos]
      exact this)
    rw [List.map_map, List.map_map] at this
    have e1 : (List.map (Prod.fst ∘ fun f : ℝ × ℝ => (-f.1, f.2)) folds).sum =
        -(folds.map Prod.fst).sum := by
      clear this key2 hc key hpos hn hne
      induction folds with
      | nil => simp
      | cons f fs ih =>
        rw [List.map_cons, List.map_cons, List.sum_cons, List.sum_cons, ih]
        simp only [Function.comp]; ring
    have e2 : List.map (Prod.snd ∘ fun f : ℝ × ℝ => (-f.1, f.2)) folds = folds.map Prod.snd := rfl
    rw [e1, e2, neg_mul, div_mul_cancel₀ _ hpos.ne'] at this
    exact lt_irrefl _ this

/-- The hypotheses are met, and the bounds are strict in general. -/
example : ∃ f ∈ [((-2 : ℝ), (1 : ℝ)), (-4, 4)], perplexityFromLike f.1 f.2 ≤
    perplexityFromLike ([((-2 : ℝ), (1 : ℝ)), (-4, 4)].map Prod.fst).sum
      ([((-2 : ℝ), (1 : ℝ)), (-4, 4)].map Prod.snd).sum :=
  (perplexity_pooled _ (by simp) (by
    intro f hf; simp only [List.mem_cons, List.not_mem_nil, or_false] at hf
    rcases hf with rfl | rfl <;> norm_num)).1

example : perplexityFromLike (-2) 4 < perplexityFromLike (-3) 4 :=
  (perplexity_anti (-3) (-2) 4 (by norm_num)).mpr (by norm_num)

end Verif.Props.Perplexity
