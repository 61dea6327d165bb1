import Mathlib.Analysis.Convex.SpecificFunctions.Basic
import Mathlib.Algebra.BigOperators.Field
import Mathlib.Tactic.Linarith
import Mathlib.Tactic.FieldSimp
import Mathlib.Tactic.Ring
import Mathlib.Tactic.NormNum
import Verif.Model.GibbsHyper

/-!
# Properties of the priors re-estimated while sampling (C253, C254)
-/

namespace Verif.Props.GibbsHyper

open Verif Verif.GibbsHyper

/-! ## Specification -/

/-- The number of tokens of a document. -/
def tokens (K : Nat) (n : Nat → Nat → Nat) (d : Nat) : Nat := ∑ k ∈ Finset.range K, n d k

/-- The leave-one-out likelihood of the topics under the prior `a`: every token's topic is predicted from the topics of the other
tokens of its document (Minka's criterion). -/
noncomputable def leaveOneOut (D K : Nat) (n : Nat → Nat → Nat) (a : Nat → ℝ) : ℝ :=
  ∑ d ∈ Finset.range D, ∑ k ∈ Finset.range K,
    (n d k : ℝ) * Real.log (((n d k : ℝ) - 1 + a k) / ((tokens K n d : ℝ) - 1 + ∑ j ∈ Finset.range K, a j))

/-- A prior fits the counts when it is not negative and positive wherever a topic is used. -/
def Fits (D K : Nat) (n : Nat → Nat → Nat) (a : Nat → ℝ) : Prop :=
  ∀ k < K, 0 ≤ a k ∧ ((∃ d < D, 0 < n d k) → 0 < a k)

/-! ## Lemmas -/

theorem total_none (f : Nat → Option ℝ) (acc : ℝ) (n d : Nat) (hd : d < n) (h : f d = none) : total f acc n = none := by
  induction n with
  | zero => omega
  | succ n ih =>
    rcases Nat.lt_succ_iff_lt_or_eq.mp hd with h1 | h1
    · simp [total, ih h1]
    · subst h1; simp [total, h]

theorem total_some (f : Nat → Option ℝ) (g : Nat → ℝ) (acc : ℝ) (n : Nat) (h : ∀ d < n, f d = some (g d)) :
    total f acc n = some (acc + ∑ d ∈ Finset.range n, g d) := by
  induction n with
  | zero => simp [total]
  | succ n ih =>
    simp only [total, ih fun d hd => h d (by omega), h n (by omega), Option.bind_some, Finset.sum_range_succ, add_assoc]

theorem total_isSome (f : Nat → Option ℝ) (acc : ℝ) (n : Nat) (v : ℝ) (h : total f acc n = some v) :
    ∀ d < n, ∃ x, f d = some x := by
  intro d hd
  by_contra hc
  have : f d = none := by
    cases hf : f d with
    | none => rfl
    | some x => exact absurd ⟨x, hf⟩ hc
  rw [total_none f acc n d hd this] at h
  cases h

theorem share_value (n : Nat) (old x : ℝ) (h : share n old = some x) : x = n / ((n : ℝ) - 1 + old) := by
  unfold share cdiv at h
  split at h
  · cases h
  · exact (Option.some.inj h).symm

theorem share_ok (n : Nat) (old : ℝ) (h : (n : ℝ) - 1 + old ≠ 0) : share n old = some (n / ((n : ℝ) - 1 + old)) := by
  simp [share, cdiv, h]

theorem total_share (m : Nat → Nat) (o acc : ℝ) (n : Nat) (v : ℝ) (h : total (fun d => share (m d) o) acc n = some v) :
    v = acc + ∑ d ∈ Finset.range n, (m d : ℝ) / ((m d : ℝ) - 1 + o) := by
  have h1 := total_isSome _ _ _ _ h
  rw [total_some _ (fun d => (m d : ℝ) / ((m d : ℝ) - 1 + o)) acc n] at h
  · exact (Option.some.inj h).symm
  · intro d hd
    obtain ⟨x, hx⟩ := h1 d hd
    rw [hx, share_value _ _ _ hx]

/-- What a step returns when it returns a number. -/
theorem single_value (D K : Nat) (n : Nat → Nat → Nat) (s : Nat → Nat) (old : Nat → ℝ) (g : ℝ) (k : Nat) (v : ℝ)
    (h : single D K n s old g k = some v) :
    let den := g + ∑ d ∈ Finset.range D, (s d : ℝ) / ((s d : ℝ) - 1 + ∑ j ∈ Finset.range K, old j)
    den ≠ 0 ∧ v = old k * (∑ d ∈ Finset.range D, (n d k : ℝ) / ((n d k : ℝ) - 1 + old k)) / den + 1 / 100000 := by
  intro den
  unfold single at h
  cases h1 : total (fun d => share (n d k) (old k)) 0 D with
  | none => simp [h1] at h
  | some num =>
    cases h2 : total (fun d => share (s d) (∑ j ∈ Finset.range K, old j)) g D with
    | none => simp [h1, h2] at h
    | some dn =>
      have e1 := total_share _ _ _ _ _ h1
      have e2 : dn = den := total_share _ _ _ _ _ h2
      simp only [h1, h2, Option.bind_some] at h
      unfold cdiv at h
      by_cases hz : dn = 0
      · simp [hz] at h
      · simp only [hz, if_false, Option.bind_some] at h
        refine ⟨e2 ▸ hz, ?_⟩
        rw [← Option.some.inj h, e1, ← e2, zero_add]

theorem log_mix (m x x0 : ℝ) (hm : 0 ≤ m) (hx : 0 < x) (hx0 : 0 < x0) :
    x0 / (m + x0) * (Real.log x - Real.log x0) ≤ Real.log (m + x) - Real.log (m + x0) := by
  have hs : 0 < m + x0 := by linarith
  have hq0 : 0 ≤ x0 / (m + x0) := by positivity
  have hq1 : 0 ≤ m / (m + x0) := by positivity
  have hsum : m / (m + x0) + x0 / (m + x0) = 1 := by field_simp
  have hc := strictConcaveOn_log_Ioi.concaveOn.2 (x := 1) (y := x / x0) (by simp) (by simp; positivity) hq1 hq0 hsum
  simp only [smul_eq_mul, Real.log_one, mul_zero, zero_add, mul_one] at hc
  rw [Real.log_div hx.ne' hx0.ne'] at hc
  refine hc.trans ?_
  rw [← Real.log_div (by positivity) hs.ne']
  apply le_of_eq
  congr 1
  field_simp

theorem log_line (y y0 : ℝ) (hy : 0 < y) (hy0 : 0 < y0) : Real.log y - Real.log y0 ≤ (y - y0) / y0 := by
  have := Real.log_le_sub_one_of_pos (x := y / y0) (by positivity)
  rw [Real.log_div hy.ne' hy0.ne'] at this
  have e : (y - y0) / y0 = y / y0 - 1 := by field_simp
  linarith

theorem gibbs_term (x y : ℝ) (hx : 0 < x) (hy : 0 < y) : x - y ≤ x * (Real.log x - Real.log y) := by
  have h := log_line y x hy hx
  have : x * (Real.log y - Real.log x) ≤ y - x := by
    have h2 := mul_le_mul_of_nonneg_left h hx.le
    rwa [mul_div_cancel₀ _ hx.ne'] at h2
  linarith

/-! ## C253 -/

/-- **C253 (violation).** As soon as one document has no tokens the whole prior becomes NaN: the first guess is normalised, so that the
empty document contributes `0 / (0 - 1 + 1)`. -/
theorem infer_empty_violation (D K : Nat) (n : Nat → Nat → Nat) (garbage : Nat → ℝ) (d : Nat) (hd : d < D) (he : tokens K n d = 0)
    (hK : 0 < K) (k : Nat) : infer D K n (tokens K n) garbage k = none := by
  unfold infer
  split
  · rfl
  · rename_i h0
    have hsum : ∑ j ∈ Finset.range K, mean D n j / ∑ i ∈ Finset.range K, mean D n i = 1 := by
      rw [← Finset.sum_div, div_self h0]
    have hall : ∀ k, single D K n (tokens K n) (fun j => mean D n j / ∑ i ∈ Finset.range K, mean D n i) (garbage 999) k = none := by
      intro k
      unfold single
      have : total (fun d => share (tokens K n d) (∑ j ∈ Finset.range K, mean D n j / ∑ i ∈ Finset.range K, mean D n i))
          (garbage 999) D = none := by
        apply total_none _ _ _ d hd
        simp [share, cdiv, he, hsum]
      rw [this]
      cases total (fun d => share (n d k) (mean D n k / ∑ i ∈ Finset.range K, mean D n i)) 0 D <;> rfl
    show loop D K n (tokens K n) garbage (999 + 1) _ k = none
    rw [loop, if_neg, hall k]
    intro hc
    have := hc 0 hK
    rw [hall 0] at this
    cases this

/-- One empty document and one with two tokens. -/
example (g : Nat → ℝ) : infer 2 2 (fun d _ => d) (tokens 2 fun d _ => d) g 0 = none :=
  infer_empty_violation 2 2 (fun d _ => d) g 0 (by omega) (by decide) (by omega) 0

/-- **C253 (violation).** The denominator is never initialised: depending on what the memory held, a step can return any number. -/
theorem single_garbage_violation (D K : Nat) (n : Nat → Nat → Nat) (old : Nat → ℝ) (k : Nat) (hk : k < K)
    (hold : ∀ j < K, 0 < old j) (hn : ∀ d < D, ∀ j < K, 0 < n d j) (hD : 0 < D) (y : ℝ) (hy : y ≠ 1 / 100000) :
    ∃ garbage, single D K n (tokens K n) old garbage k = some y := by
  have hS : 0 < ∑ j ∈ Finset.range K, old j :=
    Finset.sum_pos (fun j hj => hold j (Finset.mem_range.mp hj)) ⟨k, Finset.mem_range.mpr hk⟩
  have hn1 : ∀ d < D, (0 : ℝ) < (n d k : ℝ) - 1 + old k := fun d hd => by
    have : (1 : ℝ) ≤ n d k := by exact_mod_cast hn d hd k hk
    linarith [hold k hk]
  have ht1 : ∀ d < D, (0 : ℝ) < (tokens K n d : ℝ) - 1 + ∑ j ∈ Finset.range K, old j := fun d hd => by
    have : 1 ≤ tokens K n d := by
      have := Finset.single_le_sum (f := fun j => n d j) (fun _ _ => Nat.zero_le _) (Finset.mem_range.mpr hk)
      have h2 := hn d hd k hk
      unfold tokens
      omega
    have : (1 : ℝ) ≤ tokens K n d := by exact_mod_cast this
    linarith
  have hnum : 0 < ∑ d ∈ Finset.range D, (n d k : ℝ) / ((n d k : ℝ) - 1 + old k) := by
    apply Finset.sum_pos _ ⟨0, Finset.mem_range.mpr hD⟩
    intro d hd
    have hd' := Finset.mem_range.mp hd
    have : (0 : ℝ) < n d k := by exact_mod_cast hn d hd' k hk
    exact div_pos this (hn1 d hd')
  have hy' : y - 1 / 100000 ≠ 0 := sub_ne_zero.mpr hy
  set num := ∑ d ∈ Finset.range D, (n d k : ℝ) / ((n d k : ℝ) - 1 + old k)
  set den := ∑ d ∈ Finset.range D, (tokens K n d : ℝ) / ((tokens K n d : ℝ) - 1 + ∑ j ∈ Finset.range K, old j)
  have hx : old k * num ≠ 0 := (mul_pos (hold k hk) hnum).ne'
  refine ⟨old k * num / (y - 1 / 100000) - den, ?_⟩
  unfold single
  rw [total_some _ (fun d => (n d k : ℝ) / ((n d k : ℝ) - 1 + old k)) 0 D fun d hd => share_ok _ _ (hn1 d hd).ne',
    total_some _ (fun d => (tokens K n d : ℝ) / ((tokens K n d : ℝ) - 1 + ∑ j ∈ Finset.range K, old j)) _ D
      fun d hd => share_ok _ _ (ht1 d hd).ne']
  simp only [Option.bind_some]
  have e : old k * num / (y - 1 / 100000) - den + den = old k * num / (y - 1 / 100000) := by ring
  show (cdiv (old k * (0 + num)) (old k * num / (y - 1 / 100000) - den + den)).bind _ = _
  rw [e, zero_add, cdiv, if_neg (div_ne_zero hx hy'), Option.bind_some]
  congr 1
  rw [div_div_eq_mul_div, mul_div_cancel_left₀ _ hx]
  ring

example : ∃ garbage, single 1 1 (fun _ _ => 1) (tokens 1 fun _ _ => 1) (fun _ => 1) garbage 0 = some (-5) :=
  single_garbage_violation 1 1 _ _ 0 (by omega) (fun _ _ => one_pos) (fun _ _ _ _ => one_pos) one_pos _ (by norm_num)

/-- **C253 (what holds).** If the memory happens to hold zero and every document has tokens, then a step, without the constant it
adds at the end, never lowers the leave-one-out likelihood of the topics. -/
theorem single_partial (D K : Nat) (n : Nat → Nat → Nat) (old v : Nat → ℝ) (hD : 0 < D) (ht : ∀ d < D, 0 < tokens K n d)
    (hold : Fits D K n old) (hv : ∀ k < K, single D K n (tokens K n) old 0 k = some (v k)) :
    leaveOneOut D K n old ≤ leaveOneOut D K n (fun k => v k - 1 / 100000)
      ∧ Fits D K n fun k => v k - 1 / 100000 := by
  set S := ∑ j ∈ Finset.range K, old j with hSdef
  set Den := ∑ d ∈ Finset.range D, (tokens K n d : ℝ) / ((tokens K n d : ℝ) - 1 + S) with hDen
  set num := fun k => ∑ d ∈ Finset.range D, (n d k : ℝ) / ((n d k : ℝ) - 1 + old k) with hnum
  set w : Nat → ℝ := fun k => v k - 1 / 100000 with hw
  have hw' : ∀ k < K, w k = old k * num k / Den := by
    intro k hk
    have := (single_value _ _ _ _ _ _ _ _ (hv k hk)).2
    simp only [zero_add] at this
    simp only [hw]
    rw [this]
    ring
  -- some topic is used in every document
  have hused : ∀ d < D, ∃ k < K, 0 < n d k := by
    intro d hd
    by_contra hc
    push Not at hc
    have : tokens K n d = 0 := Finset.sum_eq_zero fun k hk => by have := hc k (Finset.mem_range.mp hk); omega
    have := ht d hd
    omega
  have hS : 0 < S := by
    obtain ⟨k, hk, hnk⟩ := hused 0 hD
    refine Finset.sum_pos' (fun j hj => (hold j (Finset.mem_range.mp hj)).1) ⟨k, Finset.mem_range.mpr hk, ?_⟩
    exact (hold k hk).2 ⟨0, hD, hnk⟩
  have htd : ∀ d < D, (0 : ℝ) < (tokens K n d : ℝ) - 1 + S := fun d hd => by
    have : (1 : ℝ) ≤ tokens K n d := by exact_mod_cast ht d hd
    linarith
  have hDenpos : 0 < Den := by
    apply Finset.sum_pos _ ⟨0, Finset.mem_range.mpr hD⟩
    intro d hd
    have hd' := Finset.mem_range.mp hd
    have : (0 : ℝ) < tokens K n d := by exact_mod_cast ht d hd'
    exact div_pos this (htd d hd')
  have hdk : ∀ d < D, ∀ k < K, 0 < n d k → (0 : ℝ) < (n d k : ℝ) - 1 + old k := fun d hd k hk h => by
    have : (1 : ℝ) ≤ n d k := by exact_mod_cast h
    have := (hold k hk).2 ⟨d, hd, h⟩
    linarith
  have hterm : ∀ d < D, ∀ k < K, 0 ≤ (n d k : ℝ) / ((n d k : ℝ) - 1 + old k) := by
    intro d hd k hk
    rcases Nat.eq_zero_or_pos (n d k) with h | h
    · simp [h]
    · exact div_nonneg (Nat.cast_nonneg _) (hdk d hd k hk h).le
  have hnum0 : ∀ k < K, 0 ≤ num k := fun k hk => Finset.sum_nonneg fun d hd => hterm d (Finset.mem_range.mp hd) k hk
  have hnumpos : ∀ k < K, (∃ d < D, 0 < n d k) → 0 < num k := by
    rintro k hk ⟨d, hd, h⟩
    refine Finset.sum_pos' (fun e he => hterm e (Finset.mem_range.mp he) k hk) ⟨d, Finset.mem_range.mpr hd, ?_⟩
    exact div_pos (by exact_mod_cast h) (hdk d hd k hk h)
  have hfit : Fits D K n w := by
    intro k hk
    rw [hw' k hk]
    refine ⟨div_nonneg (mul_nonneg (hold k hk).1 (hnum0 k hk)) hDenpos.le, fun h => ?_⟩
    exact div_pos (mul_pos ((hold k hk).2 h) (hnumpos k hk h)) hDenpos
  refine ⟨?_, hfit⟩
  set S' := ∑ j ∈ Finset.range K, w j with hS'def
  have hS' : 0 < S' := by
    obtain ⟨k, hk, hnk⟩ := hused 0 hD
    refine Finset.sum_pos' (fun j hj => (hfit j (Finset.mem_range.mp hj)).1) ⟨k, Finset.mem_range.mpr hk, ?_⟩
    exact (hfit k hk).2 ⟨0, hD, hnk⟩
  have htd' : ∀ d < D, (0 : ℝ) < (tokens K n d : ℝ) - 1 + S' := fun d hd => by
    have : (1 : ℝ) ≤ tokens K n d := by exact_mod_cast ht d hd
    linarith
  -- every term of the likelihood is bounded from below
  have hlow : ∀ d ∈ Finset.range D, ∀ k ∈ Finset.range K,
      (n d k : ℝ) / ((n d k : ℝ) - 1 + old k) * old k * (Real.log (w k) - Real.log (old k))
        - (n d k : ℝ) * ((S' - S) / ((tokens K n d : ℝ) - 1 + S))
      ≤ (n d k : ℝ) * Real.log (((n d k : ℝ) - 1 + w k) / ((tokens K n d : ℝ) - 1 + S'))
        - (n d k : ℝ) * Real.log (((n d k : ℝ) - 1 + old k) / ((tokens K n d : ℝ) - 1 + S)) := by
    intro d hd k hk
    have hd' := Finset.mem_range.mp hd
    have hk' := Finset.mem_range.mp hk
    rcases Nat.eq_zero_or_pos (n d k) with h | h
    · simp [h]
    · have h1 : (1 : ℝ) ≤ n d k := by exact_mod_cast h
      have ho := (hold k hk').2 ⟨d, hd', h⟩
      have hwk := (hfit k hk').2 ⟨d, hd', h⟩
      have a1 := log_mix ((n d k : ℝ) - 1) (w k) (old k) (by linarith) hwk ho
      have a2 := log_line ((tokens K n d : ℝ) - 1 + S') ((tokens K n d : ℝ) - 1 + S) (htd' d hd') (htd d hd')
      have p1 := hdk d hd' k hk' h
      have p2 : (0 : ℝ) < (n d k : ℝ) - 1 + w k := by linarith
      rw [Real.log_div p2.ne' (htd' d hd').ne', Real.log_div p1.ne' (htd d hd').ne']
      have e : (tokens K n d : ℝ) - 1 + S' - ((tokens K n d : ℝ) - 1 + S) = S' - S := by ring
      rw [e] at a2
      have h0 : (0 : ℝ) ≤ n d k := by linarith
      have m1 := mul_le_mul_of_nonneg_left a1 h0
      have m2 := mul_le_mul_of_nonneg_left a2 h0
      have e2 : (n d k : ℝ) * (old k / ((n d k : ℝ) - 1 + old k) * (Real.log (w k) - Real.log (old k)))
          = (n d k : ℝ) / ((n d k : ℝ) - 1 + old k) * old k * (Real.log (w k) - Real.log (old k)) := by ring
      rw [e2] at m1
      linarith
  have hsum := Finset.sum_le_sum fun d hd => Finset.sum_le_sum (hlow d hd)
  simp only [Finset.sum_sub_distrib] at hsum
  -- the sum of the lower bounds
  have e1 : ∑ d ∈ Finset.range D, ∑ k ∈ Finset.range K,
      (n d k : ℝ) / ((n d k : ℝ) - 1 + old k) * old k * (Real.log (w k) - Real.log (old k))
      = Den * ∑ k ∈ Finset.range K, w k * (Real.log (w k) - Real.log (old k)) := by
    rw [Finset.sum_comm, Finset.mul_sum]
    refine Finset.sum_congr rfl fun k hk => ?_
    rw [← Finset.sum_mul, ← Finset.sum_mul]
    have := hw' k (Finset.mem_range.mp hk)
    have h3 : Den * w k = old k * num k := by rw [this]; field_simp
    rw [← mul_assoc, h3]
    simp only [hnum]
    ring
  have e2 : ∑ d ∈ Finset.range D, ∑ k ∈ Finset.range K, (n d k : ℝ) * ((S' - S) / ((tokens K n d : ℝ) - 1 + S))
      = Den * (S' - S) := by
    rw [hDen, Finset.sum_mul]
    refine Finset.sum_congr rfl fun d _ => ?_
    rw [← Finset.sum_mul, tokens, Nat.cast_sum]
    ring
  rw [e1, e2] at hsum
  have hg : S' - S ≤ ∑ k ∈ Finset.range K, w k * (Real.log (w k) - Real.log (old k)) := by
    rw [hS'def, hSdef, ← Finset.sum_sub_distrib]
    refine Finset.sum_le_sum fun k hk => ?_
    have hk' := Finset.mem_range.mp hk
    rcases (hfit k hk').1.eq_or_lt with h | h
    · rw [← h]
      linarith [(hold k hk').1]
    · have ho : 0 < old k := by
        rcases (hold k hk').1.eq_or_lt with h' | h'
        · rw [hw' k hk', ← h'] at h
          simp at h
        · exact h'
      exact gibbs_term _ _ h ho
  have hfin : 0 ≤ Den * ∑ k ∈ Finset.range K, w k * (Real.log (w k) - Real.log (old k)) - Den * (S' - S) := by
    rw [← mul_sub]
    exact mul_nonneg hDenpos.le (by linarith)
  unfold leaveOneOut
  simp only [← hS'def, ← hSdef]
  linarith

/-- A corpus, a prior and a step that meet the hypotheses of `single_partial`. -/
example : ∃ v : Nat → ℝ, (∀ k < 2, single 1 2 (fun _ k => k + 1) (tokens 2 fun _ k => k + 1) (fun _ => 2) 0 k = some (v k))
    ∧ Fits 1 2 (fun _ k => k + 1) (fun _ => 2) ∧ 0 < tokens 2 (fun _ k => k + 1) 0 := by
  have key : ∀ k : Nat, ∃ v, single 1 2 (fun _ k => k + 1) (tokens 2 fun _ k => k + 1) (fun _ => 2) 0 k = some v := by
    intro k
    have h1 : total (fun d => share ((fun _ k => k + 1 : Nat → Nat → Nat) d k) 2) 0 1 = some (0 + ∑ d ∈ Finset.range 1, ((k + 1 : Nat) : ℝ) / (((k + 1 : Nat) : ℝ) - 1 + 2)) := by
      apply total_some
      intro d _
      apply share_ok
      push_cast
      have : (0 : ℝ) ≤ k := Nat.cast_nonneg k
      linarith
    have h2 : total (fun d => share (tokens 2 (fun _ k => k + 1) d) (∑ j ∈ Finset.range 2, (2 : ℝ))) 0 1
        = some (0 + ∑ d ∈ Finset.range 1, ((3 : Nat) : ℝ) / (((3 : Nat) : ℝ) - 1 + ∑ j ∈ Finset.range 2, (2 : ℝ))) := by
      apply total_some
      intro d _
      have : tokens 2 (fun _ k => k + 1) d = 3 := rfl
      rw [this]
      apply share_ok
      norm_num
    unfold single
    rw [h1, h2]
    simp only [Option.bind_some, cdiv]
    rw [if_neg (by norm_num)]
    exact ⟨_, rfl⟩
  choose v hv using key
  exact ⟨v, fun k _ => hv k, fun k _ => ⟨by norm_num, fun _ => by norm_num⟩, by decide⟩

/-! ## C254 -/

/-- **C254 (violation).** With the switch on, a query writes the priors of the query's documents into the model: after ten samples or
more of a query that contains an empty document, nothing of the model's topic prior is a number any more, whatever it was before. -/
theorem query_prior_violation (D K : Nat) (garbage : Nat → Nat → ℝ) (lens : Nat → Nat) (tables : List (Nat → Nat → Nat))
    (h : ∀ n ∈ tables, tokens K n = lens) (h10 : 10 ≤ tables.length) (d : Nat) (hd : d < D) (he : lens d = 0)
    (hK : 0 < K) (a : Nat → Option ℝ) (k : Nat) :
    priorAfter true D K lens garbage tables 0 a k = none := by
  have hinf : ∀ n ∈ tables, ∀ g k, infer D K n lens g k = none := by
    intro n hn g k
    have := h n hn
    rw [← this] at he ⊢
    exact infer_empty_violation D K n g d hd he hK k
  have key : ∀ (ts : List (Nat → Nat → Nat)) (i : Nat) (b : Nat → Option ℝ), (∀ n ∈ ts, n ∈ tables) →
      ((∀ k, b k = none) ∨ 10 ≤ i % 10 + ts.length) →
      ∀ k, priorAfter true D K lens garbage ts i b k = none := by
    intro ts
    induction ts with
    | nil =>
      intro i b _ hb k
      rcases hb with hb | hb
      · exact hb k
      · simp at hb; omega
    | cons t ts ih =>
      intro i b hm hb k
      unfold priorAfter
      apply ih (i + 1) _ (fun n hn => hm n (List.mem_cons_of_mem _ hn))
      by_cases hi : (i + 1) % 10 = 0
      · left
        intro k
        simp only [hi, and_self, if_true]
        exact hinf t (hm t List.mem_cons_self) _ k
      · rcases hb with hb | hb
        · left
          intro k
          simp [hi, hb]
        · right
          simp only [List.length_cons] at hb
          omega
  exact key tables 0 a (fun n hn => hn) (Or.inr (by simpa using h10)) k

example : priorAfter true 2 1 (fun d => d) (fun _ _ => 0) (List.replicate 10 fun d _ => d) 0 (fun _ => some 1) 0 = none := by
  apply query_prior_violation 2 1 _ _ _ _ (by simp) 0 (by omega) rfl (by omega)
  intro n hn
  rw [List.eq_of_mem_replicate hn]
  funext d
  simp [tokens]

/-- **C254 (what holds).** With the switch off, as it is by default, or with fewer than ten samples, the prior stays as it was. -/
theorem query_prior_partial (update : Bool) (D K : Nat) (garbage : Nat → Nat → ℝ) (lens : Nat → Nat)
    (tables : List (Nat → Nat → Nat)) (h : update = false ∨ tables.length < 10) (a : Nat → Option ℝ) :
    priorAfter update D K lens garbage tables 0 a = a := by
  have key : ∀ (ts : List (Nat → Nat → Nat)) (i : Nat), (update = false ∨ i + ts.length < 10) →
      priorAfter update D K lens garbage ts i a = a := by
    intro ts
    induction ts with
    | nil => intro i _; rfl
    | cons t ts ih =>
      intro i hi
      unfold priorAfter
      simp only [List.length_cons] at hi
      rw [if_neg, ih (i + 1) (by rcases hi with hi | hi; exact Or.inl hi; right; omega)]
      rintro ⟨hu, hm⟩
      rcases hi with hi | hi
      · rw [hi] at hu; cases hu
      · omega
  exact key tables 0 (by rcases h with h | h; exact Or.inl h; right; omega)

example : priorAfter false 2 1 (fun d => d) (fun _ _ => 0) (List.replicate 30 fun d _ => d) 0 (fun _ => some 1) 0 = some 1 := by
  rw [query_prior_partial false 2 1 _ _ _ (Or.inl rfl)]

end Verif.Props.GibbsHyper
