import Verif.Model.DmrWeights
import Verif.Lemmas.Dirichlet
import Mathlib.Algebra.BigOperators.Field
import Mathlib.Analysis.SpecialFunctions.ExpDeriv
import Mathlib.Tactic.Linarith
import Mathlib.Tactic.FieldSimp
import Mathlib.Tactic.Ring

/-!
# The weights of Dirichlet-multinomial regression: properties

The specification is the posterior of the weights: the probability of the topics of every document under a Dirichlet distribution with
parameters `exp(x·w_k)`, written as a product over the tokens, times a Gaussian prior of the weights.
-/

namespace Verif.Props.DmrWeights

open Finset Verif.DmrWeights

/-! ## Batches -/

theorem batches_sum (p : Problem) (hB : 0 < p.batch) (g : Nat → ℝ) (r : ℝ) :
    (batches p).foldl (fun r b => r + ∑ i ∈ range (b.2 - b.1), g (b.1 + i)) r = r + ∑ d ∈ range p.D, g d := by
  have h : ∀ m, m ≤ (p.D + p.batch - 1) / p.batch →
      ((List.range m).map fun i => (i * p.batch, min p.D (i * p.batch + p.batch))).foldl
        (fun r b => r + ∑ i ∈ range (b.2 - b.1), g (b.1 + i)) r = r + ∑ d ∈ range (min p.D (m * p.batch)), g d := by
    intro m
    induction m with
    | zero => simp
    | succ m ih =>
      intro hm
      have hm' : m * p.batch < p.D := by
        have h1 : (m + 1) * p.batch ≤ p.D + p.batch - 1 := (Nat.le_div_iff_mul_le hB).1 hm
        rw [Nat.add_mul, Nat.one_mul] at h1
        omega
      rw [List.range_succ, List.map_append, List.foldl_append, ih (by omega)]
      simp only [List.map_cons, List.map_nil, List.foldl_cons, List.foldl_nil]
      rw [add_assoc, Nat.add_mul, Nat.one_mul, min_eq_right hm'.le]
      congr 1
      obtain ⟨e, he⟩ : ∃ e, min p.D (m * p.batch + p.batch) = m * p.batch + e := ⟨min p.D (m * p.batch + p.batch) - m * p.batch, by omega⟩
      rw [he, Nat.add_sub_cancel_left, sum_range_add]
  unfold batches
  rw [h _ le_rfl]
  congr 2
  have : p.D ≤ (p.D + p.batch - 1) / p.batch * p.batch := by
    have := Nat.div_add_mod (p.D + p.batch - 1) p.batch
    have h2 := Nat.mod_lt (p.D + p.batch - 1) hB
    rw [Nat.mul_comm] at this
    omega
  rw [min_eq_left this]

/-- The part of the objective that is due to document `d` -/
noncomputable def docTerm (p : Problem) (W : Nat → Nat → ℝ) (k : Nat) (w : Nat → ℝ) (d : Nat) : ℝ :=
  gammaln (∑ j ∈ range p.K, priors p W k w d j)
    - (∑ s ∈ range p.samples, gammaln (∑ j ∈ range p.K, priors p W k w d j + ∑ j ∈ range p.K, (p.n d j s : ℝ))) / p.samples
    + (∑ s ∈ range p.samples, gammaln (priors p W k w d k + p.n d k s)) / p.samples - gammaln (priors p W k w d k)

theorem objective_eq (p : Problem) (hB : 0 < p.batch) (W : Nat → Nat → ℝ) (k : Nat) (w : Nat → ℝ) :
    objective p W k w = -(∑ d ∈ range p.D, docTerm p W k w d - 0.5 * Real.log (2 * Real.pi * p.sigma)
      - 0.5 / p.sigma * ∑ f ∈ range p.F, w f * w f) := by
  have h : ∀ lo hi, batchObjective p W k w lo hi = ∑ i ∈ range (hi - lo), docTerm p W k w (lo + i) := by
    intro lo hi
    unfold batchObjective docTerm
    simp only [sum_sub_distrib, sum_add_distrib, sum_div]
  unfold objective
  simp only [h]
  rw [batches_sum p hB, zero_add]

/-! ## The gradient -/

/-- The derivative of the part of document `d`, by the weighted sum of its features -/
noncomputable def docSlope (p : Problem) (W : Nat → Nat → ℝ) (k : Nat) (w : Nat → ℝ) (d : Nat) : ℝ :=
  (Dirichlet.digamma (∑ j ∈ range p.K, priors p W k w d j)
      - (∑ s ∈ range p.samples, Dirichlet.digamma (∑ j ∈ range p.K, priors p W k w d j + ∑ j ∈ range p.K, (p.n d j s : ℝ))) / p.samples
      + (∑ s ∈ range p.samples, Dirichlet.digamma (priors p W k w d k + p.n d k s)) / p.samples
      - Dirichlet.digamma (priors p W k w d k)) * priors p W k w d k

theorem gradient_eq (p : Problem) (hB : 0 < p.batch) (W : Nat → Nat → ℝ) (k : Nat) (w : Nat → ℝ) (f : Nat) :
    gradient Dirichlet.digamma p W k w f = -(∑ d ∈ range p.D, docSlope p W k w d * p.X d f - w f / p.sigma) := by
  have h : ∀ lo hi, batchGradient Dirichlet.digamma p W k w lo hi f = ∑ i ∈ range (hi - lo), docSlope p W k w (lo + i) * p.X (lo + i) f := by
    intro lo hi
    unfold batchGradient docSlope
    simp only [mul_assoc]
  unfold gradient
  simp only [h]
  rw [batches_sum p hB (fun d => docSlope p W k w d * p.X d f), zero_add]

theorem priors_pos (p : Problem) (W : Nat → Nat → ℝ) (k : Nat) (w : Nat → ℝ) (d j : Nat) : 0 < priors p W k w d j := Real.exp_pos _

theorem gammaln_deriv (g : ℝ → ℝ) (g' t : ℝ) (hg : HasDerivAt g g' t) (hpos : 0 < g t) :
    HasDerivAt (fun t => gammaln (g t)) (Dirichlet.digamma (g t) * g') t :=
  (Dirichlet.hasDerivAt_logGamma (g t) hpos).comp t hg

/-- C206: along every line in the space of the weights of a topic, the derivative of the objective is the one given by the gradient. -/
theorem gradient_exact (p : Problem) (hB : 0 < p.batch) (W : Nat → Nat → ℝ) (k : Nat) (hk : k < p.K) (w v : Nat → ℝ) (t : ℝ) :
    HasDerivAt (fun t : ℝ => objective p W k (fun f => w f + t * v f))
      (∑ f ∈ range p.F, gradient Dirichlet.digamma p W k (fun f => w f + t * v f) f * v f) t := by
  have hlin : ∀ f, HasDerivAt (fun t : ℝ => w f + t * v f) (v f) t := fun f => by
    simpa using ((hasDerivAt_id t).mul_const (v f)).const_add (w f)
  have hp : ∀ d j, HasDerivAt (fun t : ℝ => priors p W k (fun f => w f + t * v f) d j)
      (if j = k then priors p W k (fun f => w f + t * v f) d k * ∑ f ∈ range p.F, p.X d f * v f else 0) t := by
    intro d j
    unfold priors
    by_cases h : j = k
    · simp only [h, if_true]
      exact (HasDerivAt.fun_sum fun f _ => (hlin f).const_mul (p.X d f)).exp
    · simp only [h, if_false]
      exact hasDerivAt_const _ _
  have hsum : ∀ d, HasDerivAt (fun t : ℝ => ∑ j ∈ range p.K, priors p W k (fun f => w f + t * v f) d j)
      (priors p W k (fun f => w f + t * v f) d k * ∑ f ∈ range p.F, p.X d f * v f) t := by
    intro d
    have := HasDerivAt.fun_sum (u := range p.K) fun j _ => hp d j
    rw [sum_ite_eq' (range p.K) k, if_pos (mem_range.2 hk)] at this
    exact this
  have hpk : ∀ d, HasDerivAt (fun t : ℝ => priors p W k (fun f => w f + t * v f) d k)
      (priors p W k (fun f => w f + t * v f) d k * ∑ f ∈ range p.F, p.X d f * v f) t := by
    intro d
    have := hp d k
    rwa [if_pos rfl] at this
  have hspos : ∀ d (w : Nat → ℝ), 0 < ∑ j ∈ range p.K, priors p W k w d j := fun d w =>
    sum_pos (fun j _ => priors_pos ..) ⟨k, mem_range.2 hk⟩
  have hdoc : ∀ d, HasDerivAt (fun t : ℝ => docTerm p W k (fun f => w f + t * v f) d)
      (docSlope p W k (fun f => w f + t * v f) d * ∑ f ∈ range p.F, p.X d f * v f) t := by
    intro d
    unfold docTerm
    have h1 := gammaln_deriv _ _ t (hsum d) (hspos d _)
    have h2 : ∀ s, _ := fun s => gammaln_deriv _ _ t ((hsum d).add_const (∑ j ∈ range p.K, (p.n d j s : ℝ)))
      (add_pos_of_pos_of_nonneg (hspos d _) (sum_nonneg fun _ _ => Nat.cast_nonneg _))
    have h3 : ∀ s, _ := fun s => gammaln_deriv _ _ t ((hpk d).add_const ((p.n d k s : ℝ)))
      (add_pos_of_pos_of_nonneg (priors_pos ..) (Nat.cast_nonneg _))
    have h4 := gammaln_deriv _ _ t (hpk d) (priors_pos ..)
    have := ((h1.sub ((HasDerivAt.fun_sum (u := range p.samples) fun s _ => h2 s).div_const (p.samples : ℝ))).add
      ((HasDerivAt.fun_sum (u := range p.samples) fun s _ => h3 s).div_const (p.samples : ℝ))).sub h4
    refine HasDerivAt.congr_deriv this ?_
    unfold docSlope
    simp only [← sum_mul]
    ring
  have hreg : HasDerivAt (fun t : ℝ => 0.5 / p.sigma * ∑ f ∈ range p.F, (w f + t * v f) * (w f + t * v f))
      (∑ f ∈ range p.F, (w f + t * v f) / p.sigma * v f) t := by
    have := (HasDerivAt.fun_sum (u := range p.F) fun f _ => (hlin f).mul (hlin f)).const_mul (0.5 / p.sigma)
    refine HasDerivAt.congr_deriv this ?_
    rw [mul_sum]
    refine sum_congr rfl fun f _ => ?_
    ring
  have hall := ((HasDerivAt.fun_sum (u := range p.D) fun d _ => hdoc d).sub_const (0.5 * Real.log (2 * Real.pi * p.sigma))).sub hreg |>.neg
  have hfun : (fun t : ℝ => objective p W k (fun f => w f + t * v f))
      = fun t : ℝ => -(∑ d ∈ range p.D, docTerm p W k (fun f => w f + t * v f) d - 0.5 * Real.log (2 * Real.pi * p.sigma)
        - 0.5 / p.sigma * ∑ f ∈ range p.F, (w f + t * v f) * (w f + t * v f)) := by
    funext t
    rw [objective_eq p hB]
  rw [hfun]
  refine HasDerivAt.congr_deriv hall ?_
  have hg : ∀ f, gradient Dirichlet.digamma p W k (fun f => w f + t * v f) f * v f
      = -(∑ d ∈ range p.D, docSlope p W k (fun f => w f + t * v f) d * (p.X d f * v f) - (w f + t * v f) / p.sigma * v f) := by
    intro f
    rw [gradient_eq p hB]
    simp only [← mul_assoc]
    rw [← sum_mul]
    ring
  simp only [hg]
  rw [sum_neg_distrib, sum_sub_distrib, sum_comm]
  simp only [mul_sum]

/-! ## The posterior -/

/-- The rising factorial `a (a + 1) ⋯ (a + n - 1)` -/
noncomputable def rise (a : ℝ) (n : Nat) : ℝ := ∏ i ∈ range n, (a + i)

/-- The probability of the topics of the tokens of a document, which has `m j` tokens of topic `j`, if their distribution is drawn from
a Dirichlet distribution with the parameters `a` -/
noncomputable def topicsProb (K : Nat) (a : Nat → ℝ) (m : Nat → Nat) : ℝ :=
  (∏ j ∈ range K, rise (a j) (m j)) / rise (∑ j ∈ range K, a j) (∑ j ∈ range K, m j)

/-- The logarithm of the posterior of the weights of all topics, up to a constant: the average over the samples of the log-probability of
the topics, and independent Gaussian priors of the weights -/
noncomputable def logPosterior (p : Problem) (W : Nat → Nat → ℝ) : ℝ :=
  (∑ s ∈ range p.samples, ∑ d ∈ range p.D,
    Real.log (topicsProb p.K (fun j => Real.exp (∑ f ∈ range p.F, p.X d f * W j f)) (fun j => p.n d j s))) / p.samples
  - ∑ j ∈ range p.K, ∑ f ∈ range p.F, W j f ^ 2 / (2 * p.sigma)

theorem rise_pos (a : ℝ) (ha : 0 < a) (n : Nat) : 0 < rise a n :=
  prod_pos fun i _ => by
    have : (0 : ℝ) ≤ i := Nat.cast_nonneg i
    linarith

theorem gammaln_rise (a : ℝ) (ha : 0 < a) (n : Nat) : gammaln (a + n) = gammaln a + Real.log (rise a n) := by
  induction n with
  | zero => simp [rise]
  | succ n ih =>
    have hn : (0 : ℝ) < a + n := by positivity
    have h1 : rise a (n + 1) = rise a n * (a + n) := by
      unfold rise
      rw [prod_range_succ]
    rw [h1, Real.log_mul (rise_pos a ha n).ne' hn.ne', ← add_assoc, ← ih]
    unfold gammaln
    rw [Nat.cast_add, Nat.cast_one, ← add_assoc, Real.Gamma_add_one hn.ne', Real.log_mul hn.ne' (Real.Gamma_pos_of_pos hn).ne']
    ring

theorem priors_update (p : Problem) (W : Nat → Nat → ℝ) (k : Nat) (w : Nat → ℝ) (d j : Nat) :
    priors p W k w d j = Real.exp (∑ f ∈ range p.F, p.X d f * Function.update W k w j f) := by
  unfold priors
  by_cases h : j = k
  · subst h
    rw [if_pos rfl, Function.update_self]
  · rw [if_neg h, Function.update_of_ne h]

/-- What the objective of topic `k` leaves out: it depends on the other topics only. -/
noncomputable def rest (p : Problem) (W : Nat → Nat → ℝ) (k : Nat) : ℝ :=
  (∑ s ∈ range p.samples, ∑ d ∈ range p.D, ∑ j ∈ (range p.K).erase k,
    Real.log (rise (Real.exp (∑ f ∈ range p.F, p.X d f * W j f)) (p.n d j s))) / p.samples
  - ∑ j ∈ (range p.K).erase k, ∑ f ∈ range p.F, W j f ^ 2 / (2 * p.sigma) + 0.5 * Real.log (2 * Real.pi * p.sigma)

theorem objective_posterior (p : Problem) (hB : 0 < p.batch) (hS : 0 < p.samples) (W : Nat → Nat → ℝ) (k : Nat) (hk : k < p.K) (w : Nat → ℝ) :
    objective p W k w = rest p W k - logPosterior p (Function.update W k w) := by
  have hS' : (p.samples : ℝ) ≠ 0 := by exact_mod_cast hS.ne'
  rw [objective_eq p hB]
  have hdoc : ∀ d, docTerm p W k w d = (∑ s ∈ range p.samples,
      Real.log (topicsProb p.K (fun j => Real.exp (∑ f ∈ range p.F, p.X d f * Function.update W k w j f)) (fun j => p.n d j s))) / p.samples
      - (∑ s ∈ range p.samples, ∑ j ∈ (range p.K).erase k, Real.log (rise (Real.exp (∑ f ∈ range p.F, p.X d f * W j f)) (p.n d j s))) / p.samples := by
    intro d
    have hsp : 0 < ∑ j ∈ range p.K, priors p W k w d j := sum_pos (fun j _ => priors_pos ..) ⟨k, mem_range.2 hk⟩
    have hlog : ∀ s, Real.log (topicsProb p.K (fun j => Real.exp (∑ f ∈ range p.F, p.X d f * Function.update W k w j f)) (fun j => p.n d j s))
        = Real.log (rise (priors p W k w d k) (p.n d k s))
          + ∑ j ∈ (range p.K).erase k, Real.log (rise (Real.exp (∑ f ∈ range p.F, p.X d f * W j f)) (p.n d j s))
          - Real.log (rise (∑ j ∈ range p.K, priors p W k w d j) (∑ j ∈ range p.K, p.n d j s)) := by
      intro s
      unfold topicsProb
      simp only [← priors_update]
      rw [Real.log_div (prod_pos fun j _ => rise_pos _ (priors_pos ..) _).ne' (rise_pos _ hsp _).ne',
        Real.log_prod (fun j _ => (rise_pos _ (priors_pos p W k w d j) _).ne'), ← add_sum_erase _ _ (mem_range.2 hk)]
      congr 2
      refine sum_congr rfl fun j hj => ?_
      rw [priors_update, Function.update_of_ne (ne_of_mem_erase hj)]
    simp only [hlog]
    unfold docTerm
    have h1 : ∀ s, gammaln (∑ j ∈ range p.K, priors p W k w d j + ∑ j ∈ range p.K, (p.n d j s : ℝ))
        = gammaln (∑ j ∈ range p.K, priors p W k w d j) + Real.log (rise (∑ j ∈ range p.K, priors p W k w d j) (∑ j ∈ range p.K, p.n d j s)) := by
      intro s
      rw [← gammaln_rise _ hsp, Nat.cast_sum]
    have h2 : ∀ s, gammaln (priors p W k w d k + p.n d k s) = gammaln (priors p W k w d k) + Real.log (rise (priors p W k w d k) (p.n d k s)) :=
      fun s => gammaln_rise _ (priors_pos ..) _
    simp only [h1, h2, sum_add_distrib, sum_sub_distrib, sum_const, card_range, nsmul_eq_mul]
    field_simp
    ring
  simp only [hdoc]
  unfold rest logPosterior
  have hreg : ∑ j ∈ range p.K, ∑ f ∈ range p.F, Function.update W k w j f ^ 2 / (2 * p.sigma)
      = 0.5 / p.sigma * ∑ f ∈ range p.F, w f * w f + ∑ j ∈ (range p.K).erase k, ∑ f ∈ range p.F, W j f ^ 2 / (2 * p.sigma) := by
    rw [← add_sum_erase _ _ (mem_range.2 hk)]
    congr 1
    · rw [Function.update_self, mul_sum]
      refine sum_congr rfl fun f _ => ?_
      norm_num
      ring
    · refine sum_congr rfl fun j hj => ?_
      rw [Function.update_of_ne (ne_of_mem_erase hj)]
  rw [hreg, sum_sub_distrib, ← sum_div, ← sum_div, sum_comm, sum_comm (s := range p.D) (t := range p.samples)]
  ring

/-- C207: lowering the objective of a topic raises the posterior of the weights by the same amount. -/
theorem objective_exact (p : Problem) (hB : 0 < p.batch) (hS : 0 < p.samples) (W : Nat → Nat → ℝ) (k : Nat) (hk : k < p.K) (w w' : Nat → ℝ) :
    objective p W k w - objective p W k w' = logPosterior p (Function.update W k w') - logPosterior p (Function.update W k w) := by
  rw [objective_posterior p hB hS W k hk w, objective_posterior p hB hS W k hk w']
  ring

/-! ## Weight updates -/

/-- The optimiser never returns weights that are worse than those it starts from. -/
def NeverWorse (p : Problem) (opt : (Nat → Nat → ℝ) → Nat → (Nat → ℝ) → Option (Nat → ℝ)) (W : Nat → Nat → ℝ) : Prop :=
  ∀ k, k < p.K → ∀ x, opt W k (W k) = some x → objective p W k x ≤ objective p W k (W k)

theorem update_succ (K : Nat) (opt : (Nat → Nat → ℝ) → Nat → (Nat → ℝ) → Option (Nat → ℝ)) (W : Nat → Nat → ℝ) :
    updateWeights (K + 1) opt W = match opt W K (updateWeights K opt W K) with
      | none => updateWeights K opt W
      | some x => Function.update (updateWeights K opt W) K x := by
  unfold updateWeights
  rw [List.range_succ, List.foldl_append]
  rfl

theorem update_above (opt : (Nat → Nat → ℝ) → Nat → (Nat → ℝ) → Option (Nat → ℝ)) (W : Nat → Nat → ℝ) (K j : Nat) (hj : K ≤ j) :
    updateWeights K opt W j = W j := by
  induction K with
  | zero => rfl
  | succ K ih =>
    rw [update_succ]
    split
    · exact ih (by omega)
    · rw [Function.update_of_ne (by omega)]
      exact ih (by omega)

/-- C208: what `updateWeights` returns: all topics are fitted against the old weights of the others. -/
theorem update_exact (K : Nat) (opt : (Nat → Nat → ℝ) → Nat → (Nat → ℝ) → Option (Nat → ℝ)) (W : Nat → Nat → ℝ) (j : Nat) :
    updateWeights K opt W j = if j < K then (opt W j (W j)).getD (W j) else W j := by
  induction K with
  | zero => rfl
  | succ K ih =>
    rw [update_succ, update_above opt W K K le_rfl]
    by_cases hj : j = K
    · subst hj
      rw [if_pos (by omega)]
      rcases h : opt W j (W j) with _ | x
      · exact update_above opt W j j le_rfl
      · simp
    · have hlt : (j < K + 1) ↔ j < K := by omega
      rcases h : opt W K (W K) with _ | x
      · simp only [hlt]
        exact ih
      · simp only [hlt]
        rw [Function.update_of_ne hj]
        exact ih

/-- C208: if at most one topic gets new weights, the posterior does not fall. -/
theorem update_raises_partial (p : Problem) (hB : 0 < p.batch) (hS : 0 < p.samples)
    (opt : (Nat → Nat → ℝ) → Nat → (Nat → ℝ) → Option (Nat → ℝ)) (W : Nat → Nat → ℝ) (h : NeverWorse p opt W) (k : Nat) (hk : k < p.K)
    (hone : ∀ j, j < p.K → j ≠ k → (opt W j (W j)).getD (W j) = W j) :
    logPosterior p W ≤ logPosterior p (updateWeights p.K opt W) := by
  have hup : updateWeights p.K opt W = Function.update W k ((opt W k (W k)).getD (W k)) := by
    funext j
    rw [update_exact]
    by_cases hj : j = k
    · subst hj
      rw [if_pos hk, Function.update_self]
    · rw [Function.update_of_ne hj]
      split_ifs with hlt
      · exact hone j hlt hj
      · rfl
  rw [hup]
  rcases hx : opt W k (W k) with _ | x
  · rw [Option.getD_none, Function.update_eq_self]
  · rw [Option.getD_some]
    have h1 := h k hk x hx
    have h2 := objective_exact p hB hS W k hk x (W k)
    rw [Function.update_eq_self] at h2
    linarith

/-- One document, which has one feature, three tokens of topic 0 and one of topic 1, in one sample -/
noncomputable def exP : Problem := ⟨1, 2, 1, fun _ _ => 100, 1, fun _ j _ => if j = 0 then 3 else 1, moduleSigma, moduleBatch⟩

/-- Both topics start with zero weights. -/
def exW : Nat → Nat → ℝ := fun _ _ => 0

/-- An optimiser that multiplies the prior of topic 0 by eight and halves that of topic 1 -/
noncomputable def exOpt : (Nat → Nat → ℝ) → Nat → (Nat → ℝ) → Option (Nat → ℝ) := fun _ k _ =>
  some fun _ => if k = 0 then Real.log 8 / 100 else Real.log (1 / 2) / 100

theorem exPosterior (W : Nat → Nat → ℝ) : logPosterior exP W = Real.log (
    (rise (Real.exp (100 * W 0 0)) 3 * rise (Real.exp (100 * W 1 0)) 1) / rise (Real.exp (100 * W 0 0) + Real.exp (100 * W 1 0)) 4)
    - 50 * (W 0 0 ^ 2 + W 1 0 ^ 2) := by
  unfold logPosterior topicsProb exP moduleSigma
  simp only [sum_range_succ, sum_range_zero, prod_range_succ, prod_range_zero]
  norm_num
  ring

theorem exPosterior_log (W : Nat → Nat → ℝ) (a b : ℝ) (ha : 0 < a) (hb : 0 < b) (h0 : W 0 0 = Real.log a / 100) (h1 : W 1 0 = Real.log b / 100) :
    logPosterior exP W = Real.log (a * (a + 1) * (a + 2) * b / ((a + b) * (a + b + 1) * (a + b + 2) * (a + b + 3)))
      - (Real.log a ^ 2 + Real.log b ^ 2) / 200 := by
  have e : ∀ x : ℝ, 100 * (x / 100) = x := fun x => by ring
  rw [exPosterior, h0, h1, e, e, Real.exp_log ha, Real.exp_log hb]
  congr 1
  · simp only [rise, prod_range_succ, prod_range_zero]
    norm_num
  · ring

theorem log_gt (x y : ℝ) (hx : 0 < x) (hy : 0 < y) : (y - x) / y ≤ Real.log y - Real.log x := by
  have h := Real.log_le_sub_one_of_pos (div_pos hx hy)
  rw [Real.log_div hx.ne' hy.ne'] at h
  have : x / y - 1 = -((y - x) / y) := by field_simp; ring
  linarith

theorem ex_logs : Real.log 8 ^ 2 ≤ 9 ∧ Real.log (1 / 2) ^ 2 ≤ 1 := by
  have hl2 : Real.log 2 ≤ 1 := by
    have := Real.log_le_sub_one_of_pos (x := 2) (by norm_num)
    linarith
  have hl2' : 0 ≤ Real.log 2 := Real.log_nonneg (by norm_num)
  have h8 : Real.log 8 = 3 * Real.log 2 := by
    rw [show (8 : ℝ) = 2 ^ 3 by norm_num, Real.log_pow]
    norm_num
  have hh : Real.log (1 / 2) = -Real.log 2 := by
    rw [one_div, Real.log_inv]
  rw [h8, hh]
  constructor <;> nlinarith

theorem ex_old : logPosterior exP exW = Real.log (1 / 20) := by
  rw [exPosterior_log exW 1 1 one_pos one_pos (by simp [exW]) (by simp [exW])]
  norm_num

theorem ex_never_worse : NeverWorse exP exOpt exW := by
  obtain ⟨h8, h2⟩ := ex_logs
  have hobj : ∀ k, k < 2 → ∀ x, logPosterior exP exW ≤ logPosterior exP (Function.update exW k x) →
      objective exP exW k x ≤ objective exP exW k (exW k) := by
    intro k hk x hle
    have := objective_exact exP (by simp [exP, moduleBatch]) (by simp [exP]) exW k hk x (exW k)
    rw [Function.update_eq_self] at this
    linarith
  intro k hk x hx
  refine hobj k hk x ?_
  rw [ex_old]
  have hx' : x = fun _ => if k = 0 then Real.log 8 / 100 else Real.log (1 / 2) / 100 := (Option.some.inj hx).symm
  have hk2 : k = 0 ∨ k = 1 := by
    have : k < 2 := hk
    omega
  rcases hk2 with rfl | rfl
  · rw [exPosterior_log _ 8 1 (by norm_num) one_pos (by simp [hx']) (by simp [exW])]
    have := log_gt (1 / 20) (8 * (8 + 1) * (8 + 2) * 1 / ((8 + 1) * (8 + 1 + 1) * (8 + 1 + 2) * (8 + 1 + 3))) (by norm_num) (by norm_num)
    rw [Real.log_one]
    norm_num at this ⊢
    linarith
  · rw [exPosterior_log _ 1 (1 / 2) one_pos (by norm_num) (by simp [exW]) (by simp [hx'])]
    have := log_gt (1 / 20) (1 * (1 + 1) * (1 + 2) * (1 / 2) / ((1 + 1 / 2) * (1 + 1 / 2 + 1) * (1 + 1 / 2 + 2) * (1 + 1 / 2 + 3))) (by norm_num) (by norm_num)
    rw [Real.log_one]
    have h2' := h2
    norm_num at this h2' ⊢
    linarith

/-- C208, violated: every topic's weights get better for its objective, and the posterior of all of them falls, since each topic is fitted
against the old weights of the other. -/
theorem update_violation : NeverWorse exP exOpt exW ∧ logPosterior exP (updateWeights exP.K exOpt exW) < logPosterior exP exW := by
  refine ⟨ex_never_worse, ?_⟩
  rw [ex_old, exPosterior_log _ 8 (1 / 2) (by norm_num) (by norm_num) (by simp [update_exact, exP, exOpt]) (by simp [update_exact, exP, exOpt])]
  have h : Real.log (8 * (8 + 1) * (8 + 2) * (1 / 2) / ((8 + 1 / 2) * (8 + 1 / 2 + 1) * (8 + 1 / 2 + 2) * (8 + 1 / 2 + 3))) < Real.log (1 / 20) :=
    Real.log_lt_log (by norm_num) (by norm_num)
  have := sq_nonneg (Real.log 8)
  have := sq_nonneg (Real.log (1 / 2))
  linarith

/-- `total_objective`, printed in debug runs, is not the posterior either: it counts the documents' terms once per topic. -/
theorem total_exact (p : Problem) (hB : 0 < p.batch) (hS : 0 < p.samples) (W : Nat → Nat → ℝ) :
    totalObjective p W = ∑ k ∈ range p.K, rest p W k - p.K * logPosterior p W := by
  have h : ∀ m, m ≤ p.K → (List.range m).foldl (fun r k => r + objective p W k (W k)) 0 = ∑ k ∈ range m, rest p W k - m * logPosterior p W := by
    intro m
    induction m with
    | zero => intro _; simp
    | succ m ih =>
      intro hm
      rw [List.range_succ, List.foldl_append, ih (by omega)]
      simp only [List.foldl_cons, List.foldl_nil]
      rw [objective_posterior p hB hS W m (by omega), Function.update_eq_self, sum_range_succ]
      push_cast
      ring
  exact h p.K le_rfl

/-! ## Examples -/

example (w v : Nat → ℝ) (t : ℝ) := gradient_exact exP (by simp [exP, moduleBatch]) exW 1 (by simp [exP]) w v t

example (w w' : Nat → ℝ) := objective_exact exP (by simp [exP, moduleBatch]) (by simp [exP]) exW 0 (by simp [exP]) w w'

/-- an optimiser that moves topic 0 only -/
example : logPosterior exP exW ≤ logPosterior exP (updateWeights exP.K (fun W k x => if k = 0 then exOpt W 0 x else none) exW) :=
  update_raises_partial exP (by simp [exP, moduleBatch]) (by simp [exP]) _ exW (fun k hk x hx => by
    by_cases h : k = 0
    · subst h
      exact ex_never_worse 0 hk x (by simpa using hx)
    · simp [h] at hx) 0 (by simp [exP]) (fun j _ hj => by simp [hj])

end Verif.Props.DmrWeights
