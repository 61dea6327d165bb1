import Mathlib.Tactic.Ring
import Mathlib.Tactic.Linarith
import Mathlib.Tactic.FieldSimp
import Mathlib.Tactic.Positivity
import Mathlib.Algebra.Order.BigOperators.Group.Finset
import Mathlib.Algebra.Order.BigOperators.Ring.Finset
import Mathlib.Algebra.BigOperators.Field
import Verif.Model.Mom
import Verif.Props.Numerics

/-!
# The mixture of multinomials trained by EM (C68, C69, C104, C105, C106)
-/

namespace Verif.Props.MomEm

open Verif Verif.Mom
open Verif.Props.Numerics (softmax shifted sum_exp_pos)

/-! ## Distributions -/

/-- A distribution over `K` topics, all of positive probability. -/
def IsDist (K : Nat) (f : Nat → ℝ) : Prop := (∀ k, k < K → 0 < f k) ∧ ∑ k ∈ Finset.range K, f k = 1

theorem softmax_dist (K : Nat) (l : Nat → ℝ) (hK : 0 < K) : IsDist K (softmax K l) := by
  refine ⟨fun k _ => div_pos (Real.exp_pos _) (sum_exp_pos K l hK), ?_⟩
  unfold softmax
  rw [← Finset.sum_div]
  exact div_self (sum_exp_pos K l hK).ne'

theorem eStep_eq (psi : ℝ → ℝ) (p : EmParams) (x : Data) (s : EmState) (d : Nat) :
    eStep psi p x s d = softmax p.K (logJoint psi p x s d) := by
  funext k
  unfold eStep
  exact shifted _ _ _ _

/-- The parameters fit the responsibilities: topic parameters sum to the prior total plus the number of documents, word
parameters to the total of the prior plus the number of tokens, and none is below its prior. -/
structure Fits (p : EmParams) (x : Data) (s : EmState) : Prop where
  topics : ∑ k ∈ Finset.range p.K, s.topic k = ∑ k ∈ Finset.range p.K, p.a k + x.D
  words : ∑ k ∈ Finset.range p.K, ∑ t ∈ Finset.range x.T, s.word k t
    = p.K * ∑ t ∈ Finset.range x.T, p.b t + ∑ d ∈ Finset.range x.D, (x.len d : ℝ)
  topic_le : ∀ k, k < p.K → p.a k ≤ s.topic k
  word_le : ∀ k t, k < p.K → p.b t ≤ s.word k t

theorem mStep_fits (p : EmParams) (x : Data) (s : EmState) (h : ∀ d, d < x.D → IsDist p.K (s.resp d)) :
    Fits p x (mStep p x s) := by
  refine ⟨?_, ?_, fun k hk => ?_, fun k t hk => ?_⟩
  · show ∑ k ∈ Finset.range p.K, (∑ d ∈ Finset.range x.D, s.resp d k + p.a k) = _
    rw [Finset.sum_add_distrib, Finset.sum_comm, Finset.sum_congr rfl (fun d hd => (h d (Finset.mem_range.mp hd)).2)]
    simp [add_comm]
  · show ∑ k ∈ Finset.range p.K, ∑ t ∈ Finset.range x.T, (∑ d ∈ Finset.range x.D, (x.words d t : ℝ) * s.resp d k + p.b t) = _
    simp only [Finset.sum_add_distrib, Finset.sum_const, Finset.card_range, nsmul_eq_mul]
    rw [add_comm]
    congr 1
    have : ∀ k, ∑ t ∈ Finset.range x.T, ∑ d ∈ Finset.range x.D, (x.words d t : ℝ) * s.resp d k
        = ∑ d ∈ Finset.range x.D, (x.len d : ℝ) * s.resp d k := by
      intro k
      rw [Finset.sum_comm]
      refine Finset.sum_congr rfl fun d _ => ?_
      rw [← Finset.sum_mul]
      unfold Data.len
      push_cast
      rfl
    simp only [this]
    rw [Finset.sum_comm]
    refine Finset.sum_congr rfl fun d hd => ?_
    rw [← Finset.mul_sum, (h d (Finset.mem_range.mp hd)).2, mul_one]
  · refine le_add_of_nonneg_left (Finset.sum_nonneg fun d hd => ?_)
    exact ((h d (Finset.mem_range.mp hd)).1 k hk).le
  · refine le_add_of_nonneg_left (Finset.sum_nonneg fun d hd => mul_nonneg (Nat.cast_nonneg _) ?_)
    exact ((h d (Finset.mem_range.mp hd)).1 k hk).le

theorem emLoop_proper (psi : ℝ → ℝ) (p : EmParams) (x : Data) (hK : 0 < p.K) (plan : EmPlan) (fuel itr : Nat) (s s' : EmState)
    (h : emLoop psi p x plan (fuel + 1) itr s = .ok s') :
    (∀ d, d < x.D → IsDist p.K (s'.resp d))
      ∧ (Fits p x s' ∨ (s'.topic = s.topic ∧ s'.word = s.word ∧ Settled p x s.resp s'.resp)) := by
  induction fuel generalizing itr s with
  | zero =>
    rw [emLoop] at h
    have hd : ∀ d, IsDist p.K (eStep psi p x s d) := fun d => by rw [eStep_eq]; exact softmax_dist _ _ hK
    simp only at h
    split at h
    · rename_i hset
      obtain rfl := Except.ok.inj h
      exact ⟨fun d _ => hd d, Or.inr ⟨rfl, rfl, hset⟩⟩
    · split at h
      · exact absurd h (by simp)
      · rw [emLoop] at h
        obtain rfl := Except.ok.inj h
        exact ⟨fun d _ => hd d, Or.inl (mStep_fits p x _ (fun d _ => hd d))⟩
  | succ fuel ih =>
    rw [emLoop] at h
    have hd : ∀ d, IsDist p.K (eStep psi p x s d) := fun d => by rw [eStep_eq]; exact softmax_dist _ _ hK
    simp only at h
    split at h
    · rename_i hset
      obtain rfl := Except.ok.inj h
      exact ⟨fun d _ => hd d, Or.inr ⟨rfl, rfl, hset⟩⟩
    · split at h
      · exact absurd h (by simp)
      · obtain ⟨h1, h2⟩ := ih _ _ h
        refine ⟨h1, Or.inl ?_⟩
        rcases h2 with h2 | ⟨e1, e2, -⟩
        · exact h2
        · have hf := mStep_fits p x { s with resp := eStep psi p x s } (fun d _ => hd d)
          refine ⟨?_, ?_, ?_, ?_⟩
          · rw [e1]; exact hf.topics
          · rw [e2]; exact hf.words
          · rw [e1]; exact hf.topic_le
          · rw [e2]; exact hf.word_le

/-- **C68**: after training for at least one iteration every document has proper topic responsibilities; the parameters have
the right totals, unless training stopped in its very first iteration, in which case they are the initial ones and the
responsibilities have hardly changed. -/
theorem em_proper (psi : ℝ → ℝ) (p : EmParams) (x : Data) (hK : 0 < p.K) (plan : EmPlan) (hi : 0 < plan.iterations)
    (s s' : EmState) (h : emTrain psi p x plan s = .ok s') :
    (∀ d, d < x.D → IsDist p.K (s'.resp d))
      ∧ (Fits p x s' ∨ (s'.topic = s.topic ∧ s'.word = s.word ∧
        ∑ d ∈ Finset.range x.D, ∑ k ∈ Finset.range p.K, |s.resp d k - s'.resp d k| < 1 / 1000 * x.D * p.K)) := by
  unfold emTrain at h
  split at h
  · exact absurd h (by simp)
  · obtain ⟨n, hn⟩ : ∃ n, plan.iterations = n + 1 := ⟨plan.iterations - 1, by omega⟩
    rw [hn] at h
    exact emLoop_proper psi p x hK plan n 0 s s' h

/-- Without measurements training succeeds on every corpus of non-empty documents. -/
theorem em_unlogged (psi : ℝ → ℝ) (p : EmParams) (x : Data) (hx : ∀ d, d < x.D → 0 < x.len d) (n : Nat) (s : EmState) :
    ∃ s', emTrain psi p x ⟨n, 0, false⟩ s = .ok s' := by
  have key : ∀ fuel itr s, ∃ s', emLoop psi p x ⟨n, 0, false⟩ fuel itr s = .ok s' := by
    intro fuel
    induction fuel with
    | zero => intro itr s; exact ⟨s, rfl⟩
    | succ fuel ih =>
      intro itr s
      rw [emLoop]
      simp only
      split
      · exact ⟨_, rfl⟩
      · rw [if_neg (by simp [logging])]
        exact ih _ _
  unfold emTrain
  rw [if_neg]
  · exact key _ _ _
  · simp only [List.any_eq_true, List.mem_range, decide_eq_true_eq, not_exists, not_and]
    intro d hd
    have := hx d hd
    omega

/-- A document without words is rejected. -/
theorem em_empty_document (psi : ℝ → ℝ) (p : EmParams) (x : Data) (plan : EmPlan) (s : EmState) (d : Nat) (hd : d < x.D)
    (h : x.len d = 0) : emTrain psi p x plan s = .error .valueError := by
  unfold emTrain
  rw [if_pos]
  simp only [List.any_eq_true, List.mem_range, decide_eq_true_eq]
  exact ⟨d, hd, by omega⟩

/-! ## C104 -/

/-- **C104** (EM) is violated: with any positive log frequency (or in debug mode) training succeeds only if the first iteration
hardly changes the responsibilities; otherwise it fails with an `AttributeError`. -/
theorem em_logged (psi : ℝ → ℝ) (p : EmParams) (x : Data) (hx : ∀ d, d < x.D → 0 < x.len d) (plan : EmPlan)
    (hi : 0 < plan.iterations) (hl : 0 < plan.logFrequency ∨ plan.debug = true) (s : EmState) :
    (∑ d ∈ Finset.range x.D, ∑ k ∈ Finset.range p.K, |s.resp d k - eStep psi p x s d k| < 1 / 1000 * x.D * p.K →
        emTrain psi p x plan s = .ok { s with resp := eStep psi p x s })
      ∧ (1 / 1000 * x.D * p.K ≤ ∑ d ∈ Finset.range x.D, ∑ k ∈ Finset.range p.K, |s.resp d k - eStep psi p x s d k| →
        emTrain psi p x plan s = .error .attributeError) := by
  obtain ⟨n, hn⟩ : ∃ n, plan.iterations = n + 1 := ⟨plan.iterations - 1, by omega⟩
  have hlog : logging plan.debug plan.logFrequency 0 = true := by
    unfold logging
    rcases hl with h | h
    · simp [h]
    · simp [h]
  have hne : ¬ ((List.range x.D).any (fun d => decide (x.len d < 1))) = true := by
    simp only [List.any_eq_true, List.mem_range, decide_eq_true_eq, not_exists, not_and]
    intro d hd
    have := hx d hd
    omega
  unfold emTrain
  rw [if_neg hne, hn, emLoop]
  simp only
  refine ⟨fun h => if_pos h, fun h => ?_⟩
  replace h : ¬ Settled p x s.resp (eStep psi p x s) := not_lt.2 h
  rw [if_neg h, if_pos hlog]

/-- What remains of **C104** (EM): training without measurements. -/
theorem em_trains_partial (psi : ℝ → ℝ) (p : EmParams) (hK : 0 < p.K) (x : Data) (hx : ∀ d, d < x.D → 0 < x.len d) (n : Nat)
    (s : EmState) : ∃ s', emTrain psi p x ⟨n + 1, 0, false⟩ s = .ok s' ∧ ∀ d, d < x.D → IsDist p.K (s'.resp d) := by
  obtain ⟨s', h⟩ := em_unlogged psi p x hx (n + 1) s
  exact ⟨s', h, (em_proper psi p x hK ⟨n + 1, 0, false⟩ (Nat.succ_pos n) s s' h).1⟩

/-! ## C69 -/

/-- **C69**: a query with at least one iteration leaves the parameters unchanged and returns the posterior probabilities of the
topics under them; neither the number of iterations, nor the initial responsibilities, nor early stopping matter. -/
theorem em_query (psi : ℝ → ℝ) (p : EmParams) (x : Data) (n : Nat) (s : EmState) :
    emQuery psi p x (n + 1) s = .ok { s with resp := fun d => softmax p.K (logJoint psi p x s d) } := by
  have key : ∀ fuel r, emQueryLoop psi p x (fuel + 1) { s with resp := r }
      = { s with resp := fun d => softmax p.K (logJoint psi p x s d) } := by
    intro fuel
    induction fuel with
    | zero =>
      intro r
      rw [emQueryLoop]
      have e : eStep psi p x { s with resp := r } = fun d => softmax p.K (logJoint psi p x s d) := by
        funext d; rw [eStep_eq]; rfl
      simp only [e]
      split
      · rfl
      · rw [emQueryLoop]
    | succ fuel ih =>
      intro r
      rw [emQueryLoop]
      have e : eStep psi p x { s with resp := r } = fun d => softmax p.K (logJoint psi p x s d) := by
        funext d; rw [eStep_eq]; rfl
      simp only [e]
      split
      · rfl
      · exact ih _
  unfold emQuery
  rw [if_neg (by omega), ← key n s.resp]

/-- **C69**: the result is the same for all positive numbers of iterations and all initial responsibilities. -/
theorem em_query_independent (psi : ℝ → ℝ) (p : EmParams) (x : Data) (n m : Nat) (s : EmState) (r : Nat → Nat → ℝ) :
    emQuery psi p x (n + 1) s = emQuery psi p x (m + 1) { s with resp := r } := by
  rw [em_query, em_query]
  rfl

/-- **C69**: zero iterations fail. -/
theorem em_query_zero (psi : ℝ → ℝ) (p : EmParams) (x : Data) (s : EmState) :
    emQuery psi p x 0 s = .error .unboundLocalError := rfl

/-! ## C105 and C106: the expected likelihood -/

/-- The probability of a document (as a sequence of words) under an urn that starts with `beta t` balls of colour `t` and gets
another ball of the colour drawn after every draw. -/
noncomputable def urn (T : Nat) (beta : Nat → ℝ) (count : Nat → Nat) : ℝ :=
  (∏ t ∈ Finset.range T, ∏ i ∈ Finset.range (count t), (beta t + i))
    / ∏ i ∈ Finset.range (∑ t ∈ Finset.range T, count t), (∑ t ∈ Finset.range T, beta t + i)

/-- The mixture of the urns of the topics, weighed by the topic parameters. -/
noncomputable def mixture (p : EmParams) (T : Nat) (s : EmState) (count : Nat → Nat) : ℝ :=
  ∑ k ∈ Finset.range p.K, s.topic k / (∑ j ∈ Finset.range p.K, s.topic j) * urn T (s.word k) count

/-- Positive parameters. -/
structure Positive (p : EmParams) (T : Nat) (s : EmState) : Prop where
  topic : ∀ k, k < p.K → 0 < s.topic k
  word : ∀ k t, k < p.K → t < T → 0 < s.word k t

theorem loggamma_add (v : ℝ) (hv : 0 < v) (n : Nat) :
    loggamma (n + v) = loggamma v + ∑ i ∈ Finset.range n, Real.log (v + i) := by
  induction n with
  | zero => simp
  | succ n ih =>
    have hpos : 0 < (n : ℝ) + v := by positivity
    rw [Finset.sum_range_succ, ← add_assoc, ← ih]
    unfold loggamma
    rw [show ((n + 1 : Nat) : ℝ) + v = ((n : ℝ) + v) + 1 from by push_cast; ring, Real.Gamma_add_one hpos.ne',
      Real.log_mul hpos.ne' (Real.Gamma_pos_of_pos hpos).ne', add_comm v (n : ℝ), add_comm]

theorem urn_pos (T : Nat) (hT : 0 < T) (beta : Nat → ℝ) (h : ∀ t, t < T → 0 < beta t) (count : Nat → Nat) :
    0 < urn T beta count := by
  have hs : 0 < ∑ t ∈ Finset.range T, beta t :=
    Finset.sum_pos (fun t ht => h t (Finset.mem_range.mp ht)) ⟨0, Finset.mem_range.mpr hT⟩
  refine div_pos (Finset.prod_pos fun t ht => Finset.prod_pos fun i _ => ?_) (Finset.prod_pos fun i _ => ?_)
  · have := h t (Finset.mem_range.mp ht)
    positivity
  · positivity

/-- The score of a topic is the logarithm of its weight times the probability of the document under its urn. -/
theorem expectedLls_eq (p : EmParams) (x : Data) (s : EmState) (h : Positive p x.T s) (hT : 0 < x.T) (d k : Nat) (hk : k < p.K) :
    expectedLls p x s d k
      = Real.log (s.topic k / (∑ j ∈ Finset.range p.K, s.topic j) * urn x.T (s.word k) (x.words d)) := by
  have hA : 0 < ∑ j ∈ Finset.range p.K, s.topic j :=
    Finset.sum_pos (fun j hj => h.topic j (Finset.mem_range.mp hj)) ⟨k, Finset.mem_range.mpr hk⟩
  have hB : 0 < ∑ t ∈ Finset.range x.T, s.word k t :=
    Finset.sum_pos (fun t ht => h.word k t hk (Finset.mem_range.mp ht)) ⟨0, Finset.mem_range.mpr hT⟩
  have ha := h.topic k hk
  have e1 : loggamma (∑ j ∈ Finset.range p.K, s.topic j + 1)
      = loggamma (∑ j ∈ Finset.range p.K, s.topic j) + Real.log (∑ j ∈ Finset.range p.K, s.topic j) := by
    have := loggamma_add _ hA 1
    rw [Finset.sum_range_one] at this
    push_cast at this
    rw [add_comm 1, add_zero] at this
    exact this
  have e2 : ∑ j ∈ Finset.range p.K, loggamma ((if j = k then 1 else 0) + s.topic j)
      = ∑ j ∈ Finset.range p.K, loggamma (s.topic j) + Real.log (s.topic k) := by
    have e : ∀ j ∈ Finset.range p.K, loggamma ((if j = k then 1 else 0) + s.topic j)
        = loggamma (s.topic j) + if j = k then Real.log (s.topic k) else 0 := by
      intro j _
      by_cases hj : j = k
      · subst hj
        rw [if_pos rfl, if_pos rfl]
        have := loggamma_add _ ha 1
        rw [Finset.sum_range_one] at this
        push_cast at this
        rw [add_zero] at this
        exact this
      · rw [if_neg hj, if_neg hj, zero_add, add_zero]
    rw [Finset.sum_congr rfl e, Finset.sum_add_distrib, Finset.sum_ite_eq', if_pos (Finset.mem_range.mpr hk)]
  have e3 : loggamma (x.len d + ∑ t ∈ Finset.range x.T, s.word k t)
      = loggamma (∑ t ∈ Finset.range x.T, s.word k t)
        + ∑ i ∈ Finset.range (x.len d), Real.log (∑ t ∈ Finset.range x.T, s.word k t + i) := loggamma_add _ hB _
  have e4 : ∑ t ∈ Finset.range x.T, loggamma (x.words d t + s.word k t)
      = ∑ t ∈ Finset.range x.T, loggamma (s.word k t)
        + ∑ t ∈ Finset.range x.T, ∑ i ∈ Finset.range (x.words d t), Real.log (s.word k t + i) := by
    rw [← Finset.sum_add_distrib]
    exact Finset.sum_congr rfl fun t ht => loggamma_add _ (h.word k t hk (Finset.mem_range.mp ht)) _
  have hden : ∏ i ∈ Finset.range (x.len d), (∑ t ∈ Finset.range x.T, s.word k t + (i : ℝ)) ≠ 0 :=
    Finset.prod_ne_zero_iff.mpr fun i _ => by positivity
  have hin : ∀ t ∈ Finset.range x.T, ∀ i ∈ Finset.range (x.words d t), s.word k t + (i : ℝ) ≠ 0 := by
    intro t ht i _
    have := h.word k t hk (Finset.mem_range.mp ht)
    positivity
  have hnum : ∏ t ∈ Finset.range x.T, ∏ i ∈ Finset.range (x.words d t), (s.word k t + (i : ℝ)) ≠ 0 :=
    Finset.prod_ne_zero_iff.mpr fun t ht => Finset.prod_ne_zero_iff.mpr (hin t ht)
  have hu := (urn_pos x.T hT (s.word k) (fun t ht => h.word k t hk ht) (x.words d)).ne'
  rw [Real.log_mul (div_pos ha hA).ne' hu, Real.log_div ha.ne' hA.ne']
  unfold urn
  rw [show (∑ t ∈ Finset.range x.T, x.words d t) = x.len d from rfl, Real.log_div hnum hden, Real.log_prod (hf := fun t ht =>
    Finset.prod_ne_zero_iff.mpr (hin t ht)), Finset.sum_congr rfl (fun t ht => Real.log_prod (hf := hin t ht)), Real.log_prod (hf := fun i _ => by positivity)]
  unfold expectedLls
  rw [e1, e2, e3, e4]
  ring

theorem log_sum_exp (K : Nat) (hK : 0 < K) (l : Nat → ℝ) (m : ℝ) :
    m + Real.log (∑ k ∈ Finset.range K, Real.exp (l k - m)) = Real.log (∑ k ∈ Finset.range K, Real.exp (l k)) := by
  have : ∑ k ∈ Finset.range K, Real.exp (l k - m) = (∑ k ∈ Finset.range K, Real.exp (l k)) * Real.exp (-m) := by
    rw [Finset.sum_mul]
    exact Finset.sum_congr rfl fun k _ => by rw [← Real.exp_add]; congr 1
  rw [this, Real.log_mul (sum_exp_pos K l hK).ne' (Real.exp_pos _).ne', Real.log_exp]
  ring

/-- **C106**: the expected likelihood based on the prior is the sum over the documents of the logarithm of the mixture of urns
(the corpus having more than one document, or none). -/
theorem expected_likelihood (p : EmParams) (hK : 0 < p.K) (x : Data) (hT : 0 < x.T) (hD : x.D ≠ 1) (s : EmState)
    (h : Positive p x.T s) :
    expectedLikelihood p x s false = .ok (∑ d ∈ Finset.range x.D, Real.log (mixture p x.T s (x.words d))) := by
  unfold expectedLikelihood
  rw [if_neg (by simp), if_neg hD]
  congr 1
  refine Finset.sum_congr rfl fun d _ => ?_
  rw [log_sum_exp _ hK]
  unfold mixture
  congr 1
  refine Finset.sum_congr rfl fun k hk => ?_
  have hk := Finset.mem_range.mp hk
  have hA : 0 < ∑ j ∈ Finset.range p.K, s.topic j :=
    Finset.sum_pos (fun j hj => h.topic j (Finset.mem_range.mp hj)) ⟨k, Finset.mem_range.mpr hk⟩
  rw [expectedLls_eq p x s h hT d k hk, Real.exp_log]
  exact mul_pos (div_pos (h.topic k hk) hA) (urn_pos _ hT _ (fun t ht => h.word k t hk ht) _)

theorem urn_step (T : Nat) (hT : 0 < T) (beta : Nat → ℝ) (h : ∀ t, t < T → 0 < beta t) (count : Nat → Nat) :
    ∑ t ∈ Finset.range T, urn T beta (Function.update count t (count t + 1)) = urn T beta count := by
  have hs : 0 < ∑ t ∈ Finset.range T, beta t :=
    Finset.sum_pos (fun t ht => h t (Finset.mem_range.mp ht)) ⟨0, Finset.mem_range.mpr hT⟩
  have hterm : ∀ t ∈ Finset.range T, urn T beta (Function.update count t (count t + 1))
      = urn T beta count * (beta t + count t) / (∑ t ∈ Finset.range T, beta t + (∑ t ∈ Finset.range T, count t : Nat)) := by
    intro t ht
    have hsum : ∑ t' ∈ Finset.range T, Function.update count t (count t + 1) t' = ∑ t' ∈ Finset.range T, count t' + 1 := by
      rw [Finset.sum_update_of_mem ht, ← Finset.sum_erase_add _ _ ht, Finset.sdiff_singleton_eq_erase]
      ring
    have hprod : ∏ t' ∈ Finset.range T, ∏ i ∈ Finset.range (Function.update count t (count t + 1) t'), (beta t' + (i : ℝ))
        = (∏ t' ∈ Finset.range T, ∏ i ∈ Finset.range (count t'), (beta t' + (i : ℝ))) * (beta t + count t) := by
      rw [← Finset.mul_prod_erase _ _ ht, ← Finset.mul_prod_erase _ (fun t' => ∏ i ∈ Finset.range (count t'), (beta t' + (i : ℝ))) ht]
      rw [Function.update_self, Finset.prod_range_succ]
      rw [Finset.prod_congr rfl (fun t' ht' => by
        rw [Function.update_of_ne (Finset.ne_of_mem_erase ht')] :
        ∀ t' ∈ (Finset.range T).erase t, ∏ i ∈ Finset.range (Function.update count t (count t + 1) t'), (beta t' + (i : ℝ))
          = ∏ i ∈ Finset.range (count t'), (beta t' + (i : ℝ)))]
      ring
    unfold urn
    rw [hsum, hprod, Finset.prod_range_succ]
    rw [div_mul_eq_mul_div, div_div]
  rw [Finset.sum_congr rfl hterm, ← Finset.sum_div, ← Finset.mul_sum]
  have e : ∑ t ∈ Finset.range T, (beta t + (count t : ℝ))
      = ∑ t ∈ Finset.range T, beta t + (∑ t ∈ Finset.range T, count t : Nat) := by
    rw [Finset.sum_add_distrib]; push_cast; rfl
  rw [e, mul_div_assoc, div_self (by positivity), mul_one]

/-- **C106**: the mixture is a probability of sequences: the empty document has probability one, and the probability of a
document is the sum of the probabilities of its extensions by one word. -/
theorem mixture_consistent (p : EmParams) (hK : 0 < p.K) (T : Nat) (hT : 0 < T) (s : EmState) (h : Positive p T s)
    (count : Nat → Nat) :
    mixture p T s (fun _ => 0) = 1
      ∧ ∑ t ∈ Finset.range T, mixture p T s (Function.update count t (count t + 1)) = mixture p T s count := by
  have hA : 0 < ∑ j ∈ Finset.range p.K, s.topic j :=
    Finset.sum_pos (fun j hj => h.topic j (Finset.mem_range.mp hj)) ⟨0, Finset.mem_range.mpr hK⟩
  constructor
  · unfold mixture urn
    simp only [Finset.range_zero, Finset.prod_empty, Finset.prod_const_one, Finset.sum_const_zero, div_one, mul_one]
    rw [← Finset.sum_div, div_self hA.ne']
  · unfold mixture
    rw [Finset.sum_comm]
    refine Finset.sum_congr rfl fun k hk => ?_
    rw [← Finset.mul_sum, urn_step T hT (s.word k) (fun t ht => h.word k t (Finset.mem_range.mp hk) ht)]

/-- **C105** is violated: the expected likelihood with given topic assignments always fails. -/
theorem expected_with_query_fails (p : EmParams) (x : Data) (s : EmState) :
    expectedLikelihood p x s true = .error .valueError := rfl

/-- **C105** is violated: so does the one of a single document. -/
theorem expected_single_fails (p : EmParams) (x : Data) (s : EmState) (hD : x.D = 1) :
    expectedLikelihood p x s false = .error .indexError := by
  unfold expectedLikelihood
  rw [if_neg (by simp), if_pos hD]

/-- What remains of **C105**: without assignments and with several documents there is a value. -/
theorem expected_without_query_partial (p : EmParams) (x : Data) (s : EmState) (hD : x.D ≠ 1) :
    ∃ v, expectedLikelihood p x s false = .ok v := by
  unfold expectedLikelihood
  rw [if_neg (by simp), if_neg hD]
  exact ⟨_, rfl⟩

/-! ## Examples -/

/-- Two documents "0 0 1" and "1". -/
def exX : Data := ⟨2, 2, fun d t => if d = 0 then (if t = 0 then 2 else 1) else t⟩

noncomputable def exP : EmParams := ⟨2, fun _ => 3, fun _ => 11 / 10⟩

noncomputable def exS : EmState := ⟨fun _ => 3, fun k t => if k = t then 5 else 1, fun d k => if d = k then 1 else 0⟩

theorem exX_len : ∀ d, d < exX.D → 0 < exX.len d := by
  intro d hd
  have : d = 0 ∨ d = 1 := by change d < 2 at hd; omega
  rcases this with rfl | rfl <;> decide

theorem exS_pos : Positive exP exX.T exS := by
  refine ⟨fun k _ => ?_, fun k t _ _ => ?_⟩
  · show (0 : ℝ) < 3; norm_num
  · show (0 : ℝ) < if k = t then 5 else 1
    split <;> norm_num

example (psi : ℝ → ℝ) : ∃ s', emTrain psi exP exX ⟨10, 0, false⟩ exS = .ok s' ∧ ∀ d, d < exX.D → IsDist exP.K (s'.resp d) :=
  em_trains_partial psi exP (by decide) exX exX_len 9 exS

/-- With hard initial responsibilities and a bounded `psi` the first iteration changes them by more than the tolerance, so the
default plan fails. -/
example : emTrain (fun _ => 0) exP exX ⟨100, 10, false⟩ exS = .error .attributeError := by
  refine (em_logged _ exP exX exX_len _ (by decide) (Or.inl (by decide)) exS).2 ?_
  have e : ∀ d k, eStep (fun _ => 0) exP exX exS d k = 1 / 2 := by
    intro d k
    rw [eStep_eq]
    unfold softmax logJoint
    have hK : exP.K = 2 := rfl
    rw [hK]
    simp
  simp only [e]
  have hD : exX.D = 2 := rfl
  have hK : exP.K = 2 := rfl
  rw [hD, hK]
  simp only [Finset.sum_range_succ, Finset.sum_range_zero, exS]
  norm_num [abs_of_pos, abs_of_neg]

example (psi : ℝ → ℝ) : emQuery psi exP exX 5 exS = emQuery psi exP exX 1 { exS with resp := fun _ _ => 1 / 2 } :=
  em_query_independent psi exP exX 4 0 exS _

example : expectedLikelihood exP exX exS false
    = .ok (∑ d ∈ Finset.range exX.D, Real.log (mixture exP exX.T exS (exX.words d))) :=
  expected_likelihood exP (by decide) exX (by decide) (by decide) exS exS_pos

end Verif.Props.MomEm
