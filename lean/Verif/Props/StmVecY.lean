import Mathlib.Algebra.BigOperators.Field
import Mathlib.Tactic.FieldSimp
import Mathlib.Tactic.Linarith
import Verif.Model.StmVecY
import Verif.Lemmas.Dirichlet

/-!
# The topic model with vectorised latent features, and Newton's method for Dirichlet parameters
-/

namespace Verif.Props.StmVecY

open Verif
open Verif.StmVecY
open Verif.Dirichlet

/-! ## Training -/

/-- `unvec` never succeeds. -/
theorem unvec_fails (n rows : Nat) : ∃ e, unvec n rows = .error e := by
  unfold unvec trueDiv
  split_ifs
  · exact ⟨_, rfl⟩
  · exact ⟨_, rfl⟩

/-- C196: `train` ends in an exception, whatever the data, the model, the plan and the results of the numerical routines. -/
theorem train_fails (P Q : Nat) (setup : Py Unit) (steps : Nat → Py Unit × Py Unit) (iterations : Nat) :
    ∃ e, train P Q setup steps iterations = .error e := by
  unfold train
  cases setup with
  | error e => exact ⟨e, rfl⟩
  | ok u =>
    cases iterations with
    | zero => exact ⟨_, rfl⟩
    | succ n =>
      rw [List.range_succ_eq_map, List.foldlM_cons]
      have : ∃ e, iteration P Q (steps 0).1 (steps 0).2 = .error e := by
        unfold iteration
        cases (steps 0).1 with
        | error e => exact ⟨e, rfl⟩
        | ok u =>
          obtain ⟨e, he⟩ := unvec_fails (P * Q) P
          exact ⟨e, by rw [he]; rfl⟩
      obtain ⟨e, he⟩ := this
      refine ⟨e, ?_⟩
      simp only [bind, Except.bind, he]

/-- C196: with solvable systems it is a TypeError. -/
theorem train_typeError (P Q : Nat) (hP : 0 < P) (steps : Nat → Py Unit × Py Unit) (hs : (steps 0).1 = .ok ()) (iterations : Nat) :
    train P Q (.ok ()) steps iterations = .error .typeError := by
  unfold train
  cases iterations with
  | zero => rfl
  | succ n =>
    rw [List.range_succ_eq_map, List.foldlM_cons]
    have : iteration P Q (steps 0).1 (steps 0).2 = .error .typeError := by
      unfold iteration unvec trueDiv
      rw [hs, if_neg (by omega)]
      rfl
    simp only [bind, Except.bind, this]

/-- C196: neither can a state be queried, nor its topics be read. -/
theorem query_fails {α β γ : Type} (body : Py α) (state : String → β) (rest : β → γ) :
    query body = .error .attributeError ∧ topicDists state rest = .error .attributeError := ⟨rfl, rfl⟩

/-! ## Newton's method -/

/-- The log likelihood of the Dirichlet parameter `a` for `N` samples; `p k` is the sum of the logarithms of their `k`-th elements -/
noncomputable def loglik (K : Nat) (N : ℝ) (p a : Nat → ℝ) : ℝ :=
  -N * logB K a + ∑ k ∈ Finset.range K, (a k - 1) * p k

/-- The derivative of the log likelihood in direction `k` -/
noncomputable def gradient (psi : ℝ → ℝ) (K : Nat) (N : ℝ) (p a : Nat → ℝ) (k : Nat) : ℝ :=
  p k - N * (psi (a k) - psi (∑ j ∈ Finset.range K, a j))

/-- The second derivatives of the log likelihood -/
noncomputable def hessian (psi1 : ℝ → ℝ) (K : Nat) (N : ℝ) (a : Nat → ℝ) (k j : Nat) : ℝ :=
  N * psi1 (∑ i ∈ Finset.range K, a i) - if k = j then N * psi1 (a k) else 0

/-- The second derivatives at `a` make up an invertible matrix. -/
structure Regular (psi1 : ℝ → ℝ) (K : Nat) (N : ℝ) (a : Nat → ℝ) : Prop where
  samples : N ≠ 0
  total : psi1 (∑ j ∈ Finset.range K, a j) ≠ 0
  each : ∀ k, k < K → psi1 (a k) ≠ 0
  det : 1 / psi1 (∑ j ∈ Finset.range K, a j) ≠ ∑ k ∈ Finset.range K, 1 / psi1 (a k)

/-- C197: a round is a step of Newton's method: the second derivatives applied to the step give the gradient. -/
theorem newton_exact (psi psi1 : ℝ → ℝ) (K : Nat) (N : ℝ) (p a : Nat → ℝ) (h : Regular psi1 K N a) (k : Nat) (hk : k < K) :
    ∑ j ∈ Finset.range K, hessian psi1 K N a k j * (a j - newton psi psi1 K N p a j) = gradient psi K N p a k := by
  obtain ⟨hN, ht, he, hd⟩ := h
  unfold newton hessian gradient
  dsimp only
  generalize hS : ∑ j ∈ Finset.range K, a j = S at *
  obtain ⟨g, hg⟩ : ∃ g : Nat → ℝ, g = fun i => -N * psi (a i) + N * psi S + p i := ⟨_, rfl⟩
  obtain ⟨q, hq⟩ : ∃ q : Nat → ℝ, q = fun i => 1 / (-N * psi1 (a i)) := ⟨_, rfl⟩
  have hgi : ∀ i, -N * psi (a i) + N * psi S + p i = g i := fun i => by rw [hg]
  have hqi : ∀ i, 1 / (-N * psi1 (a i)) = q i := fun i => by rw [hq]
  simp only [hgi, hqi]
  generalize hB : (∑ i ∈ Finset.range K, g i * q i) / (1 / (N * psi1 S) + ∑ i ∈ Finset.range K, q i) = b
  have hden : 1 / (N * psi1 S) + ∑ i ∈ Finset.range K, q i ≠ 0 := by
    have h1 : ∑ i ∈ Finset.range K, q i = -(1 / N) * ∑ i ∈ Finset.range K, 1 / psi1 (a i) := by
      rw [Finset.mul_sum]
      refine Finset.sum_congr rfl fun i hi => ?_
      have := he i (Finset.mem_range.1 hi)
      rw [hq]
      field_simp
    rw [h1]
    intro h0
    apply hd
    have h2 : 1 / (N * psi1 S) = (1 / N) * (1 / psi1 S) := by field_simp
    rw [h2] at h0
    have h3 : (1 / N) * (1 / psi1 S - ∑ k ∈ Finset.range K, 1 / psi1 (a k)) = 0 := by linarith
    rcases mul_eq_zero.1 h3 with h4 | h4
    · exact absurd h4 (one_div_ne_zero hN)
    · linarith
  have hb : b * (1 / (N * psi1 S) + ∑ i ∈ Finset.range K, q i) = ∑ i ∈ Finset.range K, g i * q i := by
    rw [← hB]
    exact div_mul_cancel₀ _ hden
  have hsplit : ∑ j ∈ Finset.range K, (N * psi1 S - if k = j then N * psi1 (a k) else 0) * (a j - (a j - (g j - b) * q j))
      = N * psi1 S * (∑ j ∈ Finset.range K, g j * q j - b * ∑ j ∈ Finset.range K, q j) - N * psi1 (a k) * ((g k - b) * q k) := by
    have h1 : ∀ j, (N * psi1 S - if k = j then N * psi1 (a k) else 0) * (a j - (a j - (g j - b) * q j))
        = N * psi1 S * (g j * q j) - N * psi1 S * b * q j - (if k = j then N * psi1 (a k) * ((g j - b) * q j) else 0) := by
      intro j
      split_ifs <;> ring
    rw [Finset.sum_congr rfl (fun j _ => h1 j), Finset.sum_sub_distrib, Finset.sum_sub_distrib, Finset.sum_ite_eq,
      if_pos (Finset.mem_range.2 hk), ← Finset.mul_sum, ← Finset.mul_sum]
    ring
  rw [hsplit, ← hb]
  have hqk : N * psi1 (a k) * q k = -1 := by
    have := he k hk
    rw [hq]
    field_simp
  have h5 : N * psi1 (a k) * ((g k - b) * q k) = -(g k - b) := by
    have : N * psi1 (a k) * ((g k - b) * q k) = (g k - b) * (N * psi1 (a k) * q k) := by ring
    rw [this, hqk]
    ring
  rw [h5]
  have h6 : N * psi1 S * (b * (1 / (N * psi1 S) + ∑ i ∈ Finset.range K, q i) - b * ∑ j ∈ Finset.range K, q j) = b := by
    field_simp
    ring
  rw [h6, ← hgi k]
  ring

/-- C197: a round leaves the parameter as it is exactly when the gradient vanishes. -/
theorem newton_fixed_iff (psi psi1 : ℝ → ℝ) (K : Nat) (N : ℝ) (p a : Nat → ℝ) (h : Regular psi1 K N a) :
    (∀ k, k < K → newton psi psi1 K N p a k = a k) ↔ ∀ k, k < K → gradient psi K N p a k = 0 := by
  constructor
  · intro hf k hk
    rw [← newton_exact psi psi1 K N p a h k hk]
    refine Finset.sum_eq_zero fun j hj => ?_
    rw [hf j (Finset.mem_range.1 hj)]
    ring
  · intro hg k hk
    have hz : ∀ i, i < K → -N * psi (a i) + N * psi (∑ j ∈ Finset.range K, a j) + p i = 0 := by
      intro i hi
      have := hg i hi
      unfold gradient at this
      linarith
    unfold newton
    dsimp only
    rw [hz k hk, Finset.sum_eq_zero (s := Finset.range K) fun i hi => by rw [hz i (Finset.mem_range.1 hi), zero_mul]]
    ring

/-- C197: with the true digamma function, a parameter which a round leaves as it is maximises the likelihood. -/
theorem newton_fixed_best (psi1 : ℝ → ℝ) (K : Nat) (hK : 0 < K) (N : ℝ) (hN : 0 < N) (p a : Nat → ℝ) (h : Regular psi1 K N a)
    (ha : ∀ k, k < K → 0 < a k) (hf : ∀ k, k < K → newton digamma psi1 K N p a k = a k)
    (c : Nat → ℝ) (hc : ∀ k, k < K → 0 < c k) : loglik K N p c ≤ loglik K N p a := by
  have hg := (newton_fixed_iff digamma psi1 K N p a h).1 hf
  have hp : ∀ k, k < K → p k = N * expLog K a k := by
    intro k hk
    have := hg k hk
    unfold gradient at this
    unfold expLog
    linarith
  have hkl := dirichlet_kl K hK a c ha hc
  unfold loglik
  have h1 : ∀ b : Nat → ℝ, ∑ k ∈ Finset.range K, (b k - 1) * p k = N * ∑ k ∈ Finset.range K, (b k - 1) * expLog K a k := by
    intro b
    rw [Finset.mul_sum]
    refine Finset.sum_congr rfl fun k hk => ?_
    rw [hp k (Finset.mem_range.1 hk)]
    ring
  rw [h1 c, h1 a]
  have h2 : ∑ k ∈ Finset.range K, (c k - a k) * expLog K a k
      = ∑ k ∈ Finset.range K, (c k - 1) * expLog K a k - ∑ k ∈ Finset.range K, (a k - 1) * expLog K a k := by
    rw [← Finset.sum_sub_distrib]
    exact Finset.sum_congr rfl fun k _ => by ring
  rw [h2] at hkl
  have h3 := mul_le_mul_of_nonneg_left hkl hN.le
  linarith

/-- C197: once a parameter with vanishing gradient is reached, all sixty rounds keep it. -/
theorem estimate_fixed (psi psi1 : ℝ → ℝ) (K : Nat) (N : ℝ) (p a : Nat → ℝ) (hg : ∀ k, newton psi psi1 K N p a k = a k) :
    estimate psi psi1 K N p a = a :=
  Function.iterate_fixed (funext hg) 60

/-- C197: `gradient` is the derivative of the log likelihood. -/
theorem gradient_deriv (K : Nat) (N : ℝ) (p a : Nat → ℝ) (ha : ∀ k, k < K → 0 < a k) (k : Nat) (hk : k < K) :
    HasDerivAt (fun t => loglik K N p (Function.update a k t)) (gradient digamma K N p a k) (a k) := by
  have hpos : 0 < ∑ j ∈ Finset.range K, a j :=
    Finset.sum_pos (fun j hj => ha j (Finset.mem_range.1 hj)) ⟨k, Finset.mem_range.2 hk⟩
  have hrest : ∀ f : Nat → ℝ → ℝ, ∀ t, ∑ j ∈ Finset.range K, f j (Function.update a k t j)
      = f k t + ∑ j ∈ (Finset.range K).erase k, f j (a j) := by
    intro f t
    rw [← Finset.add_sum_erase _ _ (Finset.mem_range.2 hk), Function.update_self]
    congr 1
    refine Finset.sum_congr rfl fun j hj => ?_
    rw [Function.update_of_ne (Finset.ne_of_mem_erase hj)]
  have hfun : (fun t => loglik K N p (Function.update a k t)) = fun t =>
      -N * ((Real.log (Real.Gamma t) + ∑ j ∈ (Finset.range K).erase k, Real.log (Real.Gamma (a j)))
        - Real.log (Real.Gamma (t + ∑ j ∈ (Finset.range K).erase k, a j)))
      + ((t - 1) * p k + ∑ j ∈ (Finset.range K).erase k, (a j - 1) * p j) := by
    funext t
    unfold loglik logB
    rw [hrest (fun _ y => Real.log (Real.Gamma y)) t, hrest (fun _ y => y) t, hrest (fun j y => (y - 1) * p j) t]
  have htot : a k + ∑ j ∈ (Finset.range K).erase k, a j = ∑ j ∈ Finset.range K, a j :=
    Finset.add_sum_erase _ _ (Finset.mem_range.2 hk)
  rw [hfun]
  have h1 := hasDerivAt_logGamma (a k) (ha k hk)
  have h2 : HasDerivAt (fun t => Real.log (Real.Gamma (t + ∑ j ∈ (Finset.range K).erase k, a j)))
      (digamma (∑ j ∈ Finset.range K, a j)) (a k) := by
    have h3 := hasDerivAt_logGamma (∑ j ∈ Finset.range K, a j) hpos
    rw [← htot] at h3 ⊢
    exact h3.comp_add_const (a k) _
  have h4 : HasDerivAt (fun t : ℝ => (t - 1) * p k + ∑ j ∈ (Finset.range K).erase k, (a j - 1) * p j) (p k) (a k) := by
    have := (((hasDerivAt_id (a k)).sub_const 1).mul_const (p k)).add_const (∑ j ∈ (Finset.range K).erase k, (a j - 1) * p j)
    simpa using this
  have h5 := (((h1.add_const (∑ j ∈ (Finset.range K).erase k, Real.log (Real.Gamma (a j)))).sub h2).const_mul (-N)).add h4
  refine h5.congr_deriv ?_
  unfold gradient
  ring

/-! ## Examples -/

example : train 3 4 (.ok ()) (fun _ => (.ok (), .ok ())) 100 = .error .typeError := train_typeError 3 4 (by decide) _ rfl 100

example : train 3 4 (.ok ()) (fun _ => (.ok (), .ok ())) 0 = .error .typeError := train_typeError 3 4 (by decide) _ rfl 0

theorem exRegular : Regular (fun x => 1 / x ^ 2) 2 5 (fun _ => 1) := by
  refine ⟨by norm_num, by norm_num, by norm_num, ?_⟩
  simp
  norm_num

example (psi : ℝ → ℝ) (p : Nat → ℝ) : ∑ j ∈ Finset.range 2, hessian (fun x => 1 / x ^ 2) 2 5 (fun _ => 1) 0 j
    * (1 - newton psi (fun x => 1 / x ^ 2) 2 5 p (fun _ => 1) j) = gradient psi 2 5 p (fun _ => 1) 0 :=
  newton_exact psi _ 2 5 p (fun _ => 1) exRegular 0 (by decide)

/-- Samples whose mean logarithms are those expected under the parameter (1, 1) -/
example (c : Nat → ℝ) (hc : ∀ k, k < 2 → 0 < c k) :
    loglik 2 5 (fun k => 5 * expLog 2 (fun _ => 1) k) c ≤ loglik 2 5 (fun k => 5 * expLog 2 (fun _ => 1) k) (fun _ => 1) := by
  refine newton_fixed_best (fun x => 1 / x ^ 2) 2 two_pos 5 (by norm_num) _ _ exRegular (fun _ _ => one_pos) ?_ c hc
  refine (newton_fixed_iff digamma _ 2 5 _ _ exRegular).2 fun k _ => ?_
  unfold gradient expLog
  ring

end Verif.Props.StmVecY
