import Mathlib.Algebra.BigOperators.Field
import Mathlib.Algebra.BigOperators.Ring.Finset
import Mathlib.Analysis.SpecialFunctions.Log.Basic
import Mathlib.Data.Fintype.BigOperators
import Mathlib.Tactic.Positivity
import Verif.Lemmas.Dirichlet
import Verif.Props.MomEm

/-!
# Lower bounds of the evidence

General facts about models with Dirichlet priors and discrete latent variables, used for the mixture of multinomials and for LDA.
-/

namespace Verif.Evidence

open Verif.Dirichlet
open Verif.Props.MomEm (urn loggamma_add)
open Verif.Mom (loggamma)

/-- The expectation, under the Dirichlet distribution with the parameters `α`, of the logarithm of the density of the Dirichlet
distribution with the parameters `a` divided by its own density -/
noncomputable def dirTerm (K : Nat) (a α : Nat → ℝ) : ℝ :=
  ∑ k ∈ Finset.range K, (a k - α k) * expLog K α k - logB K a + logB K α

theorem dir_split (K : Nat) (a α n : Nat → ℝ) :
    ∑ k ∈ Finset.range K, n k * expLog K α k + dirTerm K a α
      = ∑ k ∈ Finset.range K, (n k + a k - α k) * expLog K α k - logB K a + logB K α := by
  unfold dirTerm
  have : ∑ k ∈ Finset.range K, (n k + a k - α k) * expLog K α k
      = ∑ k ∈ Finset.range K, n k * expLog K α k + ∑ k ∈ Finset.range K, (a k - α k) * expLog K α k := by
    rw [← Finset.sum_add_distrib]
    exact Finset.sum_congr rfl fun k _ => by ring
  rw [this]
  ring

/-- With expected counts `n`, no parameters are better than the prior plus the counts. -/
theorem dir_gain_le (K : Nat) (hK : 0 < K) (a α n : Nat → ℝ) (hα : ∀ k, k < K → 0 < α k) (hc : ∀ k, k < K → 0 < n k + a k) :
    ∑ k ∈ Finset.range K, n k * expLog K α k + dirTerm K a α ≤ logB K (fun k => n k + a k) - logB K a := by
  rw [dir_split]
  have := dirichlet_kl K hK α (fun k => n k + a k) hα hc
  linarith

/-- The prior plus the counts attains the bound. -/
theorem dir_gain_eq (K : Nat) (a α n : Nat → ℝ) (h : ∀ k, k < K → α k = n k + a k) :
    ∑ k ∈ Finset.range K, n k * expLog K α k + dirTerm K a α = logB K (fun k => n k + a k) - logB K a := by
  rw [dir_split]
  have h0 : ∑ k ∈ Finset.range K, (n k + a k - α k) * expLog K α k = 0 :=
    Finset.sum_eq_zero fun k hk => by rw [h k (Finset.mem_range.mp hk)]; ring
  have h1 : logB K α = logB K (fun k => n k + a k) := by
    unfold logB
    rw [Finset.sum_congr rfl fun k hk => by rw [h k (Finset.mem_range.mp hk)],
      Finset.sum_congr rfl fun k hk => h k (Finset.mem_range.mp hk)]
  rw [h0, h1]
  ring

/-- The probability of a sequence drawn from an urn, by Gamma functions -/
theorem log_urn (T : Nat) (hT : 0 < T) (b : Nat → ℝ) (hb : ∀ t, t < T → 0 < b t) (n : Nat → Nat) :
    Real.log (urn T b n) = logB T (fun t => n t + b t) - logB T b := by
  have hs : 0 < ∑ t ∈ Finset.range T, b t :=
    Finset.sum_pos (fun t ht => hb t (Finset.mem_range.mp ht)) ⟨0, Finset.mem_range.mpr hT⟩
  have hin : ∀ t ∈ Finset.range T, ∀ i ∈ Finset.range (n t), b t + (i : ℝ) ≠ 0 := by
    intro t ht i _
    have := hb t (Finset.mem_range.mp ht)
    positivity
  have hnum : ∏ t ∈ Finset.range T, ∏ i ∈ Finset.range (n t), (b t + (i : ℝ)) ≠ 0 :=
    Finset.prod_ne_zero_iff.mpr fun t ht => Finset.prod_ne_zero_iff.mpr (hin t ht)
  have hden : ∏ i ∈ Finset.range (∑ t ∈ Finset.range T, n t), (∑ t ∈ Finset.range T, b t + (i : ℝ)) ≠ 0 :=
    Finset.prod_ne_zero_iff.mpr fun i _ => by positivity
  unfold urn
  rw [Real.log_div hnum hden, Real.log_prod (hf := fun t ht => Finset.prod_ne_zero_iff.mpr (hin t ht)),
    Finset.sum_congr rfl (fun t ht => Real.log_prod (hf := hin t ht)), Real.log_prod (hf := fun i _ => by positivity)]
  have e1 := loggamma_add _ hs (∑ t ∈ Finset.range T, n t)
  have e2 : ∑ t ∈ Finset.range T, loggamma (n t + b t)
      = ∑ t ∈ Finset.range T, loggamma (b t) + ∑ t ∈ Finset.range T, ∑ i ∈ Finset.range (n t), Real.log (b t + i) := by
    rw [← Finset.sum_add_distrib]
    exact Finset.sum_congr rfl fun t ht => loggamma_add _ (hb t (Finset.mem_range.mp ht)) _
  have e3 : ∑ t ∈ Finset.range T, ((n t : ℝ) + b t) = ((∑ t ∈ Finset.range T, n t : Nat) : ℝ) + ∑ t ∈ Finset.range T, b t := by
    rw [Finset.sum_add_distrib]
    push_cast
    rfl
  unfold loggamma at e1 e2
  unfold logB
  rw [e2, e3, e1]
  ring

/-- The product of independent distributions gives a lower bound for the logarithm of a sum over all assignments. -/
theorem product_bound {ι : Type} [Fintype ι] [DecidableEq ι] (K : Nat) (hK : 0 < K) (l q : ι → Nat → ℝ)
    (hq : ∀ i k, k < K → 0 ≤ q i k) (hs : ∀ i, ∑ k ∈ Finset.range K, q i k = 1) (C : ℝ) (G : (ι → Fin K) → ℝ)
    (hG : ∀ z, C + ∑ i, l i (z i) ≤ G z) :
    C + ∑ i, ∑ k ∈ Finset.range K, q i k * (l i k - Real.log (q i k)) ≤ Real.log (∑ z, Real.exp (G z)) := by
  have h1 : ∑ i, ∑ k ∈ Finset.range K, q i k * (l i k - Real.log (q i k))
      ≤ ∑ i, Real.log (∑ k ∈ Finset.range K, Real.exp (l i k)) :=
    Finset.sum_le_sum fun i _ => entropy_max K hK (l i) (q i) (hq i) (hs i)
  have hpos : ∀ i, 0 < ∑ k ∈ Finset.range K, Real.exp (l i k) := fun i =>
    Finset.sum_pos (fun k _ => Real.exp_pos _) ⟨0, Finset.mem_range.mpr hK⟩
  have h2 : ∑ i, Real.log (∑ k ∈ Finset.range K, Real.exp (l i k)) = Real.log (∑ z : ι → Fin K, Real.exp (∑ i, l i (z i))) := by
    rw [← Real.log_prod (hf := fun i _ => (hpos i).ne')]
    congr 1
    have : ∀ i, ∑ k ∈ Finset.range K, Real.exp (l i k) = ∑ k : Fin K, Real.exp (l i k) := fun i =>
      Finset.sum_range fun k => Real.exp (l i k)
    simp only [this]
    rw [Finset.prod_univ_sum, Fintype.piFinset_univ]
    exact Finset.sum_congr rfl fun z _ => (Real.exp_sum _ _).symm
  have : Nonempty (Fin K) := ⟨⟨0, hK⟩⟩
  have hZ : 0 < ∑ z : ι → Fin K, Real.exp (∑ i, l i (z i)) := Finset.sum_pos (fun z _ => Real.exp_pos _) Finset.univ_nonempty
  have h3 : C + Real.log (∑ z : ι → Fin K, Real.exp (∑ i, l i (z i))) ≤ Real.log (∑ z, Real.exp (G z)) := by
    have : C = Real.log (Real.exp C) := (Real.log_exp C).symm
    rw [this, ← Real.log_mul (Real.exp_pos _).ne' hZ.ne', Finset.mul_sum]
    refine Real.log_le_log (Finset.sum_pos (fun z _ => by positivity) Finset.univ_nonempty) ?_
    refine Finset.sum_le_sum fun z _ => ?_
    rw [← Real.exp_add]
    exact Real.exp_le_exp.mpr (hG z)
  linarith

/-- Summing over things by the class they are in -/
theorem sum_by_class {ι : Type} [Fintype ι] (K : Nat) (z : ι → Fin K) (f : ι → Nat → ℝ) :
    ∑ i, f i (z i) = ∑ k ∈ Finset.range K, ∑ i, if (z i : Nat) = k then f i k else 0 := by
  rw [Finset.sum_comm]
  refine Finset.sum_congr rfl fun i _ => ?_
  rw [Finset.sum_ite_eq, if_pos (Finset.mem_range.mpr (z i).isLt)]

end Verif.Evidence
