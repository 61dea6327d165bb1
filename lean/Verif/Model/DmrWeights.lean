import Mathlib.Analysis.SpecialFunctions.Gamma.Basic
import Mathlib.Analysis.SpecialFunctions.Log.Basic
import Mathlib.Algebra.BigOperators.Ring.Finset

/-!
# Fitting the weights of Dirichlet-multinomial regression

`updateWeights`, `total_objective`, `objective` and `gradient` of `model/dmr.py`.  Floats are real numbers, `n d k s` is how often
document `d` has topic `k` in sample `s` of `sample_count` samples, the digamma function of scipy is a parameter `psi`, and scipy's
minimiser is an arbitrary function.  The buffers `alpha` and `scale` are overwritten by every batch before they are read, and are not
modelled.
-/

namespace Verif.DmrWeights

open Finset

/-- What the objective and the gradient of topic `k` are given: `D` documents with `F` features `X`, the weights `W` of all `K` topics,
the samples, the variance `sigma` of the weights and the size of a batch (dmr.py:46, 259-261, 285-286) -/
structure Problem where
  D : Nat
  K : Nat
  F : Nat
  X : Nat → Nat → ℝ
  samples : Nat
  n : Nat → Nat → Nat → Nat
  sigma : ℝ
  batch : Nat

/-- `fns.gammaln` (dmr.py:270-273) -/
noncomputable def gammaln (x : ℝ) : ℝ := Real.log (Real.Gamma x)

/-- `alpha`: the exponential of `X.dot(W.T)`, in which the column of topic `k` is `X.dot(weights)` (dmr.py:266-268, 293-295) -/
noncomputable def priors (p : Problem) (W : Nat → Nat → ℝ) (k : Nat) (w : Nat → ℝ) (d j : Nat) : ℝ :=
  Real.exp (if j = k then ∑ f ∈ range p.F, p.X d f * w f else ∑ f ∈ range p.F, p.X d f * W j f)

/-- `range(0, D, BatchSize)` with `max_d` (dmr.py:260-262, 289-291) -/
def batches (p : Problem) : List (Nat × Nat) :=
  (List.range ((p.D + p.batch - 1) / p.batch)).map fun i => (i * p.batch, min p.D (i * p.batch + p.batch))

/-- `batch_result` (dmr.py:264-273) -/
noncomputable def batchObjective (p : Problem) (W : Nat → Nat → ℝ) (k : Nat) (w : Nat → ℝ) (lo hi : Nat) : ℝ :=
  let α := priors p W k w
  (∑ i ∈ range (hi - lo), gammaln (∑ j ∈ range p.K, α (lo + i) j))
    - (∑ i ∈ range (hi - lo), ∑ s ∈ range p.samples, gammaln (∑ j ∈ range p.K, α (lo + i) j + ∑ j ∈ range p.K, (p.n (lo + i) j s : ℝ))) / p.samples
    + (∑ i ∈ range (hi - lo), ∑ s ∈ range p.samples, gammaln (α (lo + i) k + p.n (lo + i) k s)) / p.samples
    - ∑ i ∈ range (hi - lo), gammaln (α (lo + i) k)

/-- `objective` (dmr.py:255-281) -/
noncomputable def objective (p : Problem) (W : Nat → Nat → ℝ) (k : Nat) (w : Nat → ℝ) : ℝ :=
  let result := (batches p).foldl (fun r b => r + batchObjective p W k w b.1 b.2) 0
  let result := result - 0.5 * Real.log (2 * Real.pi * p.sigma)
  let result := result - 0.5 / p.sigma * ∑ f ∈ range p.F, w f * w f
  let result := -result
  result

/-- `batch_result` (dmr.py:293-306) -/
noncomputable def batchGradient (psi : ℝ → ℝ) (p : Problem) (W : Nat → Nat → ℝ) (k : Nat) (w : Nat → ℝ) (lo hi : Nat) (f : Nat) : ℝ :=
  let α := priors p W k w
  let scale : Nat → ℝ := fun i =>
    psi (∑ j ∈ range p.K, α (lo + i) j)
      - (∑ s ∈ range p.samples, psi (∑ j ∈ range p.K, α (lo + i) j + ∑ j ∈ range p.K, (p.n (lo + i) j s : ℝ))) / p.samples
      + (∑ s ∈ range p.samples, psi (α (lo + i) k + p.n (lo + i) k s)) / p.samples
      - psi (α (lo + i) k)
  ∑ i ∈ range (hi - lo), scale i * (α (lo + i) k * p.X (lo + i) f)

/-- `gradient` (dmr.py:284-312) -/
noncomputable def gradient (psi : ℝ → ℝ) (p : Problem) (W : Nat → Nat → ℝ) (k : Nat) (w : Nat → ℝ) (f : Nat) : ℝ :=
  let result := (batches p).foldl (fun r b => r + batchGradient psi p W k w b.1 b.2 f) 0
  let result := result - w f / p.sigma
  let result := -result
  result

/-- `total_objective` (dmr.py:248-252) -/
noncomputable def totalObjective (p : Problem) (W : Nat → Nat → ℝ) : ℝ :=
  (List.range p.K).foldl (fun r k => r + objective p W k (W k)) 0

/-- `updateWeights` (dmr.py:232-246): `opt W k start` is the result of `optim.minimize` for the objective of topic `k` in the weights `W`,
`none` if it contains NaN or infinite values. -/
def updateWeights (K : Nat) (opt : (Nat → Nat → ℝ) → Nat → (Nat → ℝ) → Option (Nat → ℝ)) (old : Nat → Nat → ℝ) : Nat → Nat → ℝ :=
  (List.range K).foldl (fun new k =>
    match opt old k (new k) with
    | none => new
    | some x => Function.update new k x) old

/-- `Sigma` (dmr.py:46) -/
noncomputable def moduleSigma : ℝ := 1 / 100

/-- `BatchSize` (dmr.py:254) -/
def moduleBatch : Nat := 5000

end Verif.DmrWeights
