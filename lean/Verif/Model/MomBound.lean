import Verif.Model.Mom

/-!
# The bound that the mixture sampler reports

`var_bound` of `model/mom_gibbs.py`, in double precision, over the real numbers.
-/

namespace Verif.MomBound

open Verif Verif.Mom

/-- `W.dot(safe_log(wordDists).T)` (mom_gibbs.py:355) -/
noncomputable def like (x : Data) (word : Nat → Nat → ℝ) (d k : Nat) : ℝ :=
  ∑ t ∈ Finset.range x.T, (x.words d t : ℝ) * Numerics.safeLogOut false (word k t)

/-- `var_bound` (mom_gibbs.py:337-361): the logarithms of the words are multiplied by those of the memberships (356), the entropy is added (359-361).
The `wordDists` and `topicDists` are those of the states (343-346). -/
noncomputable def varBound (K : Nat) (x : Data) (word mem : Nat → Nat → ℝ) : ℝ :=
  ∑ d ∈ Finset.range x.D, ∑ k ∈ Finset.range K, like x word d k * Numerics.safeLogOut false (mem d k)
    + ∑ d ∈ Finset.range x.D, ∑ k ∈ Finset.range K, -mem d k * Numerics.safeLogOut false (mem d k)

end Verif.MomBound
