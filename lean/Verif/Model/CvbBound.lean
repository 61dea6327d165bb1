import Verif.Model.Cvb
import Verif.Model.Mom
import Verif.Model.WordList

/-!
# The bound of the collapsed models

`log_likelihood_expected` of `model/lda_cvb0.py` and `var_bound` of `model/lda_cvb.py`, which are the same function, with `jagged_entropy_f32` and
`jagged_entropy_f64`.  A value that is not a number is `none`.
-/

namespace Verif.CvbBound

open Verif Verif.Cvb
open Verif.Mom (loggamma)

/-- `jagged_entropy_f64` (lda_cvb0_fast.pyx:594-642, lda_cvb_fast.pyx:659-707): a zero gives zero times minus infinity. -/
noncomputable def jaggedEntropy (c : Corpus) (K : Nat) (z : Nat → Nat → Nat → ℚ) : Option ℝ :=
  open Classical in
  if ∀ d < c.lens.length, ∀ n < c.len d, ∀ k < K, 0 < z d n k then
    some (∑ d ∈ Finset.range c.lens.length, ∑ n ∈ Finset.range (c.len d), ∑ k ∈ Finset.range K, -((z d n k : ℝ) * Real.log (z d n k)))
  else none

/-- The part that approximates the expected logarithm of the joint probability (lda_cvb0.py:422-429, lda_cvb.py:453-460): `n` are the counts
`queryState.n_dk`, `modelState.n_kt` and `queryState.n_k`. -/
noncomputable def expected (p : Params) (c : Corpus) (n : Sums) : ℝ :=
  c.lens.length * (loggamma (∑ k ∈ Finset.range p.K, (p.a k : ℝ)) - ∑ k ∈ Finset.range p.K, loggamma (p.a k))
    + p.K * (loggamma (p.T * p.b) - p.T * loggamma p.b)
    - ∑ d ∈ Finset.range c.lens.length, loggamma (∑ k ∈ Finset.range p.K, (p.a k : ℝ) + c.len d)
    + ∑ d ∈ Finset.range c.lens.length, ∑ k ∈ Finset.range p.K, loggamma (p.a k + n.dk d k)
    - ∑ k ∈ Finset.range p.K, loggamma (p.T * p.b + n.k k)
    + ∑ k ∈ Finset.range p.K, ∑ t ∈ Finset.range p.T, loggamma (p.b + n.kt k t)

/-- The word lists of the corpus as `newQueryState` keeps them (lda_cvb0.py:136-139, lda_cvb.py:141-144) -/
def corpusOf (rows : List (List Nat)) (lens : List Int) : Corpus := ⟨lens.map Int.toNat, fun d n => (rows.getD d []).getD n 0⟩

/-- `log_likelihood_expected` (lda_cvb0.py:395-442), `var_bound` (lda_cvb.py:426-475): `known` says that the element type is float32 or float64. -/
noncomputable def varBound (known : Bool) (p : Params) (c : Corpus) (s : State) : Py (Option ℝ) :=
  if known then .ok ((jaggedEntropy c p.K s.z).map fun h => expected p c s.n - h) else .error .valueError

end Verif.CvbBound
