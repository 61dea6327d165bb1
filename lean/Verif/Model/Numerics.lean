import Mathlib.Analysis.SpecialFunctions.Log.Basic
import Mathlib.Analysis.SpecialFunctions.Trigonometric.Arctan
import Verif.Model.Py

/-!
# Numerical helpers

`util/sigmoid_utils.py`, `util/sig_fast.pyx`, `util/overflow_safe.py`, `util/se_fast.pyx` (the logarithm of
`1 + exp x`), `util/misc.py::converged` and the per-document score of mixture models
(`model/sklearn/lda_cvb.py`).  Floating point numbers are modelled by real numbers, so rounding, overflow and
underflow are not modelled.  A `D × K` matrix is a function of the row and the column.
-/

namespace Verif.Numerics

open Verif

/-! ## Softmax -/

/-- `row.max()` of `K > 0` numbers (also sig_fast.pyx:32-35). -/
noncomputable def rowMax (K : Nat) (r : Nat → ℝ) : ℝ := (List.range K).foldl (fun m k => if m < r k then r k else m) (r 0)

/-- `rowwise_softmax` (sigmoid_utils.py:14-26); the maximum of an empty row raises a `ValueError`.  The
argument `out` only decides where the result is stored. -/
noncomputable def rowwiseSoftmax (K : Nat) (m : Nat → Nat → ℝ) : Py (Nat → Nat → ℝ) :=
  if K = 0 then .error .valueError
  else
    let out := fun d k => Real.exp (m d k - rowMax K (m d))
    .ok (fun d k => out d k / ∑ j ∈ Finset.range K, out d j)

/-- `colwise_softmax` (sigmoid_utils.py:28-40) of a matrix with `D` rows. -/
noncomputable def colwiseSoftmax (D : Nat) (m : Nat → Nat → ℝ) : Py (Nat → Nat → ℝ) :=
  if D = 0 then .error .valueError
  else
    let out := fun d k => Real.exp (m d k - rowMax D (fun i => m i k))
    .ok (fun d k => out d k / ∑ j ∈ Finset.range D, out j k)

/-- `lse` (sigmoid_utils.py:42-54, sparse_elementwise.py:39-49), one row. -/
noncomputable def lse (K : Nat) (r : Nat → ℝ) : ℝ := Real.log (∑ k ∈ Finset.range K, Real.exp (r k))

/-- `selfSoftDot_f8` (sig_fast.pyx:14-46) and `selfSoftDot_f4` (48-81). -/
noncomputable def selfSoftDot (D K : Nat) (m : Nat → Nat → ℝ) : ℝ :=
  ∑ d ∈ Finset.range D, ∑ k ∈ Finset.range K,
    Real.exp (m d k - rowMax K (m d)) * m d k / ∑ j ∈ Finset.range K, Real.exp (m d j - rowMax K (m d))

/-- `scaledSelfSoftDot` (sigmoid_utils.py:78-105) for the two floating point types, that is
`selfSoftDot_f8_i8`, `selfSoftDot_f4_i8`, `selfSoftDot_f8_f8`, `selfSoftDot_f4_f4` (sig_fast.pyx:83-224): `scale`
is not used. -/
noncomputable def scaledSelfSoftDot (D K : Nat) (m : Nat → Nat → ℝ) (_scale : Nat → ℝ) : ℝ :=
  ∑ d ∈ Finset.range D, ∑ k ∈ Finset.range K,
    Real.exp (m d k - rowMax K (m d)) * m d k / ∑ j ∈ Finset.range K, Real.exp (m d j - rowMax K (m d))

/-! ## `log (1 + exp x)` -/

/-- `_safe_log_one_plus_exp_f8` (se_fast.pyx:115-138) -/
noncomputable def safeLog1pExpF8 (x : ℝ) : ℝ :=
  if x ≤ -17 then Real.exp x
  else if x ≤ 17 then Real.log (1 + Real.exp x)
  else if x ≤ 33 then x + Real.exp (-x)
  else x

/-- `_safe_log_one_plus_exp_f4` (se_fast.pyx:82-105); the constant is taken as 13.8 exactly. -/
noncomputable def safeLog1pExpF4 (x : ℝ) : ℝ :=
  if x ≤ -11 then Real.exp x
  else if x ≤ 11 then Real.log (1 + Real.exp x)
  else if x ≤ 13.8 then x + Real.exp (-x)
  else x

/-- `safe_log_one_plus_exp_of` (overflow_safe.py:62-81), one element. -/
noncomputable def safeLog1pExpNp (x : ℝ) : ℝ :=
  if x ≤ -17 then Real.exp x
  else if x ≤ 0 then Real.log (1 + Real.exp x)
  else if x ≤ 33 then x + Real.log (1 + Real.exp (-x))
  else x

/-- `scaledSumOfLnOnePlusExp_f8` (se_fast.pyx:15-42) -/
noncomputable def scaledSumOfLnOnePlusExp (D K : Nat) (w : Nat → ℝ) (m : Nat → Nat → ℝ) : ℝ :=
  ∑ d ∈ Finset.range D, ∑ k ∈ Finset.range K, w d * safeLog1pExpF8 (m d k)

/-! ## Logarithms and determinants near zero -/

/-- `almostZero`, `minPositiveValue` (overflow_safe.py:33, 175, 191): by element type. -/
noncomputable def almostZero (single : Bool) : ℝ := if single then (1 / 10) ^ 35 else (1 / 10) ^ 300

/-- `safe_log` (overflow_safe.py:184-204) into another buffer: one element. -/
noncomputable def safeLogOut (single : Bool) (x : ℝ) : ℝ :=
  if almostZero single ≤ x then Real.log x else Real.log (almostZero single)

/-- `safe_log` (overflow_safe.py:184-204) in place: one element. -/
noncomputable def safeLogInPlace (single : Bool) (x : ℝ) : ℝ :=
  Real.log (if x < almostZero single then almostZero single else x)

/-- `safe_x_log_x` (overflow_safe.py:168-181), one element. -/
noncomputable def safeXLogX (single : Bool) (x : ℝ) : ℝ :=
  x * (if 0 < x then Real.log x else Real.log (almostZero single))

/-- `safeDet` (overflow_safe.py:25-43) as a function of the determinant. -/
noncomputable def safeDet (single : Bool) (det : ℝ) : ℝ :=
  let d := if -almostZero single < det ∧ det < almostZero single then almostZero single else det
  if d ≤ -almostZero single then almostZero single else d

/-! ## Convergence -/

/-- `np.degrees(np.arctan(opposite / adjacent)) < epsilon` on numpy numbers: a division by zero gives an infinity
or, for `0 / 0`, a value that is not less than anything. (misc.py:53-57) -/
noncomputable def angleBelow (opposite adjacent epsilon : ℝ) : Prop :=
  if adjacent = 0 then
    if 0 < opposite then (90 : ℝ) < epsilon
    else if opposite < 0 then (-90 : ℝ) < epsilon
    else False
  else Real.arctan (opposite / adjacent) * (180 / Real.pi) < epsilon

/-- `converged` (misc.py:33-57) -/
noncomputable def converged (boundIters : Nat → Int) (boundValues : Nat → ℝ) (bvIdx : Nat) (epsilon : ℝ)
    (minIters : Int) : Prop :=
  if bvIdx < 2 ∨ boundIters (bvIdx - 1) < minIters then False
  else angleBelow (boundValues (bvIdx - 1) - boundValues (bvIdx - 2))
    ((boundIters (bvIdx - 1) - boundIters (bvIdx - 2) : Int) : ℝ) epsilon

/-! ## Scores of mixture models -/

/-- The weightings handed to `_log_likelihood_score_point`: one vector, or a matrix with a number of rows.
(sklearn/lda_cvb.py:508-511) -/
inductive Weightings
  | vec (θ : Nat → ℝ)
  | mat (rows : Nat) (θ : Nat → Nat → ℝ)

/-- The mixture branch of `_log_likelihood_score_point` (sklearn/lda_cvb.py:541-562) for `D` documents,
`K` components and `T` words, in double precision.  A weighting of one row for several documents gets a third axis
(544), which cannot be added in place. -/
noncomputable def mixtureScore (D K T : Nat) (words : Nat → Nat → ℝ) (w : Weightings) (φ : Nat → Nat → ℝ) :
    Py (Nat → ℝ) :=
  let like := fun d k => ∑ t ∈ Finset.range T, words d t * safeLogOut false (φ k t)
  let finish := fun (ll : Nat → Nat → ℝ) =>
    if K = 0 then .error .valueError
    else .ok (fun d => (∑ k ∈ Finset.range K, Real.exp (ll d k - rowMax K (ll d))) + rowMax K (ll d))
  match w with
  | .vec θ => finish (fun d k => like d k + safeLogOut false (θ k))
  | .mat rows θ =>
    if rows = 1 ∧ 1 < D then .error .valueError
    else if rows = D then finish (fun d k => like d k + safeLogOut false (θ d k))
    else .error .valueError

end Verif.Numerics
