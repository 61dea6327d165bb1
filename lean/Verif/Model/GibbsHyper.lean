import Mathlib.Analysis.SpecialFunctions.Log.Basic
import Mathlib.Algebra.BigOperators.Group.Finset.Basic
import Verif.Model.Py

/-!
# Priors re-estimated while sampling

`inferPolyaHyper` and `inferPolyaHyperSingle` of `model/lda_gibbs_fast.pyx` (the copies in `model/dmr_fast.pyx` are the same and are
never called), and the part of `sample` that calls them when the module's switch `UpdateHyperParameters` is on.  C doubles are real
numbers; `none` stands for NaN.  The local variable `denom` is declared and never initialised (lda_gibbs_fast.pyx:106), so that the
value it starts with is an input.
-/

namespace Verif.GibbsHyper

open Verif

/-- Division of C doubles without Python's check (`cdivision`, lda_gibbs_fast.pyx:85): no number when the divisor is zero.
Infinities do not arise: a positive count over zero needs a used topic with parameter zero. (lda_gibbs_fast.pyx:112-113) -/
noncomputable def cdiv (x y : ℝ) : Option ℝ := open Classical in if y = 0 then none else some (x / y)

/-- Adding up the first `n` values of `f`, starting with `acc`; NaN is contagious. (lda_gibbs_fast.pyx:110-113) -/
def total (f : Nat → Option ℝ) (acc : ℝ) : Nat → Option ℝ
  | 0 => some acc
  | n + 1 => (total f acc n).bind fun s => (f n).bind fun t => some (s + t)

/-- `counts[d,k] / (counts[d,k] - 1 + old[k])` (lda_gibbs_fast.pyx:112, 113) -/
noncomputable def share (n : Nat) (old : ℝ) : Option ℝ := cdiv n ((n : ℝ) - 1 + old)

/-- `inferPolyaHyperSingle` (lda_gibbs_fast.pyx:86-119, dmr_fast.pyx:99-132).  `garbage` is the value of the uninitialised
variable `denom`. -/
noncomputable def single (D K : Nat) (counts : Nat → Nat → Nat) (sums : Nat → Nat) (old : Nat → ℝ) (garbage : ℝ) (k : Nat) :
    Option ℝ :=
  (total (fun d => share (counts d k) (old k)) 0 D).bind fun num =>
    (total (fun d => share (sums d) (∑ j ∈ Finset.range K, old j)) garbage D).bind fun denom =>
      (cdiv (old k * num) denom).bind fun q => some (q + 1 / 100000)

/-- The loop of `inferPolyaHyper` (lda_gibbs_fast.pyx:70-77), with `fuel` iterations left.  A comparison with NaN is false, so that
the loop ends as soon as an entry is not a number. -/
noncomputable def loop (D K : Nat) (counts : Nat → Nat → Nat) (sums : Nat → Nat) (garbage : Nat → ℝ) :
    Nat → (Nat → ℝ) → Nat → Option ℝ
  | 0, soln => fun k => some (soln k)
  | fuel + 1, soln =>
    open Classical in
    if ∀ k < K, (single D K counts sums soln (garbage fuel) k).isSome then
      if 1 / 100 / (K : ℝ) < ∑ k ∈ Finset.range K, |soln k - (single D K counts sums soln (garbage fuel) k).getD 0| then
        loop D K counts sums garbage fuel fun k => (single D K counts sums soln (garbage fuel) k).getD 0
      else fun k => some ((single D K counts sums soln (garbage fuel) k).getD 0)
    else single D K counts sums soln (garbage fuel)

/-- The mean of the counts, `np.mean(counts, axis=0)` (lda_gibbs_fast.pyx:67) -/
noncomputable def mean (D : Nat) (counts : Nat → Nat → Nat) (k : Nat) : ℝ := (∑ d ∈ Finset.range D, (counts d k : ℝ)) / D

/-- `inferPolyaHyper` (lda_gibbs_fast.pyx:52-79, dmr_fast.pyx:65-92); the first guess is the normalised mean. -/
noncomputable def infer (D K : Nat) (counts : Nat → Nat → Nat) (sums : Nat → Nat) (garbage : Nat → ℝ) (k : Nat) : Option ℝ :=
  open Classical in
  if ∑ j ∈ Finset.range K, mean D counts j = 0 then none
  else loop D K counts sums garbage 1000 (fun j => mean D counts j / ∑ i ∈ Finset.range K, mean D counts i) k

/-- What becomes of the vector `a`, the model's `topicPrior`, while `sample` takes samples (lda_gibbs_fast.pyx:256-285): `tables`
are the counts `ndk` when the samples are taken, `taken` the number of samples so far.  The flag `isQuery` is not looked at. -/
noncomputable def priorAfter (update : Bool) (D K : Nat) (docLens : Nat → Nat) (garbage : Nat → Nat → ℝ) :
    List (Nat → Nat → Nat) → Nat → (Nat → Option ℝ) → Nat → Option ℝ
  | [], _, a => a
  | ndk :: rest, taken, a =>
    priorAfter update D K docLens garbage rest (taken + 1)
      (if update = true ∧ (taken + 1) % 10 = 0 then infer D K ndk docLens (garbage taken) else a)

end Verif.GibbsHyper
