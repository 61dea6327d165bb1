import Mathlib.Data.Rat.Defs
import Mathlib.Algebra.BigOperators.Group.List.Basic
import Verif.Model.Py

/-!
# Priors given to the models

How `newModelAtRandom`, `newQueryState` and `train` of the models over words treat the arguments `topicPrior` and `vocabPrior`, which
are documented as "either a scalar or a vector" in all of them and passed on by the scikit-learn wrapper
(sklearn/lda_cvb.py:166-167, 275-279).  Floating point numbers are rational numbers.  NumPy scalars as arguments are left out, and
so are vectors of a wrong length.
-/

namespace Verif.Priors

open Verif

/-- The argument: absent, a Python float, a Python int, or an array (lda_gibbs.py:67-79 and the like) -/
inductive Arg where
  | none
  | float (x : ℚ)
  | int (n : ℤ)
  | vec (xs : List ℚ)

/-- The models: lda_gibbs.py:67, dmr.py:72, lda_cvb0.py:84, lda_cvb.py:85, lda_svb.py:82, lda_vb.py:82, lda_vb_python.py:67,
mom_em.py:64, mom_gibbs.py:56 -/
inductive Kind where
  | gibbs | dmr | cvb0 | cvb | svb | vb | vbPython | momEm | momGibbs
  deriving DecidableEq

/-- The topic prior used when none is given (lda_gibbs.py:91, dmr.py:96, lda_cvb0.py:108, lda_cvb.py:109, lda_svb.py:103,
lda_vb.py:103, lda_vb_python.py:91, mom_em.py:88, mom_gibbs.py:80) -/
def defaultTopic (K : Nat) : Kind → ℚ
  | .gibbs | .dmr | .svb | .vb => 50 / K
  | .cvb0 | .cvb => 50 / K + 1 / 2
  | .vbPython | .momEm | .momGibbs => 5 / K + 1 / 2

/-- The vocabulary prior used when none is given (lda_gibbs.py:95, dmr.py:100, lda_cvb0.py:110, lda_cvb.py:111, lda_svb.py:109,
lda_vb.py:105, lda_vb_python.py:26, 95, mom_em.py:28, 92, mom_gibbs.py:21, 84) -/
def defaultVocab : Kind → ℚ
  | .gibbs | .dmr => 1 / 10
  | .cvb0 | .cvb => 1 / 10 + 1 / 2
  | .svb | .vb | .vbPython | .momEm | .momGibbs => 11 / 10

/-- Whether `newModelAtRandom` turns a float into a vector: `type(topicPrior) == float` (lda_gibbs.py:92, dmr.py:97, lda_svb.py:104,
lda_vb_python.py:92, mom_em.py:89, mom_gibbs.py:81; not at lda_cvb0.py:107-108, lda_cvb.py:108-109, lda_vb.py:102-103) -/
def takesFloat : Kind → Bool
  | .gibbs | .dmr | .svb | .vbPython | .momEm | .momGibbs => true
  | .cvb0 | .cvb | .vb => false

/-- Whether `newModelAtRandom` turns an int into a vector: `type(topicPrior) == int` (lda_gibbs.py:92, dmr.py:97) -/
def takesInt : Kind → Bool
  | .gibbs | .dmr => true
  | _ => false

/-- The exception raised by a topic prior that is still a scalar: the missing attributes `mean` (lda_cvb0.py:219, lda_cvb.py:230) and
`copy` (lda_vb_python.py:129, mom_em.py:108, mom_gibbs.py:120), or `rd.dirichlet` of a number (lda_svb.py:140, lda_vb.py:135) -/
def scalarError : Kind → PyErr
  | .cvb0 | .cvb | .vbPython | .momEm | .momGibbs => .attributeError
  | .gibbs | .dmr | .svb | .vb => .typeError

/-- `topicPrior_.mean()` (lda_cvb0.py:219, lda_cvb.py:230) -/
def mean (xs : List ℚ) : ℚ := xs.sum / xs.length

/-- What a vector of topic priors is replaced by: its mean (lda_cvb0.py:219, 260; lda_cvb.py:230, 275), or nothing -/
def useVec (m : Kind) (xs : List ℚ) : List ℚ :=
  match m with
  | .cvb0 | .cvb => List.replicate xs.length (mean xs)
  | _ => xs

/-- The prior of each topic that the updates of `train` use (lda_gibbs.py:90-93, 185, 203-213; lda_cvb0.py:107-108, 217-219;
lda_cvb.py:108-109, 226-230; lda_svb.py:102-107, 140, 223; lda_vb.py:102-103, 135, 214; lda_vb_python.py:90-93, 129, 407;
mom_em.py:87-90, 108, 243; mom_gibbs.py:79-82, 120, 269).  The regression model makes the vector in the same way, and then takes its
priors from the features. (dmr.py:95-98) -/
def topicUsed (m : Kind) (K : Nat) : Arg → Py (List ℚ)
  | .none => .ok (useVec m (List.replicate K (defaultTopic K m)))
  | .float x => if takesFloat m then .ok (useVec m (List.replicate K x)) else .error (scalarError m)
  | .int n => if takesInt m then .ok (useVec m (List.replicate K (n : ℚ))) else .error (scalarError m)
  | .vec xs => .ok (useVec m xs)

/-- An array where a number is needed: `double vocabPrior` (lda_cvb0_fast.pyx:460, lda_cvb_fast.pyx:522) and `fill` (lda_vb.py:107,
misc.py:29; lda_vb_python.py:402).  NumPy converts arrays of one element only. -/
def asNumber (T : Nat) (xs : List ℚ) (e : PyErr) : Py (List ℚ) :=
  match xs with
  | [x] => .ok (List.replicate T x)
  | _ => .error e

/-- The prior of each word that the updates of `train` use (lda_gibbs.py:94-97, 203-213; dmr.py:99-100, 203; lda_cvb0.py:109-110,
260; lda_cvb.py:110-111, 275; lda_svb.py:108-111, 223; lda_vb.py:104-107, 214; lda_vb_python.py:94-95, 402; mom_em.py:91-96, 249;
mom_gibbs.py:83-84, 207-219, 270) -/
def vocabUsed (m : Kind) (T : Nat) : Arg → Py (List ℚ)
  | .none => .ok (List.replicate T (defaultVocab m))
  | .float x => if m = .dmr then .error .typeError else .ok (List.replicate T x)
  | .int n => if m = .dmr ∨ m = .gibbs then .error .typeError else .ok (List.replicate T (n : ℚ))
  | .vec xs =>
    match m with
    | .gibbs | .dmr | .momEm | .momGibbs => .ok xs
    | .cvb0 | .cvb => asNumber T xs .typeError
    | .svb | .vb | .vbPython => asNumber T xs .valueError

end Verif.Priors
