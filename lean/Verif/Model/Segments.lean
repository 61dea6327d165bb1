import Mathlib.Algebra.BigOperators.Group.List.Basic
import Verif.Model.Py

/-!
# The segment loop of variational training

`train` of `model/lda_cvb0.py`, `model/lda_cvb.py`, `model/lda_vb.py` and `model/lda_svb.py`: the calls of the compiled
iteration function and the positions at which measurements are taken.  The measured values only matter for stopping early;
they are an arbitrary input (`flat`, `conv`).
-/

namespace Verif.Segments

open Verif

/-- What a training run does: the argument `iterations` of each call of the compiled function, and `boundIters`.
(lda_cvb0.py:230-288, lda_cvb.py:241-305, lda_vb.py:187-240) -/
structure Trace where
  calls : List Int
  bounds : List Int
  deriving DecidableEq, Repr

/-- `logPoints` (lda_cvb0.py:231, lda_cvb.py:242, lda_vb.py:188, lda_svb.py:195) -/
def logPoints (iterations lf : Nat) : Nat := if lf = 0 then 1 else iterations / lf

/-- `remainder` (lda_cvb0.py:255, lda_cvb.py:268, lda_vb.py:208, lda_svb.py:215) -/
def remainder (iterations lf : Nat) : Int := iterations - lf * ((logPoints iterations lf : Int) - 1)

/-- The loop over segments (lda_cvb0.py:256-277, lda_cvb.py:269-292); `minIters` is 50 resp. 30, `flat s` says that the
perplexity fell by less than one since the last measurement.  The flag of the result is `finishedTraining`. -/
def cvbLoop (minIters : Int) (flat : Nat → Bool) (seg : Int) : List Nat → Trace → Trace × Bool
  | [], t => (t, false)
  | s :: ss, t =>
    let t' : Trace := ⟨t.calls ++ [seg], t.bounds ++ [s * seg]⟩
    if 2 < t'.bounds.length ∧ minIters < s * seg ∧ flat s = true then (t', true) else cvbLoop minIters flat seg ss t'

/-- The schedule of `train` (lda_cvb0.py:230-288, lda_cvb.py:241-305).  `range(logPoints - 1)` is empty for `logPoints = 0`.
-/
def cvbTrain (minIters : Int) (flat : Nat → Bool) (iterations lf : Nat) : Trace :=
  let r := cvbLoop minIters flat lf (List.range (logPoints iterations lf - 1)) ⟨[], []⟩
  if r.2 then r.1 else ⟨r.1.calls ++ [remainder iterations lf], r.1.bounds ++ [(iterations : Int) - 1]⟩

/-- lda_cvb0.py:192-307 -/
def cvb0Train := cvbTrain 50

/-- lda_cvb.py:199-334 -/
def cvb2Train := cvbTrain 30

/-! ## Variational Bayes -/

/-- The element types which select the compiled function (lda_vb.py:201-203) -/
inductive DType
  | f32
  | f64
  deriving DecidableEq, Repr

/-- Number of parameters of `compiled.iterate_f32` (lda_vb_fast.pyx:61-64) and of `compiled.iterate_f64`: the module
defines the latter twice, with 11 (lda_vb_fast.pyx:345-348) and with 15 parameters (lda_vb_fast.pyx:456-460); the second
definition replaces the first. -/
def iterateParams : DType → Nat
  | .f32 => 11
  | .f64 => 15

/-- Calling the compiled function with a number of positional arguments. (lda_vb.py:212-215) -/
def call (dt : DType) (args : Nat) : Py Unit := if args = iterateParams dt then .ok () else .error .typeError

/-- `boundIters[i] = v` for an array of the given size (lda_vb.py:219, 239) -/
def store (size i : Nat) : Py Unit := if i < size then .ok () else .error .indexError

/-- The loop over segments (lda_vb.py:210-231, lda_svb.py:217-240); `args` is the number of arguments of the call of the
compiled function, `conv s` the result of `converged`. -/
def vbLoop (dt : DType) (args : Nat) (conv : Nat → Bool) (seg : Int) (size : Nat) : List Nat → Trace → Py (Trace × Bool)
  | [], t => .ok (t, false)
  | s :: ss, t => do
    call dt args
    store size t.bounds.length
    let t' : Trace := ⟨t.calls ++ [seg], t.bounds ++ [s * seg]⟩
    if conv s = true then .ok (t', true) else vbLoop dt args conv seg size ss t'

/-- The schedule of `train` (lda_vb.py:187-246, lda_svb.py:194-255).  `segArgs` and `finalArgs` are the numbers of arguments
given to the compiled function inside the loop and after it. -/
def vbTrainWith (segArgs finalArgs : Nat) (dt : DType) (conv : Nat → Bool) (iterations lf : Nat) : Py Trace := do
  let size := logPoints iterations lf
  let r ← vbLoop dt segArgs conv lf size (List.range (size - 1)) ⟨[], []⟩
  if r.2 then .ok r.1
  else do
    call dt finalArgs
    store size r.1.bounds.length
    .ok ⟨r.1.calls ++ [remainder iterations lf], r.1.bounds ++ [(iterations : Int) - 1]⟩

/-- `lda_vb.train`: 11 arguments in both calls (lda_vb.py:212-215, 234-237). -/
def vbTrain := vbTrainWith 11 11

/-- `lda_svb.train`: 15 arguments inside the loop (lda_svb.py:219-224), 11 after it (lda_svb.py:243-246). -/
def svbTrain := vbTrainWith 15 11

/-- The element type of the buffers expected by the compiled function `lda_vb.query` calls: `query_f64` for either precision
(lda_vb.py:329-340). -/
def queryKernel : DType → DType
  | .f32 => .f64
  | .f64 => .f64

/-- `lda_vb.query` (lda_vb.py:304-343): handing buffers of another element type to a compiled function raises a
`ValueError`; the number of successful calls is the result.  The topics themselves are modelled in `Verif.Model.Vb`. -/
def vbQuery (dt : DType) (iterations : Nat) : Py Nat :=
  if iterations = 0 then .ok 0 else if queryKernel dt = dt then .ok iterations else .error .valueError

/-- The number of iterations a trace performs: a call with a negative number performs none.
(lda_cvb0_fast.pyx:421, 505: `for itr in range(iterations)`) -/
def performed (t : Trace) : Nat := (t.calls.map Int.toNat).sum

end Verif.Segments
