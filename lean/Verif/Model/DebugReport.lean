import Verif.Model.Py
import Mathlib.Data.Rat.Floor

/-!
# The report of the bound while debugging

The functions `_debug_with_bound`, which print the bound after every update, and the variables in which they keep the bound of
the call before.  The bounds themselves are the input.  A bound that is not a number, the perplexity, the determinant and the
format of the line are left out.
-/

namespace Verif.DebugReport

/-- The modules with such a function -/
inductive Module
  | ctm | ctmBohning | mtm2 | mtm3 | stmUvVec | stmYv | stmYvBohning | stmUvVecy
  deriving DecidableEq

/-- One line of the report: whether it goes to the error stream, and the difference it shows, if any (ctm.py:590-597;
ctm_bohning.py:470-485; mtm2.py:613-630; mtm3.py:799-816; stm_uv_vec_y_bohning.py:643-655; stm_yv.py:518-524;
stm_yv_bohning.py:528-534; stm_uv_vecy_bohning.py:537-543) -/
structure Line where
  err : Bool
  shown : Option ℚ
  deriving DecidableEq

/-- Python's `int` of a float: the part after the point is cut off (stm_yv.py:521) -/
def trunc (x : ℚ) : Int := if 0 ≤ x then ⌊x⌋ else ⌈x⌉

/-- `_debug_with_bound` with the bound of the call before, `old` (ctm.py:590-597) -/
def ctmLine (old bound : ℚ) : Line :=
  let dif := if old = 0 then 0 else old - bound
  ⟨decide (0 < dif), some dif⟩

/-- `_debug_with_bound` with the bound of the call before, `old` (ctm_bohning.py:468-485; mtm2.py:611-630; mtm3.py:797-816;
stm_uv_vec_y_bohning.py:638-655; stm_yv.py:514-524; stm_yv_bohning.py:525-534; stm_uv_vecy_bohning.py:534-543) -/
def truncLine (old bound : ℚ) : Line :=
  ⟨decide (trunc (bound - old) < 0), if old = 0 then none else some (bound - old)⟩

/-- the line that the function of a module prints (as above) -/
def line : Module → ℚ → ℚ → Line
  | .ctm => ctmLine
  | _ => truncLine

/-- Whether `train` and `query` set the variable to 0 at the start (stm_yv.py:199, 356; stm_yv_bohning.py:197, 376;
stm_uv_vecy_bohning.py:199, 385); the other modules set it only when they are imported (ctm.py:572; ctm_bohning.py:459;
mtm2.py:599; mtm3.py:785; stm_uv_vec_y_bohning.py:630). -/
def resets : Module → Bool
  | .stmYv | .stmYvBohning | .stmUvVecy => true
  | _ => false

/-- The calls of one training or query, with their bounds in order: the lines and the variable afterwards (ctm.py:598;
ctm_bohning.py:471; mtm2.py:614; mtm3.py:800; stm_uv_vec_y_bohning.py:644; stm_yv.py:519; stm_yv_bohning.py:529;
stm_uv_vecy_bohning.py:538) -/
def calls (m : Module) : ℚ → List ℚ → List Line × ℚ
  | old, [] => ([], old)
  | old, b :: bs => (line m old b :: (calls m b bs).1, (calls m b bs).2)

/-- One training or query from the value of the variable (stm_yv.py:199; ctm.py:572) -/
def run (m : Module) (old : ℚ) (bounds : List ℚ) : List Line × ℚ := calls m (if resets m then 0 else old) bounds

/-- Trainings and queries one after the other: the lines of each of them (ctm.py:572-598; misc.py:17-21) -/
def session (m : Module) : ℚ → List (List ℚ) → List (List Line)
  | _, [] => []
  | old, bs :: rest => (run m old bs).1 :: session m (run m old bs).2 rest

end Verif.DebugReport
