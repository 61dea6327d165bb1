import Verif.Model.Numerics

/-!
# When the training loops stop early

After every measurement the training loops decide from the measurements so far whether to stop.  Modelled: the decision of
every loop, as a function of the tolerance of the plan (`epsilon`) and the measurements, oldest first.  Not here: how the
measurements come about, and the stop of `mom_em` on a small change of its topics (mom_em.py:233-235), which reads a constant
and not the plan.
-/

namespace Verif.Stopping

open Verif.Numerics

/-- The training loops: `ctm` (ctm.py), `ctmBohning` (ctm_bohning.py), `ctmBohningFast` (ctm_bohning_fast.py), `ctmGradArb`
(ctm_grad_arb.py), `stmYv` (stm_yv.py), `stmYvBohning` (stm_yv_bohning.py), `stmFakeOnline` (stm_yv_bohning_fake_online.py),
`stmUvVecy` (stm_uv_vecy_bohning.py), `stmUvVecY` (stm_uv_vec_y_bohning.py), `ldaCvb` (lda_cvb.py), `ldaCvb0` (lda_cvb0.py),
`ldaVb` (lda_vb.py), `ldaSvb` (lda_svb.py), `ldaVbPython` (lda_vb_python.py), `rtm` (rtm.py), `selfLda`
(self_lda_vb_python.py), `mtm` (mtm.py), `mtm2` (mtm2.py), `mtm3` (mtm3.py), `momEm` (mom_em.py), `momGibbs` (mom_gibbs.py)
(all in sidetopics/model; the `train` functions of these files, lines as cited at `stops`) -/
inductive Loop
  | ctm | ctmBohning | ctmBohningFast | ctmGradArb
  | stmYv | stmYvBohning | stmFakeOnline | stmUvVecy | stmUvVecY
  | ldaCvb | ldaCvb0 | ldaVb | ldaSvb | ldaVbPython
  | rtm | selfLda | mtm | mtm2 | mtm3 | momEm | momGibbs
  deriving DecidableEq

/-- One measurement: the iteration, the bound and the perplexity (the entries of `boundIters`, `boundValues` and
`perplexity_from_like` of the entries of `likelyValues`, e.g. ctm.py:286-292) -/
structure Measure where
  iter : Nat
  bound : ℝ
  perp : ℝ

/-- The `i`-th measurement; the arrays are filled with zeros (ctm.py:185-187, lda_vb.py:199-201) -/
noncomputable def entry (log : List Measure) (i : Nat) : Measure := log.getD i ⟨0, 0, 0⟩

/-- The newest measurement, `likelyValues[-1]` or `likelyValues[bvIdx]` (ctm.py:300-302, mtm3.py:469) -/
noncomputable def newest (log : List Measure) : Measure := entry log (log.length - 1)

/-- The measurement before it, `likelyValues[-2]` or `likelyValues[bvIdx - 1]` (ctm.py:301-302, mtm3.py:469) -/
noncomputable def previous (log : List Measure) : Measure := entry log (log.length - 2)

/-- The rule `lastPerp - perp < 1` after at least three measurements and from the iteration `first` on (ctm.py:300-302) -/
noncomputable def dropRule (first : Nat) (log : List Measure) : Prop :=
  2 < log.length ∧ first ≤ (newest log).iter ∧ (previous log).perp - (newest log).perp < 1

/-- The rule `abs(perp - lastPerp) < 1.0` after at least `least` measurements and from the iteration `first` on
(ctm_bohning.py:300-303, mtm3.py:464-470) -/
noncomputable def changeRule (least first : Nat) (log : List Measure) : Prop :=
  least ≤ log.length ∧ first ≤ (newest log).iter ∧ |(newest log).perp - (previous log).perp| < 1

/-- The call of `converged` with the number `idx` of measurements to look at (misc.py:33-57) -/
noncomputable def boundRule (idx : Nat) (ε : ℝ) (minIters : Nat) (log : List Measure) : Prop :=
  converged (fun i => ((entry log i).iter : Int)) (fun i => (entry log i).bound) idx ε (minIters : Int)

/-- Whether the loop stops after these measurements, given the tolerance `ε` of its plan: ctm.py:300-304 (`>= 30`),
ctm_bohning.py:300-303, ctm_bohning_fast.py:309-311, ctm_grad_arb.py:301-303, stm_yv.py:312-318, stm_yv_bohning.py:332-335,
stm_yv_bohning_fake_online.py:357-361, stm_uv_vecy_bohning.py:342-346, stm_uv_vec_y_bohning.py:376-379, lda_cvb.py:286-291,
lda_cvb0.py:273-278, lda_vb.py:225, lda_svb.py:234, rtm.py:459, self_lda_vb_python.py:411, mtm.py:435 (these three with one
measurement too few and the default tolerance, misc.py:33), mtm3.py:464-470, mom_em.py:264-267; lda_vb_python.py takes no
measurements, mtm2.py has `if False and`, and in mom_gibbs.py the check is commented out -/
noncomputable def stops (l : Loop) (ε : ℝ) (log : List Measure) : Prop :=
  match l with
  | .ctm => dropRule 30 log
  | .ctmBohning | .ctmBohningFast | .ctmGradArb | .stmUvVecY => changeRule 4 101 log
  | .stmYv => dropRule 51 log
  | .stmYvBohning | .stmFakeOnline | .stmUvVecy => dropRule 21 log
  | .ldaCvb => dropRule 31 log
  | .ldaCvb0 | .momEm => dropRule 51 log
  | .ldaVb | .ldaSvb => boundRule log.length ε 20 log
  | .rtm | .selfLda | .mtm => boundRule (log.length - 1) 10 5 log
  | .mtm3 => changeRule 2 51 log
  | .ldaVbPython | .mtm2 | .momGibbs => False

end Verif.Stopping
