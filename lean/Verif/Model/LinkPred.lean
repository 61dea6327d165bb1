import Mathlib.Analysis.SpecialFunctions.Pow.Real
import Mathlib.Algebra.BigOperators.Group.Finset.Basic
import Verif.Model.Py

/-!
# Link prediction

`min_link_probs` and `link_probs` of `model/sim_based_rec.py`, `model/lro_vb.py` and `model/rtm.py`.  Floating point numbers are
real numbers and NaN (`none`); a quotient with denominator zero is NaN (its numerator is zero, too, wherever it arises here).
Rows of the link matrix are lists of column ids.  The result is the list of triples from which the sparse matrix is built.
-/

namespace Verif.LinkPred

open Verif

/-- A number or NaN (the entries of the arrays in sim_based_rec.py:273-448) -/
abbrev Fl := Option ℝ

/-- `a < b` (inside `min`, sim_based_rec.py:295) -/
def Lt : Fl → Fl → Prop
  | some a, some b => a < b
  | _, _ => False

/-- `a >= b` (sim_based_rec.py:380, 436, lro_vb.py:351, rtm.py:886) -/
def Ge : Fl → Fl → Prop
  | some a, some b => b ≤ a
  | _, _ => False

/-- `a / b` (sim_based_rec.py:289-293) -/
noncomputable def fdiv (a : Fl) (b : ℝ) : Fl := if b = 0 then none else a.map (· / b)

open Classical in
/-- `min(probs)` for a non-empty Python list: an element replaces the smallest so far if it is less than that.
(sim_based_rec.py:295, 319, lro_vb.py:309) -/
noncomputable def pyMin (x : Fl) (xs : List Fl) : Fl := xs.foldl (fun m y => if Lt y m then y else m) x

/-- The minimum for one document, `dflt` if it has no links (sim_based_rec.py:295, 319, lro_vb.py:309, rtm.py:843-847; NumPy's
`min` in the last is the same without NaN) -/
noncomputable def rowMin (dflt : ℝ) : List Fl → Fl
  | [] => some dflt
  | x :: xs => pyMin x xs

/-- `min_link_probs` (sim_based_rec.py:273-321, lro_vb.py:277-311, rtm.py:823-850): `score src dst` is what the inner loop computes
for one link. -/
noncomputable def minLinkProbs (score : Nat → Nat → Fl) (links : Nat → List Nat) (dflt : ℝ) (subset : List Nat) : List Fl :=
  subset.map (fun src => rowMin dflt ((links src).map (score src)))

open Classical in
/-- `relevant = np.where(probs >= min - eps)[0]` (sim_based_rec.py:380, 436, lro_vb.py:351, rtm.py:886) -/
noncomputable def relevant (probs : Nat → Fl) (D : Nat) (m : Fl) (eps : ℝ) : List Nat :=
  (List.range D).filter (fun c => decide (Ge (probs c) (m.map (· - eps))))

/-- One round of the loop of `link_probs` (sim_based_rec.py:373-384, 423-440, lro_vb.py:348-355, rtm.py:883-890) -/
noncomputable def predictRow (probs : Nat → Nat → Fl) (D : Nat) (eps : ℝ) (mins : List Fl) (acc : List (Nat × Nat × Fl))
    (src : Nat × Nat) : Py (List (Nat × Nat × Fl)) :=
  match mins[src.2]? with
  | none => .error .indexError
  | some m => .ok (acc ++ (relevant (probs src.1) D m eps).map (fun c => (src.2, c, probs src.1 c)))

/-- `link_probs` (sim_based_rec.py:348-448, lro_vb.py:314-363, rtm.py:858-901): rows are positions in the subset. -/
noncomputable def linkProbs (probs : Nat → Nat → Fl) (D : Nat) (eps : ℝ) (subset : List Nat) (mins : List Fl) :
    Py (List (Nat × Nat × Fl)) :=
  subset.zipIdx.foldlM (predictRow probs D eps mins) []

/-- `docSubset = [q for q in range(n)]` if no subset is given (sim_based_rec.py:277-278, lro_vb.py:297-298) -/
def allDocs (n : Nat) : List Nat := List.range n

/-! ## Scores -/

/-- `scale * src_tops[src,:].dot(dst_offs[dst,:])` (lro_vb.py:307) -/
noncomputable def lroPair (K : Nat) (scale : ℝ) (tops offs : Nat → Nat → ℝ) (src dst : Nat) : Fl :=
  some (scale * ∑ k ∈ Finset.range K, tops src k * offs dst k)

/-- `scale * dst_offs.dot(src_tops[src,:])` (lro_vb.py:350) -/
noncomputable def lroAll (K : Nat) (scale : ℝ) (tops offs : Nat → Nat → ℝ) (src dst : Nat) : Fl :=
  some (scale * ∑ k ∈ Finset.range K, offs dst k * tops src k)

/-- `SQRT_TWO` (sim_based_rec.py:34) -/
noncomputable def sqrtTwo : ℝ := 1414213562 / 10 ^ 9

/-- `SQRT_TWO / max(la.norm(src_reps[src] - dst_reps[dst]), 1E-30)` (sim_based_rec.py:316-317) -/
noncomputable def ldaPair (K : Nat) (src_reps dst_reps : Nat → Nat → ℝ) (src dst : Nat) : Fl :=
  some (sqrtTwo / max (Real.sqrt (∑ k ∈ Finset.range K, |src_reps src k - dst_reps dst k| ^ 2)) (1 / 10 ^ 30))

open Classical in
/-- The scores of `link_probs_lda` (sim_based_rec.py:428-434) -/
noncomputable def ldaAll (K : Nat) (src_reps dst_reps : Nat → Nat → ℝ) (src dst : Nat) : Fl :=
  let p := Real.sqrt (∑ k ∈ Finset.range K, (src_reps src k - dst_reps dst k) * (src_reps src k - dst_reps dst k))
  some (sqrtTwo / (if p < 1 / 10 ^ 30 then 1 / 10 ^ 30 else p))

/-- `reps = np.sqrt(lda.topicDists(ldaTopics))` (sim_based_rec.py:196) -/
noncomputable def ldaReps (tops : Nat → Nat → ℝ) (d k : Nat) : ℝ := Real.sqrt (tops d k)

/-- The number of documents with word `t` (sim_based_rec.py:183-184) -/
def docCount (D : Nat) (words : Nat → Nat → Nat) (t : Nat) : Nat := ((List.range D).filter (fun d => decide (words d t ≠ 0))).length

/-- TF-IDF representations (sim_based_rec.py:176-189), for word matrices of floating point numbers -/
noncomputable def tfidf (D T : Nat) (words : Nat → Nat → Nat) (d t : Nat) : ℝ :=
  (1 / ((∑ t' ∈ Finset.range T, words d t' : Nat) : ℝ)) * (words d t : ℝ) * Real.log ((D : ℝ) / ((docCount D words t : ℝ) + 1))

/-- `csr_row_norms` (sim_based_rec.py:395-403) -/
noncomputable def rowNorm (T : Nat) (reps : Nat → Nat → ℝ) (d : Nat) : ℝ :=
  Real.sqrt (∑ t ∈ Finset.range T, |reps d t * reps d t|)

/-- The score of one link in `min_link_probs_tfidf` (sim_based_rec.py:291-293) -/
noncomputable def tfidfPair (T : Nat) (src_reps dst_reps : Nat → Nat → ℝ) (src dst : Nat) : Fl :=
  fdiv (some (∑ t ∈ Finset.range T, src_reps src t * dst_reps dst t)) (rowNorm T src_reps src * rowNorm T dst_reps dst)

/-- The scores of `link_probs_tfidf` (sim_based_rec.py:376-378) -/
noncomputable def tfidfAll (T : Nat) (src_reps dst_reps : Nat → Nat → ℝ) (src dst : Nat) : Fl :=
  fdiv (fdiv (some (∑ t ∈ Finset.range T, dst_reps dst t * src_reps src t)) (rowNorm T dst_reps dst)) (rowNorm T src_reps src)

/-- The argument of the probit function for a pair of documents (rtm.py:846, 884): `means` have `K + 1` columns. -/
noncomputable def rtmArg (K : Nat) (weights : Nat → ℝ) (means : Nat → Nat → ℝ) (d e : Nat) : ℝ :=
  ∑ k ∈ Finset.range (K + 1), means d k * means e k * weights k

/-- The scores of the relational topic model, alike in `min_link_probs` and `link_probs` (rtm.py:846-847, 884-885); `cdf` is
`_probit_inplace` (rtm.py:569-577). -/
noncomputable def rtmScore (cdf : ℝ → ℝ) (K : Nat) (weights : Nat → ℝ) (means : Nat → Nat → ℝ) (d e : Nat) : Fl :=
  some (cdf (rtmArg K weights means d e))

/-- `min_link_probs` of the relational topic model for double precision: `1E-300` without links (rtm.py:843-844) -/
noncomputable def rtmMins (cdf : ℝ → ℝ) (K : Nat) (weights : Nat → ℝ) (means : Nat → Nat → ℝ) (links : Nat → List Nat) (D : Nat) :
    List Fl :=
  minLinkProbs (rtmScore cdf K weights means) links (1 / 10 ^ 300) (allDocs D)

/-! ## Which evaluation can call which predictor -/

/-- The modules with link prediction that define `is_undirected_link_predictor`; the two similarities are one module.
(rtm.py:818, mtm2.py:81, mtm3.py:94, lro_vb.py:61, sim_based_rec.py:60) -/
inductive Predictor where
  | rtm | mtm2 | mtm3 | lro | sim
  deriving DecidableEq, Repr

/-- The evaluations of links (run/__main__.py:786-833, 836-925, 928-1040, 1043-1145) -/
inductive Protocol where
  | linkSplitMap | linkSplitPrecRec | insample | outsample
  deriving DecidableEq, Repr

/-- The least and the greatest number of positional arguments of `min_link_probs`, and of `link_probs` (rtm.py:823, 858,
mtm2.py:522, 550, mtm3.py:690, 728, lro_vb.py:277, 314, sim_based_rec.py:251, 324) -/
def Predictor.arity : Predictor → Nat × Nat
  | .rtm | .mtm2 => (3, 3)
  | .mtm3 | .lro | .sim => (4, 5)

/-- The number of positional arguments in the calls (run/__main__.py:826-827, 895-896, 1000-1001, 1108-1109) -/
def Protocol.args : Protocol → Nat
  | .linkSplitMap | .linkSplitPrecRec => 3
  | .insample => 5
  | .outsample => 4

/-- Whether Python accepts the calls of `min_link_probs` and `link_probs`; `r` is what they do.
(run/__main__.py:826-827, 895-896, 1000-1001, 1108-1109) -/
def callPredictor {α : Type} (m : Predictor) (e : Protocol) (r : Py α) : Py α :=
  if m.arity.1 ≤ e.args ∧ e.args ≤ m.arity.2 then r else .error .typeError

end Verif.LinkPred
