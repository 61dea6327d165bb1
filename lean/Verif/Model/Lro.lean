import Mathlib.LinearAlgebra.Matrix.NonsingularInverse
import Mathlib.Analysis.SpecialFunctions.Pow.Real
import Mathlib.Algebra.BigOperators.Group.Finset.Basic
import Verif.Model.Py

/-!
# Latent random offsets

`train` and `query` of `model/lro_vb.py`.  Topic inference (lines 185-188) is delegated to `lda_vb_python`; here its outcome is an
argument.  Floating point numbers are real numbers; wherever a division by zero makes an array infinite or NaN, the next call of
`scipy.linalg` (`inv` or `norm`, both of which check their arguments) raises `ValueError`, and so does the model at that place.
`LinAlgError`, raised for singular matrices, is a `ValueError`.  A row of the link matrix is the list of its stored columns.
-/

namespace Verif.Lro

open Verif

/-- The data and settings (lro_vb.py:172-181): `D` documents, `K` topics, `inlinks p` the stored columns of row `p` of the transposed
link matrix (line 196), `tau0` and `tau1` the two elements of `predVar`, `noise` the `noiseVar`. -/
structure Params where
  D : Nat
  K : Nat
  inlinks : Nat → List Nat
  tau0 : ℝ
  tau1 : ℝ
  noise : ℝ

/-- The variables of the loop: `scale` and `offs` (lro_vb.py:174, 192) -/
structure State where
  scale : ℝ
  offs : Nat → Nat → ℝ

/-- `a.dot(b)` (lro_vb.py:209-211) -/
noncomputable def dot (K : Nat) (a b : Nat → ℝ) : ℝ := ∑ k ∈ Finset.range K, a k * b k

/-- `topsSum = tops.T.dot(tops)` (lro_vb.py:193) -/
noncomputable def topsSum (p : Params) (tops : Nat → Nat → ℝ) (i j : Nat) : ℝ := ∑ d ∈ Finset.range p.D, tops d i * tops d j

/-- `v.dot(M).dot(v)` (lro_vb.py:210) -/
noncomputable def quadForm (K : Nat) (M : Nat → Nat → ℝ) (v : Nat → ℝ) : ℝ :=
  dot K (fun j => ∑ i ∈ Finset.range K, v i * M i j) v

/-- What document `q` adds to `lhs` in the update of the scale (lro_vb.py:209-210) -/
noncomputable def scaleLhsAt (p : Params) (tops offs : Nat → Nat → ℝ) (q : Nat) : ℝ :=
  (p.tau1 - p.tau0) * ((p.inlinks q).map fun d => dot p.K (tops d) (offs q) ^ 2).sum
    + p.tau0 * (quadForm p.K (topsSum p tops) (offs q) - quadForm p.K (fun i j => tops q i * tops q j) (offs q))

/-- What document `q` adds to `rhs` in the update of the scale (lro_vb.py:211) -/
noncomputable def scaleRhsAt (p : Params) (tops offs : Nat → Nat → ℝ) (q : Nat) : ℝ :=
  p.tau1 * ((p.inlinks q).map fun d => dot p.K (tops d) (offs q)).sum

/-- `lhs` after the loop (lro_vb.py:207-211) -/
noncomputable def scaleLhs (p : Params) (tops offs : Nat → Nat → ℝ) : ℝ := ∑ q ∈ Finset.range p.D, scaleLhsAt p tops offs q

/-- `rhs` after the loop (lro_vb.py:207-211) -/
noncomputable def scaleRhs (p : Params) (tops offs : Nat → Nat → ℝ) : ℝ := ∑ q ∈ Finset.range p.D, scaleRhsAt p tops offs q

/-- `lhs` in the update of the offsets of document `q` (lro_vb.py:217-220): `einsum("dj,k->jk", A, b)` sums `A` over `d`. -/
noncomputable def offsetLhs (p : Params) (tops : Nat → Nat → ℝ) (scale : ℝ) (q j k : Nat) : ℝ :=
  ((p.tau1 - p.tau0) * (((p.inlinks q).map fun d => tops d j).sum * tops q k)
      + p.tau0 * ((∑ d ∈ Finset.range p.D, tops d j) * tops q k - tops q j * tops q k)) * (scale * scale)
    + (if j = k then p.noise else 0)

/-- `rhs` in the update of the offsets of document `q` (lro_vb.py:222) -/
noncomputable def offsetRhs (p : Params) (tops : Nat → Nat → ℝ) (scale : ℝ) (q j : Nat) : ℝ :=
  tops q j + scale * p.tau1 * ((p.inlinks q).map fun d => tops d j).sum

/-- The matrix handed to `la.inv` (lro_vb.py:224) -/
noncomputable def offsetMat (p : Params) (tops : Nat → Nat → ℝ) (scale : ℝ) (q : Nat) : Matrix (Fin p.K) (Fin p.K) ℝ :=
  Matrix.of fun j k => offsetLhs p tops scale q j k

/-- `la.inv(lhs).dot(rhs)` (lro_vb.py:224) -/
noncomputable def newOffset (p : Params) (tops : Nat → Nat → ℝ) (scale : ℝ) (q k : Nat) : ℝ :=
  if h : k < p.K then ∑ j : Fin p.K, (offsetMat p tops scale q)⁻¹ ⟨k, h⟩ j * offsetRhs p tops scale q j else 0

/-- `la.norm(offs / scale)` for a scale other than zero (lro_vb.py:204, 227) -/
noncomputable def norm (p : Params) (st : State) : ℝ :=
  Real.sqrt (∑ q ∈ Finset.range p.D, ∑ k ∈ Finset.range p.K, (st.offs q k / st.scale) ^ 2)

open Classical in
/-- One iteration (lro_vb.py:200-228): the new state and the two norms.  Without documents `rhs / lhs` is `0 / 0` on Python integers. -/
noncomputable def step (p : Params) (tops : Nat → Nat → ℝ) (st : State) : Py (State × ℝ × ℝ) :=
  if p.D = 0 then .error .zeroDivisionError
  else if st.scale = 0 then .error .valueError
  else if scaleLhs p tops st.offs = 0 then .error .valueError
  else
    let scale := scaleRhs p tops st.offs / scaleLhs p tops st.offs
    if ∃ q, q < p.D ∧ (offsetMat p tops scale q).det = 0 then .error .valueError
    else if scale = 0 then .error .valueError
    else
      let new : State := ⟨scale, newOffset p tops scale⟩
      .ok (new, norm p st, norm p new)

open Classical in
/-- The loop (lro_vb.py:200-230) with `fuel` iterations left -/
noncomputable def loop (p : Params) (tops : Nat → Nat → ℝ) (epsilon : ℝ) : Nat → State → Py State
  | 0, st => .ok st
  | fuel + 1, st => do
    let r ← step p tops st
    if |r.2.1 - r.2.2| < epsilon then .ok r.1 else loop p tops epsilon fuel r.1

/-- `epsilon = 0.01 * D * K if epsilon is None else epsilon` (lro_vb.py:180) -/
noncomputable def tolerance (p : Params) (epsilon : Option ℝ) : ℝ :=
  match epsilon with
  | none => 1 / 100 * (p.D : ℝ) * (p.K : ℝ)
  | some e => e

/-- `train` (lro_vb.py:154-234) from the topics `tops` found by topic inference: the offsets start as a copy of the topics (192).
Returned are the scale of the model and the offsets of the query state. -/
noncomputable def train (p : Params) (tops : Nat → Nat → ℝ) (scale : ℝ) (epsilon : Option ℝ) (iterations : Nat) : Py State :=
  loop p tops (tolerance p epsilon) iterations ⟨scale, tops⟩

/-- `query` (lro_vb.py:237-254): the model given, hence its scale, is returned with the new offsets. -/
noncomputable def query (p : Params) (tops : Nat → Nat → ℝ) (scale : ℝ) (epsilon : Option ℝ) (iterations : Nat) : Py State := do
  let r ← train p tops scale epsilon iterations
  .ok ⟨scale, r.offs⟩

/-- The element types of arrays a caller can ask for (lro_vb.py:30, 81) -/
inductive Dtype where
  | float32
  | float64
  deriving DecidableEq

/-- Topic inference (lro_vb.py:185-188): a query always runs `lda.query`, which is `lda.train` (lda_vb_python.py:739-759), and training
runs it unless the LDA model has been processed.  `lda.train` starts with its checks (lda_vb_python.py:362-364): no empty
document, then the element type.  `tops` are the topics it finds, `given` those in the query state passed in. -/
def topicInference (isQuery processed : Bool) (someEmpty : Bool) (dtype : Dtype) (given tops : Nat → Nat → ℝ) : Py (Nat → Nat → ℝ) :=
  if isQuery || !processed then
    if someEmpty then .error .valueError
    else if dtype = .float64 then .ok tops else .error .assertionError
  else .ok given

/-- `train` (lro_vb.py:154-234) including topic inference -/
noncomputable def trainAll (p : Params) (processed someEmpty : Bool) (dtype : Dtype) (given tops : Nat → Nat → ℝ) (scale : ℝ)
    (epsilon : Option ℝ) (iterations : Nat) : Py State := do
  let t ← topicInference false processed someEmpty dtype given tops
  train p t scale epsilon iterations

/-- `query` (lro_vb.py:237-254) including topic inference -/
noncomputable def queryAll (p : Params) (processed someEmpty : Bool) (dtype : Dtype) (given tops : Nat → Nat → ℝ) (scale : ℝ)
    (epsilon : Option ℝ) (iterations : Nat) : Py State := do
  let t ← topicInference true processed someEmpty dtype given tops
  query p t scale epsilon iterations

end Verif.Lro
