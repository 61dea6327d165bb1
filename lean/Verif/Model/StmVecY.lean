import Mathlib.Data.Real.Basic
import Mathlib.Algebra.BigOperators.Group.Finset.Basic
import Verif.Model.Py

/-!
# The topic model with vectorised latent features

`model/stm_uv_vec_y_bohning.py`: the control flow of `train`, `query` and `topicDists`, and `estimate_dirichlet_param`.
Floating point numbers are real numbers, the digamma and trigamma functions are arbitrary functions.
-/

namespace Verif.StmVecY

open Verif

/-- A Python number as the dimension of `reshape` (stm_uv_vec_y_bohning.py:85-88): integers are accepted, floats are not -/
inductive Number where
  | int (n : Nat)
  | float (x : ℝ)

/-- `/` of Python 3 (stm_uv_vec_y_bohning.py:86): the quotient of two integers is a float -/
noncomputable def trueDiv (n m : Nat) : Py Number := if m = 0 then .error .zeroDivisionError else .ok (.float ((n : ℝ) / m))

/-- The number of columns given to `reshape` (stm_uv_vec_y_bohning.py:88) -/
def dimension : Number → Py Nat
  | .int n => .ok n
  | .float _ => .error .typeError

/-- `unvec` of a vector of `n` elements (stm_uv_vec_y_bohning.py:85-88): the shape of the result -/
noncomputable def unvec (n rows : Nat) : Py (Nat × Nat) := do
  let cols ← trueDiv n rows
  let c ← dimension cols
  .ok (rows, c)

/-- A named tuple made from `args` values, of which the class has `fields` (stm_uv_vec_y_bohning.py:68-71, 382) -/
def makeTuple (fields args : Nat) : Py Unit := if args = fields then .ok () else .error .typeError

/-- One iteration of `train` (stm_uv_vec_y_bohning.py:282-378): `solve` is what happens up to line 299, `rest` what happens after
line 300.  `P` and `Q` are the numbers of rows and columns of `Y`. -/
noncomputable def iteration (P Q : Nat) (solve rest : Py Unit) : Py Unit := do
  solve
  let _ ← unvec (P * Q) P
  rest

/-- `train` (stm_uv_vec_y_bohning.py:196-383): `setup` is what happens before the loop, `steps` tells for every iteration what
`solve` and `rest` do.  At the end a `QueryState` of two fields is made from three values. -/
noncomputable def train (P Q : Nat) (setup : Py Unit) (steps : Nat → Py Unit × Py Unit) (iterations : Nat) : Py Unit := do
  setup
  (List.range iterations).foldlM (fun _ i => iteration P Q (steps i).1 (steps i).2) ()
  makeTuple 2 3

/-- The fields of the `QueryState` (stm_uv_vec_y_bohning.py:68-71) -/
def queryFields : List String := ["means", "docLens"]

/-- Reading an attribute of a `QueryState` (stm_uv_vec_y_bohning.py:68-71) -/
def readAttr (name : String) : Py Unit := if name ∈ queryFields then .ok () else .error .attributeError

/-- `topicDists` (stm_uv_vec_y_bohning.py:93-96): `rest` is a function of the value read -/
def topicDists {α β : Type} (state : String → α) (rest : α → β) : Py β := do
  readAttr "topicMean"
  .ok (rest (state "topicMean"))

/-- `query` (stm_uv_vec_y_bohning.py:430-487): it starts by reading three attributes of the state -/
def query {α : Type} (rest : Py α) : Py α := do
  readAttr "means"
  readAttr "expMeans"
  readAttr "docLens"
  rest

/-- One round of `estimate_dirichlet_param` (stm_uv_vec_y_bohning.py:397-415) for `N` samples whose logarithms sum to `p` -/
noncomputable def newton (psi psi1 : ℝ → ℝ) (K : Nat) (N : ℝ) (p a : Nat → ℝ) (k : Nat) : ℝ :=
  let total := ∑ j ∈ Finset.range K, a j
  let g := fun i => -N * psi (a i) + N * psi total + p i
  let q := fun i => 1 / (-N * psi1 (a i))
  let z := N * psi1 total
  let b := (∑ i ∈ Finset.range K, g i * q i) / (1 / z + ∑ i ∈ Finset.range K, q i)
  a k - (g k - b) * q k

/-- `estimate_dirichlet_param` (stm_uv_vec_y_bohning.py:386-418): sixty rounds -/
noncomputable def estimate (psi psi1 : ℝ → ℝ) (K : Nat) (N : ℝ) (p a : Nat → ℝ) : Nat → ℝ :=
  (newton psi psi1 K N p)^[60] a

end Verif.StmVecY
