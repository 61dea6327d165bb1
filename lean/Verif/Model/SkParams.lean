import Verif.Model.Py
import Verif.Model.Sklearn

/-!
# The parameters of the wrapper `TopicModel`

The constructor of `model/sklearn/lda_cvb.py` (lines 162-226) with scikit-learn's `get_params` and `set_params`, which
`TopicModel` inherits from `BaseEstimator` (line 129): the former reads the attribute of the name of every parameter of the
constructor, the latter assigns such an attribute.  The parameters that the constructor stores as they are (the priors, the
rates, the numbers of topics, of burnt-in samples and so on, lines 195-216) are kept together as `rest`.  What the seed does
to the generators is modelled in `Verif.Model.Seeding`.  The numbers of iterations are natural numbers, the tolerance is a
rational number.
-/

namespace Verif.SkParams

open Verif Verif.Sklearn

/-- The names of the members of `TopicModelType` (sklearn/lda_cvb.py:89-97) -/
def nameOf : Kind → String
  | .ldaCvb0 => "LDA_CVB0"
  | .ldaCvb => "LDA_CVB"
  | .ldaVb => "LDA_VB"
  | .ldaVbPython => "LDA_VB_PYTHON_IMPL"
  | .ldaSvb => "LDA_SVB"
  | .ldaGibbs => "LDA_GIBBS"
  | .momVb => "MOM_VB"
  | .momGibbs => "MOM_GIBBS"

/-- What may be given as `kind` (sklearn/lda_cvb.py:162, 184-187): a member or a string -/
inductive KindArg where
  | member (k : Kind)
  | name (s : String)
  deriving DecidableEq

/-- `TopicModelType[self.kind]` (sklearn/lda_cvb.py:224, 273 and others): the members are found by their names; a member is
not equal to its name and is not found. -/
def lookup : KindArg → Py Kind
  | .member _ => .error .keyError
  | .name s =>
    match [Kind.ldaCvb0, .ldaCvb, .ldaVb, .ldaVbPython, .ldaSvb, .ldaGibbs, .momVb, .momGibbs].find? (fun k => nameOf k = s) with
    | some k => .ok k
    | none => .error .keyError

/-- The parameters: the arguments of the constructor, and also its attributes (sklearn/lda_cvb.py:162-181, 184-218) -/
structure Params (R : Type) where
  kind : KindArg
  iterations : Nat := 1000
  queryIterations : Option Nat := none
  perpTolerance : Option Rat := none
  seed : Int := 0xC0FFEE
  rest : R

variable {R : Type}

/-- The attribute `kind` (sklearn/lda_cvb.py:184-187) -/
def storedKind : KindArg → KindArg
  | .member k => .name (nameOf k)
  | .name s => .name s

/-- `query_iterations or self.iterations // 10` (sklearn/lda_cvb.py:200) -/
def storedQuery (o : Option Nat) (iterations : Nat) : Nat :=
  match o with
  | some n => if n = 0 then iterations / 10 else n
  | none => iterations / 10

/-- `perp_tolerance or 0.1` (sklearn/lda_cvb.py:201) -/
def storedTolerance (o : Option Rat) : Rat :=
  match o with
  | some x => if x = 0 then 1 / 10 else x
  | none => 1 / 10

/-- `__setattr__` for the attribute `seed` (sklearn/lda_cvb.py:221-226): the seed goes to numpy, which refuses numbers outside
its range, then the kind is looked up, then the attribute is set. -/
def assignSeed (seed : Int) (p : Params R) : Py (Params R) := do
  if ¬ (0 ≤ seed ∧ seed < 2 ^ 32) then throw .valueError
  let _ ← lookup p.kind
  return { p with seed := seed }

/-- `TopicModel.__init__` (sklearn/lda_cvb.py:162-218): the attributes, the seed being the last. -/
def construct (a : Params R) : Py (Params R) :=
  assignSeed a.seed { a with
    kind := storedKind a.kind
    queryIterations := some (storedQuery a.queryIterations a.iterations)
    perpTolerance := some (storedTolerance a.perpTolerance) }

/-- `get_params` (inherited at sklearn/lda_cvb.py:129): the attributes under the names of the parameters -/
def getParams (w : Params R) : Params R := w

/-- A parameter with a new value (sklearn/lda_cvb.py:162-181) -/
inductive Change (R : Type) where
  | kind (k : KindArg)
  | iterations (n : Nat)
  | queryIterations (o : Option Nat)
  | perpTolerance (o : Option Rat)
  | seed (s : Int)
  | rest (r : R)

/-- `set_params` for one parameter (inherited at sklearn/lda_cvb.py:129): assigns the attribute, by the `__setattr__` of lines
221-226. -/
def setParam (w : Params R) : Change R → Py (Params R)
  | .kind k => .ok { w with kind := k }
  | .iterations n => .ok { w with iterations := n }
  | .queryIterations o => .ok { w with queryIterations := o }
  | .perpTolerance o => .ok { w with perpTolerance := o }
  | .seed s => assignSeed s w
  | .rest r => .ok { w with rest := r }

/-- The module that `fit`, `transform` and `score` use (sklearn/lda_cvb.py:273, 367, 437) -/
def module (w : Params R) : Py Kind := lookup w.kind

end Verif.SkParams
