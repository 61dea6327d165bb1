import Verif.Model.Py
import Verif.Model.Sklearn

/-!
# The seed of the wrapper

`model/sklearn/lda_cvb.py` (lines 218-226), `seed_rng` of `model/lda_gibbs.py`, and where the wrapped modules draw random
numbers.  There are two generators, both shared by everything that runs in the process: the one of numpy and the one of C.
Their states, and the functions that make a state from a seed, are arbitrary.  What a module does with the numbers that it
draws is an arbitrary function; modelled exactly are which generators it uses and when they are seeded.  The seed is an
integer; seeds that are arrays or `None` are left out.
-/

namespace Verif.Seeding

open Verif

/-- The generators (numpy's `RandomState` behind `numpy.random`, and libc's `rand`); `np` and `c` make a state from a seed,
as `rd.seed` and `srand` do. (lda_gibbs.py:179-180, lda_gibbs_fast.pyx:29-30) -/
structure Generators (N C : Type) where
  np : Nat → N
  c : Nat → C

/-- The states of the two generators of the process. (lda_gibbs.py:179-180) -/
structure World (N C : Type) where
  np : N
  c : C

/-- `0xC0FFEE` (lda_gibbs.py:179-180, sklearn/lda_cvb.py:181) -/
def coffee : Nat := 0xC0FFEE

/-- `0xBADB055` (lda_cvb0_fast.pyx:86, 156, 226, lda_cvb_fast.pyx:89, 159, 229) -/
def badBoss : Nat := 0xBADB055

variable {N C R : Type}

/-- numpy's `rd.seed`, which takes the numbers below 2³² and refuses others (called at sklearn/lda_cvb.py:223 and
lda_gibbs.py:179) -/
def npSeed (g : Generators N C) (seed : Int) (w : World N C) : Py (World N C) :=
  if 0 ≤ seed ∧ seed < 2 ^ 32 then .ok { w with np := g.np seed.toNat } else .error .valueError

/-- `initGlobalRng` (lda_gibbs_fast.pyx:29-30, dmr_fast.pyx:27-28) -/
def initGlobalRng (g : Generators N C) (seed : Nat) (w : World N C) : World N C := { w with c := g.c seed }

/-- `lda_gibbs.seed_rng` (lda_gibbs.py:178-180); the argument is not used. -/
def seedRng (g : Generators N C) (_seed : Int) (w : World N C) : Py (World N C) := do
  let w ← npSeed g coffee w
  return initGlobalRng g coffee w

/-- `TopicModel.__setattr__` for the attribute `seed` (sklearn/lda_cvb.py:221-226); this is also the last statement of the
constructor (line 218). -/
def setSeed (g : Generators N C) (kind : Sklearn.Kind) (seed : Int) (w : World N C) : Py (World N C) := do
  let w ← npSeed g seed w
  if kind = .ldaGibbs then seedRng g seed w else return w

/-- How a module uses the generator of C. (lda_cvb0_fast.pyx:86, lda_cvb_fast.pyx:89, lda_gibbs_fast.pyx:247) -/
inductive Use where
  | never | reseeds | shares
  deriving DecidableEq

/-- The use that each module makes of the generator of C: `toWordList` seeds it before it shuffles the words
(lda_cvb0.py:137, lda_cvb.py:142, lda_vb.py:132, lda_svb.py:136), the Gibbs sampler draws from it as it finds it
(lda_gibbs.py:206, 212), the modules in Python do not use it (lda_vb_python.py, mom_em.py, mom_gibbs.py). -/
def use : Sklearn.Kind → Use
  | .ldaCvb0 => .reseeds
  | .ldaCvb => .reseeds
  | .ldaVb => .reseeds
  | .ldaSvb => .reseeds
  | .ldaGibbs => .shares
  | .ldaVbPython => .never
  | .momVb => .never
  | .momGibbs => .never

/-- What a module computes in `fit` on given data with given parameters, as a function of the states of the generators.
(sklearn/lda_cvb.py:255-295) -/
inductive Program (N C R : Type) : Use → Type where
  | never (f : N → R × N) : Program N C R .never
  | reseeds (f : N → C → R × N × C) : Program N C R .reseeds
  | shares (f : N → C → R × N × C) : Program N C R .shares

/-- One call of `fit` on a new wrapper (sklearn/lda_cvb.py:255-295): the generators are used as they are, but for the seed in
`toWordList` (lda_cvb0_fast.pyx:86, lda_cvb_fast.pyx:89). -/
def fit (g : Generators N C) {u : Use} (p : Program N C R u) (w : World N C) : R × World N C :=
  match p with
  | .never f => let r := f w.np; (r.1, { w with np := r.2 })
  | .reseeds f => let r := f w.np (g.c badBoss); (r.1, ⟨r.2.1, r.2.2⟩)
  | .shares f => let r := f w.np w.c; (r.1, ⟨r.2.1, r.2.2⟩)

/-- A new wrapper and a call of its `fit`, with nothing in between (sklearn/lda_cvb.py:218, 255-295) -/
def constructAndFit (g : Generators N C) (kind : Sklearn.Kind) (p : Program N C R (use kind)) (seed : Int) (w : World N C) :
    Py (R × World N C) := do
  let w ← setSeed g kind seed w
  return fit g p w

/-- `dmr.train` (dmr.py:173-228), which seeds the generator of C with a constant (line 195); the initial topics it is given
have been drawn before. -/
def dmrTrain (g : Generators N C) (f : C → R × C) (w : World N C) : R × World N C :=
  let w := initGlobalRng g coffee w
  let r := f w.c
  (r.1, { w with c := r.2 })

end Verif.Seeding
