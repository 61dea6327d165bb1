import Verif.Model.Ctm

/-!
# Topic models with document features

`model/stm_yv_bohning.py`, `model/stm_uv_vecy_bohning.py`, `model/stm_yv_bohning_fake_online.py` and `model/stm_yv.py`.  As in
`Verif.Model.Ctm` floating point numbers are real numbers (except in `restored`), tables are functions of their indices and
library routines are arbitrary functions: `inv` (the inverse of a matrix of the given size), `det` and `lsq` (least squares).
Printing is left out.
-/

namespace Verif.Stm

open Verif Verif.Ctm
open Verif.Mom (Data)

/-! ## Sorting the documents by length -/

/-- `np.argsort(l, kind="mergesort")`, a stable sort (stm_yv_bohning.py:203, 337; stm_uv_vecy_bohning.py:205, 349;
stm_yv_bohning_fake_online.py:209, 364) -/
def argsort (l : List Nat) : List Nat :=
  (List.range l.length).mergeSort (fun i j => decide (l.getD i 0 ≤ l.getD j 0))

/-- `m[idx,:]` (stm_yv_bohning.py:204-208, 338-340); rows beyond the end of `idx` do not exist in the code and are left as they
are here. -/
def rows {α : Type} (idx : List Nat) (m : Nat → α) (d : Nat) : α := m (idx.getD d d)

/-- `W[sortIdx,:]` (stm_yv_bohning.py:204) -/
def sortData (x : Data) (idx : List Nat) : Data := ⟨x.D, x.T, rows idx x.words⟩

/-- `docLens` (stm_yv_bohning.py:139) -/
def docLens (x : Data) : List Nat := (List.range x.D).map x.len

/-- `np.unique(docLens, return_index=True)` (stm_yv_bohning.py:210): the values in ascending order, each with the position of its
first occurrence -/
def uniqueIdx (l : List Nat) : List (Nat × Nat) :=
  (l.dedup.mergeSort (fun a b => decide (a ≤ b))).map (fun v => (v, l.idxOf v))

/-- The triples `(nd, start, end)` of the loop over the lengths (stm_yv_bohning.py:210-211, 279-281) -/
def groups (l : List Nat) : List (Nat × Nat × Nat) :=
  let u := uniqueIdx l
  let inds := u.map Prod.snd ++ [l.length]
  (List.range u.length).map fun i => ((u.getD i (0, 0)).1, inds.getD i 0, inds.getD (i + 1) 0)

/-- The loop over the lengths (stm_yv_bohning.py:279-284, stm_uv_vecy_bohning.py:318-323): `m` is the contents of `means` before
the loop. -/
noncomputable def groupMeans (K : Nat) (lhs : Nat → Nat → Nat → ℝ) (rhs m : Nat → Nat → ℝ) (gs : List (Nat × Nat × Nat)) :
    Nat → Nat → ℝ :=
  gs.foldl (fun m g d k => if g.2.1 ≤ d ∧ d < g.2.2 then ∑ j ∈ Finset.range K, rhs d j * lhs g.1 j k else m d k) m

/-! ## The updates -/

/-- The constants of a model: `F`, `P`, `K`, `fv`, `lfv`, `vocabPrior` and `Ab` (stm_yv_bohning.py:62-65) -/
structure Params where
  F : Nat
  P : Nat
  K : Nat
  fv : ℝ
  lfv : ℝ
  prior : ℝ
  Ab : Nat → Nat → ℝ

/-- `a.dot(b)` (numpy; as in stm_yv_bohning.py:236, 273) -/
noncomputable def dot (n : Nat) (a b : Nat → Nat → ℝ) (i j : Nat) : ℝ := ∑ l ∈ Finset.range n, a i l * b l j

/-- `a.dot(b.T)` (numpy; as in stm_yv_bohning.py:240, 242) -/
noncomputable def dotT (n : Nat) (a b : Nat → Nat → ℝ) (i j : Nat) : ℝ := ∑ l ∈ Finset.range n, a i l * b j l

/-- `a.T.dot(b)` (numpy; as in stm_yv_bohning.py:244) -/
noncomputable def tDot (n : Nat) (a b : Nat → Nat → ℝ) (i j : Nat) : ℝ := ∑ l ∈ Finset.range n, a l i * b l j

/-- `sigScale` (stm_yv_bohning.py:250, stm_uv_vecy_bohning.py:251) -/
noncomputable def sigScale (p : Params) (x : Data) : ℝ := 1 / ((p.P : ℝ) + (x.D : ℝ) + (p.F : ℝ))

/-- `XTX` (stm_yv_bohning.py:219) -/
noncomputable def gram (x : Data) (X : Nat → Nat → ℝ) : Nat → Nat → ℝ := tDot x.D X X

/-- `XTX` after `R_A.flat[::F+1] += 1./fv` (stm_yv_bohning.py:220-225, stm_yv.py:213-216) -/
noncomputable def gramRidge (p : Params) (x : Data) (X : Nat → Nat → ℝ) (f g : Nat) : ℝ :=
  gram x X f g + if f = g then 1 / p.fv else 0

/-- `sigT`, not scaled (stm_yv_bohning.py:236-245, stm_uv_vecy_bohning.py:240-246) -/
noncomputable def covariance (p : Params) (x : Data) (X A Y V means varcs : Nat → Nat → ℝ) (k j : Nat) : ℝ :=
  1 / p.lfv * dotT p.P Y Y k j
    + 1 / p.fv * dotT p.F (fun k f => A k f - dot p.P Y V k f) (fun k f => A k f - dot p.P Y V k f) k j
    + tDot x.D (fun d k => means d k - dotT p.F X A d k) (fun d k => means d k - dotT p.F X A d k) k j
    + if k = j then ∑ d ∈ Finset.range x.D, varcs d k else 0

/-- `varcs` (stm_yv_bohning.py:269, stm_uv_vecy_bohning.py:295) -/
noncomputable def newVarcs (p : Params) (x : Data) (isig : Nat → Nat → ℝ) (d k : Nat) : ℝ :=
  1 / ((x.len d : ℝ) * ((p.K : ℝ) - 1) / (p.K : ℝ) + 1 / sigScale p x * isig k k)

/-- `rhs` (stm_yv_bohning.py:273-276, stm_uv_vecy_bohning.py:299-302) -/
noncomputable def newRhs (p : Params) (x : Data) (X A isig S means : Nat → Nat → ℝ) (d k : Nat) : ℝ :=
  dot p.K (dotT p.F X A) isig d k * (1 / sigScale p x) + S d k + (x.len d : ℝ) * dot p.K means p.Ab d k
    - (x.len d : ℝ) * softmaxRows p.K means d k

/-- `lhs` for the documents of length `nd` (stm_yv_bohning.py:282, stm_uv_vecy_bohning.py:321) -/
noncomputable def newLhs (inv : Nat → (Nat → Nat → ℝ) → Nat → Nat → ℝ) (p : Params) (x : Data) (isig : Nat → Nat → ℝ)
    (nd j k : Nat) : ℝ :=
  inv p.K (fun i l => isig i l + sigScale p x * (nd : ℝ) * p.Ab i l) j k * sigScale p x

/-- The update of `V` (stm_uv_vecy_bohning.py:275; stm_yv.py:259 with `scale = 1`) -/
noncomputable def newV (inv : Nat → (Nat → Nat → ℝ) → Nat → Nat → ℝ) (p : Params) (scale : ℝ) (isig A Y RY : Nat → Nat → ℝ) :
    Nat → Nat → ℝ :=
  dot p.P (inv p.P fun i j => scale * RY i j + dot p.K (tDot p.K Y isig) Y i j) (dot p.K (tDot p.K Y isig) A)

/-- The update of `R_Y` (stm_uv_vecy_bohning.py:284-285, stm_yv.py:266-267) -/
noncomputable def newRY (inv : Nat → (Nat → Nat → ℝ) → Nat → Nat → ℝ) (p : Params) (V : Nat → Nat → ℝ) : Nat → Nat → ℝ :=
  inv p.P fun i j => (1 / p.lfv * if i = j then 1 else 0) + 1 / p.fv * dotT p.F V V i j

/-- The update of `Y` (stm_uv_vecy_bohning.py:288, stm_yv.py:270) -/
noncomputable def newY (p : Params) (A V RY : Nat → Nat → ℝ) : Nat → Nat → ℝ :=
  dot p.P (fun k i => 1 / p.fv * dotT p.F A V k i) RY

/-- `R_A` (stm_uv_vecy_bohning.py:222-226, stm_yv.py:212-217) -/
noncomputable def newRA (inv : Nat → (Nat → Nat → ℝ) → Nat → Nat → ℝ) (p : Params) (x : Data) (X : Nat → Nat → ℝ) :
    Nat → Nat → ℝ :=
  inv p.F (gramRidge p x X)

/-- The update of `A` (stm_uv_vecy_bohning.py:292, stm_yv.py:274) -/
noncomputable def newA (p : Params) (x : Data) (X Y V RA means : Nat → Nat → ℝ) : Nat → Nat → ℝ :=
  dot p.F (fun k f => 1 / p.fv * dot p.P Y V k f + tDot x.D X means f k) RA

/-! ## Training -/

/-- The variables of `train` (stm_yv_bohning.py:191-192, 214); `R` is the sparse matrix of quotients. -/
structure State where
  A : Nat → Nat → ℝ
  Y : Nat → Nat → ℝ
  RY : Nat → Nat → ℝ
  V : Nat → Nat → ℝ
  sig : Nat → Nat → ℝ
  vocab : Nat → Nat → ℝ
  means : Nat → Nat → ℝ
  expMeans : Nat → Nat → ℝ
  varcs : Nat → Nat → ℝ
  R : Nat → Nat → ℝ

/-- One iteration of `train` (stm_uv_vecy_bohning.py:235-326).  `update` computes the new means from `lhs`, `rhs` and the old
contents of `means` (which `rowwise_softmax(means, out=means)` has overwritten). -/
noncomputable def uvStep (inv : Nat → (Nat → Nat → ℝ) → Nat → Nat → ℝ)
    (update : (Nat → Nat → Nat → ℝ) → (Nat → Nat → ℝ) → (Nat → Nat → ℝ) → Nat → Nat → ℝ)
    (p : Params) (x : Data) (X : Nat → Nat → ℝ) (st : State) : State :=
  let sig := covariance p x X st.A st.Y st.V st.means st.varcs
  let isig := inv p.K sig
  let e := expRows p.K st.means
  let vocab := newVocab x p.K p.prior e st.vocab
  let S := topicCounts x p.K e vocab
  let V := newV inv p (sigScale p x) isig st.A st.Y st.RY
  let RY := newRY inv p V
  let Y := newY p st.A V RY
  let A := newA p x X Y V (newRA inv p x X) st.means
  let rhs := newRhs p x X A isig S st.means
  ⟨A, Y, RY, V, sig, vocab, update (newLhs inv p x isig) rhs (softmaxRows p.K st.means), e, newVarcs p x isig, quotient x p.K e vocab⟩

/-- One pass of the inner loop of `train` (stm_yv_bohning.py:238-290) -/
noncomputable def yvInner (inv : Nat → (Nat → Nat → ℝ) → Nat → Nat → ℝ)
    (update : (Nat → Nat → Nat → ℝ) → (Nat → Nat → ℝ) → (Nat → Nat → ℝ) → Nat → Nat → ℝ)
    (p : Params) (x : Data) (X : Nat → Nat → ℝ) (st : State) : State :=
  let sig := covariance p x X st.A st.Y st.V st.means st.varcs
  let isig := inv p.K sig
  let vocab := vocabWith x p.prior st.R st.expMeans st.vocab
  let R := quotient x p.K st.expMeans vocab
  let S := fun d k => st.expMeans d k * ∑ t ∈ Finset.range x.T, R d t * vocab k t
  let rhs := newRhs p x X st.A isig S st.means
  let means := update (newLhs inv p x isig) rhs (softmaxRows p.K st.means)
  ⟨st.A, st.Y, st.RY, st.V, sig, vocab, means, expRows p.K means, newVarcs p x isig, R⟩

/-- One iteration of `train` (stm_yv_bohning.py:234-290) -/
noncomputable def yvStep (inv : Nat → (Nat → Nat → ℝ) → Nat → Nat → ℝ) (lsq : (Nat → Nat → ℝ) → (Nat → Nat → ℝ) → Nat → Nat → ℝ)
    (update : (Nat → Nat → Nat → ℝ) → (Nat → Nat → ℝ) → (Nat → Nat → ℝ) → Nat → Nat → ℝ)
    (p : Params) (x : Data) (X : Nat → Nat → ℝ) (st : State) : State :=
  (yvInner inv update p x X)^[10] { st with A := lsq X st.means }

/-- The documents are sorted by length (stm_uv_vecy_bohning.py:204-214, stm_yv_bohning.py:202-211): `means` and `varcs` are
reordered, `expMeans` is not. -/
def sorted (idx : List Nat) (st : State) : State := { st with means := rows idx st.means, varcs := rows idx st.varcs }

/-- `train` (stm_uv_vecy_bohning.py:166-361) after `n` iterations (the loop may stop early): the result before the covariance is
scaled -/
noncomputable def uvTrain (inv : Nat → (Nat → Nat → ℝ) → Nat → Nat → ℝ) (p : Params) (x : Data) (X : Nat → Nat → ℝ) (n : Nat)
    (st : State) : State :=
  let idx := argsort (docLens x)
  let xs := sortData x idx
  sorted (argsort idx) ((uvStep inv (fun lhs rhs m => groupMeans p.K lhs rhs m (groups (docLens xs))) p xs (rows idx X))^[n] (sorted idx st))

/-- `train` (stm_yv_bohning.py:167-345) after `n` iterations: the result before the covariance is scaled.  `R` is a copy of the
sorted words (line 214). -/
noncomputable def yvTrain (inv : Nat → (Nat → Nat → ℝ) → Nat → Nat → ℝ) (lsq : (Nat → Nat → ℝ) → (Nat → Nat → ℝ) → Nat → Nat → ℝ)
    (p : Params) (x : Data) (X : Nat → Nat → ℝ) (n : Nat) (st : State) : State :=
  let idx := argsort (docLens x)
  let xs := sortData x idx
  sorted (argsort idx) ((yvStep inv lsq (fun lhs rhs m => groupMeans p.K lhs rhs m (groups (docLens xs))) p xs (rows idx X))^[n]
    { sorted idx st with R := fun d t => (xs.words d t : ℝ) })

/-- The return statement of `train` (stm_yv_bohning.py:250, 342-343; stm_uv_vecy_bohning.py:354-355): `sigScale` is assigned in
the loop, so it does not exist after zero iterations.  (Before that nothing depends on it.) -/
noncomputable def trainedCovariance (p : Params) (x : Data) (n : Nat) (st : State) : Py (Nat → Nat → ℝ) :=
  if n = 0 then .error .unboundLocalError else .ok fun k j => st.sig k j * sigScale p x

/-- The log of `train` (stm_yv_bohning.py:195, 234, 318-335): three lists that grow; the loop ends when the perplexity improves by
less than one after more than 20 iterations.  `fuel` is the number of iterations still to run. -/
noncomputable def yvLoop {σ : Type} (step : σ → σ) (bound like : σ → ℝ) (perp : ℝ → ℝ) (logFrequency : Int) :
    Nat → Nat → σ → List Nat × List ℝ × List ℝ → σ × List Nat × List ℝ × List ℝ
  | 0, _, st, l => (st, l)
  | fuel + 1, itr, st, l =>
    let st := step st
    if logFrequency > 0 ∧ (itr : Int) % logFrequency = 0 then
      let l' := (l.1 ++ [itr], l.2.1 ++ [bound st], l.2.2 ++ [like st])
      if 2 < l'.1.length ∧ 20 < itr ∧ perp (l.2.2.getLastD 0) - perp (like st) < 1 then (st, l')
      else yvLoop step bound like perp logFrequency fuel (itr + 1) st l'
    else yvLoop step bound like perp logFrequency fuel (itr + 1) st l

/-! ## The variational bound -/

/-- `lnDetOfDiagMat` (overflow_safe.py:18-22) -/
noncomputable def lnDetOfDiagMat (K : Nat) (m : Nat → Nat → ℝ) : ℝ := ∑ k ∈ Finset.range K, Real.log (m k k)

/-- The part of `var_bound` (stm_yv_bohning.py:453-487) about features and topic weights; the rest (`rest`, 489-504) does not depend
on the argument `XTX`.  `lnDetRY` and `lnDetRA` are the logarithms of the determinants, `L = LN_OF_2_PI`, `LE = LN_OF_2_PI_E`. -/
noncomputable def varBound (p : Params) (x : Data) (X : Nat → Nat → ℝ) (L LE lnDetRY lnDetRA rest : ℝ)
    (A RA Y RY V sig isig means varcs xtx : Nat → Nat → ℝ) : ℝ :=
  let ln := lnDetOfDiagMat p.K sig
  let diffA := fun k f => A k f - dot p.P Y V k f
  let diffM := fun d k => means d k - dotT p.F X A d k
  0 - (p.P : ℝ) * p.K / 2 * L - p.P * ln - p.K * p.P * Real.log p.lfv
    - 0.5 * ∑ k ∈ Finset.range p.K, ∑ i ∈ Finset.range p.P, 1 / p.lfv * dot p.K isig Y k i * Y k i
    - 0.5 * p.K * ∑ i ∈ Finset.range p.P, RY i i
    + (0.5 * LE + p.P / 2 * ln + p.K / 2 * lnDetRY)
    - (p.F : ℝ) * p.K / 2 * L - p.F * ln - p.K * p.P * Real.log p.fv
    - 0.5 * ∑ k ∈ Finset.range p.K, ∑ f ∈ Finset.range p.F, 1 / p.lfv * dot p.K isig diffA k f * diffA k f
    - 0.5 * p.K * ∑ f ∈ Finset.range p.F, RA f f
    + (0.5 * LE + p.F / 2 * ln + p.K / 2 * lnDetRA)
    - (x.D : ℝ) * p.K / 2 * L - x.D / 2 * ln
    - 0.5 * ∑ d ∈ Finset.range x.D, ∑ k ∈ Finset.range p.K, dot p.K diffM isig d k * diffM d k
    - 0.5 * ∑ d ∈ Finset.range x.D, ∑ k ∈ Finset.range p.K, varcs d k * isig k k
    - 0.5 * p.K * ∑ f ∈ Finset.range p.F, dot p.F xtx RA f f
    + (0.5 * x.D * p.K * LE + 0.5 * ∑ d ∈ Finset.range x.D, ∑ k ∈ Finset.range p.K, Real.log (varcs d k))
    + rest

/-- How the features are stored (stm_yv_bohning.py:219-225) -/
inductive FeatKind
  | dense
  | sparse
  deriving DecidableEq

/-- `XTX` when `var_bound` is called in `train` (stm_yv_bohning.py:219-225, 322; stm_yv.py:212-216, 303): for dense features `R_A` and
`XTX` are the same array, so the diagonal of `XTX` has been increased. -/
noncomputable def loggedGram (kind : FeatKind) (p : Params) (x : Data) (X : Nat → Nat → ℝ) : Nat → Nat → ℝ :=
  match kind with
  | .dense => gramRidge p x X
  | .sparse => gram x X

/-- `XTX` when `var_bound` is called without it (stm_yv_bohning.py:450-451, stm_yv.py:435-436) -/
noncomputable def ownGram (x : Data) (X : Nat → Nat → ℝ) : Nat → Nat → ℝ := gram x X

/-- The first statements of `train` that depend on the kind of features (stm_uv_vecy_bohning.py:222-224,
stm_yv_bohning_fake_online.py:225-227): `XTX.todense()`, which a dense array does not have -/
def uvPrepare (kind : FeatKind) : Py Unit :=
  match kind with
  | .dense => .error .attributeError
  | .sparse => .ok ()

/-! ### The bound of `stm_yv.py` -/

/-- `np.exp`, which underflows to zero below `u` (stm_yv.py:484-486) -/
noncomputable def floatExp (u y : ℝ) : ℝ := if y < u then 0 else Real.exp y

/-- `np.log`; `none` is minus infinity (stm_yv.py:496-497) -/
noncomputable def floatLog (y : ℝ) : Option ℝ := if y = 0 then none else some (Real.log y)

/-- What `var_bound` leaves in the array `queryState.means` (stm_yv.py:484-486, 496-497): the exponentials are computed in place, and
their logarithms afterwards.  Except for underflow the arithmetic is exact. -/
noncomputable def restored (u : ℝ) (K : Nat) (means : Nat → Nat → ℝ) (d k : Nat) : Option ℝ :=
  (floatLog (floatExp u (means d k - Numerics.rowMax K (means d)))).map (· + Numerics.rowMax K (means d))

/-- The number of fields of `QueryState` (stm_yv.py:58-61) -/
def queryStateFields : List String := ["means", "expMeans", "varcs", "lxi", "s", "docLens"]

/-- Creating a named tuple with positional arguments (stm_yv.py:58-61, 503-512) -/
def newTuple {α : Type} (fields : List String) (args : List α) : Py (List α) :=
  if args.length = fields.length then .ok args else .error .typeError

/-- `debugFn` in `train` and `query` (stm_yv.py:199-200, 352-359, 503-512, 526-527); `args` is `means, varcs, lxi, s, n`. -/
def debugFn {α : Type} (debug : Bool) (means varcs lxi s n : α) : Py Unit :=
  if debug then do
    let _ ← newTuple queryStateFields [means, varcs, lxi, s, n]
    .ok ()
  else .ok ()

/-! ## Queries -/

/-- The update of the means in `query` (stm_yv_bohning.py:398-404): the inverses are kept in a dictionary by length.  The loop over the
documents `ds`, with the dictionary `memo`. -/
noncomputable def memoMeans (inv : Nat → (Nat → Nat → ℝ) → Nat → Nat → ℝ) (p : Params) (x : Data) (isig rhs : Nat → Nat → ℝ) :
    List Nat → List (Nat × (Nat → Nat → ℝ)) → (Nat → Nat → ℝ) → Nat → Nat → ℝ
  | [], _, means => means
  | d :: ds, memo, means =>
    let made := inv p.K fun i l => isig i l + (x.len d : ℝ) * p.Ab i l
    let memo := if (memo.lookup (x.len d)).isSome then memo else (x.len d, made) :: memo
    let lhs := (memo.lookup (x.len d)).getD made
    memoMeans inv p x isig rhs ds memo fun d' k => if d' = d then ∑ j ∈ Finset.range p.K, lhs k j * rhs d j else means d' k

/-- The arrays of the query state, all updated in place (stm_yv_bohning.py:384, 389, 396, 404) -/
structure Query where
  means : Nat → Nat → ℝ
  expMeans : Nat → Nat → ℝ
  varcs : Nat → Nat → ℝ

/-- One iteration of `query` (stm_yv_bohning.py:383-405, stm_uv_vecy_bohning.py:393-414) -/
noncomputable def queryStep (inv : Nat → (Nat → Nat → ℝ) → Nat → Nat → ℝ) (p : Params) (x : Data) (X A isig vocab : Nat → Nat → ℝ)
    (q : Query) : Query :=
  let e := expRows p.K q.means
  let S := topicCounts x p.K e vocab
  let rhs := fun d k => dot p.K (dotT p.F X A) isig d k + S d k + (x.len d : ℝ) * dot p.K q.means p.Ab d k
    - (x.len d : ℝ) * softmaxRows p.K q.means d k
  ⟨memoMeans inv p x isig rhs (List.range x.D) [] (softmaxRows p.K q.means), e,
    fun d k => 1 / ((x.len d : ℝ) * ((p.K : ℝ) - 1) / (p.K : ℝ) + isig k k)⟩

/-- The loop of `query` (stm_yv_bohning.py:381-411), with `perp` the perplexity of the means: the number of iterations and the state -/
noncomputable def queryLoop (step : Query → Query) (perp : (Nat → Nat → ℝ) → ℝ) : Nat → Nat → Query → ℝ → Nat × Query
  | 0, itr, q, _ => (itr, q)
  | fuel + 1, itr, q, lastPerp =>
    let q := step q
    if 20 < itr ∧ lastPerp - perp q.means < 1 then (itr + 1, q)
    else queryLoop step perp fuel (itr + 1) q (perp q.means)

/-- `query` (stm_yv_bohning.py:347-414 with `atLeast = 100`, line 372; stm_uv_vecy_bohning.py:358-424 and
stm_yv_bohning_fake_online.py:374-428 with `atLeast = 0`): the number of iterations and the query state -/
noncomputable def query (inv : Nat → (Nat → Nat → ℝ) → Nat → Nat → ℝ) (p : Params) (x : Data) (X A sig vocab : Nat → Nat → ℝ)
    (perp : (Nat → Nat → ℝ) → ℝ) (atLeast iterations : Nat) (q : Query) (lastPerp : ℝ) : Nat × Query :=
  queryLoop (queryStep inv p x X A (inv p.K sig) vocab) perp (max iterations atLeast) 0 q lastPerp

/-! ## Batches -/

/-- A row of a table of floating point numbers; `none` if one of its entries is not finite.
(stm_yv_bohning_fake_online.py:236, 298-323) -/
abbrev Row := Option (Nat → ℝ)

/-- `sparseScalarQuotientOfDot(W[d,:], e, vocab)` is finite: `e` is, and no word of the document has a zero denominator.
(stm_yv_bohning_fake_online.py:308) -/
def FiniteQuotient (x : Data) (K : Nat) (vocab : Nat → Nat → ℝ) (d : Nat) (e : Nat → ℝ) : Prop :=
  ∀ t, t < x.T → x.words d t ≠ 0 → ∑ k ∈ Finset.range K, e k * vocab k t ≠ 0

/-- One pass of the loop over lengths in `train` (stm_yv_bohning_fake_online.py:298-323) when the group fits into one batch: `buf` is the
buffer `expMeans` (236), `out` the new means.  `means` are the means before the pass: the rows of a group are overwritten only when
that group is processed.  The quotients are computed from the rows `expMeans[d:end_d,:]` of the buffer (308), not from the rows
`expMeans[:span,:]` that have just been computed. -/
noncomputable def onlineGroup (p : Params) (x : Data) (lhs : Nat → Nat → Nat → ℝ) (base vocab means : Nat → Nat → ℝ)
    (st : (Nat → Row) × (Nat → Row)) (g : Nat × Nat × Nat) : (Nat → Row) × (Nat → Row) := by
  classical
  exact
    let buf : Nat → Row := fun r => if r < g.2.2 - g.2.1 then some (expRows p.K means (g.2.1 + r)) else st.1 r
    let new : Nat → Row := fun d =>
      match buf d with
      | none => none
      | some e =>
        if FiniteQuotient x p.K vocab d e then
          let S := fun k => expRows p.K means d k * ∑ t ∈ Finset.range x.T,
            ((x.words d t : ℝ) / ∑ j ∈ Finset.range p.K, e j * vocab j t) * vocab k t
          let rhs := fun k => base d k + S k + (x.len d : ℝ) * dot p.K means p.Ab d k - (x.len d : ℝ) * softmaxRows p.K means d k
          some fun k => ∑ j ∈ Finset.range p.K, rhs j * lhs g.1 j k
        else none
    (fun r => if r < g.2.2 - g.2.1 then (new (g.2.1 + r)).map (fun m k => expRows p.K (fun _ => m) 0 k) else buf r,
     fun d => if g.2.1 ≤ d ∧ d < g.2.2 then new d else st.2 d)

/-- The loop over the lengths in the first iteration of `train` (stm_yv_bohning_fake_online.py:236, 298-323), for at most `BatchSize`
documents: the buffer starts with zeros.  `base` is `mu.dot(isigT) * isigScale`. -/
noncomputable def onlinePass (p : Params) (x : Data) (lhs : Nat → Nat → Nat → ℝ) (base vocab means : Nat → Nat → ℝ) : Nat → Row :=
  ((groups (docLens x)).foldl (onlineGroup p x lhs base vocab means) (fun _ => some fun _ => 0, fun d => some (means d))).2

end Verif.Stm
