import Verif.Model.Gibbs

/-!
# Dirichlet-multinomial regression

`model/dmr.py` and `model/dmr_fast.pyx`.  The sweeps are those of `lda_gibbs_fast.pyx` (`Verif.Gibbs`), with a prior for each
document.  The optimiser of `updateWeights` (scipy's L-BFGS-B) is an arbitrary function of the samples it is given.
-/

namespace Verif.Dmr

open Verif Verif.Gibbs

/-- `TrainPlan` without the fields for logging (dmr.py:53-55) -/
structure Plan where
  iterations : Nat
  burnIn : Nat
  thin : Nat
  wui : Nat
  deriving DecidableEq

/-- `newTrainPlan` (dmr.py:157-170); `wui` is `weightUpdateInterval`. -/
def newTrainPlan (iterations : Nat) (burnIn thin wui : Int) : Plan :=
  let thin := if thin < 0 then (if iterations ≤ 500 then 5 else if iterations ≤ 1000 then 10 else 50) else thin.toNat
  let (burnIn, iterations) := if burnIn < 0 then (iterations / 4, iterations + iterations / 4) else (burnIn.toNat, iterations)
  let wui := if wui < 0 then thin * 10 else wui.toNat
  ⟨iterations, burnIn, thin, wui⟩

/-- one sample of the document-topic table (dmr_fast.pyx:208) -/
abbrev Sample := Nat → Nat → Int

/-- `n_dk_samples`: `np.zeros((D, K, size))` (dmr.py:191, 330) -/
structure Buffer where
  size : Nat
  slot : Nat → Sample

/-- `np.zeros((D,K,num_samples))` (dmr.py:191, 330) -/
def Buffer.zeros (size : Nat) : Buffer := ⟨size, fun _ _ _ => 0⟩

/-- `n_dk_samples[:, :, :n]` (dmr.py:271-272, 300-301): slices stop at the end of the array. -/
def Buffer.upTo (b : Buffer) (n : Nat) : List Sample := (List.range (min n b.size)).map b.slot

/-- What the compiled code can do wrong, with bounds checks off: use a topic outside of the tables, or write outside of
the buffer of samples. (dmr_fast.pyx:172-301) -/
inductive Fault
  | badTopic
  | outsideBuffer
  deriving DecidableEq

/-- `n_dk_samples[:, :, i] = x` (dmr_fast.pyx:285) -/
def Buffer.write (b : Buffer) (i : Nat) (x : Sample) : Except Fault Buffer :=
  if i < b.size then .ok { b with slot := Function.update b.slot i x } else .error .outsideBuffer

/-- `sample` (dmr_fast.pyx:172-301).  Besides the state and the buffer the model returns the samples taken, in order,
which the code does not. -/
def sample (p : Params) (isQuery : Bool) (count thin : Nat) (rnd : Nat → Rand) (st : State) (buf : Buffer) :
    Except Fault (State × Buffer × List Sample) :=
  (List.range count).foldlM (fun (x : State × Buffer × List Sample) s =>
    match sweep p (if isQuery then 0 else 1) (rnd s) x.1.tables with
    | none => .error .badTopic
    | some t =>
      let st := { x.1 with tables := t }
      if (s + 1) % thin = 0 then
        (x.2.1.write st.count t.ndk).map (fun b => (takeSample p isQuery st, b, x.2.2 ++ [t.ndk]))
      else .ok (st, x.2)) ({ st with count := 0 }, buf, [])

/-- `alphas = X.dot(weights.T)` (dmr.py:199, 209, 342); the objective (dmr.py:266-268) uses the exponential of this. -/
def alphas (F : Nat) (X W : Nat → Nat → ℚ) (d k : Nat) : ℚ := ∑ f ∈ Finset.range F, X d f * W k f

/-- the parameters with the priors which follow from the weights (dmr.py:199, 209, 342) -/
def withWeights (p : Params) (F : Nat) (X W : Nat → Nat → ℚ) : Params := { p with a := alphas F X W }

/-- `weights = np.ones((K, F)) * 0.05` (dmr.py:106) -/
def initialWeights : Nat → Nat → ℚ := fun _ _ => 5 / 100

/-- The state of the training loop; `taken` are the samples taken so far, `used` what the weight updates were given.
(dmr.py:184-222) -/
structure Loop where
  st : State
  buf : Buffer
  W : Nat → Nat → ℚ
  sampleCount : Nat
  taken : List Sample
  used : List (List Sample)

/-- One round of the training loop (dmr.py:208-222): samples, then `updateWeights(n_dk_samples, sample_count, …)`. -/
def round (p : Params) (F : Nat) (X : Nat → Nat → ℚ) (opt : List Sample → Nat → (Nat → Nat → ℚ) → Nat → Nat → ℚ)
    (wui thin : Nat) (rnd : Nat → Rand) (l : Loop) : Except Fault Loop :=
  (sample (withWeights p F X l.W) false wui thin rnd l.st l.buf).map (fun r =>
    let sampleCount := l.sampleCount + r.1.count
    let used := r.2.1.upTo sampleCount
    ⟨r.1, r.2.1, opt used sampleCount l.W, sampleCount, l.taken ++ r.2.2, l.used ++ [used]⟩)

/-- the number of rounds, `len(range(0, n, wui))` (dmr.py:208) -/
def rounds (n wui : Nat) : Nat := (n + wui - 1) / wui

/-- `train` (dmr.py:173-228), from weights `W`; a negative number of samples is a `ValueError` of `np.zeros`.  An interval
of 0 (a `ValueError` of `range`) and a thinning of 0 are not modelled. -/
def train (p : Params) (F : Nat) (X : Nat → Nat → ℚ) (opt : List Sample → Nat → (Nat → Nat → ℚ) → Nat → Nat → ℚ)
    (plan : Plan) (z : Nat → Nat) (W : Nat → Nat → ℚ) (rnd : Nat → Nat → Rand) : Py (Except Fault Loop) :=
  if plan.iterations < plan.burnIn then .error .valueError
  else .ok (do
    let n := plan.iterations - plan.burnIn
    let buf := Buffer.zeros (n / plan.thin)
    let s := sumSuffStats p.w p.lens (zeroTables z)
    let r ← sample (withWeights p F X W) false plan.burnIn (plan.burnIn + 1) (rnd 0) ⟨s, fun _ _ => 0, fun _ _ => 0, 0⟩ buf
    (List.range (rounds n plan.wui)).foldlM (fun l i => round p F X opt plan.wui plan.thin (rnd (i + 1)) l)
      ⟨r.1, r.2.1, W, 0, [], []⟩)

/-- `query` (dmr.py:315-354), with the model's word distributions `φ` and the sum `vocabSum` they come from. -/
def query (p : Params) (F : Nat) (X : Nat → Nat → ℚ) (φ vocabSum : Nat → Nat → ℚ) (plan : Plan) (z : Nat → Nat)
    (W : Nat → Nat → ℚ) (rnd1 rnd2 : Nat → Rand) : Py (Except Fault (State × Buffer)) :=
  if plan.iterations < plan.burnIn then .error .valueError
  else .ok (do
    let buf := Buffer.zeros ((plan.iterations - plan.burnIn) / plan.thin)
    let nkv : Nat → Nat → Int := fun k v => ⌊φ k v * 1000000⌋
    let nk : Nat → Int := fun k => ∑ v ∈ Finset.range p.T, nkv k v
    let s := sumSuffStats p.w p.lens ⟨z, fun _ _ => 0, nkv, nk⟩
    let q := withWeights p F X W
    let r ← sample q true plan.burnIn (plan.burnIn + 1) rnd1 ⟨s, fun _ _ => 0, vocabSum, 0⟩ buf
    let r ← sample q true plan.iterations plan.thin rnd2 r.1 r.2.1
    return (r.1, r.2.1))

end Verif.Dmr
