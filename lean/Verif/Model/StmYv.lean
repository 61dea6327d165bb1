import Verif.Model.Stm
import Verif.Model.CtmQuery

/-!
# Training and queries of the topic model with features and Bouchard's bound

`train` and `query` of `model/stm_yv.py`.  The matrix inverse `inv` is an arbitrary function; printing and the debug function are left out.
-/

namespace Verif.StmYv

open Verif Verif.Ctm Verif.Stm
open Verif.Mom (Data)
open Verif.CtmQuery (QState queryLoop)

/-- The variables that the loop of `train` changes (stm_yv.py:190-193) -/
structure State where
  A : Nat → Nat → ℝ
  Y : Nat → Nat → ℝ
  RY : Nat → Nat → ℝ
  V : Nat → Nat → ℝ
  sig : Nat → Nat → ℝ
  vocab : Nat → Nat → ℝ
  means : Nat → Nat → ℝ
  expMeans : Nat → Nat → ℝ
  varcs : Nat → Nat → ℝ
  lxi : Nat → Nat → ℝ
  s : Nat → ℝ

/-- The diagonal of `sigT` (stm_yv.py:206, 229-240): the covariance, divided, plus `sigT_regularizer` -/
noncomputable def variance (p : Params) (x : Data) (X : Nat → Nat → ℝ) (st : State) (k : Nat) : ℝ :=
  covariance p x X st.A st.Y st.V st.means st.varcs k k / ((p.P : ℝ) + p.F + x.D) + 0.001

/-- The matrix with a diagonal `v` (`np.diag`, stm_yv.py:240, 242) -/
def diagonal (v : Nat → ℝ) (k j : Nat) : ℝ := if k = j then v k else 0

/-- One iteration of `train` (stm_yv.py:228-290); the topic counts `S` are those of the old topics. -/
noncomputable def trainStep (inv : Nat → (Nat → Nat → ℝ) → Nat → Nat → ℝ) (p : Params) (x : Data) (X : Nat → Nat → ℝ) (st : State) : State :=
  let sig := diagonal (variance p x X st)
  let isig := diagonal fun k => 1 / variance p x X st k
  let e := expRows p.K st.means
  let S := topicCounts x p.K e st.vocab
  let vocab := newVocab x p.K p.prior e st.vocab
  let V := newV inv p 1 isig st.A st.Y st.RY
  let RY := newRY inv p V
  let Y := newY p st.A V RY
  let A := newA p x X Y V (newRA inv p x X) st.means
  let vMat := fun d k => (st.s d * st.lxi d k - 0.5) * (x.len d : ℝ) + S d k
  let rhsMat := fun d k => vMat d k + dot p.K (dotT p.F X A) isig d k
  let lhsMat := fun d k => 1 / (isig k k + (x.len d : ℝ) * st.lxi d k)
  let means := fun d k => lhsMat d k * rhsMat d k
  let varcs := fun d k => 1 / ((x.len d : ℝ) * st.lxi d k + isig k k)
  ⟨A, Y, RY, V, sig, vocab, means, e, varcs, fun d k => 2 * negJakkolaOfDerivedXi means varcs st.s d k, st.s⟩

/-- `train` after `n` iterations (stm_yv.py:220-290; the loop may stop early): `s` is filled with zeros. -/
noncomputable def train (inv : Nat → (Nat → Nat → ℝ) → Nat → Nat → ℝ) (p : Params) (x : Data) (X : Nat → Nat → ℝ) (n : Nat) (st : State) : State :=
  (trainStep inv p x X)^[n] { st with s := fun _ => 0 }

/-- The body of the loop of `query` up to the likelihood (stm_yv.py:365-382) -/
noncomputable def queryStep (p : Params) (x : Data) (X A isig vocab : Nat → Nat → ℝ) (q : QState) : QState :=
  let S := topicCounts x p.K (expRows p.K q.means) vocab
  let vMat := fun d k => (2 * q.s d * q.lxi d k - 0.5) * (x.len d : ℝ) + S d k
  let rhsMat := fun d k => vMat d k + dot p.K (dotT p.F X A) isig d k
  let lhsMat := fun d k => 1 / (isig k k + (x.len d : ℝ) * 2 * q.lxi d k)
  let means := fun d k => lhsMat d k * rhsMat d k
  let varcs := fun d k => 1 / (2 * (x.len d : ℝ) * q.lxi d k + isig k k)
  ⟨means, varcs, fun d k => negJakkolaOfDerivedXi means varcs q.s d k, q.s⟩

/-- `query` (stm_yv.py:326-397): the loop with its early stop is that of ctm.py; `tiny` is the floor of the logarithm,
`perplexity like words` is `perplexity_from_like`, `big` the initial value of `lastPerp`. -/
noncomputable def query (inv : Nat → (Nat → Nat → ℝ) → Nat → Nat → ℝ) (tiny : ℝ) (perplexity : ℝ → ℝ → ℝ) (big : ℝ) (p : Params) (x : Data)
    (X A sig vocab : Nat → Nat → ℝ) (iterations : Nat) (q : QState) : QState :=
  let perp := fun means => perplexity (logLikelihood x p.K tiny means vocab) (∑ d ∈ Finset.range x.D, (x.len d : ℝ))
  queryLoop (queryStep p x X A (inv p.K sig) vocab) perp iterations 0 big q

/-- `newQueryState` (stm_yv.py:125-142, ctm.py:134-145): the weights are random, the variances one, the offsets zero. -/
noncomputable def newQuery (means : Nat → Nat → ℝ) : QState :=
  ⟨means, fun _ _ => 1, fun d k => negJakkolaOfDerivedXi means (fun _ _ => 1) (fun _ => 0) d k, fun _ => 0⟩

end Verif.StmYv
