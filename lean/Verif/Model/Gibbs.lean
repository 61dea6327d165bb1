import Mathlib.Algebra.BigOperators.Group.Finset.Basic
import Mathlib.Data.Rat.Floor
import Mathlib.Logic.Function.Basic
import Verif.Model.Py
import Verif.Model.Csr

/-!
# Collapsed Gibbs sampling

`model/lda_gibbs.py`, `model/lda_gibbs_fast.pyx`, and the same code in `model/dmr_fast.pyx`.  Double
precision numbers are modelled by rational numbers; the random number generator of the C library is an arbitrary input
(a number from 0 to `RAND_MAX` for each call).  The compiled code runs without bounds checks: where it would write outside
of its tables, or loop for ever, the model has no result (`none`).
-/

namespace Verif.Gibbs

open Verif

/-- `RAND_MAX` of the C library (glibc). (used in lda_gibbs_fast.pyx:39-45, 239) -/
def randMax : Nat := 2147483647

/-- `rand_lim` (lda_gibbs_fast.pyx:39-45, dmr_fast.pyx) for `min_val = 0`; `r` is the value of `rand()`. -/
def randLim (r : Nat) (maxVal : Int) : Int := ⌊(r : ℚ) / (randMax + 1) * (maxVal + 1)⌋

/-! ## Tokens -/

/-- `flatten_native` (lda_gibbs_fast.pyx:315-333): every stored index, as often as its stored value says. -/
def flattenNative (m : Csr Nat) : List Nat := (m.indices.zip m.data).flatMap (fun p => List.replicate p.2 p.1)

/-- What `np.squeeze` makes of a `D × 1` array: a number if `D = 1`. (lda_gibbs_fast.pyx:310) -/
inductive Squeezed
  | scalar (n : Nat)
  | vec (l : List Nat)

/-- `np.squeeze` of the sums of the rows (lda_gibbs_fast.pyx:310) -/
def squeeze : List Nat → Squeezed
  | [n] => .scalar n
  | l => .vec l

/-- `docLens.shape[0]` (lda_gibbs.py:192, 233) -/
def Squeezed.shape0 : Squeezed → Py Nat
  | .scalar _ => .error .indexError
  | .vec l => .ok l.length

/-- The lengths of the documents, `sparseMat.sum(axis=1)` (lda_gibbs_fast.pyx:309) -/
def docLens (m : Csr Nat) : List Nat := (List.range m.rows).map (fun r => ((m.row r).map Prod.snd).sum)

/-- `flatten` (lda_gibbs_fast.pyx:293-312, dmr_fast.pyx:352-372): the tokens and the squeezed lengths. -/
def flatten (m : Csr Nat) : Py (List Nat × Squeezed) :=
  if 65536 < m.cols then .error .valueError
  else .ok (flattenNative m, squeeze (docLens m))

/-- The (document, position) pairs of all tokens in storage order: what the loops of `sumSuffStats`
(lda_gibbs_fast.pyx:141-144) run through. -/
def tokensFrom : Nat → Nat → List Nat → List (Nat × Nat)
  | _, _, [] => []
  | d, start, len :: lens => (List.range len).map (fun i => (d, start + i)) ++ tokensFrom (d + 1) (start + len) lens

/-- `tokensFrom` from the first document on (lda_gibbs_fast.pyx:126-151) -/
def tokens (lens : List Nat) : List (Nat × Nat) := tokensFrom 0 0 lens

/-- The offsets visited in one document (lda_gibbs_fast.pyx:217-218): `count` rounds from `nsimple`. -/
def visitLoop (len : Nat) : Nat → Nat → List Nat
  | 0, _ => []
  | c + 1, nsimple => ((nsimple + 1) % len) :: visitLoop len c ((nsimple + 1) % len)

/-- The order in which one sweep visits the tokens (lda_gibbs_fast.pyx:211-219, 252); `rnd d` is the value of `rand()`
for the starting point in document `d`. -/
def sweepFrom (rnd : Nat → Nat) : Nat → Nat → List Nat → List (Nat × Nat)
  | _, _, [] => []
  | d, start, len :: lens =>
    (visitLoop len len (randLim (rnd d) ((len : Int) - 1)).toNat).map (fun i => (d, start + i)) ++
      sweepFrom rnd (d + 1) (start + len) lens

/-- `sweepFrom` from the first document on (lda_gibbs_fast.pyx:211-219) -/
def sweepOrder (rnd : Nat → Nat) (lens : List Nat) : List (Nat × Nat) := sweepFrom rnd 0 0 lens

/-! ## Count tables -/

/-- `z_list`, `ndk`, `nkv`, `nk` (lda_gibbs_fast.pyx:159-173, lda_gibbs.py:194-197) -/
structure Tables where
  z : Nat → Nat
  ndk : Nat → Nat → Int
  nkv : Nat → Nat → Int
  nk : Nat → Int

/-- `f[i] += x` (as in lda_gibbs_fast.pyx:228, 249) -/
def bump (f : Nat → Int) (i : Nat) (x : Int) : Nat → Int := fun j => if j = i then f j + x else f j

/-- `f[i,j] += x` (as in lda_gibbs_fast.pyx:226-227, 247-248) -/
def bump2 (f : Nat → Nat → Int) (i j : Nat) (x : Int) : Nat → Nat → Int :=
  fun i' j' => if i' = i ∧ j' = j then f i' j' + x else f i' j'

/-- `sumSuffStats` (lda_gibbs_fast.pyx:126-151, dmr_fast.pyx:139-164) -/
def sumSuffStats (w : Nat → Nat) (lens : List Nat) (s : Tables) : Tables :=
  (tokens lens).foldl (fun s t =>
    { s with
      ndk := bump2 s.ndk t.1 (s.z t.2) 1
      nkv := bump2 s.nkv (s.z t.2) (w t.2) 1
      nk := bump s.nk (s.z t.2) 1 }) s

/-- The loop choosing a topic (lda_gibbs_fast.pyx:238-242): `while draw > 0: k = (k + 1) % K; draw -= dist[k]`.  As the draw is
at most the sum of the weights, `K` rounds are enough, otherwise it does not end. -/
def chooseLoop (K : Nat) (dist : Nat → ℚ) : Nat → Int → ℚ → Option Int
  | 0, k, draw => if 0 < draw then none else some k
  | fuel + 1, k, draw =>
    if 0 < draw then chooseLoop K dist fuel ((k + 1) % K) (draw - dist ((k + 1) % K).toNat) else some k

/-- The choice of a topic from the weights; `r` is the value of `rand()`. (lda_gibbs_fast.pyx:238-242) -/
def chooseTopic (K : Nat) (dist : Nat → ℚ) (r : Nat) : Option Int :=
  chooseLoop K dist K (-1) ((r : ℚ) / randMax * ∑ j ∈ Finset.range K, dist j)

/-- What a call of `sample` is given: the tokens' words, the documents' lengths, the number of topics and of words, the
priors.  `a d k` does not depend on `d` for LDA and is `alphas[d,k]` in `dmr_fast.pyx`. (lda_gibbs_fast.pyx:159-173) -/
structure Params where
  K : Nat
  T : Nat
  lens : List Nat
  w : Nat → Nat
  a : Nat → Nat → ℚ
  b : Nat → ℚ

/-- `bSum` (lda_gibbs_fast.pyx:213) -/
def Params.bSum (p : Params) : ℚ := ∑ v ∈ Finset.range p.T, p.b v
/-- `aSum` (lda_gibbs_fast.pyx:212) -/
def Params.aSum (p : Params) (d : Nat) : ℚ := ∑ k ∈ Finset.range p.K, p.a d k

/-- The weights of the topics for a token of document `d` with word `v` (lda_gibbs_fast.pyx:230-236) -/
def topicWeights (p : Params) (ndk nkv : Nat → Nat → Int) (nk : Nat → Int) (d v : Nat) : Nat → ℚ :=
  fun j => ((ndk d j : ℚ) + p.a d j) * ((nkv j v : ℚ) + p.b v) / ((nk j : ℚ) + p.bSum)

/-- One token (lda_gibbs_fast.pyx:221-249); `delta` is `queryDelta`: 0 for a query, 1 in training.  The assignment is
stored in an unsigned byte. -/
def resample (p : Params) (delta : Int) (r : Nat) (t : Nat × Nat) (s : Tables) : Option Tables :=
  let k := s.z t.2
  let v := p.w t.2
  let ndk := bump2 s.ndk t.1 k (-1)
  let nkv := bump2 s.nkv k v (-delta)
  let nk := bump s.nk k (-delta)
  match chooseTopic p.K (topicWeights p ndk nkv nk t.1 v) r with
  | some (.ofNat k') => some
    { z := Function.update s.z t.2 (k' % 256)
      ndk := bump2 ndk t.1 k' 1
      nkv := bump2 nkv k' v delta
      nk := bump nk k' delta }
  | _ => none

/-- The random numbers of one sweep. (lda_gibbs_fast.pyx:216, 239) -/
structure Rand where
  start : Nat → Nat
  draw : Nat → Nat

/-- One sweep over all tokens (lda_gibbs_fast.pyx:210-252). -/
def sweep (p : Params) (delta : Int) (rnd : Rand) (s : Tables) : Option Tables :=
  (sweepOrder rnd.start p.lens).foldlM (fun s t => resample p delta (rnd.draw t.2) t s) s

/-- The tables and the accumulated samples. (lda_gibbs_fast.pyx:159-173) -/
structure State where
  tables : Tables
  topicSum : Nat → Nat → ℚ
  vocabSum : Nat → Nat → ℚ
  count : Nat

/-- Adding a sample (lda_gibbs_fast.pyx:261-271) -/
def takeSample (p : Params) (isQuery : Bool) (st : State) : State :=
  { st with
    topicSum := fun d k => st.topicSum d k + ((st.tables.ndk d k : ℚ) + p.a d k) / ((p.lens.getD d 0 : ℚ) + p.aSum d)
    vocabSum := if isQuery then st.vocabSum else
      fun k v => st.vocabSum k v + ((st.tables.nkv k v : ℚ) + p.b v) / ((st.tables.nk k : ℚ) + p.bSum)
    count := st.count + 1 }

/-- `sample` (lda_gibbs_fast.pyx:159-290, for `UpdateHyperParameters = False` as set in line 8), from a count of 0.  A
`thin` of 0 (a division by zero in C) is not modelled. -/
def sample (p : Params) (isQuery : Bool) (count thin : Nat) (rnd : Nat → Rand) (st : State) : Option State :=
  (List.range count).foldlM (fun st s => do
    let t ← sweep p (if isQuery then 0 else 1) (rnd s) st.tables
    let st := { st with tables := t }
    return if (s + 1) % thin = 0 then takeSample p isQuery st else st) { st with count := 0 }

/-! ## Training and querying -/

/-- `TrainPlan` without the fields for logging (lda_gibbs.py:49-51) -/
structure Plan where
  iterations : Nat
  burnIn : Nat
  thin : Nat
  deriving DecidableEq

/-- `newTrainPlan` (lda_gibbs.py:166-175) -/
def newTrainPlan (iterations : Nat) (burnIn thin : Int) : Plan :=
  let burnIn := if burnIn < 0 then iterations / 2 else burnIn.toNat
  let thin := if thin < 0 then (if iterations ≤ 100 then 5 else if iterations ≤ 1000 then 10 else 50) else thin.toNat
  ⟨iterations + burnIn, burnIn, thin⟩

/-- The checks of `newModelAtRandom` (lda_gibbs.py:86-88) -/
def modelChecks (K T : Nat) : Py Unit := do
  pyAssert (1 < K)
  pyAssert (K < 256)
  pyAssert (T < 65536)

/-- all tables zero (lda_gibbs.py:194-197) -/
def zeroTables (z : Nat → Nat) : Tables := ⟨z, fun _ _ => 0, fun _ _ => 0, fun _ => 0⟩

/-- `train` (lda_gibbs.py:183-221); `rnd1` are the random numbers of the burn-in. -/
def train (p : Params) (plan : Plan) (z : Nat → Nat) (rnd1 rnd2 : Nat → Rand) : Option State := do
  let s := sumSuffStats p.w p.lens (zeroTables z)
  let st ← sample p false plan.burnIn (plan.burnIn + 1) rnd1 ⟨s, fun _ _ => 0, fun _ _ => 0, 0⟩
  sample p false (plan.iterations - plan.burnIn) plan.thin rnd2 st

/-- The fields of `ModelState` that training fills. (lda_gibbs.py:58-61) -/
structure Model where
  vocabSum : Nat → Nat → ℚ
  numSamples : Nat

/-- `wordDists` (lda_gibbs.py:269-276); with no samples numpy gives undefined values. -/
def wordDists (m : Model) : Option (Nat → Nat → ℚ) :=
  if m.numSamples = 0 then none else some (fun k v => m.vocabSum k v / m.numSamples)

/-- `topicDists` (lda_gibbs.py:261-268) -/
def topicDists (topicSum : Nat → Nat → ℚ) (numSamples : Nat) : Option (Nat → Nat → ℚ) :=
  if numSamples = 0 then none else some (fun d k => topicSum d k / numSamples)

/-- `query` (lda_gibbs.py:224-257): the returned model and query state.  `p.b` is replaced by zero. -/
def query (p : Params) (m : Model) (plan : Plan) (z : Nat → Nat) (rnd1 rnd2 : Nat → Rand) :
    Option (Model × State) := do
  let φ ← wordDists m
  let nkv : Nat → Nat → Int := fun k v => ⌊φ k v * 1000000⌋
  let nk : Nat → Int := fun k => ∑ v ∈ Finset.range p.T, nkv k v
  let q := { p with b := fun _ => 0 }
  let s := sumSuffStats p.w p.lens ⟨z, fun _ _ => 0, nkv, nk⟩
  let st ← sample q true plan.burnIn (plan.burnIn + 1) rnd1 ⟨s, fun _ _ => 0, m.vocabSum, 0⟩
  let st ← sample q true (plan.iterations - plan.burnIn) plan.thin rnd2 st
  return (⟨st.vocabSum, st.count⟩, st)

end Verif.Gibbs
