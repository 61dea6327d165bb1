import Mathlib.Algebra.BigOperators.Group.Finset.Basic
import Mathlib.Data.Rat.Defs
import Mathlib.Data.Rat.BigOperators
import Mathlib.Algebra.Order.Ring.Rat
import Mathlib.Logic.Function.Basic
import Verif.Model.Py
import Verif.Model.Segments

/-!
# Collapsed variational inference

`model/lda_cvb0.py`, `model/lda_cvb0_fast.pyx` (zero order: "CVB0") and `model/lda_cvb.py`, `model/lda_cvb_fast.pyx` (second
order: "CVB").  Floating point numbers are rational numbers; the exponential approximation of `fastexp.h` is an arbitrary
function.  The initial token distributions are computed from arbitrary non-negative numbers instead of `rd.rand`.
Tables are functions of their indices.
-/

namespace Verif.Cvb

open Verif

/-- The token lists: `docLens` and `W_list` (lda_cvb0.py:164-174) -/
structure Corpus where
  lens : List Nat
  w : Nat → Nat → Nat

/-- `docLens[d]` (lda_cvb0_fast.pyx:423, 507) -/
def Corpus.len (c : Corpus) (d : Nat) : Nat := c.lens.getD d 0

/-- `maxN` (lda_cvb0.py:139) -/
def Corpus.maxN (c : Corpus) : Nat := c.lens.foldr max 0

/-- The order in which `for d in range(D_query): for n in range(docLens[d])` visits the tokens (lda_cvb0_fast.pyx:504-505).
-/
def Corpus.tokens (c : Corpus) : List (Nat × Nat) :=
  (List.range c.lens.length).flatMap (fun d => (List.range (c.len d)).map (fun n => (d, n)))

/-- A document × topic, a topic × word and a topic table: `n_dk`, `n_kt`, `n_k` or `v_dk`, `v_kt`, `v_k`.
(lda_cvb0.py:56-64, lda_cvb.py:54-62) -/
structure Sums where
  dk : Nat → Nat → ℚ
  kt : Nat → Nat → ℚ
  k : Nat → ℚ

/-- Add `x` to the three cells of document `d`, word `t` and topic `k` (lda_cvb0_fast.pyx:531-533, lda_cvb_fast.pyx:606-608)
-/
def Sums.bump (s : Sums) (d t k : Nat) (x : ℚ) : Sums where
  dk := fun d' k' => if d' = d ∧ k' = k then s.dk d' k' + x else s.dk d' k'
  kt := fun k' t' => if k' = k ∧ t' = t then s.kt k' t' + x else s.kt k' t'
  k := fun k' => if k' = k then s.k k' + x else s.k k'

/-- The token probabilities `z_dnk`, the counts and (for the second-order model) the variances.
(lda_cvb0.py:56-59, lda_cvb.py:54-57) -/
structure State where
  z : Nat → Nat → Nat → ℚ
  n : Sums
  v : Sums

/-- Numbers of topics and words, the priors `modelState.topicPrior` (a vector) and `vocabPrior`.
(lda_cvb0.py:61-64, lda_cvb.py:59-62) -/
structure Params where
  K : Nat
  T : Nat
  a : Nat → ℚ
  b : ℚ

/-- `topicPrior_.mean()` (lda_cvb0.py:219) -/
def Params.aMean (p : Params) : ℚ := (∑ k ∈ Finset.range p.K, p.a k) / p.K

/-! ## Initialisation -/

/-- `z_dnk /= z_dnk.sum(axis=1)` (lda_cvb0.py:147-149); `r` are the random numbers. -/
def initZ (K : Nat) (r : Nat → Nat → Nat → ℚ) (d n k : Nat) : ℚ := r d n k / ∑ j ∈ Finset.range K, r d n j

/-- Zero out the bits of `z` that do not refer to any actual token (lda_cvb0_fast.pyx:300-303). -/
def zeroTail (c : Corpus) (z : Nat → Nat → Nat → ℚ) (d n k : Nat) : ℚ := if c.len d ≤ n then 0 else z d n k

/-- `calculateCounts_f64` (lda_cvb0_fast.pyx:325-368) for values `g`; the second-order counts (lda_cvb_fast.pyx:275-393)
are the same sums with `g = z` and `g = z (1 - z)`. -/
def calculateCounts (c : Corpus) (g : Nat → Nat → Nat → ℚ) : Sums where
  dk := fun d k => ∑ n ∈ Finset.range c.maxN, g d n k
  kt := fun k t => ∑ d ∈ Finset.range c.lens.length, ∑ n ∈ Finset.range (c.len d), if c.w d n = t then g d n k else 0
  k := fun k => ∑ d ∈ Finset.range c.lens.length, ∑ n ∈ Finset.range c.maxN, g d n k

/-- `newQueryState` (lda_cvb0.py:119-161, lda_cvb.py:124-169) -/
def newQueryState (c : Corpus) (K : Nat) (r : Nat → Nat → Nat → ℚ) : State :=
  let z := zeroTail c (initZ K r)
  ⟨z, calculateCounts c z, calculateCounts c (fun d n k => z d n k * (1 - z d n k))⟩

/-! ## Iterations -/

/-- `is_invalid_prob_f64` (lda_cvb0_fast.pyx:571-579); dividing by zero does not give a real number. -/
def invalidProb (denom x : ℚ) : Bool := decide (denom = 0 ∨ x < -1 / 10 ∨ 11 / 10 < x)

/-- The weight of topic `k` (lda_cvb0_fast.pyx:508-513) -/
def raw0 (p : Params) (c : Corpus) (s : State) (d n k : Nat) : ℚ :=
  (p.aMean + s.n.dk d k - s.z d n k) * (p.b + s.n.kt k (c.w d n) - s.z d n k) / (p.T * p.b + s.n.k k - s.z d n k)

/-- The weight of topic `k` in the second-order model (lda_cvb_fast.pyx:576-592); `ex` is `exp_approx` of `fastexp.h`. -/
def raw2 (ex : ℚ → ℚ) (p : Params) (c : Corpus) (s : State) (d n k : Nat) : ℚ :=
  let term1 := p.aMean + s.n.dk d k - s.z d n k
  let term2 := p.b + s.n.kt k (c.w d n) - s.z d n k
  let term3 := p.b * p.T + s.n.k k - s.z d n k
  let sot := 0 - s.v.dk d k / (2 * term1 * term1) - s.v.kt k (c.w d n) / (2 * term2 * term2) + s.v.k k / (2 * term3 * term3)
  let esot := if -151 / 2 < sot then ex sot else 1 / 10 ^ 33
  term1 * term2 * esot / term3

/-- `z_dnk[d,n,k] = x` (lda_cvb0_fast.pyx:445, 529) -/
def setZ (z : Nat → Nat → Nat → ℚ) (d n k : Nat) (x : ℚ) (d' n' k' : Nat) : ℚ :=
  if d' = d ∧ n' = n ∧ k' = k then x else z d' n' k'

/-- Lines 528-533 of lda_cvb0_fast.pyx (lda_cvb0_fast.pyx:528-533) -/
def update0 (c : Corpus) (d n : Nat) (s : State) (k : Nat) (m : ℚ) : State :=
  let diff := m - s.z d n k
  { s with z := setZ s.z d n k m, n := s.n.bump d (c.w d n) k diff }

/-- Lines 605-615 of lda_cvb_fast.pyx (`iterate_f64`) (lda_cvb_fast.pyx:605-615) -/
def update64 (c : Corpus) (d n : Nat) (s : State) (k : Nat) (m : ℚ) : State :=
  let diff := m - s.z d n k
  let diffV := m * (1 - m) - s.z d n k * (1 - s.z d n k)
  ⟨setZ s.z d n k m, s.n.bump d (c.w d n) k diff, s.v.bump d (c.w d n) k diffV⟩

/-- Lines 499-509 of lda_cvb_fast.pyx (`iterate_f32`): the new variance is not multiplied by `1 - mems[k]`.
(lda_cvb_fast.pyx:499-509) -/
def update32 (c : Corpus) (d n : Nat) (s : State) (k : Nat) (m : ℚ) : State :=
  let diff := m - s.z d n k
  let diffV := m - s.z d n k * (1 - s.z d n k)
  ⟨setZ s.z d n k m, s.n.bump d (c.w d n) k diff, s.v.bump d (c.w d n) k diffV⟩

/-- What distinguishes the four compiled functions: the weights, the update of one topic, and whether probabilities are
checked (all but the single precision second-order one do). (lda_cvb0_fast.pyx:374-555, lda_cvb_fast.pyx:400-619) -/
structure Kernel where
  raw : Params → Corpus → State → Nat → Nat → Nat → ℚ
  update : Corpus → Nat → Nat → State → Nat → ℚ → State
  check : Bool

/-- `iterate_f32`, `iterate_f64` of lda_cvb0_fast.pyx (374-450, 455-555) (lda_cvb0_fast.pyx:374-555) -/
def kernel0 : Kernel := ⟨raw0, update0, true⟩

/-- `iterate_f64` of lda_cvb_fast.pyx (517-619) (lda_cvb_fast.pyx:517-619) -/
def kernel64 (ex : ℚ → ℚ) : Kernel := ⟨raw2 ex, update64, true⟩

/-- `iterate_f32` of lda_cvb_fast.pyx (400-511) (lda_cvb_fast.pyx:400-511) -/
def kernel32 (ex : ℚ → ℚ) : Kernel := ⟨raw2 ex, update32, false⟩

/-- The second loop over topics (lda_cvb0_fast.pyx:517-533): store the normalised weights; the flag of the result says that
the function returned because of an invalid probability. -/
def topicLoop (ker : Kernel) (c : Corpus) (d n : Nat) (w : Nat → ℚ) (denom : ℚ) : List Nat → State → State × Bool
  | [], s => (s, false)
  | k :: ks, s =>
    if ker.check && invalidProb denom (w k / denom) then (s, true)
    else topicLoop ker c d n w denom ks (ker.update c d n s k (w k / denom))

/-- One token (lda_cvb0_fast.pyx:506-533): first the weights of all topics and their sum, then the updates. -/
def visit (ker : Kernel) (p : Params) (c : Corpus) (s : State) (tok : Nat × Nat) : State × Bool :=
  topicLoop ker c tok.1 tok.2 (ker.raw p c s tok.1 tok.2) (∑ k ∈ Finset.range p.K, ker.raw p c s tok.1 tok.2 k)
    (List.range p.K) s

/-- Visiting tokens one after the other until the function returns. (lda_cvb0_fast.pyx:422-449, 506-555) -/
def visitAll (ker : Kernel) (p : Params) (c : Corpus) : List (Nat × Nat) → State → State × Bool
  | [], s => (s, false)
  | tok :: toks, s =>
    match visit ker p c s tok with
    | (s', true) => (s', true)
    | (s', false) => visitAll ker p c toks s'

/-- `for itr in range(iterations)` (lda_cvb0_fast.pyx:502-533) -/
def iterate (ker : Kernel) (p : Params) (c : Corpus) : Nat → State → State × Bool
  | 0, s => (s, false)
  | i + 1, s =>
    match visitAll ker p c c.tokens s with
    | (s', true) => (s', true)
    | (s', false) => iterate ker p c i s'

/-! ## Training and querying -/

/-- What `log_likelihood_point` (lda_cvb0.py:355-392, lda_cvb.py:388-423) does to the document-topic and topic-word counts it
is given: add the priors, divide by the sums of the rows, multiply by them, subtract the priors. -/
def measure (p : Params) (n : Sums) : Sums where
  dk := fun d k => (n.dk d k + p.a k) / (∑ j ∈ Finset.range p.K, (n.dk d j + p.a j))
      * (∑ j ∈ Finset.range p.K, (n.dk d j + p.a j)) - p.a k
  kt := fun k t => (n.kt k t + p.b) / (∑ u ∈ Finset.range p.T, (n.kt k u + p.b))
      * (∑ u ∈ Finset.range p.T, (n.kt k u + p.b)) - p.b
  k := n.k

/-- The iterations of one segment followed by the measurements, which work on the same tables (lda_cvb0.py:257-266, 281-288)
-/
def segment (ker : Kernel) (p : Params) (c : Corpus) (s : State) (iters : Int) : State :=
  let s' := (iterate ker p c iters.toNat s).1
  { s' with n := measure p s'.n }

/-- The counts (or variances) of a trained model: `n_dk`, a list of rows, `n_kt` and `n_k`. (lda_cvb0.py:61-64) -/
structure Counts where
  rows : List (Nat → ℚ)
  kt : Nat → Nat → ℚ
  k : Nat → ℚ

/-- `np.add(q_n_kt, m_n_kt, out=q_n_kt); np.add(q_n_k, m_n_k, out=q_n_k)` (lda_cvb0.py:242-243) -/
def Sums.addModel (s : Sums) (m : Counts) : Sums := ⟨s.dk, fun k t => s.kt k t + m.kt k t, fun k => s.k k + m.k k⟩

/-- `np.subtract(...)` (lda_cvb0.py:293-294) -/
def Sums.subModel (s : Sums) (m : Counts) : Sums := ⟨s.dk, fun k t => s.kt k t - m.kt k t, fun k => s.k k - m.k k⟩

/-- The rows of `q_n_dk` (lda_cvb0.py:305-307) -/
def Sums.rows (s : Sums) (D : Nat) : List (Nat → ℚ) := (List.range D).map (fun d k => s.dk d k)

/-- `train` of the zero-order model (lda_cvb0.py:192-307).  `m` are the model's counts (`none` before the first training),
`q` is the query state, `calls` the arguments of the calls of the compiled function (see `Segments.cvb0Train`).
The result is the model's counts and the query state. -/
def train0 (p : Params) (c : Corpus) (calls : List Int) (query : Bool) (m : Option Counts) (q : State) :
    Py (Option Counts × State) :=
  if c.lens.any (fun l => decide (l < 1)) then .error .valueError
  else
    match m with
    | none =>
      let q' := calls.foldl (segment kernel0 p c) q
      if query then .ok (none, q')
      else .ok (some ⟨q'.n.rows c.lens.length, q'.n.kt, q'.n.k⟩, q')
    | some m =>
      let q' := calls.foldl (segment kernel0 p c) { q with n := q.n.addModel m }
      if query then .ok (some m, { q' with n := q'.n.subModel m })
      else .ok (some ⟨m.rows ++ q'.n.rows c.lens.length, q'.n.kt, q'.n.k⟩, q')

/-- The counts and the variances of a trained second-order model (lda_cvb.py:59-62) -/
structure Counts2 where
  n : Counts
  v : Counts

/-- `train` of the second-order model (lda_cvb.py:199-334).  When an existing model is amended, line 322 assigns the
variances to the topic counts `m_n_k` instead of to `m_v_k`. -/
def train2 (ker : Kernel) (p : Params) (c : Corpus) (calls : List Int) (query : Bool) (m : Option Counts2) (q : State) :
    Py (Option Counts2 × State) :=
  if c.lens.any (fun l => decide (l < 1)) then .error .valueError
  else
    match m with
    | none =>
      let q' := calls.foldl (segment ker p c) q
      if query then .ok (none, q')
      else .ok (some ⟨⟨q'.n.rows c.lens.length, q'.n.kt, q'.n.k⟩, ⟨q'.v.rows c.lens.length, q'.v.kt, q'.v.k⟩⟩, q')
    | some m =>
      let q' := calls.foldl (segment ker p c) { q with n := q.n.addModel m.n, v := q.v.addModel m.v }
      if query then .ok (some m, { q' with n := q'.n.subModel m.n, v := q'.v.subModel m.v })
      else .ok (some ⟨⟨m.n.rows ++ q'.n.rows c.lens.length, q'.n.kt, q'.v.k⟩,
        ⟨m.v.rows ++ q'.v.rows c.lens.length, q'.v.kt, m.v.k⟩⟩, q')

/-- `newModelFromExisting` of the second-order model (lda_cvb.py:68-83): the copies of the variances are copies of the
counts. -/
def newModelFromExisting2 (m : Counts2) : Counts2 := ⟨m.n, m.n⟩

/-- `topicDists` and `wordDists` (lda_cvb0.py:185-189, lda_cvb.py:172-176) -/
def topicDists (K : Nat) (n : Sums) (d k : Nat) : ℚ := n.dk d k / ∑ j ∈ Finset.range K, n.dk d j

/-- `wordDists` (lda_cvb0.py:188-189, lda_cvb.py:175-176) -/
def wordDists (T : Nat) (m : Counts) (k t : Nat) : ℚ := m.kt k t / ∑ u ∈ Finset.range T, m.kt k u

end Verif.Cvb
