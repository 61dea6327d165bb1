import Mathlib.Analysis.SpecialFunctions.Exp
import Mathlib.Algebra.BigOperators.Group.Finset.Basic
import Verif.Model.Cvb

/-!
# Variational Bayes for latent Dirichlet allocation

`model/lda_vb.py`, `model/lda_svb.py` and `model/lda_vb_fast.pyx`.  Floating point numbers are real numbers.  The digamma
function of the libraries is an arbitrary function `psi` (the clamp of its argument at `1E-300`, lda_vb_fast.pyx:47-50, is a
part of it).  Tables are functions of their indices.  Which compiled function a call reaches, and whether the call is
accepted, is the subject of `Verif.Model.Segments`.
-/

namespace Verif.Vb

open Verif
open Verif.Cvb (Corpus)

/-- `K`, `T`, `topicPrior` and `vocabPrior` of the `ModelState` (lda_vb.py:62-65). -/
structure Params where
  K : Nat
  T : Nat
  a : Nat → ℝ
  b : ℝ

/-! ## Inferring the topics of one document -/

/-- `MinInnerIters` (lda_vb_fast.pyx:36) -/
def minInner : Nat := 3

/-- `MaxInnerItrs` (lda_vb_fast.pyx:35) -/
def maxInner : Nat := 100

/-- The running maximum, which starts at a very small number (lda_vb_fast.pyx:263-271,
685-693); it is `-1E+30` in single and `-1E+300` in double precision, of which the model has the former. -/
noncomputable def runMax (K : Nat) (start : ℝ) (l : Nat → ℝ) : ℝ :=
  (List.range K).foldl (fun m k => if m < l k then l k else m) start

/-- One row of `z_dnk` from its logarithms (lda_vb_fast.pyx:261-284, 683-706). -/
noncomputable def tokenProbs (K : Nat) (start : ℝ) (l : Nat → ℝ) (k : Nat) : ℝ :=
  Real.exp (l k - runMax K start l) / ∑ j ∈ Finset.range K, Real.exp (l j - runMax K start l)

/-- What one inner round works with: the digamma functions of the vocabulary and of its row sums, the number of documents,
and the words of the document. (lda_vb_fast.pyx:199-207, 621-629) -/
structure DocInput where
  /-- `diVocabDists` -/
  di : Nat → Nat → ℝ
  /-- `diSumVocabDists` -/
  diSum : Nat → ℝ
  /-- `D` -/
  D : Nat
  /-- `docLens[d]` -/
  len : Nat
  /-- `W_list[d,:]` -/
  w : Nat → Nat

/-- `topicPrior[k] + post` where `post = D / K` (lda_vb_fast.pyx:245-249, 667-671) -/
noncomputable def start (p : Params) (D : Nat) (k : Nat) : ℝ := p.a k + (D : ℝ) / (p.K : ℝ)

/-- The state of the inner loop: `oldMems`, `topicDists[d,:]`, `z_dnk`, `innerItrs`. (lda_vb_fast.pyx:240-256, 662-678) -/
structure Inner where
  old : Nat → ℝ
  row : Nat → ℝ
  z : Nat → Nat → ℝ
  itrs : Nat

/-- The logarithms of the probabilities of the `n`-th token (lda_vb_fast.pyx:267-269, 689-691) -/
noncomputable def logits (psi : ℝ → ℝ) (x : DocInput) (row : Nat → ℝ) (n k : Nat) : ℝ :=
  x.di k (x.w n) - x.diSum k + psi (row k)

/-- One round of the loop (lda_vb_fast.pyx:253-290, 675-712). -/
noncomputable def innerRound (psi : ℝ → ℝ) (p : Params) (x : DocInput) (s : Inner) : Inner :=
  let row := start p x.D
  let z := fun n k => if n < x.len then tokenProbs p.K (-10 ^ 30) (logits psi x row n) k else s.z n k
  { old := s.row
    row := fun k => (List.range x.len).foldl (fun acc n => acc + z n k) (row k)
    z := z
    itrs := s.itrs + 1 }

/-- `l1_dist_f32`, `l1_dist_f64` (lda_vb_fast.pyx:317-325, 740-748) -/
noncomputable def l1 (K : Nat) (u v : Nat → ℝ) : ℝ := ∑ k ∈ Finset.range K, |u k - v k|

open Classical in
/-- The `while` loop (lda_vb_fast.pyx:251-290, 673-712); `fuel` is the number of rounds left until `MaxInnerItrs`. -/
noncomputable def innerLoop (psi : ℝ → ℝ) (p : Params) (x : DocInput) : Nat → Inner → Inner
  | 0, s => s
  | fuel + 1, s =>
    if s.itrs < minInner ∨ 1 / 100 / (p.K : ℝ) < l1 p.K s.old s.row then
      innerLoop psi p x fuel (innerRound psi p x s)
    else s

/-- `infer_topics_f32` and `infer_topics_f64` (lda_vb_fast.pyx:199-296, 621-718): the new row of `topicDists`, the new
contents of `z_dnk` and the number of rounds. -/
noncomputable def inferTopics (psi : ℝ → ℝ) (p : Params) (x : DocInput) (z : Nat → Nat → ℝ) : Inner :=
  innerLoop psi p x maxInner { old := fun _ => 1 / (p.K : ℝ), row := start p x.D, z := z, itrs := 0 }

/-! ## Training -/

/-- `topicDists`, the vocabulary parameters `wordDists`, the buffer `z_dnk` and the total of inner rounds.
(lda_vb_fast.pyx:61-64, 345-348) -/
structure State where
  topics : Nat → Nat → ℝ
  vocab : Nat → Nat → ℝ
  z : Nat → Nat → ℝ
  total : Nat

/-- Digamma of the vocabulary and of its row sums (lda_vb_fast.pyx:110-111, 507-508), and document `d`. -/
noncomputable def docInput (psi : ℝ → ℝ) (p : Params) (c : Corpus) (vocab : Nat → Nat → ℝ) (d : Nat) : DocInput where
  di := fun k t => psi (vocab k t)
  diSum := fun k => psi (∑ t ∈ Finset.range p.T, vocab k t)
  D := c.lens.length
  len := c.len d
  w := c.w d

/-- `vocabDists[k,t] += x` (lda_vb_fast.pyx:132, 531) -/
noncomputable def bump (v : Nat → Nat → ℝ) (k t : Nat) (x : ℝ) : Nat → Nat → ℝ :=
  fun k' t' => if k' = k ∧ t' = t then v k' t' + x else v k' t'

/-- `for k in range(K): for n in range(docLens[d])` … `vocabDists[k,t] += z_dnk[n,k]` (lda_vb_fast.pyx:129-132, 528-531) -/
noncomputable def addTokens (K len : Nat) (w : Nat → Nat) (z : Nat → Nat → ℝ) (v : Nat → Nat → ℝ) : Nat → Nat → ℝ :=
  ((List.range K).flatMap (fun k => (List.range len).map (fun n => (k, n)))).foldl
    (fun v kn => bump v kn.1 (w kn.2) (z kn.2 kn.1)) v

/-- The effect of `infer_topics` on the tables. (lda_vb_fast.pyx:119-126, 517-526) -/
noncomputable def inferDoc (psi : ℝ → ℝ) (p : Params) (c : Corpus) (vocab : Nat → Nat → ℝ) (s : State) (d : Nat) : State :=
  let r := inferTopics psi p (docInput psi p c vocab d) s.z
  { s with
    topics := fun d' k => if d' = d ∧ k < p.K then r.row k else s.topics d' k
    z := r.z
    total := s.total + r.itrs }

/-- One document of `iterate_f32` (lda_vb_fast.pyx:119-138), `vocab0` is the vocabulary at the start of the iteration. -/
noncomputable def stepDoc (psi : ℝ → ℝ) (p : Params) (c : Corpus) (vocab0 : Nat → Nat → ℝ) (s : State) (d : Nat) : State :=
  let s' := inferDoc psi p c vocab0 s d
  { s' with vocab := addTokens p.K (c.len d) (c.w d) s'.z s'.vocab }

/-- One iteration of `iterate_f32` (lda_vb_fast.pyx:109-138). -/
noncomputable def iterate1 (psi : ℝ → ℝ) (p : Params) (c : Corpus) (s : State) : State :=
  (List.range c.lens.length).foldl (stepDoc psi p c s.vocab) { s with vocab := fun _ _ => p.b }

/-- `iterate_f32` (lda_vb_fast.pyx:61-166) -/
noncomputable def iterate (psi : ℝ → ℝ) (p : Params) (c : Corpus) : Nat → State → State
  | 0, s => s
  | n + 1, s => iterate psi p c n (iterate1 psi p c s)

/-! ## Stochastic training -/

/-- The state of the second `iterate_f64`: the tables, `vocabUpdates`, the vocabulary last passed through digamma, and
`batchProcessCount`. (lda_vb_fast.pyx:456-505) -/
structure SState where
  base : State
  updates : Nat → Nat → ℝ
  /-- the table of which `diVocabDists` and `diSumVocabDists` are the digamma functions -/
  seen : Nat → Nat → ℝ
  count : Nat

/-- `batchSize`, `t_offset`, and `stepSize` as a function of the iteration: the formula (lda_vb_fast.pyx:541) is arbitrary -/
structure Batch where
  size : Nat
  step : Nat → ℝ

/-- One document (lda_vb_fast.pyx:517-557). -/
noncomputable def sstepDoc (psi : ℝ → ℝ) (p : Params) (c : Corpus) (b : Batch) (itr : Nat) (s : SState) (d : Nat) : SState :=
  let count := s.count + 0
  let base := inferDoc psi p c s.seen s.base d
  let updates := addTokens p.K (c.len d) (c.w d) base.z s.updates
  if 0 < b.size then
    if b.size ≤ count then
      let vocab := fun k t => (1 - b.step itr) * base.vocab k t + b.step itr * updates k t
      { base := { base with vocab := vocab }, updates := fun _ _ => 0, seen := vocab, count := 0 }
    else { base := base, updates := updates, seen := s.seen, count := count }
  else if d + 1 = c.lens.length then
    { base := { base with vocab := updates }, updates := updates, seen := updates, count := count }
  else { base := base, updates := updates, seen := s.seen, count := count }

/-- One iteration (lda_vb_fast.pyx:506-557). -/
noncomputable def siterate1 (psi : ℝ → ℝ) (p : Params) (c : Corpus) (b : Batch) (itr : Nat) (s : SState) : SState :=
  (List.range c.lens.length).foldl (sstepDoc psi p c b itr)
    { s with updates := fun _ _ => if b.size = 0 then p.b else 0, seen := s.base.vocab }

/-- The second `iterate_f64` (lda_vb_fast.pyx:456-588), from iteration `itr` on. -/
noncomputable def siterateFrom (psi : ℝ → ℝ) (p : Params) (c : Corpus) (b : Batch) : Nat → Nat → SState → SState
  | _, 0, s => s
  | itr, n + 1, s => siterateFrom psi p c b (itr + 1) n (siterate1 psi p c b itr s)

/-- The second `iterate_f64` (lda_vb_fast.pyx:456-588). -/
noncomputable def siterate (psi : ℝ → ℝ) (p : Params) (c : Corpus) (b : Batch) (iterations : Nat) (s : State) : State :=
  (siterateFrom psi p c b 0 iterations { base := s, updates := fun _ _ => 0, seen := s.vocab, count := 0 }).base

/-! ## Querying and reading -/

/-- `query_f32`, `query_f64` (lda_vb_fast.pyx:173-194, 595-616) -/
noncomputable def query1 (psi : ℝ → ℝ) (p : Params) (c : Corpus) (s : State) : State :=
  (List.range c.lens.length).foldl (inferDoc psi p c s.vocab) s

/-- `query` (lda_vb.py:304-343): the model is `s.vocab`, the query state is `s.topics`. -/
noncomputable def query (psi : ℝ → ℝ) (p : Params) (c : Corpus) : Nat → State → State
  | 0, s => s
  | n + 1, s => query psi p c n (query1 psi p c s)

/-- Divide every row by its sum. (lda_vb.py:345-365) -/
noncomputable def normalise (n : Nat) (m : Nat → Nat → ℝ) (i j : Nat) : ℝ := m i j / ∑ j' ∈ Finset.range n, m i j'

/-- `wordDists` (lda_vb.py:345-353): the returned matrix and the state afterwards; `result` is the model's own array and
`/=` works in place. -/
noncomputable def wordDists (p : Params) (s : State) : (Nat → Nat → ℝ) × State :=
  (normalise p.T s.vocab, { s with vocab := normalise p.T s.vocab })

/-- `topicDists` (lda_vb.py:355-364), likewise. -/
noncomputable def topicDists (p : Params) (s : State) : (Nat → Nat → ℝ) × State :=
  (normalise p.K s.topics, { s with topics := normalise p.K s.topics })

/-- The effect of `var_bound` (lda_vb.py:377-452; it calls `wordDists`) and `log_likelihood` (366-374; it calls `topicDists`
and `wordDists`) on the tables, in `train` (lda_vb.py:217-218). -/
noncomputable def measured (p : Params) (s : State) : State :=
  (wordDists p (topicDists p (wordDists p s).2).2).2

/-- `train` (lda_vb.py:158-246) for the numbers of iterations of its segments: after each, the model is measured. -/
noncomputable def train (psi : ℝ → ℝ) (p : Params) (c : Corpus) : List Nat → State → State
  | [], s => s
  | n :: ns, s => train psi p c ns (measured p (iterate psi p c n s))

/-! ## The variational bound -/

/-- One document's part of the loop in `var_bound` (lda_vb.py:418-431): the buffer `z_dnk` afterwards.  Only the first rows are
assigned, but all `maxN` rows are passed through the softmax. -/
noncomputable def boundZ (psi : ℝ → ℝ) (p : Params) (c : Corpus) (lnWord : Nat → Nat → ℝ) (topics : Nat → Nat → ℝ)
    (z : Nat → Nat → ℝ) (d n k : Nat) : ℝ :=
  let row := fun n k => if n < c.len d then lnWord k (c.w d n) + psi (topics d k) else z n k
  tokenProbs p.K (row n 0) (row n) k

/-- The sum of `np.sum(z_dnk * diTopic[np.newaxis,:])` over the documents (lda_vb.py:435-436) -/
noncomputable def boundAssign (psi : ℝ → ℝ) (p : Params) (c : Corpus) (lnWord : Nat → Nat → ℝ) (topics : Nat → Nat → ℝ)
    (z : Nat → Nat → ℝ) : ℝ :=
  ((List.range c.lens.length).foldl (fun (acc : ℝ × (Nat → Nat → ℝ)) d =>
    let z' := boundZ psi p c lnWord topics acc.2 d
    (acc.1 + ∑ n ∈ Finset.range c.maxN, ∑ k ∈ Finset.range p.K,
      z' n k * (psi (topics d k) - psi (∑ j ∈ Finset.range p.K, topics d j)), z')) (0, z)).1

end Verif.Vb
