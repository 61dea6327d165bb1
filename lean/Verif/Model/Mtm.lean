import Verif.Model.Ctm
import Verif.Model.LinkPred

/-!
# Matrix topic models

`model/mtm.py`, `model/mtm2.py` and `model/mtm3.py`: topic models of words and links.  Numbers are real numbers.  The links are a
matrix of counts with as many columns as there are documents, so they are a `Data` as the words are.  Matrix inversion (`inv`) and
the digamma function (`psi`) are arbitrary functions.  Printing and the bounds that are only logged are left out.
-/

namespace Verif.Mtm

open Verif Verif.Ctm
open Verif.Mom (Data)

/-! ## `mtm.py` -/

/-- What an iteration of `train` does not change: `K`, `vocabPrior`, the product of `U` and `V` (never updated, mtm.py:443-445),
`lse_at_k` and `out_counts` -/
structure Fixed where
  K : Nat
  vocabPrior : ℝ
  UV : Nat → Nat → ℝ
  lse : Nat → ℝ
  outCounts : Nat → ℝ

/-- The variables of the loop of `train` (mtm.py:415-427): `sums` is `tsums_bytop`, `expSums` is `exp_tsums_bytop`, `cov` is
`topicCov` -/
structure MState where
  topics : Nat → Nat → ℝ
  sums : Nat → ℝ
  expSums : Nat → ℝ
  maxes : Nat → ℝ
  inCounts : Nat → ℝ
  wordDists : Nat → Nat → ℝ
  cov : Nat → Nat → ℝ
  invCov : Nat → Nat → ℝ
  postCov : Nat → Nat → ℝ

/-- The softmax of `K` scores as written in `_inplace_softmax_colwise`, `_inplace_softmax_rowwise`, `softmax` and `topicDists`
(mtm.py:227-273, 179-188, mtm2.py:514-519) -/
noncomputable def soft (K : Nat) (r : Nat → ℝ) (k : Nat) : ℝ :=
  Real.exp (r k - Numerics.rowMax K r) / ∑ j ∈ Finset.range K, Real.exp (r j - Numerics.rowMax K r)

/-- `_infer_word_topics_at_d` (mtm.py:319-345) for one document with weights `row` and one word `t`; `old` are the parameters of
the word distributions at the start of the iteration (mtm.py:447-449). -/
noncomputable def wordTopics (psi : ℝ → ℝ) (K T : Nat) (old : Nat → Nat → ℝ) (row : Nat → ℝ) (t : Nat) : Nat → ℝ :=
  soft K (fun k => psi (old k t) - psi (∑ t' ∈ Finset.range T, old k t') + row k)

/-- `_infer_link_topics_at_d` (mtm.py:348-370) for the link from `d` to `p` -/
noncomputable def linkTopics (K : Nat) (lse : Nat → ℝ) (topics : Nat → Nat → ℝ) (d p : Nat) : Nat → ℝ :=
  soft K (fun k => topics p k - lse k + topics d k)

/-- The variables that change within the loop over the documents (mtm.py:440-452) -/
structure Sweep where
  topics : Nat → Nat → ℝ
  sums : Nat → ℝ
  newMaxes : Nat → ℝ
  newIn : Nat → ℝ
  newCov : Nat → Nat → ℝ
  wordDists : Nat → Nat → ℝ
  postCov : Nat → Nat → ℝ

/-- The matrix that is inverted for document `d` (mtm.py:463-466): `np.diag_indices_from` addresses the diagonal. -/
noncomputable def lhs (c : Fixed) (x : Data) (st : MState) (d i j : Nat) : ℝ :=
  st.invCov i j + (if i = j then (x.len d : ℝ) + c.outCounts d else 0) - 1 / ((c.K : ℝ) + 1)
    + (if i = j then ((c.K : ℝ) - 1) / (c.K : ℝ) * st.inCounts i else 0)

/-- `np.exp(topics[d, :] - maxes_bytop) / exp_tsums_bytop` (mtm.py:479) -/
noncomputable def share (st : MState) (row : Nat → ℝ) (k : Nat) : ℝ := Real.exp (row k - st.maxes k) / st.expSums k

/-- The right hand side (mtm.py:470-483): the topics of the words, the two linear coefficients `b` and `f` and the last term -/
noncomputable def rhs (psi : ℝ → ℝ) (c : Fixed) (x : Data) (st : MState) (sw : Sweep) (d k : Nat) : ℝ :=
  ∑ j ∈ Finset.range c.K, st.invCov k j * c.UV d j
    + ∑ t ∈ Finset.range x.T, wordTopics psi c.K x.T st.wordDists (sw.topics d) t k * (x.words d t : ℝ)
    + (sw.topics d k - 1 / ((c.K : ℝ) + 1) * ∑ j ∈ Finset.range c.K, sw.topics d j - soft c.K (sw.topics d) k) * (x.len d : ℝ)
    + (sw.topics d k - 1 / ((x.D : ℝ) + 1) * sw.sums k - share st (sw.topics d) k) * st.inCounts k
    + ((x.D : ℝ) - 1) / (2 * (x.D : ℝ) + 2) * (st.inCounts k * (sw.sums k - sw.topics d k))

/-- The loop body for document `d` (mtm.py:453-502).  Line 459 adds to the columns of the words that occur; the others would get
zero.  Line 497 adds the vector `np.diag(S)` to each row of the matrix. -/
noncomputable def docStep (inv : (Nat → Nat → ℝ) → Nat → Nat → ℝ) (psi : ℝ → ℝ) (c : Fixed) (x links : Data) (st : MState)
    (sw : Sweep) (d : Nat) : Sweep :=
  let S := inv (lhs c x st d)
  let new := fun k => ∑ j ∈ Finset.range c.K, S k j * rhs psi c x st sw d j
  { topics := fun e k => if e = d then new k else sw.topics e k
    sums := fun k => sw.sums k - sw.topics d k + new k
    newMaxes := fun k => max (sw.newMaxes k) (new k)
    newIn := fun k => sw.newIn k + ∑ p ∈ Finset.range links.T, linkTopics c.K c.lse sw.topics d p k * (links.words d p : ℝ)
    newCov := fun i j => sw.newCov i j + (new i - c.UV d i) * (new j - c.UV d j) + S j j
    wordDists := fun k t => sw.wordDists k t + (x.words d t : ℝ) * wordTopics psi c.K x.T st.wordDists (sw.topics d) t k
    postCov := fun e k => if e = d then S k k else sw.postCov e k }

/-- The start of the loop over the documents (mtm.py:440-452) -/
noncomputable def sweepStart (c : Fixed) (st : MState) : Sweep :=
  { topics := st.topics, sums := st.sums, newMaxes := fun _ => 1 / 10 ^ 300, newIn := fun _ => 0, newCov := fun _ _ => 0
    wordDists := fun _ _ => c.vocabPrior, postCov := st.postCov }

/-- The first `n` documents of the loop (mtm.py:453-502) -/
noncomputable def sweep (inv : (Nat → Nat → ℝ) → Nat → Nat → ℝ) (psi : ℝ → ℝ) (c : Fixed) (x links : Data) (st : MState) (n : Nat) :
    Sweep :=
  (List.range n).foldl (docStep inv psi c x links st) (sweepStart c st)

/-- One iteration (mtm.py:440-511) -/
noncomputable def iteration (inv : (Nat → Nat → ℝ) → Nat → Nat → ℝ) (psi : ℝ → ℝ) (c : Fixed) (x links : Data) (st : MState) : MState :=
  let sw := sweep inv psi c x links st x.D
  { topics := sw.topics
    sums := sw.sums
    expSums := fun k => ∑ d ∈ Finset.range x.D, Real.exp (sw.topics d k - sw.newMaxes k)
    maxes := sw.newMaxes
    inCounts := sw.newIn
    wordDists := sw.wordDists
    cov := sw.newCov
    invCov := inv sw.newCov
    postCov := sw.postCov }

/-- The loop of `train` (mtm.py:429-511); `stop itr st` tells whether `converged` ends it at the start of iteration `itr`
(436-437).  That function says no while there are fewer than three values (misc.py:33-57). -/
noncomputable def trainLoop (inv : (Nat → Nat → ℝ) → Nat → Nat → ℝ) (psi : ℝ → ℝ) (c : Fixed) (x links : Data)
    (stop : Nat → MState → Bool) : Nat → Nat → MState → MState
  | 0, _, st => st
  | fuel + 1, itr, st =>
    if 2 ≤ itr ∧ stop itr st = true then st
    else trainLoop inv psi c x links stop fuel (itr + 1) (iteration inv psi c x links st)

/-- The working variables of `train` before the loop (mtm.py:418-427): `maxes_bytop` are the maxima of the columns, `invCov` is the
inverse of the covariance. -/
noncomputable def trainStart (inv : (Nat → Nat → ℝ) → Nat → Nat → ℝ) (D : Nat) (st : MState) : MState :=
  { st with maxes := fun k => Numerics.rowMax D (fun d => st.topics d k), invCov := inv st.cov }

/-- `train` (mtm.py:374-516): documents without words are refused (402-403), a log frequency of zero divides by zero (430).  The
argument `updateVocab` is not used.  The model and the query state that are passed in are overwritten by the result. -/
noncomputable def train (inv : (Nat → Nat → ℝ) → Nat → Nat → ℝ) (psi : ℝ → ℝ) (c : Fixed) (x links : Data)
    (stop : Nat → MState → Bool) (logFrequency iterations : Nat) (_updateVocab : Bool) (st : MState) : Py MState :=
  if ∃ d ∈ Finset.range x.D, x.len d < 1 then .error .valueError
  else if 0 < iterations ∧ logFrequency = 0 then .error .zeroDivisionError
  else .ok (trainLoop inv psi c x links stop iterations 0 (trainStart inv x.D st))

/-- `query` (mtm.py:524-544) -/
noncomputable def query (inv : (Nat → Nat → ℝ) → Nat → Nat → ℝ) (psi : ℝ → ℝ) (c : Fixed) (x links : Data)
    (stop : Nat → MState → Bool) (logFrequency iterations : Nat) (st : MState) : Py MState :=
  train inv psi c x links stop logFrequency iterations false st

/-- `out_counts` (mtm.py:138): the sums of the columns of the link matrix are added. -/
def outCounts (x links : Data) (d : Nat) : Nat := x.len d + ∑ e ∈ Finset.range x.D, links.words e d

/-- `newQueryState` (mtm.py:113-147) with the random `topics` and `UV`; the model's word parameters and covariance go with it.
`np.exp` and `np.log` of the topics cancel out (133-136). -/
noncomputable def newQuery (K : Nat) (x links : Data) (topics wordDists cov : Nat → Nat → ℝ) : MState :=
  { topics := topics
    sums := fun k => ∑ d ∈ Finset.range x.D, topics d k
    expSums := fun k => ∑ d ∈ Finset.range x.D, Real.exp (topics d k)
    maxes := fun _ => 0
    inCounts := fun _ => ((∑ d ∈ Finset.range x.D, ∑ e ∈ Finset.range x.D, links.words d e : Nat) : ℝ) / (K : ℝ)
    wordDists := wordDists
    cov := cov
    invCov := fun _ _ => 0
    postCov := fun _ _ => 0 }

/-- The constant part of a new query state (mtm.py:127, 138, 143) -/
noncomputable def newFixed (K : Nat) (vocabPrior : ℝ) (x links : Data) (topics UV : Nat → Nat → ℝ) : Fixed :=
  { K := K, vocabPrior := vocabPrior, UV := UV
    lse := fun k => Real.log (∑ d ∈ Finset.range x.D, Real.exp (topics d k))
    outCounts := fun d => (outCounts x links d : ℝ) }

/-- `topicDists` (mtm.py:179-188) -/
noncomputable def topicDists (K : Nat) (topics : Nat → Nat → ℝ) (d : Nat) : Nat → ℝ := soft K (topics d)

/-- `linkDists` (mtm.py:172-176) -/
noncomputable def linkDists (K : Nat) (topics : Nat → Nat → ℝ) (k d : Nat) : ℝ := topicDists K topics d k

/-! ### Copies -/

/-- Arrays by address (what the tuples of mtm.py:32-40, mtm2.py:64-72, mtm3.py:76-84 refer to) -/
abbrev Heap := Nat → Nat → Nat → ℝ

/-- The arrays of a model that training overwrites (mtm.py:37-40, mtm2.py:69-72, mtm3.py:81-84) -/
structure Refs where
  wordDists : Nat
  cov : Nat
  deriving DecidableEq

/-- The three modules (mtm.py:1, mtm2.py:1, mtm3.py:1) -/
inductive Module where
  | mtm | mtm2 | mtm3
  deriving DecidableEq, Repr

/-- `newModelFromExisting` (mtm.py:42-54, mtm2.py:89-101, mtm3.py:102-116): `fresh` and the address after it are not in use.  In the
first of the modules the covariance is not copied (mtm.py:52). -/
def copyModel (m : Module) (h : Heap) (r : Refs) (fresh : Nat) : Heap × Refs :=
  match m with
  | .mtm => (fun a => if a = fresh then h r.wordDists else h a, ⟨fresh, r.cov⟩)
  | .mtm2 | .mtm3 => (fun a => if a = fresh then h r.wordDists else if a = fresh + 1 then h r.cov else h a, ⟨fresh, fresh + 1⟩)

/-- What training writes: in `mtm.py` both arrays are filled in place (mtm.py:451, 505); in the others the vocabulary is
(mtm2.py:269-271, mtm3.py:395-397), while the covariance is a new array (mtm2.py:244, mtm3.py:351). -/
def writeBack (m : Module) (h : Heap) (r : Refs) (wordDists cov : Nat → Nat → ℝ) : Heap :=
  match m with
  | .mtm => fun a => if a = r.cov then cov else if a = r.wordDists then wordDists else h a
  | .mtm2 | .mtm3 => fun a => if a = r.wordDists then wordDists else h a

/-! ## Attributes -/

/-- The fields of the query states (mtm.py:32-35, mtm2.py:64-67, mtm3.py:76-79) -/
def Module.queryFields : Module → List String
  | .mtm => ["docLens", "topics", "postTopicCov", "U", "V", "tsums_bydoc", "tsums_bytop", "exp_tsums_bydoc", "exp_tsums_bytop",
      "lse_at_k", "out_counts", "in_counts"]
  | .mtm2 => ["means", "varcs", "docLens"]
  | .mtm3 => ["outMeans", "outVarcs", "inMeans", "inVarcs", "inDocCov", "docLens"]

/-- The fields of the model states (mtm.py:37-40, mtm2.py:69-72, mtm3.py:81-84) -/
def Module.modelFields : Module → List String
  | .mtm => ["K", "Q", "topicPrior", "vocabPrior", "wordDists", "topicCov", "dtype", "name"]
  | .mtm2 => ["K", "topicMean", "topicCov", "vocab", "A", "dtype", "name"]
  | .mtm3 => ["K", "topicMean", "topicCov", "outDocCov", "vocab", "A", "trained", "dtype", "name"]

/-- What `topicDists` reads from the query state (mtm.py:184, mtm2.py:85, mtm3.py:98) -/
def Module.topicDistsReads : Module → List String
  | .mtm => ["topics"]
  | .mtm2 | .mtm3 => ["topicMean"]

/-- What `min_link_probs` and `link_probs` read from the model (mtm.py:687, 726; the other two only need the type,
mtm2.py:538, 590, mtm3.py:713, 775) -/
def Module.linkProbsReads : Module → List String
  | .mtm => ["weights"]
  | .mtm2 | .mtm3 => ["dtype"]

/-- Reading several attributes (the tuples are those of mtm.py:32-40, mtm2.py:64-72, mtm3.py:76-84) -/
def readAll (fields : List String) : List String → Py Unit
  | [] => .ok ()
  | n :: ns => do readAttr fields n; readAll fields ns

/-- `topicDists`: the result is some function `rest` of what is read. (mtm.py:183-184, mtm2.py:84-85, mtm3.py:97-98) -/
def Module.topicDists {α : Type} (m : Module) (rest : α) : Py α := do
  readAll m.queryFields m.topicDistsReads
  .ok rest

/-- `min_link_probs` and `link_probs`, likewise (mtm.py:673-750, mtm2.py:522-600, mtm3.py:690-790) -/
def Module.linkProbs {α : Type} (m : Module) (rest : α) : Py α := do
  readAll m.modelFields m.linkProbsReads
  .ok rest

/-! ## Links by words and documents (`mtm2.py`, `mtm3.py`) -/

/-- `A` (mtm2.py:136, mtm3.py:153) -/
noncomputable def linkA (K : Nat) (i j : Nat) : ℝ := (if i = j then 1 else 0) - 1 / (K : ℝ)

/-- `np.exp(means - means.max(axis=0))` (mtm2.py:258, mtm3.py:384) -/
noncomputable def expCols (D : Nat) (means : Nat → Nat → ℝ) (d k : Nat) : ℝ :=
  Real.exp (means d k - Numerics.rowMax D (fun e => means e k))

/-- `docVocab` (mtm2.py:273, mtm3.py:399): documents as words of the topics -/
noncomputable def docVocab (D : Nat) (means : Nat → Nat → ℝ) (k d : Nat) : ℝ :=
  expCols D means d k / ∑ e ∈ Finset.range D, expCols D means e k

/-- `csr_matrix(links.T)` (mtm2.py:192, mtm3.py:301) -/
def transpose (links : Data) : Data := ⟨links.T, links.D, fun d e => links.words e d⟩

/-- The score of one link in `min_link_probs` (mtm2.py:540-545, mtm3.py:717-724): `out` weighs the source, `ins` the targets. -/
noncomputable def linkPair (D K : Nat) (out ins : Nat → Nat → ℝ) (src dst : Nat) : LinkPred.Fl :=
  some (∑ k ∈ Finset.range K, soft K (out src) k *
    (Real.exp (ins dst k - Numerics.rowMax D (fun e => ins e k))
      / ∑ e ∈ Finset.range D, Real.exp (ins e k - Numerics.rowMax D (fun e => ins e k))))

/-- The scores in `link_probs` (mtm2.py:571, 578-579, mtm3.py:756, 763-764) with `colwise_softmax` (sigmoid_utils.py:28-40) -/
noncomputable def linkAll (D K : Nat) (out ins : Nat → Nat → ℝ) (src dst : Nat) : LinkPred.Fl :=
  some (∑ k ∈ Finset.range K, docVocab D ins k dst * soft K (out src) k)

/-! ## `mtm2.py` -/

/-- The model and query states of `mtm2.py` (64-72) (mtm2.py:64-72) -/
structure State2 where
  topicMean : Nat → ℝ
  topicCov : Nat → Nat → ℝ
  vocab : Nat → Nat → ℝ
  means : Nat → Nat → ℝ
  varcs : Nat → Nat → ℝ

/-- The covariance of the topics (mtm2.py:244-245) with `USE_NIW_PRIOR = False` -/
noncomputable def cov2 (D : Nat) (means varcs : Nat → Nat → ℝ) (i j : Nat) : ℝ :=
  (∑ d ∈ Finset.range D, (means d i - (∑ e ∈ Finset.range D, means e i) / (D : ℝ))
      * (means d j - (∑ e ∈ Finset.range D, means e j) / (D : ℝ))) / ((D : ℝ) - 1)
    + if i = j then (∑ d ∈ Finset.range D, varcs d i) / (D : ℝ) else 0

/-- The matrix that is inverted for document `d` (mtm2.py:201, 312) -/
noncomputable def lhs2 (x links : Data) (K : Nat) (icov : Nat → Nat → ℝ) (inCounts : Nat → ℝ) (d i j : Nat) : ℝ :=
  icov i j + ((x.len d : ℝ) + (links.len d : ℝ)) * linkA K i j
    + (if i = j then (x.D : ℝ) * inCounts i / (2 * (x.D : ℝ) + 2) else 0)

/-- The right hand side (mtm2.py:260-262, 291, 301-306, 311) with the topic counts `w` of the words, `l` of the in-links, `o` of the
out-links -/
noncomputable def rhs2 (x links : Data) (K : Nat) (icov : Nat → Nat → ℝ) (topicMean : Nat → ℝ) (means w l o : Nat → Nat → ℝ)
    (inCounts : Nat → ℝ) (d k : Nat) : ℝ :=
  w d k + l d k + o d k + ∑ j ∈ Finset.range K, icov k j * topicMean j
    + ((x.len d : ℝ) + (links.len d : ℝ)) * (∑ j ∈ Finset.range K, means d j * linkA K j k - softmaxRows K means d k)
    + inCounts k * (1 / 2 * means d k - 1 / (2 * (x.D : ℝ) + 2) * ∑ e ∈ Finset.range x.D, means e k - docVocab x.D means k d)
    + 1 / (4 * (x.D : ℝ) + 4) * ((∑ e ∈ Finset.range x.D, means e k) * inCounts k - inCounts k * means d k)

/-- The topic counts of the in-links (mtm3.py:409-410, mtm2.py:283-284) -/
noncomputable def inLinkCounts (links : Data) (K : Nat) (outMeans inMeans : Nat → Nat → ℝ) : Nat → Nat → ℝ :=
  topicCounts (transpose links) K (expRows K outMeans) (docVocab links.D inMeans)

/-- The topic counts of the out-links (mtm3.py:413-414, mtm2.py:287-288) -/
noncomputable def outLinkCounts (links : Data) (K : Nat) (outMeans inMeans : Nat → Nat → ℝ) : Nat → Nat → ℝ :=
  topicCounts links K (expRows K outMeans) (docVocab links.D inMeans)

/-- `in_counts` (mtm3.py:411, mtm2.py:285) -/
noncomputable def inCounts (links : Data) (K : Nat) (outMeans inMeans : Nat → Nat → ℝ) (k : Nat) : ℝ :=
  ∑ d ∈ Finset.range links.D, inLinkCounts links K outMeans inMeans d k

/-- One iteration of `train` (mtm2.py:226-319).  With one topic `np.cov` is a scalar, to which line 245 cannot add a matrix.  With one
document it is not a number, and `la.inv` refuses it (252).  With `fastButInaccurate` the iteration ends at line 308. -/
noncomputable def step2 (inv : Nat → (Nat → Nat → ℝ) → Nat → Nat → ℝ) (x links : Data) (K : Nat) (fast : Bool) (st : State2) :
    Py State2 :=
  if K = 1 ∨ x.D = 1 ∨ fast = true then .error .valueError
  else
    let topicMean := fun k => (∑ d ∈ Finset.range x.D, st.means d k) / (x.D : ℝ)
    let cov := cov2 x.D st.means st.varcs
    let icov := inv K cov
    let e := expRows K st.means
    let vocab := newVocab x K (1 / 10) e st.vocab
    let w := topicCounts x K e vocab
    let l := inLinkCounts links K st.means st.means
    let counts := inCounts links K st.means st.means
    let o := outLinkCounts links K st.means st.means
    .ok { topicMean := topicMean
          topicCov := cov
          vocab := vocab
          varcs := fun d k => 1 / ((x.len d : ℝ) * (1 / 2 - 1 / (K : ℝ)) + cov k k)
          means := fun d k => ∑ j ∈ Finset.range K, inv K (lhs2 x links K icov counts d) k j
            * rhs2 x links K icov topicMean st.means w l o counts d j }

/-- `train` (mtm2.py:173-342) with `n` iterations: nothing ends the loop before (335). -/
noncomputable def train2 (inv : Nat → (Nat → Nat → ℝ) → Nat → Nat → ℝ) (x links : Data) (K : Nat) (fast : Bool) : Nat → State2 → Py State2
  | 0, st => .ok st
  | n + 1, st => do
    let st' ← step2 inv x links K fast st
    train2 inv x links K fast n st'

/-- The variables of `query` (mtm2.py:360-370): `held` is the contents of the array `queryState.means`, `means` that of the local
variable, `aliased` whether they are the same array. -/
structure Query2 where
  held : Nat → Nat → ℝ
  means : Nat → Nat → ℝ
  aliased : Bool

/-- One iteration of `query` (mtm2.py:382-393); `e` is `expMeansOut`, computed once before the loop (368).  In the variant with a
diagonal covariance the softmax overwrites the array and then a new array is made (388, 390), otherwise the array is filled in place
(393). -/
noncomputable def mtm2QueryStep (inv : (Nat → Nat → ℝ) → Nat → Nat → ℝ) (x : Data) (K : Nat) (isig : Nat → Nat → ℝ)
    (mu : Nat → ℝ) (vocab varcs e : Nat → Nat → ℝ) (fast : Bool) (q : Query2) : Query2 :=
  let V := topicCounts x K e vocab
  let r := bohningRhs x K (linkA K) isig mu V q.means
  let new := bohningMeans inv x K fast (linkA K) isig varcs r
  { held := if q.aliased then (if fast then softmaxRows K q.means else new) else q.held
    means := new
    aliased := !fast && q.aliased }

/-- `query` (mtm2.py:345-398): the array of means in the state returned.  The variances computed in line 377 are a local
variable. -/
noncomputable def mtm2Query (inv : (Nat → Nat → ℝ) → Nat → Nat → ℝ) (x : Data) (K : Nat) (sig : Nat → Nat → ℝ) (mu : Nat → ℝ)
    (vocab : Nat → Nat → ℝ) (fast : Bool) (iterations : Nat) (means varcs : Nat → Nat → ℝ) :
    (Nat → Nat → ℝ) × (Nat → Nat → ℝ) :=
  let isig := inv sig
  let localVarcs := fun d k => 1 / ((x.len d : ℝ) * ((K : ℝ) - 1) / (K : ℝ) + isig k k)
  let e := expRows K means
  let q := (mtm2QueryStep inv x K isig mu vocab localVarcs e fast)^[iterations] ⟨means, means, true⟩
  (q.held, varcs)

/-! ## `mtm3.py` -/

/-- The model and query states of `mtm3.py` (76-84) with `inDocPre` (mtm3.py:76-84) -/
structure State3 where
  topicMean : Nat → ℝ
  topicCov : Nat → Nat → ℝ
  outDocCov : ℝ
  vocab : Nat → Nat → ℝ
  outMeans : Nat → Nat → ℝ
  outVarcs : Nat → Nat → ℝ
  inMeans : Nat → Nat → ℝ
  inVarcs : Nat → Nat → ℝ
  inDocCov : Nat → ℝ

/-- The covariance of the topics (mtm3.py:351-358); `pre` is `outDocPre`, `1 / inDocCov d` is `inDocPre[d]`. -/
noncomputable def cov3 (D : Nat) (pre : ℝ) (inDocCov : Nat → ℝ) (outDiff inDiff outVarcs inVarcs : Nat → Nat → ℝ) (i j : Nat) : ℝ :=
  (∑ d ∈ Finset.range D, pre * outDiff d i * outDiff d j + ∑ d ∈ Finset.range D, 1 / inDocCov d * inDiff d i * inDiff d j
    + (if i = j then ∑ d ∈ Finset.range D, outVarcs d i else 0) + (if i = j then ∑ d ∈ Finset.range D, inVarcs d i else 0)
    + (if i = j then 1 else 0)) / (2 * (D : ℝ) + 1 / 10)

/-- `inDocCov` (mtm3.py:363-370) with `IGAMMA_A = IGAMMA_B = 10` -/
noncomputable def inDocCov3 (K : Nat) (icov : Nat → Nat → ℝ) (inDiff outVarcs inVarcs : Nat → Nat → ℝ) (d : Nat) : ℝ :=
  (∑ j ∈ Finset.range K, (∑ i ∈ Finset.range K, inDiff d i * icov i j) * inDiff d j
    + ∑ k ∈ Finset.range K, outVarcs d k * icov k k + ∑ k ∈ Finset.range K, inVarcs d k * icov k k + 10) / (10 - 1 + (K : ℝ))

/-- One round of the inner loop (mtm3.py:351-371) on the covariance and `inDocCov` -/
noncomputable def covRound (inv : Nat → (Nat → Nat → ℝ) → Nat → Nat → ℝ) (D K : Nat) (pre : ℝ)
    (outDiff inDiff outVarcs inVarcs : Nat → Nat → ℝ) (s : (Nat → Nat → ℝ) × (Nat → ℝ)) : (Nat → Nat → ℝ) × (Nat → ℝ) :=
  let cov := cov3 D pre s.2 outDiff inDiff outVarcs inVarcs
  (cov, inDocCov3 K (inv K cov) inDiff outVarcs inVarcs)

/-- The first half of an iteration of `train` (mtm3.py:343-380): mean and covariances -/
noncomputable def mStep3 (inv : Nat → (Nat → Nat → ℝ) → Nat → Nat → ℝ) (D K : Nat) (st : State3) : State3 :=
  let topicMean := fun k => (∑ d ∈ Finset.range D, st.outMeans d k) / (D : ℝ)
  let s := (covRound inv D K (1 / st.outDocCov) (fun d k => st.outMeans d k - topicMean k) (fun d k => st.inMeans d k - st.outMeans d k)
    st.outVarcs st.inVarcs)^[5] (st.topicCov, st.inDocCov)
  { st with topicMean := topicMean, topicCov := s.1, inDocCov := s.2 }

/-- The matrix that is inverted for the out-means of document `d` (mtm3.py:442) -/
noncomputable def outLhs (x links : Data) (K : Nat) (icov : Nat → Nat → ℝ) (st : State3) (d i j : Nat) : ℝ :=
  (1 / st.outDocCov + 1 / st.inDocCov d) * icov i j + ((x.len d : ℝ) + (links.len d : ℝ)) * linkA K i j

/-- The right hand side for the out-means (mtm3.py:425-429) with the topic counts of words and links -/
noncomputable def outRhs (x links : Data) (K : Nat) (icov : Nat → Nat → ℝ) (st : State3) (wordCounts linkCounts : Nat → Nat → ℝ)
    (d k : Nat) : ℝ :=
  wordCounts d k + linkCounts d k + (∑ j ∈ Finset.range K, icov k j * st.topicMean j) / st.outDocCov
    + (∑ j ∈ Finset.range K, st.inMeans d j * icov j k) / st.inDocCov d
    + ((x.len d : ℝ) + (links.len d : ℝ)) * (∑ j ∈ Finset.range K, st.outMeans d j * linkA K j k - softmaxRows K st.outMeans d k)

/-- The matrix that is inverted for the in-means of document `d` (mtm3.py:431, 438) -/
noncomputable def inLhs (D : Nat) (icov : Nat → Nat → ℝ) (inDocCov : Nat → ℝ) (inCounts : Nat → ℝ) (d i j : Nat) : ℝ :=
  1 / inDocCov d * icov i j + (if i = j then ((D : ℝ) - 1) / (2 * (D : ℝ)) * inCounts i else 0)

/-- The right hand side for the in-means (mtm3.py:386-388, 432-437) with the topic counts `l` of the in-links -/
noncomputable def inRhs (D K : Nat) (icov : Nat → Nat → ℝ) (inDocCov : Nat → ℝ) (outMeans inMeans l : Nat → Nat → ℝ)
    (inCounts : Nat → ℝ) (d k : Nat) : ℝ :=
  ∑ j ∈ Finset.range K, 1 / inDocCov d * outMeans d j * icov j k
    + -(∑ e ∈ Finset.range D, inMeans e k) * inCounts k / (4 * (D : ℝ))
    + l d k
    + inCounts k * (1 / 2 * inMeans d k - 1 / 2 / (D : ℝ) * ∑ e ∈ Finset.range D, inMeans e k - docVocab D inMeans k d)
    + inCounts k * inMeans d k / (4 * (D : ℝ))

/-- The second half of an iteration of `train` (mtm3.py:383-439): topics, variances and means.  Within the loop over the documents
(436-443) no document reads what was written for another. -/
noncomputable def eStep3 (inv : Nat → (Nat → Nat → ℝ) → Nat → Nat → ℝ) (x links : Data) (K : Nat) (st : State3) : State3 :=
  let icov := inv K st.topicCov
  let e := expRows K st.outMeans
  let vocab := newVocab x K (1 / 100) e st.vocab
  let wordCounts := topicCounts x K e vocab
  let l := inLinkCounts links K st.outMeans st.inMeans
  let counts := inCounts links K st.outMeans st.inMeans
  let o := outLinkCounts links K st.outMeans st.inMeans
  { st with
    vocab := vocab
    outVarcs := fun d k => 1 / (((x.len d : ℝ) + (links.len d : ℝ)) * ((K : ℝ) - 1) / (2 * (K : ℝ))
      + (1 / st.outDocCov + 1 / st.inDocCov d) * icov k k)
    inVarcs := fun d k => 1 / (counts k * ((x.D : ℝ) - 1) / (2 * (x.D : ℝ)) + 1 / st.inDocCov d * icov k k)
    inMeans := fun d k => ∑ j ∈ Finset.range K, inv K (inLhs x.D icov st.inDocCov counts d) k j
      * inRhs x.D K icov st.inDocCov st.outMeans st.inMeans l counts d j
    outMeans := fun d k => ∑ j ∈ Finset.range K, inv K (outLhs x links K icov st d) k j * outRhs x links K icov st wordCounts o d j }

/-- One iteration of `train` (mtm3.py:338-443) -/
noncomputable def step3 (inv : Nat → (Nat → Nat → ℝ) → Nat → Nat → ℝ) (x links : Data) (K : Nat) (st : State3) : State3 :=
  eStep3 inv x links K (mStep3 inv x.D K st)

/-- `train` (mtm3.py:282-484): `inDocCov` and `outDocCov` are replaced (329, 335), then there are iterations; `n` of them if the
loop ends then (469-470 may end it before the number requested). -/
noncomputable def train3 (inv : Nat → (Nat → Nat → ℝ) → Nat → Nat → ℝ) (x links : Data) (K n : Nat) (st : State3) : State3 :=
  (step3 inv x links K)^[n] { st with inDocCov := fun _ => 1, outDocCov := 10 }

/-- The matrix that is inverted in `query` (mtm3.py:549) -/
noncomputable def queryLhs3 (x links : Data) (K : Nat) (icov : Nat → Nat → ℝ) (st : State3) (d i j : Nat) : ℝ :=
  1 / st.outDocCov * icov i j + ((x.len d : ℝ) + (links.len d : ℝ)) * linkA K i j

/-- The right hand side in `query` (mtm3.py:543-546) -/
noncomputable def queryRhs3 (x links : Data) (K : Nat) (icov : Nat → Nat → ℝ) (st : State3) (d k : Nat) : ℝ :=
  topicCounts x K (expRows K st.outMeans) st.vocab d k + (∑ j ∈ Finset.range K, icov k j * st.topicMean j) / st.outDocCov
    + ((x.len d : ℝ) + (links.len d : ℝ)) * (∑ j ∈ Finset.range K, st.outMeans d j * linkA K j k - softmaxRows K st.outMeans d k)

/-- One iteration of `query` (mtm3.py:531-550) -/
noncomputable def queryStep3 (inv : Nat → (Nat → Nat → ℝ) → Nat → Nat → ℝ) (x links : Data) (K : Nat) (st : State3) : State3 :=
  let icov := inv K st.topicCov
  { st with
    outVarcs := fun d k => 1 / (((x.len d : ℝ) + (links.len d : ℝ)) * ((K : ℝ) - 1) / (2 * (K : ℝ))
      + (1 / st.outDocCov + 1 / st.inDocCov d) * icov k k)
    outMeans := fun d k => ∑ j ∈ Finset.range K, inv K (queryLhs3 x links K icov st d) k j * queryRhs3 x links K icov st d j }

/-- `query` (mtm3.py:487-568) with `n` iterations -/
noncomputable def query3 (inv : Nat → (Nat → Nat → ℝ) → Nat → Nat → ℝ) (x links : Data) (K n : Nat) (st : State3) : State3 :=
  (queryStep3 inv x links K)^[n] st

end Verif.Mtm
