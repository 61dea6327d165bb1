import Mathlib.Data.Rat.Defs
import Mathlib.Algebra.BigOperators.Group.Finset.Basic
import Verif.Model.Py

/-!
# The first topics of the models, and the first topics of the documents

The parts of `newModelAtRandom` that fill the word table, and of `newQueryState` that fill the table of topics, in `rtm.py`,
`self_lda_vb_python.py`, `mtm.py`, `mtm2.py`, `mtm3.py`, `lda_vb_python.py`, `mom_em.py`, `mom_gibbs.py`, `lda_vb.py` and `lda_svb.py`.
Floating point numbers are rational numbers.  The drawn documents are an arbitrary function of the topic and the number of the draw,
the drawn distributions an arbitrary table.  Rows of the word matrix have no repeated indices.  For one document the lengths that are
used are a number without axes, see `Verif.Model.SingleDoc`; here there are at least two documents or the lengths are not used.
-/

namespace Verif.Init

open Verif

/-- The word matrix of a data set: documents, vocabulary and counts (common.py:19-40) -/
structure Data where
  D : Nat
  T : Nat
  words : Nat → Nat → Nat

/-- The number of words in a document (common.py:215-216) -/
def Data.len (x : Data) (d : Nat) : Nat := ∑ t ∈ Finset.range x.T, x.words d t

/-- `word_count` (common.py:211-212) -/
def Data.wordCount (x : Data) : Nat := ∑ d ∈ Finset.range x.D, x.len d

/-- The modules that draw one document for each topic (rtm.py:90-94, self_lda_vb_python.py:84-88, mtm.py:86-94, mtm2.py:122-128,
mtm3.py:141-147) -/
inductive OneDoc where
  | rtm
  | selfLda
  | mtm
  | mtm2
  | mtm3
  deriving DecidableEq

/-- The modules that draw documents until there are a thousand words (lda_vb_python.py:97-105, mom_em.py:98-106,
mom_gibbs.py:86-94) -/
inductive Many where
  | ldaVbPython
  | momEm
  | momGibbs
  deriving DecidableEq

/-- The assertions on the number of topics `K`, and on the number of groups `Q` for mtm (rtm.py:79-80, self_lda_vb_python.py:73-74,
mtm.py:73-75, mtm2.py:116, mtm3.py:133) -/
def OneDoc.asserts (m : OneDoc) (K Q : Nat) : Py Unit := do
  pyAssert (decide (1 < K))
  match m with
  | .rtm | .selfLda => pyAssert (decide (K < 255))
  | .mtm => do
    pyAssert (decide (K < 255))
    pyAssert (decide (Q < K))
  | .mtm2 | .mtm3 => .ok ()

/-- A row of ones to which the counts of a document are added: `wordDists[k, sample_doc.indices] += sample_doc.data` (rtm.py:90-94,
self_lda_vb_python.py:84-88, mtm.py:86-90, mtm2.py:122-126, mtm3.py:141-145) -/
def vagueRow (x : Data) (d t : Nat) : ℚ := 1 + (x.words d t : ℚ)

/-- `row /= row.sum()` (mtm2.py:127, mtm3.py:146, lda_vb_python.py:105, mom_gibbs.py:94) -/
def normalise (T : Nat) (row : Nat → ℚ) (t : Nat) : ℚ := row t / ∑ t' ∈ Finset.range T, row t'

/-- What happens to a row after the document was added: nothing (rtm.py, self_lda_vb_python.py), `wordDists *= data.word_count / K`
(mtm.py:94), or it is normalised (mtm2.py:127, mtm3.py:146) -/
def OneDoc.finish (m : OneDoc) (x : Data) (K : Nat) (row : Nat → ℚ) : Nat → ℚ :=
  match m with
  | .rtm | .selfLda => row
  | .mtm => fun t => row t * ((x.wordCount : ℚ) / (K : ℚ))
  | .mtm2 | .mtm3 => normalise x.T row

/-- The initial word table of the modules that draw one document for each topic; `ids k` is what `rd.randint(0, data.doc_count,
size=K)` gives for topic `k`, which raises a ValueError when there are no documents. (rtm.py:79-94, self_lda_vb_python.py:73-88,
mtm.py:73-94, mtm2.py:116-128, mtm3.py:133-147 without an LDA model) -/
def oneDocTopics (m : OneDoc) (x : Data) (K Q : Nat) (ids : Nat → Nat) : Py (Nat → Nat → ℚ) := do
  m.asserts K Q
  if x.D = 0 then .error .valueError
  else .ok (fun k => m.finish x K (vagueRow x (ids k)))

/-- The loop `while docLenSum < 1000` for one topic: `draws i` is the `i`-th random document.  `none`: not ended after `fuel` draws.
(lda_vb_python.py:99-104, mom_em.py:100-105, mom_gibbs.py:88-93) -/
def sampleLoop (x : Data) (draws : Nat → Nat) : Nat → Nat → Nat → (Nat → ℚ) → Option (Nat → ℚ)
  | 0, _, docLenSum, row => if docLenSum < 1000 then none else some row
  | fuel + 1, i, docLenSum, row =>
    if docLenSum < 1000 then
      sampleLoop x draws fuel (i + 1) (docLenSum + x.len (draws i)) (fun t => row t + (x.words (draws i) t : ℚ))
    else some row

/-- What happens to a row after the loop: it is normalised (lda_vb_python.py:105, mom_gibbs.py:94) or not (mom_em.py:106, commented
out) -/
def Many.finish (m : Many) (T : Nat) (row : Nat → ℚ) : Nat → ℚ :=
  match m with
  | .momEm => row
  | .ldaVbPython | .momGibbs => normalise T row

/-- A row of the initial word table of the modules that draw documents until there are a thousand words
(lda_vb_python.py:97-105, mom_em.py:98-106, mom_gibbs.py:86-94) -/
def manyRow (m : Many) (x : Data) (draws : Nat → Nat) (fuel : Nat) : Option (Nat → ℚ) :=
  (sampleLoop x draws fuel 0 0 (fun _ => 1)).map (m.finish x.T)

/-- The initial word table of lda_vb and lda_svb from the drawn distributions over words (lda_vb.py:108-112,
lda_svb.py:112-116): `wordDists += 1./T`, then rows are normalised. -/
def dirichletTopics (T : Nat) (draw : Nat → Nat → ℚ) (k t : Nat) : ℚ :=
  (draw k t + 1 / (T : ℚ)) / ∑ t' ∈ Finset.range T, (draw k t' + 1 / (T : ℚ))

/-- The modules whose query state is drawn from a Dirichlet distribution (lda_vb_python.py:129-134, mom_gibbs.py:120-125,
mom_em.py:134-137, lda_vb.py:135, lda_svb.py:140) -/
inductive Drawn where
  | ldaVbPython
  | momGibbs
  | momEm
  | ldaVb
  | ldaSvb
  deriving DecidableEq

/-- The parameters that `rd.dirichlet` gets: the prior over its sum (lda_vb_python.py:129-132, mom_gibbs.py:120-123,
mom_em.py:134-137), or the prior (lda_vb.py:135, lda_svb.py:140) -/
def Drawn.params (m : Drawn) (prior : List ℚ) : List ℚ :=
  match m with
  | .ldaVbPython | .momGibbs | .momEm => prior.map (fun a => a / prior.sum)
  | .ldaVb | .ldaSvb => prior

/-- The topics of the documents in a new query state; `draw` are the drawn distributions.  `rd.dirichlet` raises a ValueError for
parameters that are not positive. (lda_vb_python.py:129-134, mom_gibbs.py:120-125, mom_em.py:134-137, lda_vb.py:135,
lda_svb.py:140) -/
def newTopics (m : Drawn) (x : Data) (prior : List ℚ) (draw : Nat → Nat → ℚ) : Py (Nat → Nat → ℚ) :=
  if (m.params prior).any (fun a => decide (a ≤ 0)) then .error .valueError
  else .ok (match m with
    | .ldaVbPython | .momGibbs => fun d k => draw d k * (x.len d : ℚ) + prior.getD k 0
    | .momEm | .ldaVb | .ldaSvb => draw)

end Verif.Init
