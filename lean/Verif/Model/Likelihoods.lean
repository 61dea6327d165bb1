import Verif.Model.Mtm
import Verif.Model.SkWrapped

/-!
# The likelihoods of linked documents and of mixtures

`log_likelihood` of `model/rtm.py`, `model/mtm.py`, `model/self_lda_vb_python.py`, `model/mtm2.py` and `model/mtm3.py`, and
`log_likelihood_point` of `model/mom_em.py` and `model/mom_gibbs.py`.  The compiled kernel reads its tables without looking whether an index
is inside; what such a read gives is not modelled (`none`).
-/

namespace Verif.Likelihoods

open Verif

/-- Whether every read of `sparseScalarProductOfSafeLnDot_f8` (se_fast.pyx:500-529) with `dotProduct_f8` (se_fast.pyx:610-627) is inside its table -/
def inside (A : Csr ℝ) (B C : Mat ℝ) : Bool :=
  (List.range A.rows).all fun r => (A.row r).all fun e => decide (r < B.rows) && decide (e.1 < C.cols) && decide (B.cols ≤ C.rows)

/-- `sparseScalarProductOfSafeLnDot(A, B, C).sum()` (sparse_elementwise.py:250-296); `none`: there was a read outside a table -/
noncomputable def lnDotSum (tiny : ℝ) (A : Csr ℝ) (B C : Mat ℝ) : Option ℝ :=
  if inside A B C then some (SparseKernels.productOfSafeLnDot tiny A B C 0 A.rows).data.sum else none

/-- `topicDists` (rtm.py:157-167, self_lda_vb_python.py:144-154): the last column is left out -/
noncomputable def leadingDists (t : Mat ℝ) : Mat ℝ :=
  ⟨t.rows, t.cols - 1, fun d k => t.get d k / ∑ j ∈ Finset.range (t.cols - 1), t.get d j⟩

/-- `topicDists` (mtm.py:179-188) -/
noncomputable def softDists (t : Mat ℝ) : Mat ℝ := ⟨t.rows, t.cols, Ctm.softmaxRows t.cols t.get⟩

/-- `log_likelihood` (rtm.py:178-213) -/
noncomputable def rtmLikelihood (tiny : ℝ) (words _links : Csr ℝ) (topics vocab : Mat ℝ) : Option ℝ := do
  let wordLikely ← lnDotSum tiny words (leadingDists topics) (SkWrapped.componentDists vocab)
  let linkLikely := 0
  return wordLikely + linkLikely

/-- `log_likelihood` (mtm.py:198-232) -/
noncomputable def mtmLikelihood (tiny : ℝ) (words _links : Csr ℝ) (topics vocab : Mat ℝ) : Option ℝ := do
  let wordLikely ← lnDotSum tiny words (softDists topics) (SkWrapped.componentDists vocab)
  let linkLikely := 0
  return wordLikely + linkLikely

/-- `log_likelihood` (self_lda_vb_python.py:165-179) -/
noncomputable def selfLikelihood (tiny : ℝ) (words _links : Csr ℝ) (topics vocab : Mat ℝ) : Option ℝ := do
  let topicProbs := leadingDists topics
  let wordLikely ← lnDotSum tiny words topicProbs (SkWrapped.componentDists vocab)
  let docProbs : Mat ℝ := ⟨topicProbs.cols, topicProbs.rows, fun k d => topicProbs.get d k⟩
  let linkLikely ← lnDotSum tiny words topicProbs docProbs
  return wordLikely + linkLikely

/-- `colwise_softmax` (sigmoid_utils.py:28-40) of a table with at least one row -/
noncomputable def colDists (t : Mat ℝ) : Mat ℝ := ⟨t.rows, t.cols, fun d k => Mtm.docVocab t.rows t.get k d⟩

/-- `log_likelihood` (mtm2.py:401-427, where `ins` is `out`; mtm3.py:571-597) -/
noncomputable def matrixLikelihood (tiny : ℝ) (words links : Csr ℝ) (out ins vocab : Mat ℝ) : Option ℝ := do
  let probs := softDists out
  let docDist := colDists ins
  let wordLikely ← lnDotSum tiny words probs vocab
  let linkLikely ← lnDotSum tiny links probs docDist
  return wordLikely + linkLikely

/-! ## Mixtures -/

/-- `log_likelihood_point` (mom_em.py:368-390) of `D` documents: `weight d k` is the document's topic distribution, or that of the corpus -/
noncomputable def momEmPoint (D K T : Nat) (words : Nat → Nat → Nat) (param : Nat → Nat → ℝ) (weight : Nat → Nat → ℝ) : ℝ :=
  let wordDist := fun k t => param k t / ∑ u ∈ Finset.range T, param k u
  let lls := fun d k => (∑ t ∈ Finset.range T, (words d t : ℝ) * Real.log (wordDist k t)) + Numerics.safeLogOut false (weight d k)
  let maxLls := fun d => Numerics.rowMax K (lls d)
  ∑ d ∈ Finset.range D, (maxLls d + Real.log (∑ k ∈ Finset.range K, Real.exp (lls d k - maxLls d)))

/-- `corpusTopicDist` (mom_em.py:159-160) -/
noncomputable def corpusTopicDist (K : Nat) (param : Nat → ℝ) (k : Nat) : ℝ := param k / ∑ j ∈ Finset.range K, param j

/-- `log_likelihood_point` (mom_gibbs.py:168-180) -/
noncomputable def momGibbsPoint (tiny : ℝ) (words : Csr ℝ) (topics vocab : Mat ℝ) : Option ℝ :=
  lnDotSum tiny words topics (SkWrapped.componentDists vocab)

end Verif.Likelihoods
