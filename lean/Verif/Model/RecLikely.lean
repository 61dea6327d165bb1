import Verif.Model.Likelihoods
import Verif.Model.RunMain

/-!
# The likelihoods of the recommenders

`log_likelihood` of `model/sim_based_rec.py` and `model/lro_vb.py`, with `log_likelihood`, `topicDists` and `wordDists` of
`model/lda_vb_python.py`, and the perplexity that `run/__main__.py` makes of them.
-/

namespace Verif.RecLikely

open Verif

/-- The methods of comparing documents: `TF_IDF`, `LDA` and any other text (sim_based_rec.py:18, 32, 103-108) -/
inductive Method
  | tfIdf
  | lda
  | other
  deriving DecidableEq

/-- `topicDists` (lda_vb_python.py:176-185): rows divided by their sums -/
noncomputable def topicDists (t : Mat ℝ) : Mat ℝ :=
  ⟨t.rows, t.cols, fun d k => t.get d k / ∑ j ∈ Finset.range t.cols, t.get d j⟩

/-- `wordDists` (lda_vb_python.py:164-172): rows divided by their sums -/
noncomputable def wordDists (w : Mat ℝ) : Mat ℝ :=
  ⟨w.rows, w.cols, fun k t => w.get k t / ∑ u ∈ Finset.range w.cols, w.get k u⟩

/-- `log_likelihood` (lda_vb_python.py:196-208): `tops` is the override if there is one. -/
noncomputable def ldaLikelihood (tiny : ℝ) (words : Csr ℝ) (vocab topics : Mat ℝ) (override : Option (Mat ℝ)) : Option ℝ :=
  Likelihoods.lnDotSum tiny words (override.getD (topicDists topics)) (wordDists vocab)

/-- `reps = np.sqrt(lda.topicDists(ldaTopics))` (sim_based_rec.py:195) -/
noncomputable def ldaReps (topics : Mat ℝ) : Mat ℝ :=
  ⟨topics.rows, topics.cols, fun d k => Real.sqrt ((topicDists topics).get d k)⟩

/-- `log_likelihood` (sim_based_rec.py:226-239); `query=None` is handed on, hence the topics are not read. -/
noncomputable def simLikelihood (tiny : ℝ) (method : Method) (words : Csr ℝ) (vocab reps : Mat ℝ) : Py (Option ℝ) :=
  match method with
  | .tfIdf => .ok (some 0)
  | .lda => .ok (ldaLikelihood tiny words vocab ⟨0, 0, fun _ _ => 0⟩ (some ⟨reps.rows, reps.cols, fun d k => reps.get d k ^ 2⟩))
  | .other => .error .valueError

/-- `log_likelihood` (lro_vb.py:257-265); the offsets are not read. -/
noncomputable def lroLikelihood (tiny : ℝ) (words : Csr ℝ) (vocab topics _offsets : Mat ℝ) : Option ℝ :=
  ldaLikelihood tiny words vocab topics none

/-- `perplexity_from_like(mdl.log_likelihood(data, model, topics), data.word_count)` (run/__main__.py:409-410, 440-442, 452-454) -/
noncomputable def perplexity (words : Csr ℝ) (like : Option ℝ) : Option ℝ :=
  like.map fun l => RunMain.perplexityFromLike l (SkWrapped.wordCount words)

end Verif.RecLikely
