import Verif.Model.VbPython

/-!
# The variational bound of LDA in Python

`var_bound` of `model/lda_vb_python.py`.  The conventions are those of `Verif.Model.VbPython`: real numbers, tables as functions, a scalar
vocabulary prior.
-/

namespace Verif.VbPython

open Verif
open Verif.Mom (Data loggamma)

/-- `_dirichletEntropy` (lda_vb_python.py:846-857) of a table with `D` rows and `K` columns -/
noncomputable def dirichletEntropy (psi : ℝ → ℝ) (D K : Nat) (P : Nat → Nat → ℝ) : ℝ :=
  ∑ d ∈ Finset.range D,
    (∑ k ∈ Finset.range K, loggamma (P d k) - loggamma (∑ k ∈ Finset.range K, P d k)
      + (∑ k ∈ Finset.range K, P d k - (K : ℝ)) * psi (∑ k ∈ Finset.range K, P d k)
      - ∑ k ∈ Finset.range K, (P d k - 1) * psi (P d k))

/-- `prob_topics` (lda_vb_python.py:796-797) -/
noncomputable def probTopics (psi : ℝ → ℝ) (p : Params) (x : Data) (topics : Nat → Nat → ℝ) : ℝ :=
  (x.D : ℝ) * (loggamma (∑ k ∈ Finset.range p.K, p.a k) - ∑ k ∈ Finset.range p.K, loggamma (p.a k))
    + ∑ d ∈ Finset.range x.D, ∑ k ∈ Finset.range p.K, (p.a k - 1) * (psi (topics d k) - psi (∑ j ∈ Finset.range p.K, topics d j))

/-- `prob_vocabs` (lda_vb_python.py:807-809), the vocabulary prior being a number -/
noncomputable def probVocabs (psi : ℝ → ℝ) (p : Params) (x : Data) (word : Nat → Nat → ℝ) : ℝ :=
  (p.K : ℝ) * (loggamma (p.v * x.T) - x.T * loggamma p.v)
    + ∑ k ∈ Finset.range p.K, ∑ t ∈ Finset.range x.T, (p.v - 1) * (psi (word k t) - psi (∑ u ∈ Finset.range x.T, word k u))

/-- `z` for document `d` (lda_vb_python.py:822, 828) -/
noncomputable def boundTopics (psi : ℝ → ℝ) (p : Params) (x : Data) (word topics : Nat → Nat → ℝ) (d t k : Nat) : ℝ :=
  inferTopics psi p x word (toMeans p x topics) d t k

/-- The summand of `prob_z` (lda_vb_python.py:831-832) -/
noncomputable def probZ (psi : ℝ → ℝ) (p : Params) (x : Data) (word topics : Nat → Nat → ℝ) (d : Nat) : ℝ :=
  ∑ t ∈ Finset.range x.T, ∑ k ∈ Finset.range p.K,
    boundTopics psi p x word topics d t k * (psi (topics d k) - psi (∑ j ∈ Finset.range p.K, topics d j)) * (x.words d t : ℝ)

/-- The summand of `prob_words` (lda_vb_python.py:835) -/
noncomputable def probWords (psi : ℝ → ℝ) (p : Params) (x : Data) (word topics : Nat → Nat → ℝ) (d : Nat) : ℝ :=
  ∑ t ∈ Finset.range x.T, ∑ k ∈ Finset.range p.K,
    (x.words d t : ℝ) * boundTopics psi p x word topics d t k * (psi (word k t) - psi (∑ u ∈ Finset.range x.T, word k u))

/-- The summand of `ent_z` (lda_vb_python.py:838) -/
noncomputable def entZ (psi : ℝ → ℝ) (p : Params) (x : Data) (word topics : Nat → Nat → ℝ) (d : Nat) : ℝ :=
  -∑ t ∈ Finset.range x.T, ∑ k ∈ Finset.range p.K,
    boundTopics psi p x word topics d t k * Numerics.safeLogOut false (boundTopics psi p x word topics d t k) * (x.words d t : ℝ)

/-- `var_bound` (lda_vb_python.py:771-843) -/
noncomputable def varBound (psi : ℝ → ℝ) (p : Params) (x : Data) (word topics : Nat → Nat → ℝ) : ℝ :=
  probTopics psi p x topics + dirichletEntropy psi x.D p.K topics + probVocabs psi p x word + dirichletEntropy psi p.K x.T word
    + (∑ d ∈ Finset.range x.D, probZ psi p x word topics d + ∑ d ∈ Finset.range x.D, entZ psi p x word topics d
      + ∑ d ∈ Finset.range x.D, probWords psi p x word topics d)

end Verif.VbPython
