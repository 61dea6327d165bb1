import Verif.Model.Ctm

/-!
# Queries of the correlated topic model

`query` of `model/ctm.py`.  The matrix inverse `inv` is an arbitrary function.  An inverse that fails with a `LinAlgError` is not modelled (the
`except ValueError` of lines 355-357 concerns only matrices that are not square).  Printing and the debug function are left out.
-/

namespace Verif.CtmQuery

open Verif Verif.Ctm
open Verif.Mom (Data)

/-- The variables of `query` that its loop changes (ctm.py:333); `means` is the array of the query state given, which is filled in place. -/
structure QState where
  means : Nat → Nat → ℝ
  varcs : Nat → Nat → ℝ
  lxi : Nat → Nat → ℝ
  s : Nat → ℝ

/-- The body of the loop of `query` up to the likelihood (ctm.py:350-371); `S` are the topic counts computed before the loop (341). -/
noncomputable def queryStep (inv : (Nat → Nat → ℝ) → Nat → Nat → ℝ) (x : Data) (K : Nat) (isig : Nat → Nat → ℝ) (topicMean : Nat → ℝ)
    (S : Nat → Nat → ℝ) (q : QState) : QState :=
  let vMat := fun d k => (q.s d * q.lxi d k - 0.5) * (x.len d : ℝ) + S d k
  let rhsMat := fun d k => vMat d k + ∑ j ∈ Finset.range K, isig k j * topicMean j
  let means := fun d k => ∑ j ∈ Finset.range K, inv (fun a b => isig a b + if a = b then (x.len d : ℝ) * q.lxi d a else 0) k j * rhsMat d j
  let varcs := fun d k => 1 / ((x.len d : ℝ) * q.lxi d k + isig k k)
  let lxi := fun d k => 2 * negJakkolaOfDerivedXi means varcs q.s d k
  let s := fun d => ((∑ k ∈ Finset.range K, lxi d k * means d k) + 0.25 * K - 0.5) / ∑ k ∈ Finset.range K, lxi d k
  ⟨means, varcs, lxi, s⟩

/-- The loop of `query` (ctm.py:348-377): `perp` is the perplexity of the weights (373-374). -/
noncomputable def queryLoop (step : QState → QState) (perp : (Nat → Nat → ℝ) → ℝ) : Nat → Nat → ℝ → QState → QState
  | 0, _, _, q => q
  | fuel + 1, itr, lastPerp, q =>
    let q := step q
    let p := perp q.means
    if 20 < itr ∧ lastPerp - p < 1 then q
    else queryLoop step perp fuel (itr + 1) p q

/-- `query` (ctm.py:313-379): `tiny` is the floor of the logarithm, `perplexity like words` is `perplexity_from_like`, `big` the initial value of
`lastPerp`. -/
noncomputable def query (inv : (Nat → Nat → ℝ) → Nat → Nat → ℝ) (tiny : ℝ) (perplexity : ℝ → ℝ → ℝ) (big : ℝ) (x : Data) (K : Nat)
    (topicMean : Nat → ℝ) (sig vocab : Nat → Nat → ℝ) (iterations : Nat) (q : QState) : QState :=
  let isig := inv sig
  let S := topicCounts x K (expRows K q.means) vocab
  let perp := fun means => perplexity (logLikelihood x K tiny means vocab) (∑ d ∈ Finset.range x.D, (x.len d : ℝ))
  queryLoop (queryStep inv x K isig topicMean S) perp iterations 0 big q

end Verif.CtmQuery
