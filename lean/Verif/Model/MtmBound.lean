import Verif.Model.Mtm
import Verif.Model.CtmBound

/-!
# The variational bounds of the matrix topic models

`var_bound` of `model/mtm.py`, `model/mtm2.py` and `model/mtm3.py`, statement by statement.  The matrix inverse, the determinant and the digamma
function are arbitrary functions.
-/

namespace Verif.MtmBound

open Verif Verif.Ctm Verif.Mtm
open Verif.Mom (Data)
open Verif.CtmBound (lnOf2Pi lnOf2PiE quadTerm)

/-! ## `mtm.py` -/

/-- `lse` (mtm.py:649-654) -/
noncomputable def lse (K : Nat) (r : Nat → ℝ) : ℝ :=
  if 1 / 10 ^ 300 < ∑ k ∈ Finset.range K, Real.exp (r k) then Real.log (∑ k ∈ Finset.range K, Real.exp (r k)) else -10 ^ 300

/-- The Gaussian part of `var_bound` (mtm.py:568-604); `vag` is `Vagueness` -/
noncomputable def gaussPart (det : (Nat → Nat → ℝ) → ℝ) (vag : ℝ) (D : Nat) (c : Fixed) (st : MState) : ℝ :=
  let halfDK : ℝ := 0.5 * D * c.K
  let logDetCov := Real.log (det st.cov)
  let kernel := fun d k => (∑ j ∈ Finset.range c.K, (st.topics d j - c.UV d j) ^ 2 * st.cov j k) / (2 * vag)
  let bound := -halfDK * lnOf2Pi - halfDK * Real.log vag - D * 0.5 * logDetCov
    - ∑ d ∈ Finset.range D, ∑ k ∈ Finset.range c.K, kernel d k - ∑ d ∈ Finset.range D, ∑ k ∈ Finset.range c.K, st.postCov d k
  bound + (-halfDK * lnOf2PiE - halfDK * Real.log vag - D * 0.5 * logDetCov)

/-- What document `d` adds for its words (mtm.py:615-625) -/
noncomputable def wordPart (psi : ℝ → ℝ) (c : Fixed) (x : Data) (st : MState) (d : Nat) : ℝ :=
  let z := wordTopics psi c.K x.T st.wordDists (st.topics d)
  let probZ := ∑ t ∈ Finset.range x.T, ∑ k ∈ Finset.range c.K, st.topics d k * (z t k * (x.words d t : ℝ)) - (x.len d : ℝ) * lse c.K (st.topics d)
  let probWords := ∑ t ∈ Finset.range x.T, ∑ k ∈ Finset.range c.K,
    (x.words d t : ℝ) * z t k * (psi (st.wordDists k t) - psi (∑ u ∈ Finset.range x.T, st.wordDists k u))
  let entZ := -∑ t ∈ Finset.range x.T, ∑ k ∈ Finset.range c.K, z t k * Numerics.safeLogOut false (z t k) * (x.words d t : ℝ)
  probZ + entZ + probWords

/-- What document `d` adds for its links (mtm.py:628-640).  The product in line 639 pairs every link with every other link. -/
noncomputable def linkPart (c : Fixed) (links : Data) (st : MState) (d : Nat) : ℝ :=
  let y := linkTopics c.K c.lse st.topics d
  let entY := -∑ p ∈ Finset.range links.T, ∑ k ∈ Finset.range c.K, (links.words d p : ℝ) * (y p k * Numerics.safeLogOut false (y p k))
  let y' := fun p k => y p k * (links.words d p : ℝ)
  let probY := ∑ p ∈ Finset.range links.T, ∑ k ∈ Finset.range c.K, y' p k * st.topics d k - c.outCounts d * lse c.K (st.topics d)
  let probLinks := ∑ p ∈ Finset.range links.T, ∑ q ∈ Finset.range links.T,
      (if links.words d q = 0 then 0 else ∑ k ∈ Finset.range c.K, y' p k * st.topics q k)
    - ∑ p ∈ Finset.range links.T, ∑ k ∈ Finset.range c.K, y' p k * c.lse k
  probY + entY + probLinks

/-- `var_bound` (mtm.py:555-646) -/
noncomputable def bound1 (psi : ℝ → ℝ) (det : (Nat → Nat → ℝ) → ℝ) (vag : ℝ) (c : Fixed) (x links : Data) (st : MState) : ℝ :=
  gaussPart det vag x.D c st + ∑ d ∈ Finset.range x.D, wordPart psi c x st d + ∑ d ∈ Finset.range x.D, linkPart c links st d

/-! ## `mtm2.py` -/

/-- `var_bound` (mtm2.py:434-511) with `USE_NIW_PRIOR = False`; the topics of the links are computed and not used (489-490). -/
noncomputable def bound2 (inv : (Nat → Nat → ℝ) → Nat → Nat → ℝ) (det : (Nat → Nat → ℝ) → ℝ) (tiny : ℝ) (x _links : Data) (K : Nat) (st : State2) : ℝ :=
  let n : Nat → ℝ := fun d => x.len d
  let icov := inv st.topicCov
  let bound : ℝ := 0
  let e := expRows K st.means
  let bound := bound - (x.D : ℝ) * K / 2 * lnOf2Pi
  let bound := bound - (x.D : ℝ) / 2 * det st.topicCov
  let bound := bound - 0.5 * quadTerm x.D K icov st.means st.topicMean
  let bound := bound - 0.5 * ∑ d ∈ Finset.range x.D, ∑ k ∈ Finset.range K, st.varcs d k * icov k k
  let w := topicCounts x K e st.vocab
  let bound := bound + ∑ d ∈ Finset.range x.D, n d * Real.log (∑ k ∈ Finset.range K, e d k)
  let bound := bound + ∑ d ∈ Finset.range x.D, ∑ t ∈ Finset.range x.T,
    (x.words d t : ℝ) * SparseKernels.safeLn tiny (∑ k ∈ Finset.range K, e d k * st.vocab k t)
  let bound := bound + ∑ d ∈ Finset.range x.D, ∑ k ∈ Finset.range K, st.means d k * w d k
  let bound := bound + ∑ d ∈ Finset.range x.D, ∑ k ∈ Finset.range K,
    2 * n d * (∑ j ∈ Finset.range K, st.means d j * linkA K j k) * st.means d k
  let bound := bound - 2 * Numerics.scaledSelfSoftDot x.D K st.means n
  let bound := bound - 0.5 * ∑ d ∈ Finset.range x.D, ∑ k ∈ Finset.range K, n d * w d k * linkA K k k
  bound - ∑ d ∈ Finset.range x.D, ∑ k ∈ Finset.range K, st.means d k * w d k

/-! ## `mtm3.py` -/

/-- The terms `H[Z]` and `E[p(W)]` or `H[Y]` and `E[p(L)]` of `var_bound` (mtm3.py:657-660, 670-671; 663-666, 674-675): `y` are the words or the
links, `v` the distributions of the topics over them -/
noncomputable def tokenPart (tiny : ℝ) (y : Data) (K : Nat) (means v : Nat → Nat → ℝ) : ℝ :=
  let e := expRows K means
  let r := quotient y K e v
  (∑ d ∈ Finset.range y.D, ∑ k ∈ Finset.range K, (∑ t ∈ Finset.range y.T, r d t * v k t) * e d k * means d k
      + ∑ d ∈ Finset.range y.D, ∑ k ∈ Finset.range K, (∑ t ∈ Finset.range y.T, r d t * (Real.log (v k t) * v k t)) * e d k
      - ∑ d ∈ Finset.range y.D, ∑ k ∈ Finset.range K,
        (∑ t ∈ Finset.range y.T, r d t * SparseKernels.safeLn tiny (∑ j ∈ Finset.range K, e d j * v j t) * v k t) * e d k)
    + ∑ k ∈ Finset.range K, ∑ d ∈ Finset.range y.D, e d k * ∑ t ∈ Finset.range y.T, r d t * (Real.log (v k t) * v k t)

/-- `var_bound` (mtm3.py:604-677); `logDet` is `safe_log_det` (overflow_safe.py:45-58) -/
noncomputable def bound3 (inv : (Nat → Nat → ℝ) → Nat → Nat → ℝ) (logDet : (Nat → Nat → ℝ) → ℝ) (tiny : ℝ) (x links : Data) (K : Nat) (st : State3) : ℝ :=
  let n : Nat → ℝ := fun d => x.len d
  let icov := inv st.topicCov
  let e := expRows K st.outMeans
  let bound : ℝ := 0
  let bound := bound - (x.D : ℝ) * K / 2 * lnOf2Pi
  let bound := bound - (x.D : ℝ) / 2 * logDet (fun i j => st.outDocCov * st.topicCov i j)
  let bound := bound - 0.5 * ∑ d ∈ Finset.range x.D, ∑ k ∈ Finset.range K,
    (∑ j ∈ Finset.range K, (st.outMeans d j - st.topicMean j) * icov j k) * (st.outMeans d k - st.topicMean k) * 1 / st.outDocCov
  let bound := bound - 0.5 / st.outDocCov * ∑ d ∈ Finset.range x.D, ∑ k ∈ Finset.range K, st.outVarcs d k * icov k k
  let bound := bound + (0.5 * x.D * K * lnOf2PiE + 0.5 * ∑ d ∈ Finset.range x.D, ∑ k ∈ Finset.range K, Real.log (st.outVarcs d k))
  let bound := bound - (x.D : ℝ) * K / 2 * lnOf2Pi
  let bound := bound - (x.D : ℝ) / 2 * logDet st.topicCov
  let bound := bound - (K : ℝ) / 2 * ∑ d ∈ Finset.range x.D, Numerics.safeLogOut false (st.inDocCov d)
  let bound := bound - 0.5 * ∑ d ∈ Finset.range x.D, ∑ k ∈ Finset.range K,
    (∑ j ∈ Finset.range K, (st.inMeans d j - st.outMeans d j) * icov j k) * (st.inMeans d k - st.outMeans d k) * (1 / st.inDocCov d)
  let bound := bound - 0.5 * ∑ d ∈ Finset.range x.D, ∑ k ∈ Finset.range K, st.inVarcs d k * (1 / st.inDocCov d) * icov k k
  let bound := bound + (0.5 * x.D * K * lnOf2PiE + 0.5 * ∑ d ∈ Finset.range x.D, ∑ k ∈ Finset.range K, Real.log (st.inVarcs d k))
  let docs := docVocab x.D st.inMeans
  let topSums := fun d k => topicCounts x K e st.vocab d k + topicCounts links K e docs d k
  let bound := bound + ∑ d ∈ Finset.range x.D, ∑ k ∈ Finset.range K, st.outMeans d k * topSums d k
  let bound := bound - ∑ d ∈ Finset.range x.D, (n d + (links.len d : ℝ)) * Real.log (∑ k ∈ Finset.range K, e d k)
  bound + tokenPart tiny x K st.outMeans st.vocab + tokenPart tiny links K st.outMeans docs

end Verif.MtmBound
