import Verif.Props.MtmLinks

/-!
# Training and querying `mtm2.py` and `mtm3.py` (C163, C174 to C177, C179 to C181)
-/

namespace Verif.Props.MtmTrain

open Verif Verif.Mtm
open Verif.Ctm hiding train
open Verif.Mom (Data)
open Verif.Props.MomEm (IsDist softmax_dist)
open Verif.Props.Numerics (softmax sum_exp_pos)
open Verif.Props.Ctm
open Verif.Props.Bohning
open Verif.Props.MtmLinks
open Verif.Props.StmCov (exactInv mat exactInv_two exactInv_posDef exactInv_prec quad_eq)

/-! ## Positive definite systems -/

theorem linkA_psd (K : Nat) (hK : 0 < K) : (mat K (linkA K)).PosSemidef := psd_of_quad K _ (linkA_symm K) (quad_linkA_nonneg K hK)

/-- A sum of a positive definite matrix, a multiple of `A` and a diagonal matrix -/
theorem system_posDef (K : Nat) (hK : 0 < K) (c n : ℝ) (hc : 0 < c) (hn : 0 ≤ n) (w : Nat → ℝ) (hw : ∀ k, k < K → 0 ≤ w k)
    (M : Nat → Nat → ℝ) (hM : (mat K M).PosDef) :
    (mat K fun i j => c * M i j + n * linkA K i j + if i = j then w i else 0).PosDef := by
  rw [mat_add K (fun i j => c * M i j + n * linkA K i j), mat_add K (fun i j => c * M i j), mat_smul, mat_smul]
  exact ((hM.smul hc).add_posSemidef ((linkA_psd K hK).smul hn)).add_posSemidef (diag_psd K w hw)

theorem mat_congr (K : Nat) (M N : Nat → Nat → ℝ) (h : ∀ i j, M i j = N i j) : mat K M = mat K N := by
  ext i j
  exact h i j

/-! ## `mtm2.py` -/

/-- Positive variances and topics that are distributions without zeros -/
structure Good2 (K : Nat) (x : Data) (st : State2) : Prop where
  varcs : ∀ d k, d < x.D → k < K → 0 < st.varcs d k
  topics : Topics K x.T st.vocab

theorem cov2_posDef (K D : Nat) (hD : 1 < D) (means varcs : Nat → Nat → ℝ) (hv : ∀ d k, d < D → k < K → 0 < varcs d k) :
    (mat K (cov2 D means varcs)).PosDef := by
  have hD' : (1 : ℝ) < D := by exact_mod_cast hD
  have h1 := outer_psd K D (fun _ => 1 / ((D : ℝ) - 1)) (fun _ _ => by
    have : (0 : ℝ) < (D : ℝ) - 1 := by linarith
    positivity) (fun d k => means d k - (∑ e ∈ Finset.range D, means e k) / (D : ℝ))
  have h2 := diag_pd K (fun k => (∑ d ∈ Finset.range D, varcs d k) / (D : ℝ)) fun k hk => by
    have : 0 < ∑ d ∈ Finset.range D, varcs d k :=
      Finset.sum_pos (fun d hd => hv d k (Finset.mem_range.mp hd) hk) ⟨0, Finset.mem_range.mpr (by omega)⟩
    positivity
  have h := Matrix.PosDef.posSemidef_add h1 h2
  rw [← mat_add] at h
  rw [mat_congr K (cov2 D means varcs)]
  · exact h
  · intro i j
    unfold cov2
    rw [Finset.sum_div]
    congr 1
    exact Finset.sum_congr rfl fun d _ => by ring

/-- **C174** Every matrix that an iteration inverts is positive definite, hence invertible. -/
theorem systems2 (x links : Data) (K : Nat) (hK : 1 < K) (hD : 1 < x.D) (hl : links.D = x.D) (hsq : links.T = links.D) (st : State2)
    (hg : Good2 K x st) :
    (mat K (cov2 x.D st.means st.varcs)).PosDef ∧
    ∀ d, (mat K (lhs2 x links K (exactInv K (cov2 x.D st.means st.varcs)) (inCounts links K st.means st.means) d)).PosDef := by
  have h1 := cov2_posDef K x.D hD st.means st.varcs hg.varcs
  refine ⟨h1, fun d => ?_⟩
  have hc := (link_counts_partial links hsq (by omega) K (by omega) st.means st.means).2.2.2
  have h := system_posDef K (by omega) 1 ((x.len d : ℝ) + (links.len d : ℝ)) one_pos (by positivity)
    (fun k => (x.D : ℝ) * inCounts links K st.means st.means k / (2 * (x.D : ℝ) + 2)) (fun k hk => by
      have := hc k hk
      positivity) _ (exactInv_posDef K _ h1)
  simp only [one_mul] at h
  exact h

/-- **C174** An iteration succeeds exactly when there are several topics and documents and the accurate variant is asked for. -/
theorem step2_ok_iff (inv : Nat → (Nat → Nat → ℝ) → Nat → Nat → ℝ) (x links : Data) (K : Nat) (fast : Bool) (st : State2) :
    (∃ st', step2 inv x links K fast st = .ok st') ↔ K ≠ 1 ∧ x.D ≠ 1 ∧ fast = false := by
  unfold step2
  constructor
  · intro ⟨st', h⟩
    by_contra hn
    rw [if_pos (by
      by_contra h2
      push Not at h2
      exact hn ⟨h2.1, h2.2.1, by simpa using h2.2.2⟩)] at h
    cases h
  · intro ⟨h1, h2, h3⟩
    rw [if_neg (by simp [h1, h2, h3])]
    exact ⟨_, rfl⟩

theorem step2_good (x links : Data) (K : Nat) (hK : 1 < K) (hD : 1 < x.D) (hT : 0 < x.T) (st : State2) (hg : Good2 K x st) :
    ∃ st', step2 exactInv x links K false st = .ok st' ∧ Good2 K x st' := by
  unfold step2
  rw [if_neg (by simp; omega)]
  refine ⟨_, rfl, fun d k _ hk => ?_, vocab_dist x K (1 / 10) (by norm_num) st.means st.vocab (by omega) hT hg.topics⟩
  have h1 := diag_pos K _ (cov2_posDef K x.D hD st.means st.varcs hg.varcs) k hk
  have h2 : (0 : ℝ) ≤ 1 / 2 - 1 / (K : ℝ) := by
    have : (2 : ℝ) ≤ K := by exact_mod_cast hK
    rw [sub_nonneg]
    exact one_div_le_one_div_of_le (by norm_num) this
  have h3 : (0 : ℝ) ≤ (x.len d : ℝ) * (1 / 2 - 1 / (K : ℝ)) := mul_nonneg (Nat.cast_nonneg _) h2
  exact one_div_pos.mpr (by linarith)

/-- **C174** (what holds) With at least two topics and two documents the accurate variant completes any number of iterations, and variances
stay positive and topics distributions. -/
theorem train2_completes_partial (x links : Data) (K : Nat) (hK : 1 < K) (hD : 1 < x.D) (hT : 0 < x.T) (n : Nat) : ∀ st, Good2 K x st →
    ∃ st', train2 exactInv x links K false n st = .ok st' ∧ Good2 K x st' := by
  induction n with
  | zero => exact fun st hg => ⟨st, rfl, hg⟩
  | succ n ih =>
    intro st hg
    obtain ⟨s1, h1, g1⟩ := step2_good x links K hK hD hT st hg
    obtain ⟨s2, h2, g2⟩ := ih s1 g1
    refine ⟨s2, ?_, g2⟩
    show (do let st' ← step2 exactInv x links K false st; train2 exactInv x links K false n st') = _
    rw [h1]
    exact h2

/-- **C174** (violation) With `fastButInaccurate`, with one topic or with one document every training raises an error. -/
theorem train2_fails (inv : Nat → (Nat → Nat → ℝ) → Nat → Nat → ℝ) (x links : Data) (K : Nat) (fast : Bool) (n : Nat) (st : State2)
    (h : fast = true ∨ K = 1 ∨ x.D = 1) : train2 inv x links K fast (n + 1) st = .error .valueError := by
  show (do let st' ← step2 inv x links K fast st; train2 inv x links K fast n st') = _
  have : step2 inv x links K fast st = .error .valueError := by
    unfold step2
    rw [if_pos (by tauto)]
  rw [this]
  rfl

/-- **C181** The update of the topics never lowers the likelihood of the words with their prior. -/
theorem vocab2_monotone (inv : Nat → (Nat → Nat → ℝ) → Nat → Nat → ℝ) (x links : Data) (K : Nat) (hK : 0 < K) (hT : 0 < x.T)
    (fast : Bool) (st st' : State2) (hv : Topics K x.T st.vocab) (h : step2 inv x links K fast st = .ok st') :
    penalised x K (1 / 10) st.means st.vocab ≤ penalised x K (1 / 10) st.means st'.vocab ∧ Topics K x.T st'.vocab := by
  unfold step2 at h
  split at h
  · cases h
  · injection h with h
    subst h
    exact ⟨vocab_monotone x K (1 / 10) (by norm_num) st.means st.vocab hK hT hv,
      vocab_dist x K (1 / 10) (by norm_num) st.means st.vocab hK hT hv⟩

/-! ### Queries -/

theorem query2_fast_held (inv : (Nat → Nat → ℝ) → Nat → Nat → ℝ) (x : Data) (K : Nat) (isig : Nat → Nat → ℝ) (mu : Nat → ℝ)
    (vocab varcs e : Nat → Nat → ℝ) (n : Nat) (q : Query2) (ha : q.aliased = false) :
    ((mtm2QueryStep inv x K isig mu vocab varcs e true)^[n] q).held = q.held := by
  induction n generalizing q with
  | zero => rfl
  | succ n ih =>
    rw [Function.iterate_succ_apply, ih]
    · simp [mtm2QueryStep, ha]
    · simp [mtm2QueryStep]

/-- **C175** (violation) With `fastButInaccurate` the means returned are the softmax of the means passed in, whatever the words are. -/
theorem query2_fast (inv : (Nat → Nat → ℝ) → Nat → Nat → ℝ) (x : Data) (K : Nat) (sig : Nat → Nat → ℝ) (mu : Nat → ℝ)
    (vocab : Nat → Nat → ℝ) (n : Nat) (means varcs : Nat → Nat → ℝ) (d k : Nat) :
    (mtm2Query inv x K sig mu vocab true (n + 1) means varcs).1 d k = softmax K (means d) k := by
  unfold mtm2Query
  simp only
  rw [Function.iterate_succ_apply, query2_fast_held]
  · rw [← softmaxRows_eq]
    rfl
  · simp [mtm2QueryStep]

/-- **C175** (violation) The variances returned are those passed in. -/
theorem query2_varcs (inv : (Nat → Nat → ℝ) → Nat → Nat → ℝ) (x : Data) (K : Nat) (sig : Nat → Nat → ℝ) (mu : Nat → ℝ)
    (vocab : Nat → Nat → ℝ) (fast : Bool) (n : Nat) (means varcs : Nat → Nat → ℝ) :
    (mtm2Query inv x K sig mu vocab fast n means varcs).2 = varcs := rfl

theorem quad_sub (K : Nat) (M : Nat → Nat → ℝ) (hM : ∀ i j, M i j = M j i) (a b : Nat → ℝ) :
    quad K M (fun k => a k - b k) = quad K M a - 2 * ∑ k ∈ Finset.range K, (∑ j ∈ Finset.range K, M k j * b j) * a k + quad K M b := by
  have h := quad_shift K M hM (fun k => -b k) a
  have h1 : (fun k => -b k + a k) = fun k => a k - b k := funext fun k => by ring
  have h2 : quad K M (fun k => -b k) = quad K M b := by
    unfold quad
    exact Finset.sum_congr rfl fun i _ => by
      simp only [mul_neg, Finset.sum_neg_distrib]
      ring
  have h3 : ∑ i ∈ Finset.range K, a i * ∑ j ∈ Finset.range K, M i j * -b j
      = -∑ k ∈ Finset.range K, (∑ j ∈ Finset.range K, M k j * b j) * a k := by
    rw [← Finset.sum_neg_distrib]
    exact Finset.sum_congr rfl fun i _ => by
      simp only [mul_neg, Finset.sum_neg_distrib]
      ring
  rw [h1, h2, h3] at h
  rw [h]
  ring

theorem query2_step_gain (x : Data) (K : Nat) (hK : 0 < K) (isig : Nat → Nat → ℝ) (hisig : (mat K isig).PosDef) (hs : IsPrec K isig)
    (mu : Nat → ℝ) (vocab varcs e : Nat → Nat → ℝ) (q : Query2) (d : Nat) :
    gain K isig (topicCounts x K e vocab d) (fun k => ∑ j ∈ Finset.range K, isig k j * mu j) (x.len d) (q.means d)
      ≤ gain K isig (topicCounts x K e vocab d) (fun k => ∑ j ∈ Finset.range K, isig k j * mu j) (x.len d)
        ((mtm2QueryStep (exactInv K) x K isig mu vocab varcs e false q).means d) := by
  refine gain_step K hK isig hs _ _ _ (Nat.cast_nonneg _) _ _ fun i hi => ?_
  have hpd : (mat K fun i l => isig i l + (x.len d : ℝ) * linkA K i l).PosDef := by
    rw [mat_add K isig, mat_smul]
    exact hisig.add_posSemidef ((linkA_psd K hK).smul (Nat.cast_nonneg _))
  have h := mul_of_isInv K _ _ (exactInv_two K _ hpd).1 (bohningRhs x K (linkA K) isig mu (topicCounts x K e vocab) q.means d) i hi
  have hrun : (mtm2QueryStep (exactInv K) x K isig mu vocab varcs e false q).means d
      = fun l => ∑ j ∈ Finset.range K, exactInv K (fun i l => isig i l + (x.len d : ℝ) * linkA K i l) l j
        * bohningRhs x K (linkA K) isig mu (topicCounts x K e vocab) q.means d j := by
    funext l
    simp [mtm2QueryStep, bohningMeans]
  rw [hrun, h]
  unfold bohningRhs
  rw [softmaxRows_eq]
  ring

theorem query2_steps_gain (x : Data) (K : Nat) (hK : 0 < K) (isig : Nat → Nat → ℝ) (hisig : (mat K isig).PosDef) (hs : IsPrec K isig)
    (mu : Nat → ℝ) (vocab varcs e : Nat → Nat → ℝ) (d : Nat) (n : Nat) : ∀ q : Query2, q.aliased = true → q.held = q.means →
    ((mtm2QueryStep (exactInv K) x K isig mu vocab varcs e false)^[n] q).held
      = ((mtm2QueryStep (exactInv K) x K isig mu vocab varcs e false)^[n] q).means ∧
    gain K isig (topicCounts x K e vocab d) (fun k => ∑ j ∈ Finset.range K, isig k j * mu j) (x.len d) (q.means d)
      ≤ gain K isig (topicCounts x K e vocab d) (fun k => ∑ j ∈ Finset.range K, isig k j * mu j) (x.len d)
        (((mtm2QueryStep (exactInv K) x K isig mu vocab varcs e false)^[n] q).means d) := by
  induction n with
  | zero => exact fun q _ hq => ⟨hq, le_rfl⟩
  | succ n ih =>
    intro q ha hq
    rw [Function.iterate_succ_apply]
    obtain ⟨h1, h2⟩ := ih (mtm2QueryStep (exactInv K) x K isig mu vocab varcs e false q) (by simp [mtm2QueryStep, ha])
      (by simp [mtm2QueryStep, ha])
    exact ⟨h1, (query2_step_gain x K hK isig hisig hs mu vocab varcs e q d).trans h2⟩

/-- **C175** (what holds) In the accurate variant any number of iterations leaves each document with topic weights at least as probable, given
its words, as those at the start. -/
theorem query2_posterior_partial (x : Data) (K : Nat) (hK : 0 < K) (sig : Nat → Nat → ℝ) (hsig : (mat K sig).PosDef) (mu : Nat → ℝ)
    (vocab : Nat → Nat → ℝ) (hv : Topics K x.T vocab) (n : Nat) (means varcs : Nat → Nat → ℝ) (d : Nat) :
    docPosterior x K mu (exactInv K sig) vocab d (means d)
      ≤ docPosterior x K mu (exactInv K sig) vocab d ((mtm2Query (exactInv K) x K sig mu vocab false n means varcs).1 d) := by
  have hs := exactInv_prec K sig hsig
  obtain ⟨h1, h2⟩ := query2_steps_gain x K hK (exactInv K sig) (exactInv_posDef K sig hsig) hs mu vocab
    (fun d k => 1 / ((x.len d : ℝ) * ((K : ℝ) - 1) / (K : ℝ) + exactInv K sig k k)) (expRows K means) d n ⟨means, means, true⟩ rfl rfl
  unfold mtm2Query
  simp only
  rw [h1]
  generalize ((mtm2QueryStep (exactInv K) x K (exactInv K sig) mu vocab
    (fun d k => 1 / ((x.len d : ℝ) * ((K : ℝ) - 1) / (K : ℝ) + exactInv K sig k k)) (expRows K means) false)^[n]
      ⟨means, means, true⟩).means d = z at h2 ⊢
  have hg := word_gain x K hK means vocab hv d z
  unfold gain at h2
  unfold docPosterior
  rw [quad_sub K _ hs.symm z mu, quad_sub K _ hs.symm (means d) mu]
  have hV : ∑ k ∈ Finset.range K, topicCounts x K (expRows K means) vocab d k * (z k - means d k)
      = ∑ k ∈ Finset.range K, topicCounts x K (expRows K means) vocab d k * z k
        - ∑ k ∈ Finset.range K, topicCounts x K (expRows K means) vocab d k * means d k := by
    rw [← Finset.sum_sub_distrib]
    exact Finset.sum_congr rfl fun k _ => by ring
  rw [hV] at hg
  linarith

/-! ## `mtm3.py` -/

/-- **C163** (what holds) `query` of `mtm3.py` leaves the parameters of the model and the weights that attract links as they are. -/
theorem query3_model_partial (inv : Nat → (Nat → Nat → ℝ) → Nat → Nat → ℝ) (x links : Data) (K n : Nat) : ∀ st : State3,
    let st' := query3 inv x links K n st
    st'.topicMean = st.topicMean ∧ st'.topicCov = st.topicCov ∧ st'.outDocCov = st.outDocCov ∧ st'.vocab = st.vocab ∧
      st'.inMeans = st.inMeans ∧ st'.inVarcs = st.inVarcs ∧ st'.inDocCov = st.inDocCov := by
  induction n with
  | zero => exact fun st => ⟨rfl, rfl, rfl, rfl, rfl, rfl, rfl⟩
  | succ n ih =>
    intro st
    have h := ih (queryStep3 inv x links K st)
    simp only [query3, Function.iterate_succ_apply] at h ⊢
    exact h

/-- What stays true in the course of training -/
structure Good3 (K : Nat) (x : Data) (st : State3) : Prop where
  outDocCov : 0 < st.outDocCov
  inDocCov : ∀ d, d < x.D → 0 < st.inDocCov d
  outVarcs : ∀ d k, d < x.D → k < K → 0 < st.outVarcs d k
  inVarcs : ∀ d k, d < x.D → k < K → 0 < st.inVarcs d k
  topics : Topics K x.T st.vocab

theorem cov3_posDef (K D : Nat) (pre : ℝ) (hp : 0 < pre) (inDocCov : Nat → ℝ) (hi : ∀ d, d < D → 0 < inDocCov d)
    (outDiff inDiff outVarcs inVarcs : Nat → Nat → ℝ) (ho : ∀ d k, d < D → k < K → 0 < outVarcs d k)
    (hv : ∀ d k, d < D → k < K → 0 < inVarcs d k) : (mat K (cov3 D pre inDocCov outDiff inDiff outVarcs inVarcs)).PosDef := by
  have h1 := outer_psd K D (fun _ => pre) (fun _ _ => hp.le) outDiff
  have h2 := outer_psd K D (fun d => 1 / inDocCov d) (fun d hd => (one_div_pos.mpr (hi d hd)).le) inDiff
  have h3 := diag_psd K (fun k => ∑ d ∈ Finset.range D, outVarcs d k)
    fun k hk => Finset.sum_nonneg fun d hd => (ho d k (Finset.mem_range.mp hd) hk).le
  have h4 := diag_psd K (fun k => ∑ d ∈ Finset.range D, inVarcs d k)
    fun k hk => Finset.sum_nonneg fun d hd => (hv d k (Finset.mem_range.mp hd) hk).le
  have h5 := diag_pd K (fun _ => 1) fun _ _ => one_pos
  have h := (Matrix.PosDef.posSemidef_add (((h1.add h2).add h3).add h4) h5).smul
    (show (0 : ℝ) < 1 / (2 * (D : ℝ) + 1 / 10) by positivity)
  rw [← mat_add, ← mat_add, ← mat_add, ← mat_add, ← mat_smul] at h
  rw [mat_congr K (cov3 D pre inDocCov outDiff inDiff outVarcs inVarcs)]
  · exact h
  · intro i j
    unfold cov3
    ring

theorem inDocCov3_pos (K : Nat) (icov : Nat → Nat → ℝ) (hi : (mat K icov).PosDef) (hs : IsPrec K icov) (inDiff outVarcs inVarcs : Nat → Nat → ℝ)
    (d : Nat) (ho : ∀ k, k < K → 0 < outVarcs d k) (hv : ∀ k, k < K → 0 < inVarcs d k) : 0 < inDocCov3 K icov inDiff outVarcs inVarcs d := by
  unfold inDocCov3
  have h1 : ∑ j ∈ Finset.range K, (∑ i ∈ Finset.range K, inDiff d i * icov i j) * inDiff d j = quad K icov (inDiff d) := by
    unfold quad
    refine Finset.sum_congr rfl fun j _ => ?_
    rw [mul_comm]
    congr 1
    exact Finset.sum_congr rfl fun i _ => by rw [hs.symm i j]; ring
  have h2 := hs.nonneg (inDiff d)
  have h3 : 0 ≤ ∑ k ∈ Finset.range K, outVarcs d k * icov k k := Finset.sum_nonneg fun k hk =>
    (mul_pos (ho k (Finset.mem_range.mp hk)) (diag_pos K icov hi k (Finset.mem_range.mp hk))).le
  have h4 : 0 ≤ ∑ k ∈ Finset.range K, inVarcs d k * icov k k := Finset.sum_nonneg fun k hk =>
    (mul_pos (hv k (Finset.mem_range.mp hk)) (diag_pos K icov hi k (Finset.mem_range.mp hk))).le
  rw [h1]
  have hK : (0 : ℝ) ≤ K := Nat.cast_nonneg _
  exact div_pos (by linarith) (by linarith)

/-- **C177** In each round of the inner loop the covariance that is inverted is positive definite. -/
theorem rounds_good (K D : Nat) (pre : ℝ) (hp : 0 < pre) (outDiff inDiff outVarcs inVarcs : Nat → Nat → ℝ)
    (ho : ∀ d k, d < D → k < K → 0 < outVarcs d k) (hv : ∀ d k, d < D → k < K → 0 < inVarcs d k) (s : (Nat → Nat → ℝ) × (Nat → ℝ))
    (hs : ∀ d, d < D → 0 < s.2 d) (n : Nat) :
    (mat K ((covRound exactInv D K pre outDiff inDiff outVarcs inVarcs)^[n + 1] s).1).PosDef ∧
    ∀ d, d < D → 0 < ((covRound exactInv D K pre outDiff inDiff outVarcs inVarcs)^[n + 1] s).2 d := by
  have hone : ∀ t : (Nat → Nat → ℝ) × (Nat → ℝ), (∀ d, d < D → 0 < t.2 d) →
      (mat K (covRound exactInv D K pre outDiff inDiff outVarcs inVarcs t).1).PosDef ∧
      ∀ d, d < D → 0 < (covRound exactInv D K pre outDiff inDiff outVarcs inVarcs t).2 d := by
    intro t ht
    have h := cov3_posDef K D pre hp t.2 ht outDiff inDiff outVarcs inVarcs ho hv
    exact ⟨h, fun d hd => inDocCov3_pos K _ (exactInv_posDef K _ h) (exactInv_prec K _ h) _ _ _ d (fun k => ho d k hd) (fun k => hv d k hd)⟩
  induction n with
  | zero => exact hone s hs
  | succ n ih =>
    rw [Function.iterate_succ_apply']
    exact hone _ ih.2

theorem mStep3_good (x : Data) (K : Nat) (st : State3) (hg : Good3 K x st) :
    (mat K (mStep3 exactInv x.D K st).topicCov).PosDef ∧ Good3 K x (mStep3 exactInv x.D K st) := by
  have h := rounds_good K x.D (1 / st.outDocCov) (one_div_pos.mpr hg.outDocCov)
    (fun d k => st.outMeans d k - (∑ d ∈ Finset.range x.D, st.outMeans d k) / (x.D : ℝ)) (fun d k => st.inMeans d k - st.outMeans d k)
    st.outVarcs st.inVarcs hg.outVarcs hg.inVarcs (st.topicCov, st.inDocCov) hg.inDocCov 4
  exact ⟨h.1, ⟨hg.outDocCov, h.2, hg.outVarcs, hg.inVarcs, hg.topics⟩⟩

/-- **C177** The systems that are solved for the weights of the documents are positive definite. -/
theorem systems3 (x links : Data) (K : Nat) (hK : 0 < K) (hD : 0 < x.D) (hl : links.D = x.D) (hsq : links.T = links.D) (st : State3)
    (hg : Good3 K x st) (hc : (mat K st.topicCov).PosDef) (d : Nat) (hd : d < x.D) :
    (mat K (outLhs x links K (exactInv K st.topicCov) st d)).PosDef ∧
    (mat K (inLhs x.D (exactInv K st.topicCov) st.inDocCov (inCounts links K st.outMeans st.inMeans) d)).PosDef := by
  have hi := exactInv_posDef K _ hc
  have hcounts := (link_counts_partial links hsq (by omega) K hK st.outMeans st.inMeans).2.2.2
  have h1 := one_div_pos.mpr (hg.inDocCov d hd)
  have h2 := one_div_pos.mpr hg.outDocCov
  constructor
  · have h := system_posDef K hK (1 / st.outDocCov + 1 / st.inDocCov d) ((x.len d : ℝ) + (links.len d : ℝ)) (by linarith) (by positivity)
      (fun _ => 0) (fun _ _ => le_rfl) _ hi
    simp only [ite_self, add_zero] at h
    exact h
  · have h := system_posDef K hK (1 / st.inDocCov d) 0 h1 le_rfl
      (fun k => ((x.D : ℝ) - 1) / (2 * (x.D : ℝ)) * inCounts links K st.outMeans st.inMeans k) (fun k hk => by
        have h3 := hcounts k hk
        have h4 : (1 : ℝ) ≤ x.D := by exact_mod_cast hD
        have h5 : (0 : ℝ) ≤ (x.D : ℝ) - 1 := by linarith
        positivity) _ hi
    simp only [zero_mul, add_zero] at h
    exact h

theorem eStep3_good (x links : Data) (K : Nat) (hK : 0 < K) (hD : 0 < x.D) (hT : 0 < x.T) (hl : links.D = x.D) (hsq : links.T = links.D)
    (st : State3) (hg : Good3 K x st) (hc : (mat K st.topicCov).PosDef) : Good3 K x (eStep3 exactInv x links K st) := by
  have hi := exactInv_posDef K _ hc
  have hcounts := (link_counts_partial links hsq (by omega) K hK st.outMeans st.inMeans).2.2.2
  have hK1 : (0 : ℝ) ≤ (K : ℝ) - 1 := by
    have : (1 : ℝ) ≤ K := by exact_mod_cast hK
    linarith
  have hD1 : (0 : ℝ) ≤ (x.D : ℝ) - 1 := by
    have : (1 : ℝ) ≤ x.D := by exact_mod_cast hD
    linarith
  refine ⟨hg.outDocCov, hg.inDocCov, fun d k hd hk => ?_, fun d k hd hk => ?_,
    vocab_dist x K (1 / 100) (by norm_num) st.outMeans st.vocab hK hT hg.topics⟩
  · have h1 := one_div_pos.mpr (hg.inDocCov d hd)
    have h2 := one_div_pos.mpr hg.outDocCov
    have h3 := diag_pos K _ hi k hk
    have h4 : 0 ≤ ((x.len d : ℝ) + (links.len d : ℝ)) * ((K : ℝ) - 1) / (2 * (K : ℝ)) := by positivity
    have h5 := mul_pos (add_pos h2 h1) h3
    exact one_div_pos.mpr (by linarith)
  · have h1 := one_div_pos.mpr (hg.inDocCov d hd)
    have h3 := mul_pos h1 (diag_pos K _ hi k hk)
    have h6 := hcounts k hk
    have h4 : 0 ≤ inCounts links K st.outMeans st.inMeans k * ((x.D : ℝ) - 1) / (2 * (x.D : ℝ)) := by positivity
    exact one_div_pos.mpr (by linarith)

/-- **C177** Starting from positive variances and proper topics, after any number of iterations the variances and document covariances are
positive, the topics distributions, and in the next iteration every matrix that is inverted is positive definite. -/
theorem train3_good (x links : Data) (K : Nat) (hK : 0 < K) (hD : 0 < x.D) (hT : 0 < x.T) (hl : links.D = x.D) (hsq : links.T = links.D)
    (st : State3) (ho : ∀ d k, d < x.D → k < K → 0 < st.outVarcs d k) (hv : ∀ d k, d < x.D → k < K → 0 < st.inVarcs d k)
    (ht : Topics K x.T st.vocab) (n : Nat) :
    Good3 K x (train3 exactInv x links K n st) ∧
    (let next := mStep3 exactInv x.D K (train3 exactInv x links K n st)
     (mat K next.topicCov).PosDef ∧ ∀ d, d < x.D →
      (mat K (outLhs x links K (exactInv K next.topicCov) next d)).PosDef ∧
      (mat K (inLhs x.D (exactInv K next.topicCov) next.inDocCov (inCounts links K next.outMeans next.inMeans) d)).PosDef) := by
  have hg : Good3 K x (train3 exactInv x links K n st) := by
    induction n with
    | zero => exact ⟨by norm_num [train3], fun _ _ => one_pos, ho, hv, ht⟩
    | succ n ih =>
      unfold train3 at ih ⊢
      rw [Function.iterate_succ_apply']
      obtain ⟨h1, h2⟩ := mStep3_good x K _ ih
      exact eStep3_good x links K hK hD hT hl hsq _ h2 h1
  obtain ⟨h1, h2⟩ := mStep3_good x K _ hg
  exact ⟨hg, h1, fun d hd => systems3 x links K hK hD hl hsq _ h2 h1 d hd⟩

/-- **C176** (violation) Training replaces the covariance of the out-weights and those of the in-weights, whatever they were. -/
theorem train3_ignores (inv : Nat → (Nat → Nat → ℝ) → Nat → Nat → ℝ) (x links : Data) (K n : Nat) (st : State3) (a : ℝ) (b : Nat → ℝ) :
    train3 inv x links K n { st with outDocCov := a, inDocCov := b } = train3 inv x links K n st ∧
    (train3 inv x links K n st).outDocCov = 10 := by
  refine ⟨rfl, ?_⟩
  induction n with
  | zero => rfl
  | succ n ih =>
    unfold train3 at ih ⊢
    rw [Function.iterate_succ_apply']
    exact ih

/-- **C176** (what holds) Training in two parts is training in one if the covariances of the in-weights are reset to one in between. -/
theorem train3_resume_partial (inv : Nat → (Nat → Nat → ℝ) → Nat → Nat → ℝ) (x links : Data) (K m n : Nat) (st : State3)
    (h : (train3 inv x links K n st).inDocCov = fun _ => 1) :
    train3 inv x links K m (train3 inv x links K n st) = train3 inv x links K (m + n) st := by
  have h1 := (train3_ignores inv x links K n st 0 (fun _ => 0)).2
  have h2 : { train3 inv x links K n st with inDocCov := fun _ => 1, outDocCov := 10 } = train3 inv x links K n st := by
    generalize train3 inv x links K n st = s at h h1
    obtain ⟨_, _, _, _, _, _, _, _, _⟩ := s
    simp only at h h1
    subst h
    subst h1
    rfl
  show (step3 inv x links K)^[m] { train3 inv x links K n st with inDocCov := fun _ => 1, outDocCov := 10 } = _
  rw [h2]
  unfold train3
  rw [Function.iterate_add_apply]

/-- **C181** In `mtm3.py` likewise -/
theorem vocab3_monotone (inv : Nat → (Nat → Nat → ℝ) → Nat → Nat → ℝ) (x links : Data) (K : Nat) (hK : 0 < K) (hT : 0 < x.T)
    (st : State3) (hv : Topics K x.T st.vocab) :
    penalised x K (1 / 100) st.outMeans st.vocab ≤ penalised x K (1 / 100) st.outMeans (step3 inv x links K st).vocab ∧
    Topics K x.T (step3 inv x links K st).vocab :=
  ⟨vocab_monotone x K (1 / 100) (by norm_num) st.outMeans st.vocab hK hT hv,
    vocab_dist x K (1 / 100) (by norm_num) st.outMeans st.vocab hK hT hv⟩

/-! ### The weights that emit words and links -/

/-- The logarithm of the posterior density of the out-weights `m` of a document, up to a constant: its words, its out-links, their prior, and
the density of its in-weights around them -/
noncomputable def outPosterior (x links : Data) (K : Nat) (icov : Nat → Nat → ℝ) (mu : Nat → ℝ) (outCov inCov : ℝ) (ins : Nat → ℝ)
    (vocab docs : Nat → Nat → ℝ) (d : Nat) (m : Nat → ℝ) : ℝ :=
  wordLik x K vocab d m + wordLik links K docs d m - 1 / outCov * quad K icov (fun k => m k - mu k) / 2
    - 1 / inCov * quad K icov (fun k => ins k - m k) / 2

theorem quad_smul (K : Nat) (c : ℝ) (M : Nat → Nat → ℝ) (y : Nat → ℝ) : quad K (fun i j => c * M i j) y = c * quad K M y := by
  unfold quad
  rw [Finset.mul_sum]
  refine Finset.sum_congr rfl fun i _ => ?_
  rw [← mul_assoc, mul_comm c (y i), mul_assoc]
  congr 1
  rw [Finset.mul_sum]
  exact Finset.sum_congr rfl fun j _ => by ring

/-- **C179** An iteration of `train` does not lower the posterior density of the out-weights of any document. -/
theorem out_step3 (x links : Data) (K : Nat) (hK : 0 < K) (hD : 0 < x.D) (hT : 0 < x.T) (hl : links.D = x.D) (hsq : links.T = links.D)
    (st : State3) (hg : Good3 K x st) (hc : (mat K st.topicCov).PosDef) (d : Nat) (hd : d < x.D) :
    let post := outPosterior x links K (exactInv K st.topicCov) st.topicMean st.outDocCov (st.inDocCov d) (st.inMeans d)
      (eStep3 exactInv x links K st).vocab (docVocab x.D st.inMeans) d
    post (st.outMeans d) ≤ post ((eStep3 exactInv x links K st).outMeans d) := by
  intro post
  obtain ⟨icov, hicov⟩ : ∃ icov, icov = exactInv K st.topicCov := ⟨_, rfl⟩
  have hs : IsPrec K icov := hicov ▸ exactInv_prec K _ hc
  obtain ⟨vocab, hvocab⟩ : ∃ v, v = newVocab x K (1 / 100) (expRows K st.outMeans) st.vocab := ⟨_, rfl⟩
  have hv : Topics K x.T vocab := hvocab ▸ vocab_dist x K (1 / 100) (by norm_num) st.outMeans st.vocab hK hT hg.topics
  obtain ⟨w, hw⟩ : ∃ w, w = topicCounts x K (expRows K st.outMeans) vocab d := ⟨_, rfl⟩
  obtain ⟨o, ho⟩ : ∃ o, o = topicCounts links K (expRows K st.outMeans) (docVocab x.D st.inMeans) d := ⟨_, rfl⟩
  obtain ⟨c, hcd⟩ : ∃ c, c = 1 / st.outDocCov + 1 / st.inDocCov d := ⟨_, rfl⟩
  have h1 := one_div_pos.mpr (hg.inDocCov d hd)
  have h2 := one_div_pos.mpr hg.outDocCov
  have hP : IsPrec K (fun i j => c * icov i j) := ⟨fun i j => by rw [hs.symm i j], fun y => by
    rw [quad_smul]
    exact mul_nonneg (by rw [hcd]; linarith) (hs.nonneg y)⟩
  obtain ⟨r, hr⟩ : ∃ r : Nat → ℝ, r = fun k => (∑ j ∈ Finset.range K, icov k j * st.topicMean j) / st.outDocCov
    + (∑ j ∈ Finset.range K, st.inMeans d j * icov j k) / st.inDocCov d := ⟨_, rfl⟩
  obtain ⟨z, hz⟩ : ∃ z, z = (eStep3 exactInv x links K st).outMeans d := ⟨_, rfl⟩
  have hpd := (systems3 x links K hK hD hl hsq st hg hc d hd).1
  have hsolve := mul_of_isInv K _ _ (exactInv_two K _ hpd).1
    (outRhs x links K (exactInv K st.topicCov) st (topicCounts x K (expRows K st.outMeans) vocab)
      (outLinkCounts links K st.outMeans st.inMeans) d)
  have hgain := gain_step K hK (fun i j => c * icov i j) hP (fun k => w k + o k) r ((x.len d : ℝ) + (links.len d : ℝ)) (by positivity)
    (st.outMeans d) z (by
      intro i hi
      have h3 := hsolve i hi
      have h4 : ∀ l, z l = ∑ j ∈ Finset.range K, exactInv K (outLhs x links K (exactInv K st.topicCov) st d) l j
          * outRhs x links K (exactInv K st.topicCov) st (topicCounts x K (expRows K st.outMeans) vocab)
            (outLinkCounts links K st.outMeans st.inMeans) d j := by
        intro l
        rw [hz, hvocab]
        rfl
      have h5 : ∑ l ∈ Finset.range K, (c * icov i l + ((x.len d : ℝ) + (links.len d : ℝ)) * linkA K i l) * z l
          = outRhs x links K (exactInv K st.topicCov) st (topicCounts x K (expRows K st.outMeans) vocab)
            (outLinkCounts links K st.outMeans st.inMeans) d i := by
        rw [← h3]
        refine Finset.sum_congr rfl fun l _ => ?_
        rw [← h4 l, hcd, hicov]
        rfl
      rw [h5]
      unfold outRhs outLinkCounts
      rw [softmaxRows_eq, hl, ← hw, ← ho, ← hicov, hr]
      ring)
  have hgw := word_gain x K hK st.outMeans vocab hv d z
  have hgo := word_gain links K hK st.outMeans (docVocab x.D st.inMeans)
    (by rw [hsq, hl]; exact docVocab_topics x.D K hD st.inMeans) d z
  rw [← hw] at hgw
  rw [← ho] at hgo
  show outPosterior x links K (exactInv K st.topicCov) st.topicMean st.outDocCov (st.inDocCov d) (st.inMeans d) _ _ d (st.outMeans d)
    ≤ outPosterior x links K (exactInv K st.topicCov) st.topicMean st.outDocCov (st.inDocCov d) (st.inMeans d) _ _ d _
  rw [show (eStep3 exactInv x links K st).vocab = vocab from hvocab.symm, ← hz, ← hicov]
  -- the quadratic terms
  have hexp : ∀ m : Nat → ℝ, 1 / st.outDocCov * quad K icov (fun k => m k - st.topicMean k) / 2
        + 1 / st.inDocCov d * quad K icov (fun k => st.inMeans d k - m k) / 2
      = quad K (fun i j => c * icov i j) m / 2 - ∑ k ∈ Finset.range K, r k * m k
        + (1 / st.outDocCov * quad K icov st.topicMean / 2 + 1 / st.inDocCov d * quad K icov (st.inMeans d) / 2) := by
    intro m
    have hswap : quad K icov (fun k => st.inMeans d k - m k) = quad K icov (fun k => m k - st.inMeans d k) := by
      rw [quad_sub K _ hs.symm, quad_sub K _ hs.symm]
      have : ∑ k ∈ Finset.range K, (∑ j ∈ Finset.range K, icov k j * m j) * st.inMeans d k
          = ∑ k ∈ Finset.range K, (∑ j ∈ Finset.range K, icov k j * st.inMeans d j) * m k := by
        simp only [Finset.sum_mul]
        rw [Finset.sum_comm]
        exact Finset.sum_congr rfl fun i _ => Finset.sum_congr rfl fun j _ => by rw [hs.symm i j]; ring
      rw [this]
      ring
    rw [hswap, quad_sub K _ hs.symm m, quad_sub K _ hs.symm m, quad_smul, hcd]
    have hrm : ∑ k ∈ Finset.range K, r k * m k
        = 1 / st.outDocCov * ∑ k ∈ Finset.range K, (∑ j ∈ Finset.range K, icov k j * st.topicMean j) * m k
          + 1 / st.inDocCov d * ∑ k ∈ Finset.range K, (∑ j ∈ Finset.range K, icov k j * st.inMeans d j) * m k := by
      rw [Finset.mul_sum, Finset.mul_sum, ← Finset.sum_add_distrib]
      refine Finset.sum_congr rfl fun k _ => ?_
      have : ∑ j ∈ Finset.range K, st.inMeans d j * icov j k = ∑ j ∈ Finset.range K, icov k j * st.inMeans d j :=
        Finset.sum_congr rfl fun j _ => by rw [hs.symm j k]; ring
      rw [hr]
      simp only
      rw [this]
      ring
    rw [hrm]
    ring
  have hsplit : ∀ m : Nat → ℝ, ∑ k ∈ Finset.range K, (w k + o k) * m k
      = ∑ k ∈ Finset.range K, w k * m k + ∑ k ∈ Finset.range K, o k * m k := by
    intro m
    rw [← Finset.sum_add_distrib]
    exact Finset.sum_congr rfl fun k _ => by ring
  have hdiff : ∀ v : Nat → ℝ, ∑ k ∈ Finset.range K, v k * (z k - st.outMeans d k)
      = ∑ k ∈ Finset.range K, v k * z k - ∑ k ∈ Finset.range K, v k * st.outMeans d k := by
    intro v
    rw [← Finset.sum_sub_distrib]
    exact Finset.sum_congr rfl fun k _ => by ring
  rw [hdiff] at hgw hgo
  unfold gain at hgain
  rw [hsplit, hsplit] at hgain
  have e1 := hexp (st.outMeans d)
  have e2 := hexp z
  unfold outPosterior
  linarith

/-- **C179** So does every iteration of training. -/
theorem out_train3 (x links : Data) (K : Nat) (hK : 0 < K) (hD : 0 < x.D) (hT : 0 < x.T) (hl : links.D = x.D) (hsq : links.T = links.D)
    (st : State3) (ho : ∀ d k, d < x.D → k < K → 0 < st.outVarcs d k) (hv : ∀ d k, d < x.D → k < K → 0 < st.inVarcs d k)
    (ht : Topics K x.T st.vocab) (n d : Nat) (hd : d < x.D) :
    let now := train3 exactInv x links K n st
    let next := train3 exactInv x links K (n + 1) st
    let post := outPosterior x links K (exactInv K next.topicCov) next.topicMean next.outDocCov (next.inDocCov d) (now.inMeans d)
      next.vocab (docVocab x.D now.inMeans) d
    post (now.outMeans d) ≤ post (next.outMeans d) := by
  intro now next post
  have hg := (train3_good x links K hK hD hT hl hsq st ho hv ht n).1
  obtain ⟨h1, h2⟩ := mStep3_good x K _ hg
  have h := out_step3 x links K hK hD hT hl hsq _ h2 h1 d hd
  have hnext : next = eStep3 exactInv x links K (mStep3 exactInv x.D K now) := by
    show (step3 exactInv x links K)^[n + 1] _ = _
    rw [Function.iterate_succ_apply']
    rfl
  show outPosterior x links K (exactInv K next.topicCov) next.topicMean next.outDocCov (next.inDocCov d) (now.inMeans d)
      next.vocab (docVocab x.D now.inMeans) d (now.outMeans d)
    ≤ outPosterior x links K (exactInv K next.topicCov) next.topicMean next.outDocCov (next.inDocCov d) (now.inMeans d)
      next.vocab (docVocab x.D now.inMeans) d (next.outMeans d)
  rw [hnext]
  exact h

/-- **C179** An iteration of `query` does not lower the posterior density of the weights of a document without out-links. -/
theorem query_step3 (x links : Data) (K : Nat) (hK : 0 < K) (st : State3) (ho : 0 < st.outDocCov) (hc : (mat K st.topicCov).PosDef)
    (hv : Topics K x.T st.vocab) (d : Nat) (hl : links.len d = 0) :
    docPosterior x K st.topicMean (fun i j => 1 / st.outDocCov * exactInv K st.topicCov i j) st.vocab d (st.outMeans d)
      ≤ docPosterior x K st.topicMean (fun i j => 1 / st.outDocCov * exactInv K st.topicCov i j) st.vocab d
        ((queryStep3 exactInv x links K st).outMeans d) := by
  obtain ⟨P, hPd⟩ : ∃ P : Nat → Nat → ℝ, P = fun i j => 1 / st.outDocCov * exactInv K st.topicCov i j := ⟨_, rfl⟩
  have hs := exactInv_prec K _ hc
  have h2 := one_div_pos.mpr ho
  have hP : IsPrec K P := hPd ▸ ⟨fun i j => by rw [hs.symm i j], fun y => by
    rw [quad_smul]
    exact mul_nonneg h2.le (hs.nonneg y)⟩
  obtain ⟨w, hw⟩ : ∃ w, w = topicCounts x K (expRows K st.outMeans) st.vocab d := ⟨_, rfl⟩
  obtain ⟨z, hz⟩ : ∃ z, z = (queryStep3 exactInv x links K st).outMeans d := ⟨_, rfl⟩
  have hpd : (mat K (queryLhs3 x links K (exactInv K st.topicCov) st d)).PosDef := by
    have h := system_posDef K hK (1 / st.outDocCov) ((x.len d : ℝ) + (links.len d : ℝ)) h2 (by positivity)
      (fun _ => 0) (fun _ _ => le_rfl) _ (exactInv_posDef K _ hc)
    simp only [ite_self, add_zero] at h
    exact h
  have hgain := gain_step K hK P hP w (fun k => ∑ j ∈ Finset.range K, P k j * st.topicMean j) (x.len d : ℝ) (by positivity)
    (st.outMeans d) z (by
      intro i hi
      have h3 := mul_of_isInv K _ _ (exactInv_two K _ hpd).1 (queryRhs3 x links K (exactInv K st.topicCov) st d) i hi
      have h5 : ∑ l ∈ Finset.range K, (P i l + (x.len d : ℝ) * linkA K i l) * z l
          = queryRhs3 x links K (exactInv K st.topicCov) st d i := by
        rw [← h3]
        refine Finset.sum_congr rfl fun l _ => ?_
        have h7 : queryLhs3 x links K (exactInv K st.topicCov) st d i l = P i l + (x.len d : ℝ) * linkA K i l := by
          rw [hPd]
          unfold queryLhs3
          rw [hl, Nat.cast_zero, add_zero]
        rw [h7, hz]
        rfl
      have h6 : ∑ j ∈ Finset.range K, P i j * st.topicMean j
          = (∑ j ∈ Finset.range K, exactInv K st.topicCov i j * st.topicMean j) / st.outDocCov := by
        rw [hPd, Finset.sum_div]
        exact Finset.sum_congr rfl fun j _ => by ring
      rw [h5]
      unfold queryRhs3
      rw [softmaxRows_eq, hl, ← hw, h6, Nat.cast_zero, add_zero])
  have hgw := word_gain x K hK st.outMeans st.vocab hv d z
  rw [← hw] at hgw
  have hV : ∑ k ∈ Finset.range K, w k * (z k - st.outMeans d k)
      = ∑ k ∈ Finset.range K, w k * z k - ∑ k ∈ Finset.range K, w k * st.outMeans d k := by
    rw [← Finset.sum_sub_distrib]
    exact Finset.sum_congr rfl fun k _ => by ring
  rw [hV] at hgw
  rw [← hz, ← hPd]
  unfold gain at hgain
  unfold docPosterior
  rw [quad_sub K _ hP.symm z, quad_sub K _ hP.symm (st.outMeans d)]
  linarith

/-! ### The weights that attract links -/

/-- What the in-weights should maximise, given the expected number `l` of links into each document due to each topic and the number `counts` of
links due to each topic -/
noncomputable def inObjective (D K : Nat) (icov : Nat → Nat → ℝ) (c : Nat → ℝ) (out l : Nat → Nat → ℝ) (counts : Nat → ℝ)
    (ins : Nat → Nat → ℝ) : ℝ :=
  ∑ k ∈ Finset.range K, (∑ d ∈ Finset.range D, l d k * ins d k - counts k * lse D (fun d => ins d k))
    - ∑ d ∈ Finset.range D, 1 / c d * quad K icov (fun k => ins d k - out d k) / 2

/-- The gradient vanishes. -/
def InStationary (D K : Nat) (icov : Nat → Nat → ℝ) (c : Nat → ℝ) (out l : Nat → Nat → ℝ) (counts : Nat → ℝ) (ins : Nat → Nat → ℝ) : Prop :=
  ∀ d k, d < D → k < K →
    l d k - counts k * softmax D (fun e => ins e k) d - 1 / c d * ∑ j ∈ Finset.range K, icov k j * (ins d j - out d j) = 0

/-- **C180** Such weights are optimal. -/
theorem in_stationary_max (D K : Nat) (hD : 0 < D) (icov : Nat → Nat → ℝ) (hs : IsPrec K icov) (c : Nat → ℝ) (hc : ∀ d, d < D → 0 < c d)
    (out l : Nat → Nat → ℝ) (counts : Nat → ℝ) (hn : ∀ k, k < K → 0 ≤ counts k) (ins : Nat → Nat → ℝ)
    (h : InStationary D K icov c out l counts ins) (z : Nat → Nat → ℝ) :
    inObjective D K icov c out l counts z ≤ inObjective D K icov c out l counts ins := by
  have h1 : ∀ k ∈ Finset.range K, (∑ d ∈ Finset.range D, l d k * z d k - counts k * lse D (fun d => z d k))
      ≤ (∑ d ∈ Finset.range D, l d k * ins d k - counts k * lse D (fun d => ins d k))
        + ∑ d ∈ Finset.range D, (l d k - counts k * softmax D (fun e => ins e k) d) * (z d k - ins d k) := by
    intro k hk
    have ht := mul_le_mul_of_nonneg_left (lse_tangent D hD (fun d => ins d k) (fun d => z d k)) (hn k (Finset.mem_range.mp hk))
    have he : ∑ d ∈ Finset.range D, (l d k - counts k * softmax D (fun e => ins e k) d) * (z d k - ins d k)
        = ∑ d ∈ Finset.range D, l d k * z d k - ∑ d ∈ Finset.range D, l d k * ins d k
          - counts k * ∑ d ∈ Finset.range D, softmax D (fun e => ins e k) d * (z d k - ins d k) := by
      rw [Finset.mul_sum, ← Finset.sum_sub_distrib, ← Finset.sum_sub_distrib]
      exact Finset.sum_congr rfl fun d _ => by ring
    rw [he]
    linarith
  have h2 : ∀ d ∈ Finset.range D, 1 / c d * quad K icov (fun k => ins d k - out d k) / 2
        + ∑ k ∈ Finset.range K, (1 / c d * ∑ j ∈ Finset.range K, icov k j * (ins d j - out d j)) * (z d k - ins d k)
      ≤ 1 / c d * quad K icov (fun k => z d k - out d k) / 2 := by
    intro d hd
    have hcd := (one_div_pos.mpr (hc d (Finset.mem_range.mp hd))).le
    have hq := quad_shift K icov hs.symm (fun k => ins d k - out d k) (fun k => z d k - ins d k)
    have hfun : (fun k => ins d k - out d k + (z d k - ins d k)) = fun k => z d k - out d k := funext fun k => by ring
    rw [hfun] at hq
    rw [hq]
    have h3 := mul_nonneg hcd (hs.nonneg fun k => z d k - ins d k)
    have he : ∑ k ∈ Finset.range K, (1 / c d * ∑ j ∈ Finset.range K, icov k j * (ins d j - out d j)) * (z d k - ins d k)
        = 1 / c d * ∑ k ∈ Finset.range K, (z d k - ins d k) * ∑ j ∈ Finset.range K, icov k j * (ins d j - out d j) := by
      rw [Finset.mul_sum]
      exact Finset.sum_congr rfl fun k _ => by ring
    rw [he]
    linarith
  have s1 := Finset.sum_le_sum h1
  have s2 := Finset.sum_le_sum h2
  rw [Finset.sum_add_distrib] at s1 s2
  have hzero : ∑ k ∈ Finset.range K, ∑ d ∈ Finset.range D, (l d k - counts k * softmax D (fun e => ins e k) d) * (z d k - ins d k)
      = ∑ d ∈ Finset.range D, ∑ k ∈ Finset.range K, (1 / c d * ∑ j ∈ Finset.range K, icov k j * (ins d j - out d j)) * (z d k - ins d k) := by
    rw [Finset.sum_comm]
    refine Finset.sum_congr rfl fun d hd => Finset.sum_congr rfl fun k hk => ?_
    have := h d k (Finset.mem_range.mp hd) (Finset.mem_range.mp hk)
    rw [sub_eq_zero] at this
    rw [this]
  unfold inObjective
  linarith

/-- The sum over the other documents -/
noncomputable def others (D : Nat) (ins : Nat → Nat → ℝ) (d k : Nat) : ℝ := ∑ e ∈ (Finset.range D).erase d, ins e k

theorem others_eq (D : Nat) (ins : Nat → Nat → ℝ) (d k : Nat) (hd : d < D) : ∑ e ∈ Finset.range D, ins e k = ins d k + others D ins d k :=
  (Finset.add_sum_erase _ _ (Finset.mem_range.mpr hd)).symm

/-- Solving a system gives `m` exactly if `m` meets it. -/
theorem solve_iff (K : Nat) (M : Nat → Nat → ℝ) (hM : (mat K M).PosDef) (b m : Nat → ℝ) :
    (∀ k, k < K → ∑ j ∈ Finset.range K, exactInv K M k j * b j = m k) ↔ ∀ k, k < K → ∑ j ∈ Finset.range K, M k j * m j = b k := by
  have h2 := exactInv_two K M hM
  constructor
  · intro h k hk
    rw [← mul_of_isInv K M _ h2.1 b k hk]
    exact Finset.sum_congr rfl fun j hj => by rw [h j (Finset.mem_range.mp hj)]
  · intro h k hk
    rw [← mul_of_isInv K _ M h2.2 m k hk]
    exact Finset.sum_congr rfl fun j hj => by rw [h j (Finset.mem_range.mp hj)]

/-- **C180** (exactly when) At optimal weights an iteration of `mtm3.py` leaves those of document `d` alone exactly if, for every topic that
links are due to, the weights of the other documents sum to zero. -/
theorem in_means_fixed_iff_partial (x links : Data) (K : Nat) (hK : 0 < K) (hD : 0 < x.D) (hl : links.D = x.D) (hsq : links.T = links.D)
    (st : State3) (hg : Good3 K x st) (hc : (mat K st.topicCov).PosDef)
    (hst : InStationary x.D K (exactInv K st.topicCov) st.inDocCov st.outMeans (inLinkCounts links K st.outMeans st.inMeans)
      (inCounts links K st.outMeans st.inMeans) st.inMeans) (d : Nat) (hd : d < x.D) :
    (∀ k, k < K → (eStep3 exactInv x links K st).inMeans d k = st.inMeans d k) ↔
      ∀ k, k < K → inCounts links K st.outMeans st.inMeans k * others x.D st.inMeans d k = 0 := by
  have hpd := (systems3 x links K hK hD hl hsq st hg hc d hd).2
  have hs := exactInv_prec K _ hc
  rw [show (∀ k, k < K → (eStep3 exactInv x links K st).inMeans d k = st.inMeans d k) ↔ _ from solve_iff K _ hpd _ _]
  have hD' : (x.D : ℝ) ≠ 0 := by exact_mod_cast hD.ne'
  refine forall_congr' fun k => ?_
  refine imp_congr_right fun hk => ?_
  have h1 := hst d k hd hk
  have h2 : ∑ j ∈ Finset.range K, inLhs x.D (exactInv K st.topicCov) st.inDocCov (inCounts links K st.outMeans st.inMeans) d k j * st.inMeans d j
      = 1 / st.inDocCov d * ∑ j ∈ Finset.range K, exactInv K st.topicCov k j * st.inMeans d j
        + ((x.D : ℝ) - 1) / (2 * (x.D : ℝ)) * inCounts links K st.outMeans st.inMeans k * st.inMeans d k := by
    unfold inLhs
    simp only [add_mul, Finset.sum_add_distrib, ite_mul, zero_mul]
    rw [Finset.sum_ite_eq, if_pos (Finset.mem_range.mpr hk), Finset.mul_sum]
    congr 1
    exact Finset.sum_congr rfl fun j _ => by ring
  have h3 : ∑ j ∈ Finset.range K, exactInv K st.topicCov k j * (st.inMeans d j - st.outMeans d j)
      = ∑ j ∈ Finset.range K, exactInv K st.topicCov k j * st.inMeans d j
        - ∑ j ∈ Finset.range K, exactInv K st.topicCov k j * st.outMeans d j := by
    rw [← Finset.sum_sub_distrib]
    exact Finset.sum_congr rfl fun j _ => by ring
  have h4 : ∑ j ∈ Finset.range K, 1 / st.inDocCov d * st.outMeans d j * exactInv K st.topicCov j k
      = 1 / st.inDocCov d * ∑ j ∈ Finset.range K, exactInv K st.topicCov k j * st.outMeans d j := by
    rw [Finset.mul_sum]
    exact Finset.sum_congr rfl fun j _ => by rw [hs.symm j k]; ring
  rw [h2]
  unfold inRhs
  rw [h4, docVocab_eq, others_eq x.D st.inMeans d k hd]
  rw [h3] at h1
  generalize ∑ j ∈ Finset.range K, exactInv K st.topicCov k j * st.inMeans d j = a at h1 ⊢
  generalize ∑ j ∈ Finset.range K, exactInv K st.topicCov k j * st.outMeans d j = b at h1 ⊢
  generalize inLinkCounts links K st.outMeans st.inMeans d k = l at h1 ⊢
  generalize inCounts links K st.outMeans st.inMeans k = n at h1 ⊢
  generalize softmax x.D (fun e => st.inMeans e k) d = p at h1 ⊢
  generalize others x.D st.inMeans d k = s
  generalize st.inMeans d k = m
  generalize 1 / st.inDocCov d = c at h1 ⊢
  have hl' : l = n * p + c * (a - b) := by linarith
  rw [hl', ← sub_eq_zero]
  have he : c * a + ((x.D : ℝ) - 1) / (2 * (x.D : ℝ)) * n * m - (c * b + -(m + s) * n / (4 * (x.D : ℝ)) + (n * p + c * (a - b))
      + n * (1 / 2 * m - 1 / 2 / (x.D : ℝ) * (m + s) - p) + n * m / (4 * (x.D : ℝ))) = 3 / (4 * (x.D : ℝ)) * (n * s) := by
    field_simp
    ring
  rw [he, mul_eq_zero, or_iff_right (by positivity)]

/-- The gradient of the posterior density of the weights of `mtm2.py` vanishes, given the expected counts. -/
def Stationary2 (x links : Data) (K : Nat) (icov : Nat → Nat → ℝ) (mu : Nat → ℝ) (means w l o : Nat → Nat → ℝ) (counts : Nat → ℝ) : Prop :=
  ∀ d k, d < x.D → k < K →
    w d k + o d k - ((x.len d : ℝ) + (links.len d : ℝ)) * softmax K (means d) k
      + (l d k - counts k * softmax x.D (fun e => means e k) d) - ∑ j ∈ Finset.range K, icov k j * (means d j - mu j) = 0

/-- **C180** (exactly when) The same for `mtm2.py` -/
theorem means2_fixed_iff_partial (x links : Data) (K : Nat) (icov : Nat → Nat → ℝ)
    (mu : Nat → ℝ) (means w l o : Nat → Nat → ℝ) (counts : Nat → ℝ) (hst : Stationary2 x links K icov mu means w l o counts) (d : Nat) (hd : d < x.D)
    (hpd : (mat K (lhs2 x links K icov counts d)).PosDef) :
    (∀ k, k < K → ∑ j ∈ Finset.range K, exactInv K (lhs2 x links K icov counts d) k j * rhs2 x links K icov mu means w l o counts d j
        = means d k) ↔
      ∀ k, k < K → counts k * others x.D means d k = 0 := by
  rw [solve_iff K _ hpd]
  refine forall_congr' fun k => ?_
  refine imp_congr_right fun hk => ?_
  have h1 := hst d k hd hk
  have hDn : (0 : ℝ) ≤ x.D := Nat.cast_nonneg _
  have h2 : ∑ j ∈ Finset.range K, lhs2 x links K icov counts d k j * means d j
      = ∑ j ∈ Finset.range K, icov k j * means d j + ((x.len d : ℝ) + (links.len d : ℝ)) * ∑ j ∈ Finset.range K, means d j * linkA K j k
        + (x.D : ℝ) * counts k / (2 * (x.D : ℝ) + 2) * means d k := by
    unfold lhs2
    have hsum : ∀ j ∈ Finset.range K, (icov k j + ((x.len d : ℝ) + (links.len d : ℝ)) * linkA K k j
        + if k = j then (x.D : ℝ) * counts k / (2 * (x.D : ℝ) + 2) else 0) * means d j
        = icov k j * means d j + ((x.len d : ℝ) + (links.len d : ℝ)) * linkA K k j * means d j
          + if k = j then (x.D : ℝ) * counts k / (2 * (x.D : ℝ) + 2) * means d j else 0 := fun j _ => by split <;> ring
    rw [Finset.sum_congr rfl hsum, Finset.sum_add_distrib, Finset.sum_add_distrib, Finset.sum_ite_eq, if_pos (Finset.mem_range.mpr hk),
      Finset.mul_sum]
    congr 1
    exact congrArg₂ (· + ·) rfl (Finset.sum_congr rfl fun j _ => by rw [linkA_symm K j k]; ring)
  have h3 : ∑ j ∈ Finset.range K, icov k j * (means d j - mu j)
      = ∑ j ∈ Finset.range K, icov k j * means d j - ∑ j ∈ Finset.range K, icov k j * mu j := by
    rw [← Finset.sum_sub_distrib]
    exact Finset.sum_congr rfl fun j _ => by ring
  rw [h2]
  unfold rhs2
  rw [softmaxRows_eq, docVocab_eq, others_eq x.D means d k hd]
  rw [h3] at h1
  generalize ∑ j ∈ Finset.range K, icov k j * means d j = a at h1 ⊢
  generalize ∑ j ∈ Finset.range K, icov k j * mu j = b at h1 ⊢
  generalize ∑ j ∈ Finset.range K, means d j * linkA K j k = A
  generalize softmax x.D (fun e => means e k) d = p at h1 ⊢
  generalize softmax K (means d) k = q at h1 ⊢
  generalize others x.D means d k = s
  generalize means d k = m
  generalize (x.len d : ℝ) + (links.len d : ℝ) = n at h1 ⊢
  have ha : a = w d k + o d k - n * q + (l d k - counts k * p) + b := by linarith
  rw [ha, ← sub_eq_zero]
  generalize w d k = w'
  generalize o d k = o'
  generalize l d k = l'
  generalize counts k = c
  have he : w' + o' - n * q + (l' - c * p) + b + n * A + (x.D : ℝ) * c / (2 * (x.D : ℝ) + 2) * m
      - (w' + l' + o' + b + n * (A - q) + c * (1 / 2 * m - 1 / (2 * (x.D : ℝ) + 2) * (m + s) - p)
        + 1 / (4 * (x.D : ℝ) + 4) * ((m + s) * c - c * m)) = 1 / (4 * (x.D : ℝ) + 4) * (c * s) := by
    have e1 : (2 * (x.D : ℝ) + 2) ≠ 0 := by positivity
    have e2 : (4 * (x.D : ℝ) + 4) = 2 * (2 * (x.D : ℝ) + 2) := by ring
    rw [e2]
    field_simp
    ring
  rw [he, mul_eq_zero, or_iff_right (by positivity)]

/-! ## Witnesses -/

/-- Two documents that link to each other -/
def exPair : Data := ⟨2, 2, fun d e => if d = e then 0 else 1⟩

/-- Two documents of two words each -/
def exWords : Data := ⟨2, 2, fun _ _ => 1⟩

/-- One topic; all weights are one. -/
noncomputable def exSt : State3 :=
  { topicMean := fun _ => 1, topicCov := fun i j => if i = j then 1 else 0, outDocCov := 10, vocab := fun _ _ => 1 / 2
    outMeans := fun _ _ => 1, outVarcs := fun _ _ => 1, inMeans := fun _ _ => 1, inVarcs := fun _ _ => 1, inDocCov := fun _ => 1 }

theorem exSt_good : Good3 1 exWords exSt := by
  refine ⟨by norm_num [exSt], fun _ _ => one_pos, fun _ _ _ _ => one_pos, fun _ _ _ _ => one_pos, fun k _ => ⟨fun t _ => ?_, ?_⟩⟩
  · norm_num [exSt]
  · show ∑ t ∈ Finset.range 2, (1 / 2 : ℝ) = 1
    norm_num

theorem exSt_cov : (mat 1 exSt.topicCov).PosDef := diag_pd 1 (fun _ => 1) fun _ _ => one_pos

theorem ex_links (d : Nat) (hd : d < 2) : inLinkCounts exPair 1 exSt.outMeans exSt.inMeans d 0 = 1 := by
  have h := (link_counts_partial exPair rfl (by decide) 1 one_pos exSt.outMeans exSt.inMeans).2.1 d
  rw [Finset.sum_range_one] at h
  rw [h]
  obtain rfl | rfl : d = 0 ∨ d = 1 := by omega
  · norm_num [exPair, Finset.sum_range_succ]
  · norm_num [exPair, Finset.sum_range_succ]

theorem ex_counts : inCounts exPair 1 exSt.outMeans exSt.inMeans 0 = 2 := by
  unfold inCounts
  show ∑ d ∈ Finset.range 2, _ = _
  rw [Finset.sum_congr rfl fun d hd => ex_links d (Finset.mem_range.mp hd)]
  norm_num

theorem ex_stationary : InStationary 2 1 (exactInv 1 exSt.topicCov) exSt.inDocCov exSt.outMeans
    (inLinkCounts exPair 1 exSt.outMeans exSt.inMeans) (inCounts exPair 1 exSt.outMeans exSt.inMeans) exSt.inMeans := by
  intro d k hd hk
  obtain rfl : k = 0 := by omega
  rw [ex_links d hd, ex_counts]
  have : softmax 2 (fun e => exSt.inMeans e 0) d = 1 / 2 := by
    unfold softmax
    simp only [exSt, Finset.sum_const, Finset.card_range, nsmul_eq_mul]
    have := (Real.exp_pos 1).ne'
    field_simp
    norm_num
  rw [this]
  simp [exSt]

/-- **C180** (violation) The weights of the example are the best ones, yet the next iteration changes them. -/
theorem in_means_violation :
    (∀ z, inObjective 2 1 (exactInv 1 exSt.topicCov) exSt.inDocCov exSt.outMeans (inLinkCounts exPair 1 exSt.outMeans exSt.inMeans)
        (inCounts exPair 1 exSt.outMeans exSt.inMeans) z
      ≤ inObjective 2 1 (exactInv 1 exSt.topicCov) exSt.inDocCov exSt.outMeans (inLinkCounts exPair 1 exSt.outMeans exSt.inMeans)
        (inCounts exPair 1 exSt.outMeans exSt.inMeans) exSt.inMeans) ∧
    ∀ d, d < 2 → (eStep3 exactInv exWords exPair 1 exSt).inMeans d 0 ≠ exSt.inMeans d 0 := by
  constructor
  · exact in_stationary_max 2 1 (by decide) _ (exactInv_prec 1 _ exSt_cov) _ (fun _ _ => one_pos) _ _ _
      (link_counts_partial exPair rfl (by decide) 1 one_pos exSt.outMeans exSt.inMeans).2.2.2 _ ex_stationary
  · intro d hd he
    have h := (in_means_fixed_iff_partial exWords exPair 1 one_pos (by decide) rfl rfl exSt exSt_good exSt_cov ex_stationary d hd).mp
      (fun k hk => by
        obtain rfl : k = 0 := by omega
        exact he) 0 one_pos
    rw [ex_counts] at h
    have h2 := others_eq 2 exSt.inMeans d 0 hd
    have h3 : ∑ e ∈ Finset.range 2, exSt.inMeans e 0 = 2 := by norm_num [exSt]
    have h4 : others 2 exSt.inMeans d 0 = 1 := by
      rw [h3] at h2
      have : exSt.inMeans d 0 = 1 := rfl
      linarith
    rw [show exWords.D = 2 from rfl, h4] at h
    norm_num at h

/-- A state of `mtm2.py` with two topics -/
noncomputable def exSt2 : State2 :=
  { topicMean := fun _ => 0, topicCov := fun i j => if i = j then 1 else 0, vocab := fun _ _ => 1 / 2
    means := fun d k => if d = k then 1 else 0, varcs := fun _ _ => 1 }

theorem exSt2_good : Good2 2 exWords exSt2 := by
  refine ⟨fun _ _ _ _ => one_pos, fun k _ => ⟨fun t _ => ?_, ?_⟩⟩
  · norm_num [exSt2]
  · show ∑ t ∈ Finset.range 2, (1 / 2 : ℝ) = 1
    norm_num

/-! C174: the example can be trained. -/
example : ∃ st', train2 exactInv exWords exPair 2 false 7 exSt2 = .ok st' ∧ Good2 2 exWords st' :=
  train2_completes_partial exWords exPair 2 (by decide) (by decide) (by decide) 7 exSt2 exSt2_good

example (inv : Nat → (Nat → Nat → ℝ) → Nat → Nat → ℝ) : train2 inv exWords exPair 2 true 100 exSt2 = .error .valueError :=
  train2_fails inv exWords exPair 2 true 99 exSt2 (Or.inl rfl)

example : ∀ d, (mat 2 (lhs2 exWords exPair 2 (exactInv 2 (cov2 2 exSt2.means exSt2.varcs)) (inCounts exPair 2 exSt2.means exSt2.means) d)).PosDef :=
  (systems2 exWords exPair 2 (by decide) (by decide) rfl rfl exSt2 exSt2_good).2

/-! C175: the covariance of the example is positive definite. -/
example (n d : Nat) := query2_posterior_partial exWords 2 (by decide) (fun i j => if i = j then 1 else 0)
  (diag_pd 2 (fun _ => 1) fun _ _ => one_pos) (fun _ => 0) exSt2.vocab exSt2_good.topics n exSt2.means exSt2.varcs d

/-! C176: a model with another covariance -/
example : (train3 exactInv exWords exPair 1 3 { exSt with outDocCov := 1 }).outDocCov ≠ ({ exSt with outDocCov := 1 } : State3).outDocCov := by
  rw [(train3_ignores exactInv exWords exPair 1 3 { exSt with outDocCov := 1 } 0 (fun _ => 0)).2]
  norm_num

/-! C177, C179: training the example -/
example (n : Nat) : Good3 1 exWords (train3 exactInv exWords exPair 1 n exSt) :=
  (train3_good exWords exPair 1 one_pos (by decide) (by decide) rfl rfl exSt (fun _ _ _ _ => one_pos) (fun _ _ _ _ => one_pos)
    exSt_good.topics n).1

example (n : Nat) := out_train3 exWords exPair 1 one_pos (by decide) (by decide) rfl rfl exSt (fun _ _ _ _ => one_pos)
  (fun _ _ _ _ => one_pos) exSt_good.topics n 1 (by decide)

example := query_step3 exWords ⟨2, 2, fun _ _ => 0⟩ 1 one_pos exSt (by norm_num [exSt]) exSt_cov exSt_good.topics 1 rfl

end Verif.Props.MtmTrain
