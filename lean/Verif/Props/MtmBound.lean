import Verif.Model.MtmBound
import Verif.Props.CtmBound
import Verif.Props.MtmLinks

/-!
# C252: the bounds of the matrix topic models and the evidence
-/

namespace Verif.Props.MtmBound

open Verif Verif.Ctm Verif.Mtm Verif.MtmBound MeasureTheory
open Verif.CtmBound (lnOf2Pi lnOf2PiE bohningBound)
open Verif.Mom (Data)
open Verif.Props.Ctm
open Verif.Props.CtmBound
open Verif.Props.StmCov (exactInv mat mat_exactInv)

/-! ## `mtm.py` -/

/-- What `newModelAtRandom` and `newQueryState` give for a corpus without links: the covariance is the identity times `vag`, there is no posterior
covariance, `topics` is between 0.001 and 1.001 and the product of `U` and `V`, which have rank less than `K`, is between 0 and `K - 1`; the out-counts
are the lengths of the documents. -/
structure Initial (vag : ℝ) (x : Data) (c : Fixed) (st : MState) : Prop where
  cov : ∀ i j, st.cov i j = if i = j then vag else 0
  post : ∀ d k, st.postCov d k = 0
  topics : ∀ d k, 1 / 1000 ≤ st.topics d k ∧ st.topics d k ≤ 1 + 1 / 1000
  uv : ∀ d k, 0 ≤ c.UV d k ∧ c.UV d k ≤ (c.K : ℝ) - 1
  out : ∀ d, c.outCounts d = x.len d

theorem gauss_initial (vag : ℝ) (hv : 0 < vag) (x : Data) (c : Fixed) (st : MState) (h : Initial vag x c st) :
    gaussPart (exactDet c.K) vag x.D c st = -((x.D : ℝ) * c.K * (lnOf2Pi + 1 / 2 + 2 * Real.log vag))
      - (∑ d ∈ Finset.range x.D, ∑ k ∈ Finset.range c.K, (st.topics d k - c.UV d k) ^ 2) / 2 := by
  have hdet : exactDet c.K st.cov = vag ^ c.K := by
    unfold exactDet
    rw [mat_diag c.K st.cov (fun k j hkj => by rw [h.cov, if_neg hkj]), Matrix.det_diagonal]
    simp only [h.cov, if_true, Finset.prod_const, Finset.card_univ, Fintype.card_fin]
  have hker : ∀ d k, k < c.K → (∑ j ∈ Finset.range c.K, (st.topics d j - c.UV d j) ^ 2 * st.cov j k) / (2 * vag) = (st.topics d k - c.UV d k) ^ 2 / 2 := by
    intro d k hk
    rw [Finset.sum_eq_single k]
    · rw [h.cov, if_pos rfl]
      field_simp
    · intro j _ hj
      rw [h.cov, if_neg hj, mul_zero]
    · intro hn
      exact absurd (Finset.mem_range.mpr hk) hn
  have hpi : lnOf2PiE = lnOf2Pi + 1 := by
    unfold lnOf2PiE lnOf2Pi
    rw [Real.log_mul (by positivity) (Real.exp_pos _).ne', Real.log_exp]
  unfold gaussPart
  simp only
  rw [hdet, Real.log_pow, hpi, Finset.sum_congr rfl fun d _ => Finset.sum_congr rfl fun k hk => hker d k (Finset.mem_range.mp hk)]
  simp only [h.post, Finset.sum_const_zero, ← Finset.sum_div]
  ring

/-- The words of a vocabulary of one word -/
theorem word_one (psi : ℝ → ℝ) (c : Fixed) (hK : 0 < c.K) (x : Data) (hT : x.T = 1) (st : MState) (d : Nat) (ht : ∀ k, 1 / 1000 ≤ st.topics d k)
    (hz : ∀ k, k < c.K → Numerics.almostZero false ≤ Props.Numerics.softmax c.K (st.topics d) k) : wordPart psi c x st d = 0 := by
  have hz1 : wordTopics psi c.K x.T st.wordDists (st.topics d) 0 = Props.Numerics.softmax c.K (st.topics d) := by
    funext k
    unfold wordTopics
    rw [hT]
    simp only [Finset.sum_range_one, sub_self, zero_add]
    exact Props.Numerics.shifted _ _ _ _
  have hS := Props.Numerics.sum_exp_pos c.K (st.topics d) hK
  have hlse : lse c.K (st.topics d) = Real.log (∑ k ∈ Finset.range c.K, Real.exp (st.topics d k)) := by
    unfold lse
    rw [if_pos]
    have h1 : (1 : ℝ) ≤ Real.exp (st.topics d 0) := Real.one_le_exp (by have := ht 0; linarith)
    have h2 : Real.exp (st.topics d 0) ≤ ∑ k ∈ Finset.range c.K, Real.exp (st.topics d k) :=
      Finset.single_le_sum (f := fun k => Real.exp (st.topics d k)) (fun _ _ => (Real.exp_pos _).le) (Finset.mem_range.mpr hK)
    have h3 : (1 : ℝ) / 10 ^ 300 < 1 := by
      rw [div_lt_one (by positivity)]
      exact one_lt_pow₀ (by norm_num) (by norm_num)
    exact h3.trans_le (h1.trans h2)
  have hlog : ∀ k, k < c.K → Numerics.safeLogOut false (Props.Numerics.softmax c.K (st.topics d) k)
      = st.topics d k - Real.log (∑ k ∈ Finset.range c.K, Real.exp (st.topics d k)) := by
    intro k hk
    unfold Numerics.safeLogOut
    rw [if_pos (hz k hk)]
    unfold Props.Numerics.softmax
    rw [Real.log_div (Real.exp_pos _).ne' hS.ne', Real.log_exp]
  have hsum : ∑ k ∈ Finset.range c.K, Props.Numerics.softmax c.K (st.topics d) k = 1 := (MomEm.softmax_dist c.K (st.topics d) hK).2
  have hlen : (x.len d : ℝ) = x.words d 0 := by unfold Data.len; rw [hT, Finset.sum_range_one]
  unfold wordPart
  simp only
  rw [hlse, hlen, hT]
  simp only [Finset.sum_range_one, sub_self, mul_zero, Finset.sum_const_zero, add_zero]
  rw [hT] at hz1
  rw [hz1]
  have e1 : ∑ k ∈ Finset.range c.K, Props.Numerics.softmax c.K (st.topics d) k
        * Numerics.safeLogOut false (Props.Numerics.softmax c.K (st.topics d) k) * (x.words d 0 : ℝ)
      = ∑ k ∈ Finset.range c.K, Props.Numerics.softmax c.K (st.topics d) k
        * (st.topics d k - Real.log (∑ k ∈ Finset.range c.K, Real.exp (st.topics d k))) * (x.words d 0 : ℝ) :=
    Finset.sum_congr rfl fun k hk => by rw [hlog k (Finset.mem_range.mp hk)]
  rw [e1]
  generalize Real.log (∑ k ∈ Finset.range c.K, Real.exp (st.topics d k)) = L
  have e2 : ∑ k ∈ Finset.range c.K, Props.Numerics.softmax c.K (st.topics d) k * (st.topics d k - L) * (x.words d 0 : ℝ)
      = ∑ k ∈ Finset.range c.K, st.topics d k * (Props.Numerics.softmax c.K (st.topics d) k * (x.words d 0 : ℝ)) - (x.words d 0 : ℝ) * L := by
    have : (x.words d 0 : ℝ) * L = ∑ k ∈ Finset.range c.K, Props.Numerics.softmax c.K (st.topics d) k * ((x.words d 0 : ℝ) * L) := by
      rw [← Finset.sum_mul, hsum, one_mul]
    rw [this, ← Finset.sum_sub_distrib]
    exact Finset.sum_congr rfl fun k _ => by ring
  rw [e2]
  ring

/-- The bound of `mtm.py` for a corpus without links at the beginning -/
theorem bound1_initial (psi : ℝ → ℝ) (vag : ℝ) (hv : 0 < vag) (c : Fixed) (hK : c.K = 2) (x links : Data) (hT : x.T = 1)
    (hl : ∀ d p, links.words d p = 0) (st : MState) (h : Initial vag x c st) :
    bound1 psi (exactDet 2) vag c x links st = ∑ d ∈ Finset.range x.D, (-(2 * (lnOf2Pi + 1 / 2 + 2 * Real.log vag))
      - ((st.topics d 0 - c.UV d 0) ^ 2 + (st.topics d 1 - c.UV d 1) ^ 2) / 2
      - (x.len d : ℝ) * Real.log (Real.exp (st.topics d 0) + Real.exp (st.topics d 1))) := by
  have hpos : 0 < c.K := by omega
  have hz : ∀ d k, k < c.K → Numerics.almostZero false ≤ Props.Numerics.softmax c.K (st.topics d) k := by
    intro d k hk
    have hle : ((1 : ℝ) / 10) ^ 300 ≤ (1 / 10) ^ 1 := pow_le_pow_of_le_one (by norm_num) (by norm_num) (by norm_num)
    have hS := Props.Numerics.sum_exp_pos c.K (st.topics d) hpos
    have hb : ∑ j ∈ Finset.range c.K, Real.exp (st.topics d j) ≤ 2 * Real.exp 1 * Real.exp (st.topics d k) := by
      rw [hK, Finset.sum_range_succ, Finset.sum_range_one, mul_assoc, ← Real.exp_add]
      have h0 := Real.exp_le_exp.mpr (show st.topics d 0 ≤ 1 + st.topics d k by have := (h.topics d 0).2; have := (h.topics d k).1; linarith)
      have h1 := Real.exp_le_exp.mpr (show st.topics d 1 ≤ 1 + st.topics d k by have := (h.topics d 1).2; have := (h.topics d k).1; linarith)
      linarith
    have he := Real.exp_one_lt_d9
    have hge : (1 : ℝ) / 10 ≤ Props.Numerics.softmax c.K (st.topics d) k := by
      unfold Props.Numerics.softmax
      rw [le_div_iff₀ hS]
      have hp := Real.exp_pos (st.topics d k)
      nlinarith
    unfold Numerics.almostZero
    rw [if_neg (by decide)]
    refine (hle.trans ?_).trans hge
    norm_num
  have hlse : ∀ d, lse c.K (st.topics d) = Real.log (Real.exp (st.topics d 0) + Real.exp (st.topics d 1)) := by
    intro d
    unfold lse
    rw [hK, Finset.sum_range_succ, Finset.sum_range_one, if_pos]
    have h1 : (1 : ℝ) ≤ Real.exp (st.topics d 0) := Real.one_le_exp (by have := (h.topics d 0).1; linarith)
    have h2 := Real.exp_pos (st.topics d 1)
    have h3 : (1 : ℝ) / 10 ^ 300 < 1 := by
      rw [div_lt_one (by positivity)]
      exact one_lt_pow₀ (by norm_num) (by norm_num)
    exact h3.trans_le (h1.trans (by linarith))
  have hlink : ∀ d, linkPart c links st d = -((x.len d : ℝ) * Real.log (Real.exp (st.topics d 0) + Real.exp (st.topics d 1))) := by
    intro d
    unfold linkPart
    simp only [hl, Nat.cast_zero, zero_mul, mul_zero, Finset.sum_const_zero, if_true, h.out, hlse]
    ring
  unfold bound1
  have hg := gauss_initial vag hv x c st h
  rw [hK] at hg
  rw [hg, Finset.sum_eq_zero fun d _ => word_one psi c hpos x hT st d (fun k => (h.topics d k).1) (hz d), Finset.sum_congr rfl fun d _ => hlink d]
  simp only [Finset.sum_range_succ (n := 1), Finset.sum_range_one, Finset.sum_sub_distrib, Finset.sum_neg_distrib, Finset.sum_const, Finset.card_range,
    nsmul_eq_mul, ← Finset.sum_div]
  push_cast
  ring

/-- C252 is violated: with two topics, a vocabulary of one word, no links and documents of at most 20 words, the logarithm of the probability of
the corpus is 0, and the bound of `mtm.py` is positive wherever training starts, more so the more documents there are. -/
theorem bound1_violation (psi : ℝ → ℝ) (c : Fixed) (hK : c.K = 2) (x links : Data) (hT : x.T = 1) (hn : ∀ d, x.len d ≤ 20)
    (hl : ∀ d p, links.words d p = 0) (st : MState) (h : Initial (1 / 10 ^ 6) x c st) : (x.D : ℝ) ≤ bound1 psi (exactDet 2) (1 / 10 ^ 6) c x links st := by
  rw [bound1_initial psi _ (by norm_num) c hK x links hT hl st h]
  have hlog : Real.log (1 / 10 ^ 6) ≤ -12 := by
    rw [one_div, Real.log_inv, Real.log_pow]
    have : 3 * Real.log 2 ≤ Real.log 10 := by
      rw [show 3 * Real.log 2 = Real.log (2 ^ 3) by rw [Real.log_pow]; norm_num]
      exact Real.log_le_log (by norm_num) (by norm_num)
    have := Real.log_two_gt_d9
    push_cast
    linarith
  have h2pi : lnOf2Pi ≤ 3 * Real.log 2 := by
    unfold lnOf2Pi
    rw [show 3 * Real.log 2 = Real.log (2 ^ 3) by rw [Real.log_pow]; norm_num]
    exact Real.log_le_log (by positivity) (by have := Real.pi_le_four; norm_num; linarith)
  have hl2 := Real.log_two_lt_d9
  have hone : (x.D : ℝ) = ∑ d ∈ Finset.range x.D, (1 : ℝ) := by simp
  rw [hone]
  refine Finset.sum_le_sum fun d _ => ?_
  have hsq : ∀ k, (st.topics d k - c.UV d k) ^ 2 ≤ 2 := by
    intro k
    obtain ⟨a1, a2⟩ := h.topics d k
    obtain ⟨b1, b2⟩ := h.uv d k
    rw [hK] at b2
    push_cast at b2
    have c1 : -(1.1 : ℝ) ≤ st.topics d k - c.UV d k := by linarith
    have c2 : st.topics d k - c.UV d k ≤ 1.1 := by linarith
    nlinarith
  have hlse : Real.log (Real.exp (st.topics d 0) + Real.exp (st.topics d 1)) ≤ Real.log 2 + (1 + 1 / 1000) := by
    have h0 := Real.exp_le_exp.mpr (h.topics d 0).2
    have h1 := Real.exp_le_exp.mpr (h.topics d 1).2
    have hp := Real.exp_pos (st.topics d 0)
    have hp1 := Real.exp_pos (st.topics d 1)
    calc Real.log (Real.exp (st.topics d 0) + Real.exp (st.topics d 1)) ≤ Real.log (2 * Real.exp (1 + 1 / 1000)) :=
          Real.log_le_log (by positivity) (by linarith)
      _ = _ := by rw [Real.log_mul two_ne_zero (Real.exp_pos _).ne', Real.log_exp]
  have hlen : (x.len d : ℝ) ≤ 20 := by exact_mod_cast hn d
  have hmul : (x.len d : ℝ) * Real.log (Real.exp (st.topics d 0) + Real.exp (st.topics d 1)) ≤ 20 * (Real.log 2 + (1 + 1 / 1000)) := by
    have hl2' := Real.log_two_gt_d9
    calc _ ≤ (x.len d : ℝ) * (Real.log 2 + (1 + 1 / 1000)) := mul_le_mul_of_nonneg_left hlse (Nat.cast_nonneg _)
      _ ≤ _ := mul_le_mul_of_nonneg_right hlen (by linarith)
  have := hsq 0
  have := hsq 1
  linarith

/-! ## `mtm2.py` -/

/-- C252 is violated: the bound of `mtm2.py`, which is to be that of the words and the links, is the same whatever the links are. -/
theorem bound2_ignores_links (inv : (Nat → Nat → ℝ) → Nat → Nat → ℝ) (det : (Nat → Nat → ℝ) → ℝ) (tiny : ℝ) (x links links' : Data) (K : Nat) (st : State2) :
    bound2 inv det tiny x links K st = bound2 inv det tiny x links' K st := rfl

/-- The state as that of `ctm_bohning.py` -/
noncomputable def asBohning (K : Nat) (st : State2) : BState := ⟨st.topicMean, st.topicCov, st.vocab, st.means, expRows K st.means, st.varcs⟩

/-- The bound of `mtm2.py` is that of `ctm_bohning.py` with the matrix of the links. -/
theorem bound2_bohning (inv : (Nat → Nat → ℝ) → Nat → Nat → ℝ) (det : (Nat → Nat → ℝ) → ℝ) (tiny : ℝ) (x links : Data) (K : Nat) (st : State2) :
    bound2 inv det tiny x links K st = bohningBound inv det tiny x K (linkA K) (asBohning K st) := rfl

/-- The diagonal of the matrix of the links is above that of Böhning's matrix. -/
theorem link_diag (K : Nat) (hK : 2 ≤ K) (k : Nat) : bohningA K k k ≤ linkA K k k := by
  have h2 : (2 : ℝ) ≤ K := by exact_mod_cast hK
  unfold bohningA linkA
  rw [if_pos rfl]
  have h1 : 1 / (K : ℝ) ≤ 1 / 2 := one_div_le_one_div_of_le two_pos h2
  have h3 : 0 < 1 / ((K : ℝ) + 1) := by positivity
  have h4 : (0.5 : ℝ) = 1 / 2 := by norm_num
  rw [h4]
  linarith

/-- C252: the bound of `mtm2.py` plus what separates it from a bound (`bohningGap`: the determinant in the place of its logarithm, the missing entropy, the
normaliser with the wrong sign, the missing variances of the quadratic expansion, and three terms that do not belong there) never exceeds the logarithm
of the probability of the words. -/
theorem bound2_partial (tiny : ℝ) (x links : Data) (K : Nat) (hK : 2 ≤ K) (st : State2) (h : BValid tiny x K (asBohning K st)) :
    bound2 (exactInv K) (exactDet K) tiny x links K st + ∑ d ∈ Finset.range x.D, bohningGap x K (linkA K) (asBohning K st) d
      ≤ evidence x K st.topicMean st.topicCov st.vocab := by
  refine le_trans ?_ (bohning_bound_partial tiny x K (asBohning K st) h)
  rw [bound2_bohning, bohningBound_eq, bohningBound_eq, ← Finset.sum_add_distrib, ← Finset.sum_add_distrib]
  refine Finset.sum_le_sum fun d hd => ?_
  have hle : ∑ k ∈ Finset.range K, bohningA K k k * (asBohning K st).varcs d k ≤ ∑ k ∈ Finset.range K, linkA K k k * (asBohning K st).varcs d k :=
    Finset.sum_le_sum fun k hk => mul_le_mul_of_nonneg_right (link_diag K hK k) (h.varcs d k (Finset.mem_range.1 hd) (Finset.mem_range.1 hk)).le
  have := mul_le_mul_of_nonneg_left hle (show 0 ≤ (x.len d : ℝ) / 2 by positivity)
  unfold bohningGap
  linarith

/-- One document that is one word of a vocabulary of one word -/
def oneWord : Data := ⟨1, 1, fun _ _ => 1⟩

/-- Two topics, the weights of the document at the mean `-c` of a Gaussian with identity covariance -/
noncomputable def shifted2 (c : ℝ) : State2 := ⟨fun _ => -c, Bohning.eye, fun _ _ => 1, fun _ _ => -c, fun _ _ => 1⟩

theorem const_exp (c : ℝ) (d k : Nat) : expRows 2 (fun _ _ => c) d k = 1 := by
  obtain ⟨_, j, _, hj⟩ := Props.Numerics.rowMax_spec 2 (fun _ : Nat => c) two_pos
  unfold expRows
  rw [hj, sub_self, Real.exp_zero]

theorem shifted2_valid (tiny : ℝ) (ht : tiny < 1) (c : ℝ) : BValid tiny oneWord 2 (asBohning 2 (shifted2 c)) := by
  refine ⟨two_pos, fun _ _ _ _ => ⟨one_pos, le_refl _⟩, fun _ _ _ _ => one_pos, ?_, fun d t _ _ _ => ?_⟩
  · show (mat 2 Bohning.eye).PosDef
    rw [mat_eye]
    exact Matrix.PosDef.one
  · show tiny < ∑ k ∈ Finset.range 2, expRows 2 (fun _ _ => -c) d k * 1
    simp only [const_exp]
    norm_num
    linarith

theorem eye_posDef : (mat 2 Bohning.eye).PosDef := by
  rw [mat_eye]
  exact Matrix.PosDef.one

/-- A corpus of the only word of the vocabulary has probability one. -/
theorem oneWord_evidence (mean : Nat → ℝ) (sig vocab : Nat → Nat → ℝ) (hS : (mat 2 sig).PosDef) (hv : ∀ k t, vocab k t = 1) :
    evidence oneWord 2 mean sig vocab = 0 := by
  rw [evidence_same oneWord 2 two_pos _ _ _ hS (fun _ => 1) (fun k t _ _ => hv k t) (fun _ _ => one_pos)]
  simp

/-- C252 is violated: the bound of `mtm2.py` exceeds the logarithm of the probability of the corpus, by as much as one likes. -/
theorem bound2_violation (tiny : ℝ) (ht : tiny < 1) (links : Data) (B : ℝ) : ∃ c, BValid tiny oneWord 2 (asBohning 2 (shifted2 c)) ∧
    evidence oneWord 2 (shifted2 c).topicMean (shifted2 c).topicCov (shifted2 c).vocab + B
      < bound2 (exactInv 2) (exactDet 2) tiny oneWord links 2 (shifted2 c) := by
  refine ⟨|B| + lnOf2Pi + 1, shifted2_valid tiny ht _, ?_⟩
  generalize hc : |B| + lnOf2Pi + 1 = c
  have hb : bound2 (exactInv 2) (exactDet 2) tiny oneWord links 2 (shifted2 c) = 2 * c + 2 * Real.log 2 - lnOf2Pi - 7 / 4 := by
    rw [bound2_bohning, bohningBound_eq]
    show ∑ d ∈ Finset.range 1, _ = _
    have hexp : ∀ d k, expRows 2 (asBohning 2 (shifted2 c)).means d k = 1 := const_exp (-c)
    have hsoft : ∀ d k, softmaxRows 2 (asBohning 2 (shifted2 c)).means d k = 1 / 2 := by
      intro d k
      have := hexp d
      unfold expRows at this
      unfold softmaxRows
      simp only [this]
      norm_num
    have hcnt : ∀ d k, topicCounts oneWord 2 (expRows 2 (asBohning 2 (shifted2 c)).means) (asBohning 2 (shifted2 c)).vocab d k = 1 / 2 := by
      intro d k
      unfold topicCounts quotient
      simp only [hexp]
      norm_num [oneWord, asBohning, shifted2, Finset.sum_range_succ]
    have hsafe : SparseKernels.safeLn tiny 2 = Real.log 2 := by
      unfold SparseKernels.safeLn
      rw [if_pos (by linarith)]
    have hmix : ∀ t, ∑ k ∈ Finset.range 2, expRows 2 (asBohning 2 (shifted2 c)).means 0 k * (asBohning 2 (shifted2 c)).vocab k t = 2 := by
      intro t
      simp only [hexp]
      norm_num [asBohning, shifted2, Finset.sum_range_succ]
    have hdet : exactDet 2 (asBohning 2 (shifted2 c)).sig = 1 := eye_det 2
    have h0 : exactInv 2 (asBohning 2 (shifted2 c)).sig 0 0 = 1 := (eye_inv 2 0 0 two_pos two_pos).trans (if_pos rfl)
    have h1 : exactInv 2 (asBohning 2 (shifted2 c)).sig 1 1 = 1 := (eye_inv 2 1 1 one_lt_two one_lt_two).trans (if_pos rfl)
    rw [Finset.sum_range_one, hdet]
    simp only [hmix, hsafe]
    simp only [hexp, hsoft, hcnt]
    norm_num [Finset.sum_range_succ, h0, h1, oneWord, Data.len, linkA]
    norm_num [asBohning, shifted2]
    ring
  rw [oneWord_evidence _ (shifted2 c).topicCov (shifted2 c).vocab eye_posDef (fun _ _ => rfl), hb]
  have h1 := Real.log_two_gt_d9
  have h2 := le_abs_self B
  have h3 := abs_nonneg B
  have h4 : 0 ≤ lnOf2Pi := by
    unfold lnOf2Pi
    exact Real.log_nonneg (by have := Real.two_le_pi; linarith)
  linarith

/-! ## `mtm3.py` -/

theorem mat_scale (K : Nat) (o : ℝ) (S : Nat → Nat → ℝ) : mat K (fun i j => o * S i j) = o • mat K S := rfl

theorem scale_inv (K : Nat) (o : ℝ) (ho : 0 < o) (S : Nat → Nat → ℝ) (hS : (mat K S).PosDef) (i j : Nat) (hi : i < K) (hj : j < K) :
    exactInv K (fun i j => o * S i j) i j = exactInv K S i j / o := by
  have h : mat K (exactInv K (fun i j => o * S i j)) = o⁻¹ • mat K (exactInv K S) := by
    rw [mat_exactInv, mat_exactInv, mat_scale]
    have := invertibleOfNonzero ho.ne'
    rw [Matrix.inv_smul _ _ (isUnit_iff_ne_zero.mpr hS.det_pos.ne'), invOf_eq_inv]
  have := congrFun (congrFun h ⟨i, hi⟩) ⟨j, hj⟩
  rw [div_eq_inv_mul]
  exact this

theorem scale_det (K : Nat) (o : ℝ) (S : Nat → Nat → ℝ) : exactDet K (fun i j => o * S i j) = o ^ K * exactDet K S := by
  unfold exactDet
  rw [mat_scale, Matrix.det_smul, Fintype.card_fin]

/-- The relative entropy to a Gaussian with covariance `o S`, with the inverse of `S` -/
theorem scaled_term (K : Nat) (mean : Nat → ℝ) (o : ℝ) (ho : 0 < o) (S : Nat → Nat → ℝ) (hS : (mat K S).PosDef) (m v : Nat → ℝ) (hv : ∀ k, k < K → 0 < v k) :
    Gauss.gaussTerm (fun k : Fin K => mean k) (mat K fun i j => o * S i j) (fun k : Fin K => m k) (nn K v)
      = -(K / 2 * lnOf2Pi) - Real.log (exactDet K fun i j => o * S i j) / 2
        - (∑ k ∈ Finset.range K, (∑ j ∈ Finset.range K, (m j - mean j) * exactInv K S j k) * (m k - mean k) * (1 / o)) / 2
        - (∑ k ∈ Finset.range K, v k * (1 / o) * exactInv K S k k) / 2
        + (K / 2 * lnOf2PiE + (∑ k ∈ Finset.range K, Real.log (v k)) / 2) := by
  rw [gaussTerm_eq K _ _ _ _ hv]
  have e1 : ∑ k ∈ Finset.range K, (∑ j ∈ Finset.range K, (m j - mean j) * exactInv K (fun i j => o * S i j) j k) * (m k - mean k)
      = ∑ k ∈ Finset.range K, (∑ j ∈ Finset.range K, (m j - mean j) * exactInv K S j k) * (m k - mean k) * (1 / o) := by
    refine Finset.sum_congr rfl fun k hk => ?_
    rw [Finset.sum_congr rfl fun j hj => by rw [scale_inv K o ho S hS j k (Finset.mem_range.1 hj) (Finset.mem_range.1 hk)]]
    rw [Finset.sum_mul, Finset.sum_mul, Finset.sum_mul]
    exact Finset.sum_congr rfl fun j _ => by ring
  have e2 : ∑ k ∈ Finset.range K, v k * exactInv K (fun i j => o * S i j) k k = ∑ k ∈ Finset.range K, v k * (1 / o) * exactInv K S k k :=
    Finset.sum_congr rfl fun k hk => by
      rw [scale_inv K o ho S hS k k (Finset.mem_range.1 hk) (Finset.mem_range.1 hk)]
      ring
  rw [e1, e2]

/-- The entropy of the topic of a word -/
noncomputable def wordEntropy (K : Nat) (means vocab : Nat → Nat → ℝ) (d t : Nat) : ℝ :=
  -∑ k ∈ Finset.range K, posterior K means vocab d t k * Real.log (posterior K means vocab d t k)

/-- A state as `train` leaves it: as `Valid` of the correlated topic model, and the variance of the weights of the links is above the floor of the
safe logarithm -/
structure Valid3 (tiny : ℝ) (x : Data) (K : Nat) (st : State3) : Prop where
  topics : 0 < K
  vocab : ∀ k t, k < K → t < x.T → 0 < st.vocab k t ∧ st.vocab k t ≤ 1
  outVarcs : ∀ d k, d < x.D → k < K → 0 < st.outVarcs d k
  inVarcs : ∀ d k, d < x.D → k < K → 0 < st.inVarcs d k
  cov : (mat K st.topicCov).PosDef
  outDocCov : 0 < st.outDocCov
  inDocCov : ∀ d, d < x.D → Numerics.almostZero false ≤ st.inDocCov d
  floor : ∀ d t, d < x.D → t < x.T → 0 < x.words d t → tiny < ∑ k ∈ Finset.range K, expRows K st.outMeans d k * st.vocab k t

theorem almostZero_pos : 0 < Numerics.almostZero false := by
  unfold Numerics.almostZero
  rw [if_neg (by decide)]
  positivity

/-- The terms of the words, document by document: what is added is the logarithms of the mixtures once and the expected logarithms of topic and word twice. -/
theorem tokenPart_eq (tiny : ℝ) (y : Data) (K : Nat) (hK : 0 < K) (means v : Nat → Nat → ℝ) (hv : ∀ k t, k < K → t < y.T → 0 < v k t)
    (hf : ∀ d t, d < y.D → t < y.T → 0 < y.words d t → tiny < ∑ k ∈ Finset.range K, expRows K means d k * v k t) :
    tokenPart tiny y K means v + ∑ d ∈ Finset.range y.D, ∑ k ∈ Finset.range K, means d k * topicCounts y K (expRows K means) v d k
      = ∑ d ∈ Finset.range y.D, (∑ t ∈ Finset.range y.T, (y.words d t : ℝ) * (logMix K v (means d) t - 2 * wordEntropy K means v d t)
        + (y.len d : ℝ) * Numerics.rowMax K (means d)) := by
  have hresp := quotient_resp y K means v hK
  have e1 : ∀ d k, (∑ t ∈ Finset.range y.T, quotient y K (expRows K means) v d t * v k t) * expRows K means d k * means d k
      = ∑ t ∈ Finset.range y.T, (y.words d t : ℝ) * (posterior K means v d t k * means d k) := by
    intro d k
    rw [Finset.sum_mul, Finset.sum_mul]
    refine Finset.sum_congr rfl fun t _ => ?_
    rw [← mul_assoc (y.words d t : ℝ), ← hresp d t k]
    ring
  have e2 : ∀ d k, (∑ t ∈ Finset.range y.T, quotient y K (expRows K means) v d t * (Real.log (v k t) * v k t)) * expRows K means d k
      = ∑ t ∈ Finset.range y.T, (y.words d t : ℝ) * (posterior K means v d t k * Real.log (v k t)) := by
    intro d k
    rw [Finset.sum_mul]
    refine Finset.sum_congr rfl fun t _ => ?_
    rw [← mul_assoc (y.words d t : ℝ), ← hresp d t k]
    ring
  have e3 : ∀ d k, (∑ t ∈ Finset.range y.T, quotient y K (expRows K means) v d t
        * SparseKernels.safeLn tiny (∑ j ∈ Finset.range K, expRows K means d j * v j t) * v k t) * expRows K means d k
      = ∑ t ∈ Finset.range y.T, (y.words d t : ℝ) * (posterior K means v d t k
        * SparseKernels.safeLn tiny (∑ j ∈ Finset.range K, expRows K means d j * v j t)) := by
    intro d k
    rw [Finset.sum_mul]
    refine Finset.sum_congr rfl fun t _ => ?_
    rw [← mul_assoc (y.words d t : ℝ), ← hresp d t k]
    ring
  have e4 : ∀ d k, means d k * topicCounts y K (expRows K means) v d k
      = ∑ t ∈ Finset.range y.T, (y.words d t : ℝ) * (posterior K means v d t k * means d k) := by
    intro d k
    rw [← e1]
    unfold topicCounts
    ring
  have e5 : ∑ k ∈ Finset.range K, ∑ d ∈ Finset.range y.D, expRows K means d k
        * ∑ t ∈ Finset.range y.T, quotient y K (expRows K means) v d t * (Real.log (v k t) * v k t)
      = ∑ d ∈ Finset.range y.D, ∑ k ∈ Finset.range K, ∑ t ∈ Finset.range y.T, (y.words d t : ℝ) * (posterior K means v d t k * Real.log (v k t)) := by
    rw [Finset.sum_comm]
    refine Finset.sum_congr rfl fun d _ => Finset.sum_congr rfl fun k _ => ?_
    rw [mul_comm, e2]
  unfold tokenPart
  simp only [e1, e2, e3, e4, e5]
  rw [← Finset.sum_add_distrib, ← Finset.sum_sub_distrib, ← Finset.sum_add_distrib, ← Finset.sum_add_distrib]
  refine Finset.sum_congr rfl fun d hd => ?_
  have hd := Finset.mem_range.1 hd
  rw [← Finset.sum_add_distrib, ← Finset.sum_sub_distrib, ← Finset.sum_add_distrib, ← Finset.sum_add_distrib, ← len_cast, Finset.sum_mul]
  have e6 : ∀ k, (∑ t ∈ Finset.range y.T, (y.words d t : ℝ) * (posterior K means v d t k * means d k)
        + ∑ t ∈ Finset.range y.T, (y.words d t : ℝ) * (posterior K means v d t k * Real.log (v k t))
        - ∑ t ∈ Finset.range y.T, (y.words d t : ℝ) * (posterior K means v d t k
          * SparseKernels.safeLn tiny (∑ j ∈ Finset.range K, expRows K means d j * v j t))
        + ∑ t ∈ Finset.range y.T, (y.words d t : ℝ) * (posterior K means v d t k * Real.log (v k t))
        + ∑ t ∈ Finset.range y.T, (y.words d t : ℝ) * (posterior K means v d t k * means d k))
      = ∑ t ∈ Finset.range y.T, (y.words d t : ℝ) * (2 * (posterior K means v d t k * (means d k + Real.log (v k t)))
        - posterior K means v d t k * SparseKernels.safeLn tiny (∑ j ∈ Finset.range K, expRows K means d j * v j t)) := by
    intro k
    simp only [← Finset.sum_add_distrib, ← Finset.sum_sub_distrib]
    exact Finset.sum_congr rfl fun t _ => by ring
  rw [Finset.sum_congr rfl fun k _ => e6 k, Finset.sum_comm, ← Finset.sum_add_distrib]
  refine Finset.sum_congr rfl fun t ht => ?_
  have ht := Finset.mem_range.1 ht
  rcases Nat.eq_zero_or_pos (y.words d t) with h0 | h0
  · rw [h0]
    simp
  have hvt : ∀ k, k < K → 0 < v k t := fun k hk => hv k t hk ht
  have hpos : 0 < ∑ k ∈ Finset.range K, Real.exp (means d k) * v k t :=
    Finset.sum_pos (fun k hk => mul_pos (Real.exp_pos _) (hvt k (Finset.mem_range.1 hk))) ⟨0, Finset.mem_range.2 hK⟩
  have hpost : ∀ k, k < K → means d k + Real.log (v k t) = Real.log (posterior K means v d t k) + logMix K v (means d) t := by
    intro k hk
    have hS := Props.Numerics.sum_exp_pos K (means d) hK
    have hp : posterior K means v d t k = Real.exp (means d k) * v k t / ∑ j ∈ Finset.range K, Real.exp (means d j) * v j t := by
      unfold posterior wordProb Props.Numerics.softmax
      have : ∑ j ∈ Finset.range K, Real.exp (means d j) / (∑ i ∈ Finset.range K, Real.exp (means d i)) * v j t
          = (∑ j ∈ Finset.range K, Real.exp (means d j) * v j t) / ∑ i ∈ Finset.range K, Real.exp (means d i) := by
        rw [Finset.sum_div]
        exact Finset.sum_congr rfl fun j _ => by ring
      rw [this]
      generalize ∑ j ∈ Finset.range K, Real.exp (means d j) = Z at hS ⊢
      generalize ∑ j ∈ Finset.range K, Real.exp (means d j) * v j t = M at hpos ⊢
      field_simp
    rw [hp, Real.log_div (mul_pos (Real.exp_pos _) (hvt k hk)).ne' hpos.ne', Real.log_mul (Real.exp_pos _).ne' (hvt k hk).ne', Real.log_exp]
    unfold logMix
    ring
  have e7 : ∑ k ∈ Finset.range K, (y.words d t : ℝ) * (2 * (posterior K means v d t k * (means d k + Real.log (v k t)))
        - posterior K means v d t k * SparseKernels.safeLn tiny (∑ j ∈ Finset.range K, expRows K means d j * v j t))
      = ∑ k ∈ Finset.range K, ((y.words d t : ℝ) * 2 * (posterior K means v d t k * Real.log (posterior K means v d t k))
        + (y.words d t : ℝ) * (logMix K v (means d) t + Numerics.rowMax K (means d)) * posterior K means v d t k) := by
    refine Finset.sum_congr rfl fun k hk => ?_
    rw [hpost k (Finset.mem_range.1 hk), safeLn_mix K hK tiny means v d t hvt (hf d t hd ht h0)]
    ring
  rw [e7, Finset.sum_add_distrib, ← Finset.mul_sum, ← Finset.mul_sum, posterior_sum K means v hK d t hvt]
  unfold wordEntropy
  ring

/-- The bound of `mtm3.py` without links: two relative entropies, the logarithms of the mixtures at the means, the normaliser at the means; and then twice the
entropies of the topics of the words taken away, and twice the greatest weight for every word added. -/
theorem bound3_eq (tiny : ℝ) (x links : Data) (hl : ∀ d p, links.words d p = 0) (K : Nat) (st : State3) (h : Valid3 tiny x K st) :
    bound3 (exactInv K) (fun M => Real.log (exactDet K M)) tiny x links K st
      = ∑ d ∈ Finset.range x.D,
        (Gauss.gaussTerm (fun k : Fin K => st.topicMean k) (mat K fun i j => st.outDocCov * st.topicCov i j) (fun k : Fin K => st.outMeans d k)
            (nn K (st.outVarcs d))
          + Gauss.gaussTerm (fun k : Fin K => st.outMeans d k) (mat K fun i j => st.inDocCov d * st.topicCov i j) (fun k : Fin K => st.inMeans d k)
            (nn K (st.inVarcs d))
          + ∑ t ∈ Finset.range x.T, (x.words d t : ℝ) * logMix K st.vocab (st.outMeans d) t
          - (x.len d : ℝ) * Bohning.lse K (st.outMeans d)
          - 2 * ∑ t ∈ Finset.range x.T, (x.words d t : ℝ) * wordEntropy K st.outMeans st.vocab d t
          + 2 * (x.len d : ℝ) * Numerics.rowMax K (st.outMeans d)) := by
  have hK := h.topics
  have hz := almostZero_pos
  have hlen : ∀ d, links.len d = 0 := by
    intro d
    unfold Data.len
    simp [hl]
  have hcnt : ∀ v d k, topicCounts links K (expRows K st.outMeans) v d k = 0 := by
    intro v d k
    unfold topicCounts quotient
    simp [hl]
  have htok : ∀ v, tokenPart tiny links K st.outMeans v = 0 := by
    intro v
    unfold tokenPart quotient
    simp [hl]
  have hdetS : 0 < exactDet K st.topicCov := h.cov.det_pos
  have hn : ∀ d, Real.log (∑ k ∈ Finset.range K, expRows K st.outMeans d k) = Bohning.lse K (st.outMeans d) - Numerics.rowMax K (st.outMeans d) := by
    intro d
    have hpos := Props.Numerics.sum_exp_pos K (st.outMeans d) hK
    have : ∑ k ∈ Finset.range K, expRows K st.outMeans d k
        = (∑ k ∈ Finset.range K, Real.exp (st.outMeans d k)) * Real.exp (-Numerics.rowMax K (st.outMeans d)) := by
      rw [Finset.sum_mul]
      refine Finset.sum_congr rfl fun k _ => ?_
      unfold expRows
      rw [sub_eq_add_neg, Real.exp_add]
    rw [this, Real.log_mul hpos.ne' (Real.exp_pos _).ne', Real.log_exp]
    rfl
  have htp := tokenPart_eq tiny x K hK st.outMeans st.vocab (fun k t hk ht => (h.vocab k t hk ht).1) h.floor
  have hg1 : ∀ d ∈ Finset.range x.D, _ := fun d hd => scaled_term K st.topicMean st.outDocCov h.outDocCov st.topicCov h.cov (st.outMeans d) (st.outVarcs d)
    (fun k hk => h.outVarcs d k (Finset.mem_range.1 hd) hk)
  have hg2 : ∀ d ∈ Finset.range x.D, Gauss.gaussTerm (fun k : Fin K => st.outMeans d k) (mat K fun i j => st.inDocCov d * st.topicCov i j) (fun k : Fin K => st.inMeans d k)
            (nn K (st.inVarcs d))
      = -(K / 2 * lnOf2Pi) - (K * Numerics.safeLogOut false (st.inDocCov d) + Real.log (exactDet K st.topicCov)) / 2
        - (∑ k ∈ Finset.range K, (∑ j ∈ Finset.range K, (st.inMeans d j - st.outMeans d j) * exactInv K st.topicCov j k) * (st.inMeans d k - st.outMeans d k) * (1 / st.inDocCov d)) / 2
        - (∑ k ∈ Finset.range K, st.inVarcs d k * (1 / st.inDocCov d) * exactInv K st.topicCov k k) / 2
        + (K / 2 * lnOf2PiE + (∑ k ∈ Finset.range K, Real.log (st.inVarcs d k)) / 2) := by
    intro d hd
    have hc := h.inDocCov d (Finset.mem_range.1 hd)
    have hc0 := hz.trans_le hc
    rw [scaled_term K (st.outMeans d) (st.inDocCov d) hc0 st.topicCov h.cov (st.inMeans d) (st.inVarcs d)
      (fun k hk => h.inVarcs d k (Finset.mem_range.1 hd) hk), scale_det, Real.log_mul (pow_pos hc0 K).ne' hdetS.ne', Real.log_pow]
    unfold Numerics.safeLogOut
    rw [if_pos hc]
  have q1 : ∑ d ∈ Finset.range x.D, ∑ k ∈ Finset.range K,
        (∑ j ∈ Finset.range K, (st.outMeans d j - st.topicMean j) * exactInv K st.topicCov j k) * (st.outMeans d k - st.topicMean k) * 1 / st.outDocCov
      = ∑ d ∈ Finset.range x.D, ∑ k ∈ Finset.range K,
        (∑ j ∈ Finset.range K, (st.outMeans d j - st.topicMean j) * exactInv K st.topicCov j k) * (st.outMeans d k - st.topicMean k) * (1 / st.outDocCov) :=
    Finset.sum_congr rfl fun d _ => Finset.sum_congr rfl fun k _ => by ring
  have q2 : 0.5 / st.outDocCov * ∑ d ∈ Finset.range x.D, ∑ k ∈ Finset.range K, st.outVarcs d k * exactInv K st.topicCov k k
      = (∑ d ∈ Finset.range x.D, ∑ k ∈ Finset.range K, st.outVarcs d k * (1 / st.outDocCov) * exactInv K st.topicCov k k) / 2 := by
    rw [Finset.mul_sum, Finset.sum_div]
    refine Finset.sum_congr rfl fun d _ => ?_
    rw [Finset.mul_sum, Finset.sum_div]
    exact Finset.sum_congr rfl fun k _ => by ring
  have hsplit : ∀ d, ∑ t ∈ Finset.range x.T, (x.words d t : ℝ) * (logMix K st.vocab (st.outMeans d) t - 2 * wordEntropy K st.outMeans st.vocab d t)
      = ∑ t ∈ Finset.range x.T, (x.words d t : ℝ) * logMix K st.vocab (st.outMeans d) t
        - 2 * ∑ t ∈ Finset.range x.T, (x.words d t : ℝ) * wordEntropy K st.outMeans st.vocab d t := by
    intro d
    rw [Finset.mul_sum, ← Finset.sum_sub_distrib]
    exact Finset.sum_congr rfl fun t _ => by ring
  simp only [hsplit] at htp
  have hT := eq_sub_of_add_eq htp
  unfold bound3
  simp only [hcnt, htok, hlen, hn, add_zero, Nat.cast_zero]
  rw [hT, q1, q2]
  have hG1 := Finset.sum_congr rfl hg1
  have hG2 := Finset.sum_congr rfl hg2
  simp only [Finset.sum_add_distrib, Finset.sum_sub_distrib, Finset.sum_neg_distrib, Finset.sum_const, Finset.card_range, nsmul_eq_mul, ← Finset.sum_div,
    ← Finset.mul_sum] at hG1 hG2
  have hns : ∀ d, (x.len d : ℝ) * (Bohning.lse K (st.outMeans d) - Numerics.rowMax K (st.outMeans d))
      = (x.len d : ℝ) * Bohning.lse K (st.outMeans d) - (x.len d : ℝ) * Numerics.rowMax K (st.outMeans d) := fun d => mul_sub _ _ _
  simp only [hns, Finset.sum_add_distrib, Finset.sum_sub_distrib, ← Finset.mul_sum, mul_assoc (2 : ℝ)]
  rw [hG1, hG2]
  ring

/-- A relative entropy is not negative. -/
theorem gaussTerm_nonpos (K : Nat) (hK : 0 < K) (μ : Fin K → ℝ) (S : Matrix (Fin K) (Fin K) ℝ) (hS : S.PosDef) (m v : Nat → ℝ) (hv : ∀ k, k < K → 0 < v k) :
    Gauss.gaussTerm μ S (fun k : Fin K => m k) (nn K v) ≤ 0 := by
  have h := doc_bound K 0 hK (fun _ _ => 1) (fun _ _ _ _ => one_pos) (fun _ _ _ _ => le_refl _) (fun _ => 0) μ S hS m v hv
  have h1 : ∀ η : Fin K → ℝ, docProb K 0 (fun _ _ => 1) (fun _ => 0) η = 1 := fun η => rfl
  simp only [h1, mul_one, (Gauss.density_one μ S hS).2, Real.log_one] at h
  simpa using h

/-- What separates the bound of `mtm3.py` from a bound, in one document: the entropies of the topics of the words are taken away instead of added, the
greatest weight is added twice for every word, and the variances of the weights are missing from the normaliser. -/
noncomputable def gap3 (x : Data) (K : Nat) (st : State3) (d : Nat) : ℝ :=
  2 * ∑ t ∈ Finset.range x.T, (x.words d t : ℝ) * wordEntropy K st.outMeans st.vocab d t
    - 2 * (x.len d : ℝ) * Numerics.rowMax K (st.outMeans d)
    - (x.len d : ℝ) / 2 * ∑ k ∈ Finset.range K, bohningA K k k * st.outVarcs d k

theorem scale_posDef (K : Nat) (o : ℝ) (ho : 0 < o) (S : Nat → Nat → ℝ) (hS : (mat K S).PosDef) : (mat K fun i j => o * S i j).PosDef := by
  rw [mat_scale]
  exact hS.smul ho

/-- C252: without links the bound of `mtm3.py` plus the gaps never exceeds the logarithm of the probability of the words. -/
theorem bound3_partial (tiny : ℝ) (x links : Data) (hl : ∀ d p, links.words d p = 0) (K : Nat) (st : State3) (h : Valid3 tiny x K st) :
    bound3 (exactInv K) (fun M => Real.log (exactDet K M)) tiny x links K st + ∑ d ∈ Finset.range x.D, gap3 x K st d
      ≤ evidence x K st.topicMean (fun i j => st.outDocCov * st.topicCov i j) st.vocab := by
  rw [bound3_eq tiny x links hl K st h, ← Finset.sum_add_distrib]
  unfold evidence
  refine Finset.sum_le_sum fun d hd => ?_
  have hd := Finset.mem_range.1 hd
  have hvar := fun k hk => h.outVarcs d k hd hk
  have hK := h.topics
  refine le_trans ?_ (doc_bound K x.T hK st.vocab (fun k t hk ht => (h.vocab k t hk ht).1) (fun k t hk ht => (h.vocab k t hk ht).2) (x.words d)
    (fun k : Fin K => st.topicMean k) _ (scale_posDef K _ h.outDocCov _ h.cov) (st.outMeans d) (st.outVarcs d) hvar)
  have hb := mul_le_mul_of_nonneg_left (lse_expected K hK (st.outMeans d) (st.outVarcs d) hvar) (Nat.cast_nonneg (α := ℝ) (x.len d))
  have hin := gaussTerm_nonpos K hK (fun k : Fin K => st.outMeans d k) _
    (scale_posDef K _ (almostZero_pos.trans_le (h.inDocCov d hd)) _ h.cov) (st.inMeans d) (st.inVarcs d) (fun k hk => h.inVarcs d k hd hk)
  rw [len_cast]
  unfold gap3
  linarith

/-- Two topics; the weights of the document and those of its links are at the mean `c`; the covariances are the identity. -/
noncomputable def shifted3 (c : ℝ) : State3 :=
  ⟨fun _ => c, Bohning.eye, 1, fun _ _ => 1, fun _ _ => c, fun _ _ => 1, fun _ _ => c, fun _ _ => 1, fun _ => 1⟩

theorem shifted3_valid (tiny : ℝ) (ht : tiny < 1) (c : ℝ) : Valid3 tiny oneWord 2 (shifted3 c) := by
  refine ⟨two_pos, fun _ _ _ _ => ⟨one_pos, le_refl _⟩, fun _ _ _ _ => one_pos, fun _ _ _ _ => one_pos, eye_posDef, one_pos, fun _ _ => ?_, fun d t _ _ _ => ?_⟩
  · unfold Numerics.almostZero
    rw [if_neg (by decide)]
    exact pow_le_one₀ (by norm_num) (by norm_num)
  · show tiny < ∑ k ∈ Finset.range 2, expRows 2 (fun _ _ => c) d k * 1
    simp only [const_exp]
    norm_num
    linarith

/-- C252 is violated: the bound of `mtm3.py` exceeds the logarithm of the probability of the corpus, by as much as one likes. -/
theorem bound3_violation (tiny : ℝ) (ht : tiny < 1) (links : Data) (hl : ∀ d p, links.words d p = 0) (B : ℝ) : ∃ c, Valid3 tiny oneWord 2 (shifted3 c) ∧
    evidence oneWord 2 (shifted3 c).topicMean (fun i j => (shifted3 c).outDocCov * (shifted3 c).topicCov i j) (shifted3 c).vocab + B
      < bound3 (exactInv 2) (fun M => Real.log (exactDet 2 M)) tiny oneWord links 2 (shifted3 c) := by
  refine ⟨|B| + 1, shifted3_valid tiny ht _, ?_⟩
  generalize hc : |B| + 1 = c
  have hterm : ∀ (mean m v : Nat → ℝ), (∀ k, mean k = c) → (∀ k, m k = c) → (∀ k, v k = 1) →
      Gauss.gaussTerm (fun k : Fin 2 => mean k) (mat 2 fun i j => 1 * Bohning.eye i j) (fun k : Fin 2 => m k) (nn 2 v) = 0 := by
    intro mean m v h1 h2 h3
    have h0 := (eye_inv 2 0 0 two_pos two_pos).trans (if_pos rfl)
    have h1' := (eye_inv 2 1 1 one_lt_two one_lt_two).trans (if_pos rfl)
    have hpi : lnOf2PiE = lnOf2Pi + 1 := by
      unfold lnOf2PiE lnOf2Pi
      rw [Real.log_mul (by positivity) (Real.exp_pos _).ne', Real.log_exp]
    rw [scaled_term 2 mean 1 one_pos _ eye_posDef m v (fun k _ => by rw [h3]; exact one_pos), scale_det, eye_det, hpi]
    simp only [h1, h2, h3, sub_self, zero_mul, Finset.sum_const_zero]
    norm_num [Finset.sum_range_succ, h0, h1']
  have hpost : ∀ d t k, posterior 2 (shifted3 c).outMeans (shifted3 c).vocab d t k = 1 / 2 := by
    intro d t k
    unfold posterior wordProb Props.Numerics.softmax
    have := Real.exp_pos c
    simp only [shifted3]
    norm_num [Finset.sum_range_succ]
    field_simp
  have hent : ∀ d t, wordEntropy 2 (shifted3 c).outMeans (shifted3 c).vocab d t = Real.log 2 := by
    intro d t
    unfold wordEntropy
    simp only [hpost, one_div, Real.log_inv]
    norm_num [Finset.sum_range_succ]
    ring
  have hmax : ∀ d, Numerics.rowMax 2 ((shifted3 c).outMeans d) = c := by
    intro d
    obtain ⟨_, j, _, hj⟩ := Props.Numerics.rowMax_spec 2 ((shifted3 c).outMeans d) two_pos
    rw [hj]
    rfl
  have hmix : ∀ d t, logMix 2 (shifted3 c).vocab ((shifted3 c).outMeans d) t = Bohning.lse 2 ((shifted3 c).outMeans d) := by
    intro d t
    unfold logMix Bohning.lse
    simp [shifted3]
  have hlen : (oneWord.len 0 : ℝ) = 1 := by norm_num [oneWord, Data.len]
  have hb : bound3 (exactInv 2) (fun M => Real.log (exactDet 2 M)) tiny oneWord links 2 (shifted3 c) = 2 * c - 2 * Real.log 2 := by
    rw [bound3_eq tiny oneWord links hl 2 _ (shifted3_valid tiny ht c)]
    show ∑ d ∈ Finset.range 1, _ = _
    rw [Finset.sum_range_one, hlen, hmax]
    simp only [hent, hmix]
    rw [show Gauss.gaussTerm (fun k : Fin 2 => (shifted3 c).topicMean k) (mat 2 fun i j => (shifted3 c).outDocCov * (shifted3 c).topicCov i j)
        (fun k : Fin 2 => (shifted3 c).outMeans 0 k) (nn 2 ((shifted3 c).outVarcs 0)) = 0 from hterm _ _ _ (fun _ => rfl) (fun _ => rfl) (fun _ => rfl),
      show Gauss.gaussTerm (fun k : Fin 2 => (shifted3 c).outMeans 0 k) (mat 2 fun i j => (shifted3 c).inDocCov 0 * (shifted3 c).topicCov i j)
        (fun k : Fin 2 => (shifted3 c).inMeans 0 k) (nn 2 ((shifted3 c).inVarcs 0)) = 0 from hterm _ _ _ (fun _ => rfl) (fun _ => rfl) (fun _ => rfl)]
    show 0 + 0 + ∑ t ∈ Finset.range 1, ((1 : ℕ) : ℝ) * Bohning.lse 2 ((shifted3 c).outMeans 0) - 1 * Bohning.lse 2 ((shifted3 c).outMeans 0)
      - 2 * ∑ t ∈ Finset.range 1, ((1 : ℕ) : ℝ) * Real.log 2 + 2 * 1 * c = _
    rw [Finset.sum_range_one, Finset.sum_range_one]
    push_cast
    ring
  rw [oneWord_evidence _ (fun i j => (shifted3 c).outDocCov * (shifted3 c).topicCov i j) (shifted3 c).vocab
    (scale_posDef 2 1 one_pos Bohning.eye eye_posDef) (fun _ _ => rfl), hb]
  have h1 := Real.log_two_lt_d9
  have h2 := le_abs_self B
  have h3 := abs_nonneg B
  have : Real.log 2 < 1 := by linarith
  linarith

/-! ## Examples -/

/-- No links -/
def noLinks : Data := ⟨2, 2, fun _ _ => 0⟩

/-- Two documents, one of the same word three times -/
def exWords : Data := ⟨2, 1, fun d _ => if d = 0 then 1 else 3⟩

noncomputable def exFixed : Fixed := ⟨2, 1 / 10, fun _ k => if k = 0 then 1 / 4 else 1, fun _ => 0, fun d => if d = 0 then 1 else 3⟩

noncomputable def exState : MState :=
  ⟨fun d k => if d = k then 9 / 10 else 1 / 10, fun _ => 1, fun _ => 1, fun _ => 1, fun _ => 0, fun _ _ => 1, fun i j => if i = j then 1 / 10 ^ 6 else 0,
    fun i j => if i = j then 10 ^ 6 else 0, fun _ _ => 0⟩

example (psi : ℝ → ℝ) : (2 : ℝ) ≤ bound1 psi (exactDet 2) (1 / 10 ^ 6) exFixed exWords noLinks exState := by
  have h := bound1_violation psi exFixed rfl exWords noLinks rfl (fun d => by simp only [exWords, Data.len]; split_ifs <;> simp)
    (fun _ _ => rfl) exState
    ⟨fun _ _ => rfl, fun _ _ => rfl, fun d k => by simp only [exState]; split_ifs <;> norm_num, fun d k => by simp only [exFixed]; split_ifs <;> norm_num,
      fun d => by simp only [exFixed, exWords, Data.len]; split_ifs <;> norm_num⟩
  simpa [exWords] using h

example : bound3 (exactInv 2) (fun M => Real.log (exactDet 2 M)) (1 / 2) oneWord noLinks 2 (shifted3 3) + ∑ d ∈ Finset.range oneWord.D, gap3 oneWord 2 (shifted3 3) d
    ≤ evidence oneWord 2 (shifted3 3).topicMean (fun i j => (shifted3 3).outDocCov * (shifted3 3).topicCov i j) (shifted3 3).vocab :=
  bound3_partial (1 / 2) oneWord noLinks (fun _ _ => rfl) 2 (shifted3 3) (shifted3_valid (1 / 2) (by norm_num) 3)

example : bound2 (exactInv 2) (exactDet 2) (1 / 2) oneWord noLinks 2 (shifted2 3)
      + ∑ d ∈ Finset.range oneWord.D, bohningGap oneWord 2 (linkA 2) (asBohning 2 (shifted2 3)) d
    ≤ evidence oneWord 2 (shifted2 3).topicMean (shifted2 3).topicCov (shifted2 3).vocab :=
  bound2_partial (1 / 2) oneWord noLinks 2 (le_refl _) (shifted2 3) (shifted2_valid (1 / 2) (by norm_num) 3)

end Verif.Props.MtmBound
