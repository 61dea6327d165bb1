import Mathlib.Tactic.NormNum
import Mathlib.Analysis.Complex.ExponentialBounds
import Verif.Props.CtmQuery
import Verif.Props.CtmBound
import Verif.Props.StmYv
import Verif.Props.Bouchard

/-!
# The end of the queries of the correlated topic model (C214)

From its 22nd iteration, a query ends when the perplexity of all its documents improves by less than one.  A document of 10000 copies of a rare word
keeps improving for ever, so it is inferred with all the iterations in a query of its own kind, and with 22 iterations beside a long document of common
words.
-/

namespace Verif.Props.CtmStop

open Verif Verif.Ctm Verif.CtmQuery
open Verif.Mom (Data)
open Verif.Props.StmCov (exactInv mat)
open Verif.Props.CtmQuery (SameRow iter_row loop_runs exactInv_congr)
open Verif.Props.Bouchard (h negJakkola_eq one_add_exp_pos h_deriv two_mul_le_exp_sub h_pos)

/-! ## The coefficient decreases strictly -/

theorem two_mul_lt_exp_sub (x : ℝ) (hx : 0 < x) : 2 * x * Real.exp x < Real.exp x ^ 2 - 1 := by
  have hs : x < Real.sinh x := Real.self_lt_sinh_iff.mpr hx
  rw [Real.sinh_eq] at hs
  have h1 : Real.exp (-x) * Real.exp x = 1 := by rw [← Real.exp_add]; simp
  have := mul_lt_mul_of_pos_right hs (Real.exp_pos x)
  nlinarith

theorem negJakkola_strictAnti : StrictAntiOn negJakkola (Set.Ioi 0) := by
  have hd : ∀ x, 0 < x → HasDerivAt (fun x => h x / (4 * x))
      ((2 * Real.exp x / (1 + Real.exp x) ^ 2 * (4 * x) - h x * (4 * 1)) / (4 * x) ^ 2) x := fun x hx =>
    (h_deriv x).div ((hasDerivAt_id x).const_mul 4) (by positivity)
  have key : StrictAntiOn (fun x => h x / (4 * x)) (Set.Ioi 0) := by
    refine strictAntiOn_of_deriv_neg (convex_Ioi 0)
      (fun x hx => (hd x hx).continuousAt.continuousWithinAt) fun x hx => ?_
    have hx' : 0 < x := by simpa using hx
    rw [(hd x hx').deriv]
    refine div_neg_of_neg_of_pos ?_ (by positivity)
    have he := one_add_exp_pos x
    have h2 : h x = (Real.exp x - 1) / (1 + Real.exp x) := by unfold h; field_simp; ring
    rw [h2, sub_neg, mul_one, div_mul_eq_mul_div, div_mul_eq_mul_div, div_lt_div_iff₀ (by positivity) he]
    nlinarith [two_mul_lt_exp_sub x hx', mul_pos he he]
  intro a ha b hb hab
  rw [negJakkola_eq, negJakkola_eq]
  exact key ha hb hab

/-! ## The corpora -/

/-- Two documents, each with the first word 10000 times -/
def wX : Data := ⟨2, 2, fun _ t => if t = 0 then 10000 else 0⟩

/-- One such document, and one with the second word `N` times -/
def wX' (N : Nat) : Data := ⟨2, 2, fun d t => if d = 0 then (if t = 0 then 10000 else 0) else if t = 1 then N else 0⟩

/-- Two topics over two words; the first word is rare in both of them -/
noncomputable def wVocab (ε : ℝ) (k t : Nat) : ℝ :=
  if t = 0 then (if k = 0 then ε else ε / 10000) else 1 - (if k = 0 then ε else ε / 10000)

/-- The start of `newQueryState` (ctm.py:134-145) when all its random numbers are equal -/
noncomputable def wQ : QState := ⟨fun _ _ => 1 / 4, fun _ _ => 1, fun _ _ => negJakkola (deriveXi (1 / 4) 1 0), fun _ => 0⟩

noncomputable def wStep (ε : ℝ) : QState → QState :=
  queryStep (exactInv 2) wX 2 (exactInv 2 Bohning.eye) (fun _ => 0) (topicCounts wX 2 (expRows 2 wQ.means) (wVocab ε))

/-- Half of the difference of the topic counts -/
noncomputable def del : ℝ := 10000 * (9999 / 20002)

/-- The coefficient of the next iteration -/
noncomputable def nextL (l : ℝ) : ℝ := 2 * negJakkola (deriveXi (del / (1 + 10000 * l)) (1 / (10000 * l + 1)) 0)

theorem wX_len (d : Nat) : (wX.len d : ℝ) = 10000 := by
  have : wX.len d = 10000 := by
    show ∑ t ∈ Finset.range 2, (if t = 0 then 10000 else 0) = 10000
    rfl
  rw [this]; norm_num

theorem wX'_len (N d : Nat) : ((wX' N).len d : ℝ) = if d = 0 then 10000 else (N : ℝ) := by
  have : (wX' N).len d = if d = 0 then 10000 else N := by
    show ∑ t ∈ Finset.range 2, (if d = 0 then (if t = 0 then 10000 else 0) else if t = 1 then N else 0) = _
    rw [Finset.sum_range_succ, Finset.sum_range_succ, Finset.sum_range_zero]
    by_cases hd : d = 0 <;> simp [hd]
  rw [this]
  split <;> norm_num

theorem w_counts (ε : ℝ) (hε : 0 < ε) (d : Nat) :
    topicCounts wX 2 (expRows 2 wQ.means) (wVocab ε) d 0 = 5000 + del ∧
    topicCounts wX 2 (expRows 2 wQ.means) (wVocab ε) d 1 = 5000 - del := by
  have he : ∀ k, k < 2 → expRows 2 wQ.means d k = 1 := by
    intro k hk
    obtain ⟨j, hj, e⟩ := (Props.Numerics.rowMax_spec 2 (wQ.means d) (by norm_num)).2
    unfold expRows
    rw [e]
    show Real.exp (1 / 4 - 1 / 4) = 1
    simp
  unfold topicCounts quotient
  have hT : wX.T = 2 := rfl
  rw [hT]
  simp only [Finset.sum_range_succ, Finset.sum_range_zero, he 0 (by norm_num), he 1 (by norm_num), wX, wVocab, del]
  simp
  have hε' := hε.ne'
  constructor
  · field_simp
    norm_num
  · field_simp
    norm_num

/-- All the documents have the coefficient `l` in both topics. -/
def AtL (q : QState) (l : ℝ) : Prop := ∀ d, q.s d = 0 ∧ ∀ k, k < 2 → q.lxi d k = l

theorem w_step (ε : ℝ) (hε : 0 < ε) (q : QState) (l : ℝ) (hl : 0 < l) (hq : AtL q l) :
    AtL (wStep ε q) (nextL l) ∧ ∀ d, (wStep ε q).means d 0 = del / (1 + 10000 * l) ∧ (wStep ε q).means d 1 = -(del / (1 + 10000 * l)) := by
  have hpos : 0 < 1 + 10000 * l := by linarith
  have hinv : ∀ d i j, i < 2 → j < 2 →
      exactInv 2 (fun a b => exactInv 2 Bohning.eye a b + if a = b then (wX.len d : ℝ) * q.lxi d a else 0) i j
        = if i = j then 1 / (1 + 10000 * l) else 0 := by
    intro d i j hi hj
    rw [exactInv_congr 2 _ (StmYv.diagonal fun _ => 1 + 10000 * l), StmYv.exactInv_diagonal 2 _ (fun _ _ => hpos) i j hi hj]
    · rfl
    · intro a b ha hb
      rw [CtmBound.eye_inv 2 a b ha hb, (hq d).2 a ha, wX_len]
      unfold Bohning.eye StmYv.diagonal
      by_cases hab : a = b <;> simp [hab]
  have hm : ∀ d, (wStep ε q).means d 0 = del / (1 + 10000 * l) ∧ (wStep ε q).means d 1 = -(del / (1 + 10000 * l)) := by
    intro d
    have hr : ∀ k, k < 2 → (wStep ε q).means d k = ∑ j ∈ Finset.range 2, (if k = j then 1 / (1 + 10000 * l) else 0)
        * ((q.s d * q.lxi d j - 0.5) * (wX.len d : ℝ) + topicCounts wX 2 (expRows 2 wQ.means) (wVocab ε) d j
          + ∑ i ∈ Finset.range 2, exactInv 2 Bohning.eye j i * 0) := by
      intro k hk
      have e : (wStep ε q).means d k = ∑ j ∈ Finset.range 2,
        exactInv 2 (fun a b => exactInv 2 Bohning.eye a b + if a = b then (wX.len d : ℝ) * q.lxi d a else 0) k j
        * ((q.s d * q.lxi d j - 0.5) * (wX.len d : ℝ) + topicCounts wX 2 (expRows 2 wQ.means) (wVocab ε) d j
          + ∑ i ∈ Finset.range 2, exactInv 2 Bohning.eye j i * 0) := rfl
      rw [e]
      refine Finset.sum_congr rfl fun j hj => ?_
      rw [hinv d k j hk (Finset.mem_range.1 hj)]
    obtain ⟨c0, c1⟩ := w_counts ε hε d
    rw [hr 0 (by norm_num), hr 1 (by norm_num)]
    simp only [Finset.sum_range_succ, Finset.sum_range_zero, (hq d).1, wX_len, c0, c1]
    norm_num
    constructor
    · field_simp
    · field_simp
      ring
  have hv : ∀ d k, k < 2 → (wStep ε q).varcs d k = 1 / (10000 * l + 1) := by
    intro d k hk
    show 1 / ((wX.len d : ℝ) * q.lxi d k + exactInv 2 Bohning.eye k k) = _
    rw [wX_len, (hq d).2 k hk, CtmBound.eye_inv 2 k k hk hk]
    unfold Bohning.eye
    simp
  have hx : ∀ d k, k < 2 → (wStep ε q).lxi d k = nextL l := by
    intro d k hk
    have e : (wStep ε q).lxi d k = 2 * negJakkola (deriveXi ((wStep ε q).means d k) ((wStep ε q).varcs d k) (q.s d)) := rfl
    rw [e, hv d k hk, (hq d).1]
    unfold nextL
    rcases (by omega : k = 0 ∨ k = 1) with rfl | rfl
    · rw [(hm d).1]
    · rw [(hm d).2]
      unfold deriveXi
      ring_nf
  refine ⟨fun d => ⟨?_, hx d⟩, hm⟩
  have e : (wStep ε q).s d = ((∑ k ∈ Finset.range 2, (wStep ε q).lxi d k * (wStep ε q).means d k) + 0.25 * ((2 : Nat) : ℝ) - 0.5)
    / ∑ k ∈ Finset.range 2, (wStep ε q).lxi d k := rfl
  rw [e]
  simp only [Finset.sum_range_succ, Finset.sum_range_zero, hx d 0 (by norm_num), hx d 1 (by norm_num), (hm d).1, (hm d).2]
  rw [div_eq_zero_iff]
  left
  norm_num

/-! ## The coefficients decrease -/

theorem xi_eq (l : ℝ) (hl : 0 < l) : deriveXi (del / (1 + 10000 * l)) (1 / (10000 * l + 1)) 0 = Real.sqrt (del ^ 2 + 1) / (1 + 10000 * l) := by
  have hpos : 0 < 1 + 10000 * l := by linarith
  unfold deriveXi
  have : (del / (1 + 10000 * l)) ^ 2 - 2 * (del / (1 + 10000 * l)) * 0 + 0 ^ 2 + (1 / (10000 * l + 1)) ^ 2 = (del ^ 2 + 1) / (1 + 10000 * l) ^ 2 := by
    rw [add_comm (10000 * l) 1]
    field_simp
    ring
  rw [this, Real.sqrt_div (by positivity), Real.sqrt_sq hpos.le]

theorem c_pos : 0 < Real.sqrt (del ^ 2 + 1) := Real.sqrt_pos.2 (by positivity)

theorem nextL_pos (l : ℝ) (hl : 0 < l) : 0 < nextL l := by
  unfold nextL
  rw [xi_eq l hl]
  have hpos : 0 < 1 + 10000 * l := by linarith
  have := (Bouchard.coefficient_spec _ (div_pos c_pos hpos).ne').1
  linarith

theorem nextL_strictMono (a b : ℝ) (ha : 0 < a) (hab : a < b) : nextL a < nextL b := by
  unfold nextL
  rw [xi_eq a ha, xi_eq b (ha.trans hab)]
  have h1 : 0 < 1 + 10000 * a := by linarith
  have h2 : 0 < 1 + 10000 * b := by linarith
  have := negJakkola_strictAnti (Set.mem_Ioi.2 (div_pos c_pos h2)) (Set.mem_Ioi.2 (div_pos c_pos h1))
    (div_lt_div_of_pos_left c_pos h1 (by linarith))
  linarith

/-- The coefficient of the start -/
noncomputable def l0 : ℝ := negJakkola (deriveXi (1 / 4) 1 0)

theorem l0_ge : 1 / 10 ≤ l0 := by
  have hx : deriveXi (1 / 4) 1 0 = Real.sqrt (17 / 16) := by unfold deriveXi; norm_num
  have h1 : 1 ≤ Real.sqrt (17 / 16) := by rw [Real.le_sqrt' (by norm_num)]; norm_num
  have h2 : Real.sqrt (17 / 16) ≤ 11 / 10 := by rw [Real.sqrt_le_left (by norm_num)]; norm_num
  unfold l0
  rw [hx, negJakkola_eq, le_div_iff₀ (by linarith)]
  have he : 2.7 < Real.exp (Real.sqrt (17 / 16)) := by
    have := Real.exp_one_gt_d9
    have := Real.exp_le_exp.2 h1
    linarith
  unfold h
  have : 2 / (1 + Real.exp (Real.sqrt (17 / 16))) ≤ 2 / 3.7 := by
    apply div_le_div_of_nonneg_left (by norm_num) (by norm_num) (by linarith)
  have e : (2 : ℝ) / 3.7 ≤ 0.541 := by norm_num
  linarith

theorem nextL_l0 : nextL l0 < l0 := by
  have hl := l0_ge
  have hl0 : 0 < l0 := by linarith
  have hpos : 0 < 1 + 10000 * l0 := by linarith
  unfold nextL
  rw [xi_eq l0 hl0, negJakkola_eq]
  set c := Real.sqrt (del ^ 2 + 1) with hc
  have hd : (0 : ℝ) < del := by unfold del; norm_num
  have c1 : del ≤ c := Real.le_sqrt_of_sq_le (by linarith)
  have c2 : c ≤ del + 1 := by
    rw [hc, Real.sqrt_le_left (by linarith)]
    nlinarith
  have c0 : 0 < c := c_pos
  have hxi : c / (1 + 10000 * l0) ≤ 6 := by
    rw [div_le_iff₀ hpos]
    have : del + 1 ≤ 6 * (1 + 10000 * l0) := by unfold del; nlinarith
    linarith
  have he : Real.exp (c / (1 + 10000 * l0)) ≤ 729 := by
    have h1 := Real.exp_le_exp.2 hxi
    have h2 : Real.exp 6 = Real.exp 1 ^ 6 := by rw [← Real.exp_nat_mul]; norm_num
    have h3 : Real.exp 1 ^ 6 ≤ 3 ^ 6 := pow_le_pow_left₀ (Real.exp_pos _).le (by have := Real.exp_one_lt_d9; linarith) 6
    rw [h2] at h1
    norm_num at h3
    linarith
  have hh : h (c / (1 + 10000 * l0)) ≤ 1 - 2 / 730 := by
    unfold h
    have : 2 / 730 ≤ 2 / (1 + Real.exp (c / (1 + 10000 * l0))) :=
      div_le_div_of_nonneg_left (by norm_num) (one_add_exp_pos _) (by linarith)
    linarith
  generalize h (c / (1 + 10000 * l0)) = H at hh
  have : 2 * (H / (4 * (c / (1 + 10000 * l0)))) = H * (1 + 10000 * l0) / (2 * c) := by
    field_simp
    ring
  rw [this, div_lt_iff₀ (by linarith)]
  have : H * (1 + 10000 * l0) ≤ (1 - 2 / 730) * (1 + 10000 * l0) := mul_le_mul_of_nonneg_right hh hpos.le
  have : (1 - 2 / 730) * (1 + 10000 * l0) < l0 * (2 * del) := by unfold del; nlinarith
  have : l0 * (2 * del) ≤ l0 * (2 * c) := by nlinarith
  linarith

/-- The coefficient after `i` iterations -/
noncomputable def lAt (i : Nat) : ℝ := nextL^[i] l0

theorem lAt_succ (i : Nat) : lAt (i + 1) = nextL (lAt i) := Function.iterate_succ_apply' _ _ _

theorem lAt_pos (i : Nat) : 0 < lAt i := by
  induction i with
  | zero => exact lt_of_lt_of_le (by norm_num) l0_ge
  | succ i ih => rw [lAt_succ]; exact nextL_pos _ ih

theorem lAt_anti : StrictAnti lAt := by
  refine strictAnti_nat_of_succ_lt fun i => ?_
  induction i with
  | zero => exact nextL_l0
  | succ i ih =>
    rw [lAt_succ (i + 1), lAt_succ i]
    exact nextL_strictMono _ _ (by rw [← lAt_succ]; exact lAt_pos _) (by rw [← lAt_succ]; exact ih)

/-- The weight of the first topic after `i + 1` iterations -/
noncomputable def mAt (i : Nat) : ℝ := del / (1 + 10000 * lAt i)

theorem mAt_mono : StrictMono mAt := by
  intro i j hij
  have hd : (0 : ℝ) < del := by unfold del; norm_num
  have := lAt_anti hij
  have hj := lAt_pos j
  exact div_lt_div_of_pos_left hd (by linarith) (by linarith)

theorem w_iter (ε : ℝ) (hε : 0 < ε) (i : Nat) : AtL ((wStep ε)^[i] wQ) (lAt i) := by
  induction i with
  | zero => exact fun _ => ⟨rfl, fun _ _ => rfl⟩
  | succ i ih =>
    rw [Function.iterate_succ_apply', lAt_succ]
    exact (w_step ε hε _ _ (lAt_pos i) ih).1

theorem w_means (ε : ℝ) (hε : 0 < ε) (i d : Nat) :
    ((wStep ε)^[i + 1] wQ).means d 0 = mAt i ∧ ((wStep ε)^[i + 1] wQ).means d 1 = -mAt i := by
  rw [Function.iterate_succ_apply']
  exact (w_step ε hε _ _ (lAt_pos i) (w_iter ε hε i)).2 d

/-! ## The perplexities -/

/-- `perplexity_from_like` (evals.py:24-27) -/
noncomputable def perpl (like words : ℝ) : ℝ := Real.exp (-like / words)

/-- The probability of the first word, as a fraction of `ε`, for the weights `m` and `-m` -/
noncomputable def frac (m : ℝ) : ℝ := 1 - 0.9999 / (Real.exp (2 * m) + 1)

theorem frac_pos (m : ℝ) : 0.0001 < frac m := by
  unfold frac
  have := Real.exp_pos (2 * m)
  have : 0.9999 / (Real.exp (2 * m) + 1) < 0.9999 := div_lt_self (by norm_num) (by linarith)
  linarith

theorem frac_mono : StrictMono frac := by
  intro a b hab
  unfold frac
  have := Real.exp_lt_exp.2 (show 2 * a < 2 * b by linarith)
  have h1 := Real.exp_pos (2 * a)
  have := div_lt_div_of_pos_left (show (0 : ℝ) < 0.9999 by norm_num) (show 0 < Real.exp (2 * a) + 1 by linarith)
    (show Real.exp (2 * a) + 1 < Real.exp (2 * b) + 1 by linarith)
  linarith

theorem w_prob (ε : ℝ) (means : Nat → Nat → ℝ) (d : Nat) (m : ℝ) (h0 : means d 0 = m) (h1 : means d 1 = -m) :
    ∑ k ∈ Finset.range 2, softmaxRows 2 means d k * wVocab ε k 0 = ε * frac m := by
  rw [Props.Ctm.softmaxRows_eq]
  unfold Props.Numerics.softmax wVocab frac
  simp only [Finset.sum_range_succ, Finset.sum_range_zero, h0, h1, zero_add]
  have e2 : Real.exp (2 * m) = Real.exp m * Real.exp m := by rw [← Real.exp_add]; ring_nf
  rw [e2, Real.exp_neg]
  have := Real.exp_pos m
  simp
  field_simp
  ring

theorem w_perp (ε tiny : ℝ) (hε : 0 < ε) (ht : tiny ≤ ε / 10000) (means : Nat → Nat → ℝ) (m : ℝ) (h0 : ∀ d, means d 0 = m)
    (h1 : ∀ d, means d 1 = -m) :
    perpl (logLikelihood wX 2 tiny means (wVocab ε)) (∑ d ∈ Finset.range wX.D, (wX.len d : ℝ)) = 1 / (ε * frac m) := by
  have hf := frac_pos m
  have hp : 0 < ε * frac m := mul_pos hε (by linarith)
  have hlt : tiny < ε * frac m := by nlinarith
  have hl : logLikelihood wX 2 tiny means (wVocab ε) = 20000 * Real.log (ε * frac m) := by
    unfold logLikelihood
    show ∑ d ∈ Finset.range 2, ∑ t ∈ Finset.range 2, ((if t = 0 then 10000 else 0 : Nat) : ℝ) * _ = _
    simp only [Finset.sum_range_succ, Finset.sum_range_zero]
    rw [← Finset.sum_range_zero (fun _ : Nat => (0 : ℝ))]
    have e : ∀ d, SparseKernels.safeLn tiny (∑ k ∈ Finset.range 2, softmaxRows 2 means d k * wVocab ε k 0) = Real.log (ε * frac m) := by
      intro d
      rw [w_prob ε means d m (h0 d) (h1 d)]
      unfold SparseKernels.safeLn
      rw [if_pos hlt]
    have e0 := e 0
    have e1 := e 1
    simp only [Finset.sum_range_succ, Finset.sum_range_zero] at e0 e1
    simp only [Finset.sum_range_zero]
    rw [e0, e1]
    norm_num
    ring
  have hw : ∑ d ∈ Finset.range wX.D, (wX.len d : ℝ) = 20000 := by
    show ∑ d ∈ Finset.range 2, (wX.len d : ℝ) = 20000
    simp only [wX_len, Finset.sum_range_succ, Finset.sum_range_zero]
    norm_num
  rw [hl, hw]
  unfold perpl
  rw [show -(20000 * Real.log (ε * frac m)) / 20000 = -Real.log (ε * frac m) by ring, Real.exp_neg, Real.exp_log hp, one_div]

/-- The logarithm of a mixture lies between those of its components. -/
theorem safeLn_mix (tiny lo : ℝ) (ht0 : 0 < tiny) (htl : tiny ≤ lo) (means : Nat → Nat → ℝ) (d : Nat) (v : Nat → ℝ)
    (hv : ∀ k, k < 2 → lo ≤ v k ∧ v k ≤ 1) :
    Real.log lo ≤ SparseKernels.safeLn tiny (∑ k ∈ Finset.range 2, softmaxRows 2 means d k * v k) ∧
    SparseKernels.safeLn tiny (∑ k ∈ Finset.range 2, softmaxRows 2 means d k * v k) ≤ 0 := by
  have hlo : 0 < lo := ht0.trans_le htl
  have hP : lo ≤ ∑ k ∈ Finset.range 2, softmaxRows 2 means d k * v k ∧ ∑ k ∈ Finset.range 2, softmaxRows 2 means d k * v k ≤ 1 := by
    rw [Props.Ctm.softmaxRows_eq]
    unfold Props.Numerics.softmax
    simp only [Finset.sum_range_succ, Finset.sum_range_zero, zero_add]
    have a := Real.exp_pos (means d 0)
    have b := Real.exp_pos (means d 1)
    obtain ⟨l1, u1⟩ := hv 0 (by norm_num)
    obtain ⟨l2, u2⟩ := hv 1 (by norm_num)
    generalize Real.exp (means d 0) = A at *
    generalize Real.exp (means d 1) = B at *
    have e : A / (A + B) * v 0 + B / (A + B) * v 1 = (A * v 0 + B * v 1) / (A + B) := by ring
    rw [e, le_div_iff₀ (by linarith), div_le_iff₀ (by linarith)]
    constructor <;> nlinarith
  unfold SparseKernels.safeLn
  split
  · exact ⟨Real.log_le_log hlo hP.1, Real.log_nonpos (hlo.le.trans hP.1) hP.2⟩
  · have : lo = tiny := by linarith [hP.1]
    rw [← this]
    exact ⟨le_rfl, Real.log_nonpos hlo.le (by linarith [(hv 0 (by norm_num)).1, (hv 0 (by norm_num)).2])⟩

theorem w_perp' (ε tiny : ℝ) (hε : 0 < ε) (hε8 : ε ≤ 1 / 8) (ht0 : 0 < tiny) (ht : tiny ≤ ε / 10000) (N : Nat)
    (hN : 40000 * Real.log (10000 / ε) ≤ N) (means : Nat → Nat → ℝ) :
    1 ≤ perpl (logLikelihood (wX' N) 2 tiny means (wVocab ε)) (∑ d ∈ Finset.range (wX' N).D, ((wX' N).len d : ℝ)) ∧
    perpl (logLikelihood (wX' N) 2 tiny means (wVocab ε)) (∑ d ∈ Finset.range (wX' N).D, ((wX' N).len d : ℝ)) < 2 := by
  have hw : ∑ d ∈ Finset.range (wX' N).D, ((wX' N).len d : ℝ) = 10000 + N := by
    show ∑ d ∈ Finset.range 2, ((wX' N).len d : ℝ) = _
    simp only [wX'_len, Finset.sum_range_succ, Finset.sum_range_zero]
    norm_num
  obtain ⟨a1, a2⟩ := safeLn_mix tiny (ε / 10000) ht0 ht means 0 (fun k => wVocab ε k 0) (fun k _ => by
    unfold wVocab
    simp only [if_true]
    split <;> constructor <;> linarith)
  obtain ⟨b1, b2⟩ := safeLn_mix tiny (7 / 8) ht0 (by linarith) means 1 (fun k => wVocab ε k 1) (fun k _ => by
    unfold wVocab
    simp only [one_ne_zero, if_false]
    split <;> constructor <;> linarith)
  have hl : logLikelihood (wX' N) 2 tiny means (wVocab ε)
      = 10000 * SparseKernels.safeLn tiny (∑ k ∈ Finset.range 2, softmaxRows 2 means 0 k * wVocab ε k 0)
        + N * SparseKernels.safeLn tiny (∑ k ∈ Finset.range 2, softmaxRows 2 means 1 k * wVocab ε k 1) := by
    unfold logLikelihood
    show ∑ d ∈ Finset.range 2, ∑ t ∈ Finset.range 2,
      ((if d = 0 then (if t = 0 then 10000 else 0) else if t = 1 then N else 0 : Nat) : ℝ) * _ = _
    rw [Finset.sum_range_succ _ 1, Finset.sum_range_succ _ 0, Finset.sum_range_zero,
      Finset.sum_range_succ _ 1, Finset.sum_range_succ _ 0, Finset.sum_range_zero,
      Finset.sum_range_succ _ 1, Finset.sum_range_succ _ 0, Finset.sum_range_zero]
    norm_num
  rw [hl, hw]
  generalize SparseKernels.safeLn tiny (∑ k ∈ Finset.range 2, softmaxRows 2 means 0 k * wVocab ε k 0) = A at a1 a2
  generalize SparseKernels.safeLn tiny (∑ k ∈ Finset.range 2, softmaxRows 2 means 1 k * wVocab ε k 1) = B at b1 b2
  have hNr : (0 : ℝ) ≤ N := Nat.cast_nonneg N
  unfold perpl
  constructor
  · apply Real.one_le_exp
    apply div_nonneg _ (by linarith)
    nlinarith
  · rw [← Real.exp_log (show (0 : ℝ) < 2 by norm_num)]
    apply Real.exp_lt_exp.2
    rw [div_lt_iff₀ (by linarith)]
    have e1 : Real.log (ε / 10000) = -Real.log (10000 / ε) := by rw [← Real.log_inv]; congr 1; field_simp
    have e2 : -(1 / 7) ≤ Real.log (7 / 8) := by
      have := Real.log_le_sub_one_of_pos (show (0 : ℝ) < 8 / 7 by norm_num)
      have e : Real.log (7 / 8) = -Real.log (8 / 7) := by rw [← Real.log_inv]; norm_num
      rw [e]
      linarith
    have e3 := Real.log_two_gt_d9
    rw [e1] at a1
    have : -(B * N) ≤ N * (1 / 7) := by nlinarith
    have : -(10000 * A) ≤ N / 4 := by linarith
    have : 0.69 * (10000 + (N : ℝ)) ≤ Real.log 2 * (10000 + N) := by nlinarith
    nlinarith

/-! ## The loop from its 22nd iteration -/

theorem loop_skip (step : QState → QState) (perp : (Nat → Nat → ℝ) → ℝ) (fuel n : Nat) : ∀ itr last q, itr + (n + 1) ≤ 21 →
    queryLoop step perp (n + 1 + fuel) itr last q
      = queryLoop step perp fuel (itr + (n + 1)) (perp (step^[n + 1] q).means) (step^[n + 1] q) := by
  induction n with
  | zero =>
    intro itr last q hi
    rw [show 0 + 1 + fuel = fuel + 1 by omega]
    conv_lhs => unfold queryLoop
    dsimp only
    rw [if_neg (by omega)]
    rfl
  | succ n ih =>
    intro itr last q hi
    rw [show n + 1 + 1 + fuel = n + 1 + fuel + 1 by omega]
    conv_lhs => unfold queryLoop
    dsimp only
    rw [if_neg (by omega), ih _ _ _ (by omega), show itr + 1 + (n + 1) = itr + (n + 1 + 1) by omega]
    rfl

/-- The first possible end of the loop -/
theorem loop_22 (step : QState → QState) (perp : (Nat → Nat → ℝ) → ℝ) (r : Nat) (last : ℝ) (q : QState) :
    (perp (step^[21] q).means - perp (step^[22] q).means < 1 → queryLoop step perp (23 + r) 0 last q = step^[22] q) ∧
    (1 ≤ perp (step^[21] q).means - perp (step^[22] q).means → ∃ n, 23 ≤ n ∧ queryLoop step perp (23 + r) 0 last q = step^[n] q) := by
  have e : queryLoop step perp (23 + r) 0 last q
      = queryLoop step perp (r + 1 + 1) 21 (perp (step^[21] q).means) (step^[21] q) := by
    rw [show 23 + r = 20 + 1 + (r + 1 + 1) by omega, loop_skip step perp (r + 1 + 1) 20 0 last q (by omega)]
  have e22 : step (step^[21] q) = step^[22] q := (Function.iterate_succ_apply' step 21 q).symm
  rw [e]
  unfold queryLoop
  dsimp only
  rw [e22]
  constructor
  · intro hlt
    rw [if_pos ⟨by norm_num, hlt⟩]
  · intro hge
    rw [if_neg (by rintro ⟨_, h⟩; linarith)]
    obtain ⟨j, _, hj⟩ := loop_runs step perp r (21 + 1) (perp (step^[22] q).means) (step^[22] q)
    refine ⟨j + 1 + 22, by omega, ?_⟩
    rw [hj, ← Function.iterate_add_apply]

/-! ## The theorem -/

/-- C214 is violated: there are a model with two topics that are distributions and two queries with a document in common, started alike by
`newQueryState`, that infer different weights for that document, whatever the number of iterations from 23 on. -/
theorem row_violation : ∃ (vocab : Nat → Nat → ℝ) (x x' : Data) (floor : ℝ),
    (∀ k, k < 2 → (∀ t, t < 2 → 0 < vocab k t) ∧ vocab k 0 + vocab k 1 = 1) ∧
    x.D = 2 ∧ x'.D = 2 ∧ x.T = 2 ∧ x'.T = 2 ∧ (∀ t, t < 2 → x.words 0 t = x'.words 0 t) ∧ (∀ d, d < 2 → 0 < x.len d ∧ 0 < x'.len d) ∧ 0 < floor ∧
    ∀ tiny big : ℝ, 0 < tiny → tiny ≤ floor → ∀ iterations, 23 ≤ iterations →
      (query (exactInv 2) tiny (fun like words => Real.exp (-like / words)) big x' 2 (fun _ => 0) Bohning.eye vocab iterations wQ).means 0 0
        < (query (exactInv 2) tiny (fun like words => Real.exp (-like / words)) big x 2 (fun _ => 0) Bohning.eye vocab iterations wQ).means 0 0 := by
  have hm := mAt_mono (show 20 < 21 by norm_num)
  have hf0 := frac_pos (mAt 20)
  have hf1 := frac_pos (mAt 21)
  have hf : frac (mAt 20) < frac (mAt 21) := frac_mono hm
  have hD : 0 < 1 / frac (mAt 20) - 1 / frac (mAt 21) := by
    have := one_div_lt_one_div_of_lt (by linarith) hf
    linarith
  obtain ⟨ε, hε, hε8, hεD⟩ : ∃ ε : ℝ, 0 < ε ∧ ε ≤ 1 / 8 ∧ ε ≤ 1 / frac (mAt 20) - 1 / frac (mAt 21) :=
    ⟨min (1 / 8) (1 / frac (mAt 20) - 1 / frac (mAt 21)), lt_min (by norm_num) hD, min_le_left _ _, min_le_right _ _⟩
  obtain ⟨N, hN⟩ := exists_nat_ge (40000 * Real.log (10000 / ε))
  have hNpos : 0 < N := by
    have h1 : 0 < Real.log (10000 / ε) := Real.log_pos (by rw [lt_div_iff₀ hε]; linarith)
    have : (0 : ℝ) < N := by linarith
    exact_mod_cast this
  refine ⟨wVocab ε, wX, wX' N, ε / 10000, ?_, rfl, rfl, rfl, rfl, fun _ _ => rfl, ?_, by positivity, ?_⟩
  · intro k hk
    refine ⟨fun t ht => ?_, ?_⟩
    · unfold wVocab
      split
      · split <;> positivity
      · split <;> linarith
    · unfold wVocab
      simp
  · intro d hd
    have h1 := wX_len d
    have h2 := wX'_len N d
    constructor
    · have : (0 : ℝ) < wX.len d := by rw [h1]; norm_num
      exact_mod_cast this
    · have : (0 : ℝ) < (wX' N).len d := by
        rw [h2]
        split
        · norm_num
        · exact_mod_cast hNpos
      exact_mod_cast this
  · intro tiny big ht0 ht iterations hit
    obtain ⟨r, rfl⟩ := Nat.exists_eq_add_of_le hit
    -- the query of two equal documents
    have hx : ∃ n, 23 ≤ n ∧ query (exactInv 2) tiny (fun like words => Real.exp (-like / words)) big wX 2 (fun _ => 0) Bohning.eye (wVocab ε) (23 + r) wQ
        = (wStep ε)^[n] wQ := by
      refine (loop_22 (wStep ε) (fun means => Real.exp (-logLikelihood wX 2 tiny means (wVocab ε) / ∑ d ∈ Finset.range wX.D, (wX.len d : ℝ))) r big wQ).2 ?_
      have p : ∀ i, Real.exp (-logLikelihood wX 2 tiny ((wStep ε)^[i + 1] wQ).means (wVocab ε) / ∑ d ∈ Finset.range wX.D, (wX.len d : ℝ))
          = 1 / (ε * frac (mAt i)) := fun i =>
        w_perp ε tiny hε ht _ (mAt i) (fun d => (w_means ε hε i d).1) (fun d => (w_means ε hε i d).2)
      show 1 ≤ Real.exp (-logLikelihood wX 2 tiny ((wStep ε)^[20 + 1] wQ).means (wVocab ε) / ∑ d ∈ Finset.range wX.D, (wX.len d : ℝ))
        - Real.exp (-logLikelihood wX 2 tiny ((wStep ε)^[21 + 1] wQ).means (wVocab ε) / ∑ d ∈ Finset.range wX.D, (wX.len d : ℝ))
      rw [p 20, p 21]
      have e : 1 / (ε * frac (mAt 20)) - 1 / (ε * frac (mAt 21)) = (1 / frac (mAt 20) - 1 / frac (mAt 21)) / ε := by
        have a : frac (mAt 20) ≠ 0 := by linarith
        have b : frac (mAt 21) ≠ 0 := by linarith
        field_simp
      rw [e, le_div_iff₀ hε]
      linarith
    -- the query with the long document
    have hx' : query (exactInv 2) tiny (fun like words => Real.exp (-like / words)) big (wX' N) 2 (fun _ => 0) Bohning.eye (wVocab ε) (23 + r) wQ
        = (queryStep (exactInv 2) (wX' N) 2 (exactInv 2 Bohning.eye) (fun _ => 0) (topicCounts (wX' N) 2 (expRows 2 wQ.means) (wVocab ε)))^[22] wQ := by
      refine (loop_22 _ (fun means => Real.exp (-logLikelihood (wX' N) 2 tiny means (wVocab ε) / ∑ d ∈ Finset.range (wX' N).D, ((wX' N).len d : ℝ))) r big wQ).1 ?_
      have p := fun means => w_perp' ε tiny hε hε8 ht0 ht N hN means
      unfold perpl at p
      have p1 := (p ((queryStep (exactInv 2) (wX' N) 2 (exactInv 2 Bohning.eye) (fun _ => 0)
        (topicCounts (wX' N) 2 (expRows 2 wQ.means) (wVocab ε)))^[21] wQ).means).2
      have p2 := (p ((queryStep (exactInv 2) (wX' N) 2 (exactInv 2 Bohning.eye) (fun _ => 0)
        (topicCounts (wX' N) 2 (expRows 2 wQ.means) (wVocab ε)))^[22] wQ).means).1
      linarith
    obtain ⟨n, hn, hx⟩ := hx
    rw [hx, hx']
    have hrow : SameRow 2 ((wStep ε)^[22] wQ) _ 0 0 := iter_row wX (wX' N) rfl 2 (by norm_num) (fun _ => 0) (exactInv 2 Bohning.eye) (wVocab ε) wQ wQ 0 0
      (fun _ _ => rfl) ⟨fun _ _ => rfl, fun _ _ => rfl, fun _ _ => rfl, rfl⟩ 22
    have key := (w_means ε hε 21 0).1
    rw [show 21 + 1 = 22 by norm_num] at key
    rw [← hrow.means 0 (by norm_num), key]
    obtain ⟨i, rfl⟩ : ∃ i, n = i + 1 := ⟨n - 1, by omega⟩
    rw [(w_means ε hε i 0).1]
    exact mAt_mono (by omega)

end Verif.Props.CtmStop
