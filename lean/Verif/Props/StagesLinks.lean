import Verif.Props.RenumberLinks
import Verif.Props.Numerics

/-!
# Training the models of links in two stages (C310)

Training for some iterations, and for some more from the model and the state returned, without stopping early.
-/

namespace Verif.Props.StagesLinks

open Verif
open Verif.Mom (Data)
open Verif.Mtm
open Verif.Props.Renumber Verif.Props.RenumberCtm Verif.Props.RenumberLinks

/-! ## mtm2 -/

/-- **C310** (mtm2): `n` iterations and `m` more are `n + m` iterations. -/
theorem mtm2_stages (inv : Nat → (Nat → Nat → ℝ) → Nat → Nat → ℝ) (x links : Data) (K : Nat) (fast : Bool) (n m : Nat) (st : State2) :
    train2 inv x links K fast (n + m) st = (train2 inv x links K fast n st >>= train2 inv x links K fast m) := by
  induction n generalizing st with
  | zero => rw [Nat.zero_add]; rfl
  | succ n ih =>
    rw [Nat.succ_add]
    unfold train2
    cases step2 inv x links K fast st with
    | error e => rfl
    | ok st' => exact ih st'

/-! ## mtm3 -/

/-- No iteration changes `outDocCov`. -/
theorem step3_out (inv : Nat → (Nat → Nat → ℝ) → Nat → Nat → ℝ) (x links : Data) (K n : Nat) (st : State3) :
    ((step3 inv x links K)^[n] st).outDocCov = st.outDocCov := by
  induction n generalizing st with
  | zero => rfl
  | succ n ih =>
    rw [Function.iterate_succ_apply, ih]
    rfl

/-- **C310** (mtm3): a single run goes on with the result of the first stage; the second stage begins with variances of the in-links that are one
again. -/
theorem mtm3_stages (inv : Nat → (Nat → Nat → ℝ) → Nat → Nat → ℝ) (x links : Data) (K n m : Nat) (st : State3) :
    train3 inv x links K (n + m) st = (step3 inv x links K)^[m] (train3 inv x links K n st)
      ∧ train3 inv x links K m (train3 inv x links K n st) = (step3 inv x links K)^[m] { train3 inv x links K n st with inDocCov := fun _ => 1 } := by
  constructor
  · unfold train3
    rw [Nat.add_comm, Function.iterate_add_apply]
  · have h : (train3 inv x links K n st).outDocCov = 10 := step3_out inv x links K n _
    show (step3 inv x links K)^[m] { train3 inv x links K n st with inDocCov := fun _ => 1, outDocCov := 10 } = _
    rw [← h]

/-- **C310** (mtm3): if the variances of the in-links are one after the first stage, the second ends where a single run ends. -/
theorem mtm3_stages_partial (inv : Nat → (Nat → Nat → ℝ) → Nat → Nat → ℝ) (x links : Data) (K n m : Nat) (st : State3)
    (h : (train3 inv x links K n st).inDocCov = fun _ => 1) :
    train3 inv x links K m (train3 inv x links K n st) = train3 inv x links K (n + m) st := by
  rw [(mtm3_stages inv x links K n m st).1, (mtm3_stages inv x links K n m st).2, ← h]

/-- The inverse of a matrix with one entry -/
noncomputable def inv1 (M : Nat → Nat → ℝ) (_ _ : Nat) : ℝ := 1 / M 0 0

/-- One document with one word, and without links -/
def oneX : Data := ⟨1, 1, fun _ _ => 1⟩
def noLinks : Data := ⟨1, 1, fun _ _ => 0⟩

/-- A state for one topic -/
def one3 : State3 :=
  ⟨fun _ => 0, fun _ _ => 1, 10, fun _ _ => 1, fun _ _ => 1, fun _ _ => 1, fun _ _ => 0, fun _ _ => 1, fun _ => 1⟩

/-- One round of the covariances with one document and one topic: `q` is the squared difference, `v` the sum of the variances. -/
noncomputable def round1 (q v c : ℝ) : ℝ := (q / ((1 / c * q + v + 1) / (2 + 1 / 10)) + v / ((1 / c * q + v + 1) / (2 + 1 / 10)) + 10) / 10

theorem round1_gt (q v c : ℝ) (hq : 0 < q) (hv : 0 < v) (hc : 0 < c) : 1 < round1 q v c := by
  unfold round1
  have : 0 < q / ((1 / c * q + v + 1) / (2 + 1 / 10)) + v / ((1 / c * q + v + 1) / (2 + 1 / 10)) := by positivity
  linarith

theorem round1_lt (q v c c' : ℝ) (hq : 0 < q) (hv : 0 < v) (hc : 0 < c) (h : c < c') : round1 q v c < round1 q v c' := by
  unfold round1
  have hc' : 0 < c' := hc.trans h
  have h1 : 1 / c' * q < 1 / c * q := by
    have := one_div_lt_one_div_of_lt hc h
    nlinarith
  have hp : 0 < (1 / c' * q + v + 1) / (2 + 1 / 10) := by positivity
  have h2 : (1 / c' * q + v + 1) / (2 + 1 / 10) < (1 / c * q + v + 1) / (2 + 1 / 10) := by
    apply div_lt_div_of_pos_right _ (by norm_num)
    linarith
  have h3 := div_lt_div_of_pos_left hq hp h2
  have h4 := div_lt_div_of_pos_left hv hp h2
  linarith

theorem rounds1 (q v : ℝ) (hq : 0 < q) (hv : 0 < v) (n : Nat) : ∀ c c' : ℝ, 0 < c → c < c' → (round1 q v)^[n] c < (round1 q v)^[n] c' := by
  induction n with
  | zero => exact fun _ _ _ h => h
  | succ n ih =>
    intro c c' hc h
    rw [Function.iterate_succ_apply, Function.iterate_succ_apply]
    exact ih _ _ (zero_lt_one.trans (round1_gt q v c hq hv hc)) (round1_lt q v c c' hq hv hc h)

theorem rounds1_gt (q v c : ℝ) (hq : 0 < q) (hv : 0 < v) (hc : 0 < c) (n : Nat) : 1 < (round1 q v)^[n + 1] c := by
  induction n generalizing c with
  | zero => exact round1_gt q v c hq hv hc
  | succ n ih =>
    rw [Function.iterate_succ_apply]
    exact ih _ (zero_lt_one.trans (round1_gt q v c hq hv hc))

/-- The variances of the in-links after the rounds of `mStep3` -/
theorem covRounds1 (pre : ℝ) (a b u w : Nat → Nat → ℝ) (ha : a 0 0 = 0) (n : Nat) : ∀ s : (Nat → Nat → ℝ) × (Nat → ℝ),
    ((covRound (fun _ => inv1) 1 1 pre a b u w)^[n] s).2 0 = (round1 (b 0 0 * b 0 0) (u 0 0 + w 0 0))^[n] (s.2 0) := by
  induction n with
  | zero => exact fun _ => rfl
  | succ n ih =>
    intro s
    rw [Function.iterate_succ_apply, Function.iterate_succ_apply, ih]
    congr 1
    unfold covRound inDocCov3 inv1 cov3 round1
    simp only [Finset.range_one, Finset.sum_singleton, ha, if_true, Nat.cast_one]
    ring_nf

theorem mStep_in (st : State3) : (mStep3 (fun _ => inv1) 1 1 st).inDocCov 0
    = (round1 ((st.inMeans 0 0 - st.outMeans 0 0) * (st.inMeans 0 0 - st.outMeans 0 0)) (st.outVarcs 0 0 + st.inVarcs 0 0))^[5] (st.inDocCov 0) := by
  unfold mStep3
  dsimp only
  rw [covRounds1]
  simp

theorem round_pos (q v c : ℝ) (hq : 0 < q) (hv : 0 < v) (hc : 0 < c) (n : Nat) : 0 < (round1 q v)^[n] c := by
  cases n with
  | zero => exact hc
  | succ n => exact zero_lt_one.trans (rounds1_gt q v c hq hv hc n)

theorem covRounds1_pos (pre : ℝ) (a b u w : Nat → Nat → ℝ) (ha : a 0 0 = 0) (hb : 0 < b 0 0 * b 0 0) (hu : 0 < u 0 0) (hw : 0 < w 0 0) (n : Nat)
    (s : (Nat → Nat → ℝ) × (Nat → ℝ)) (hs : 0 < s.2 0) : 0 < ((covRound (fun _ => inv1) 1 1 pre a b u w)^[n + 1] s).1 0 0 := by
  rw [Function.iterate_succ_apply']
  have h1 : 0 < ((covRound (fun _ => inv1) 1 1 pre a b u w)^[n] s).2 0 := by
    rw [covRounds1 pre a b u w ha]
    exact round_pos _ _ _ hb (by positivity) hs n
  generalize (covRound (fun _ => inv1) 1 1 pre a b u w)^[n] s = r at h1
  unfold covRound cov3
  simp only [Finset.range_one, Finset.sum_singleton, ha, if_true, Nat.cast_one]
  have h2 : 0 < 1 / r.2 0 * b 0 0 * b 0 0 := by
    rw [mul_assoc]
    positivity
  have h3 : 0 < pre * 0 * 0 + 1 / r.2 0 * b 0 0 * b 0 0 + u 0 0 + w 0 0 + 1 := by linarith
  positivity

theorem mStep_cov (st : State3) (hq : st.inMeans 0 0 - st.outMeans 0 0 ≠ 0) (hu : 0 < st.outVarcs 0 0) (hw : 0 < st.inVarcs 0 0) (hi : 0 < st.inDocCov 0) :
    0 < (mStep3 (fun _ => inv1) 1 1 st).topicCov 0 0 := by
  unfold mStep3
  dsimp only
  exact covRounds1_pos _ _ _ _ _ (by simp) (mul_self_pos.2 hq) hu hw 4 _ hi

/-- What the E step makes of a state with one topic -/
theorem eStep_one (st : State3) (hc : 0 < st.topicCov 0 0) (hi : 0 < st.inDocCov 0) (ho : st.outDocCov = 10) (hv : 0 < st.vocab 0 0) (hm : st.inMeans 0 0 = 0) :
    let r := eStep3 (fun _ => inv1) oneX noLinks 1 st
    r.inMeans 0 0 = st.outMeans 0 0 ∧ r.outMeans 0 0 = st.topicMean 0 / 10 / (1 / 10 + 1 / st.inDocCov 0) ∧ 0 < r.outVarcs 0 0 ∧ 0 < r.inVarcs 0 0
      ∧ r.inDocCov = st.inDocCov := by
  have hmax : Numerics.rowMax 1 (st.outMeans 0) = st.outMeans 0 0 := by simp [Numerics.rowMax]
  have he : Ctm.expRows 1 st.outMeans 0 0 = 1 := by
    unfold Ctm.expRows
    rw [hmax, sub_self, Real.exp_zero]
  have hsm : Ctm.softmaxRows 1 st.outMeans 0 0 = 1 := by
    unfold Ctm.softmaxRows
    simp [hmax]
  have hvoc : 0 < Ctm.newVocab oneX 1 (1 / 100) (Ctm.expRows 1 st.outMeans) st.vocab 0 0 := by
    unfold Ctm.newVocab Ctm.vocabWith Ctm.quotient Ctm.normalizeRows
    simp only [oneX, Finset.range_one, Finset.sum_singleton, he]
    positivity
  have hw : Ctm.topicCounts oneX 1 (Ctm.expRows 1 st.outMeans) (Ctm.newVocab oneX 1 (1 / 100) (Ctm.expRows 1 st.outMeans) st.vocab) 0 0 = 1 := by
    generalize Ctm.newVocab oneX 1 (1 / 100) (Ctm.expRows 1 st.outMeans) st.vocab = v at hvoc
    unfold Ctm.topicCounts Ctm.quotient
    simp only [oneX, Finset.range_one, Finset.sum_singleton, he]
    field_simp
    simp
  have hl : inLinkCounts noLinks 1 st.outMeans st.inMeans 0 0 = 0 := by
    unfold inLinkCounts Ctm.topicCounts Ctm.quotient transpose noLinks
    simp
  have hcnt : inCounts noLinks 1 st.outMeans st.inMeans 0 = 0 := by
    unfold inCounts
    rw [show noLinks.D = 1 from rfl, Finset.sum_range_one, hl]
  have hO : outLinkCounts noLinks 1 st.outMeans st.inMeans 0 0 = 0 := by
    unfold outLinkCounts Ctm.topicCounts Ctm.quotient noLinks
    simp
  have hlen : oneX.len 0 = 1 ∧ noLinks.len 0 = 0 := by decide
  have hA : linkA 1 0 0 = 0 := by simp [linkA]
  have hD : oneX.D = 1 := rfl
  refine ⟨?_, ?_, ?_, ?_, rfl⟩
  · simp only [eStep3, Finset.range_one, Finset.sum_singleton, inv1, inLhs, inRhs, hcnt, hl, hm, hD]
    field_simp
    simp
    ring
  · simp only [eStep3, Finset.range_one, Finset.sum_singleton, inv1, outLhs, outRhs, hw, hO, hm, hsm, hA, hlen.1, hlen.2, ho]
    field_simp
    push_cast
    ring
  · simp only [eStep3, inv1, hlen.1, hlen.2, ho]
    push_cast
    have : 0 < (1 / 10 + 1 / st.inDocCov 0) * (1 / st.topicCov 0 0) := by positivity
    apply one_div_pos.2
    linarith
  · simp only [eStep3, inv1, hcnt, hD]
    push_cast
    have : 0 < 1 / st.inDocCov 0 * (1 / st.topicCov 0 0) := by positivity
    apply one_div_pos.2
    linarith

/-- **C310** (mtm3): with one topic, one document and one word, two stages of one iteration end with a smaller variance of the in-links than a single
run of two. -/
theorem mtm3_stages_violated : (train3 (fun _ => inv1) oneX noLinks 1 1 (train3 (fun _ => inv1) oneX noLinks 1 1 one3)).inDocCov 0
    < (train3 (fun _ => inv1) oneX noLinks 1 (1 + 1) one3).inDocCov 0 := by
  rw [(mtm3_stages _ _ _ _ 1 1 one3).1, (mtm3_stages _ _ _ _ 1 1 one3).2]
  have h0 : train3 (fun _ => inv1) oneX noLinks 1 1 one3 = eStep3 (fun _ => inv1) oneX noLinks 1 (mStep3 (fun _ => inv1) 1 1 one3) := rfl
  have hi : 1 < (mStep3 (fun _ => inv1) 1 1 one3).inDocCov 0 := by
    rw [mStep_in]
    exact rounds1_gt _ _ _ (by norm_num [one3]) (by norm_num [one3]) (by norm_num [one3]) 4
  have hc : 0 < (mStep3 (fun _ => inv1) 1 1 one3).topicCov 0 0 := by
    exact mStep_cov one3 (by norm_num [one3]) (by norm_num [one3]) (by norm_num [one3]) (by norm_num [one3])
  obtain ⟨e1, e2, e3, e4, e5⟩ := eStep_one (mStep3 (fun _ => inv1) 1 1 one3) hc (zero_lt_one.trans hi) rfl (by norm_num [mStep3, one3]) rfl
  rw [← h0] at e1 e2 e3 e4 e5
  have m1 : (mStep3 (fun _ => inv1) 1 1 one3).outMeans 0 0 = 1 := rfl
  have m2 : (mStep3 (fun _ => inv1) 1 1 one3).topicMean 0 = 1 := by simp [mStep3, one3]
  rw [m1] at e1
  rw [m2] at e2
  rw [← e5] at hi e2
  generalize train3 (fun _ => inv1) oneX noLinks 1 1 one3 = r at *
  have hq : r.inMeans 0 0 - r.outMeans 0 0 ≠ 0 := by
    rw [e1, e2]
    have h1 : 0 < 1 / r.inDocCov 0 := by positivity
    intro h2
    have h3 : (1 / 10 + 1 / r.inDocCov 0) ≠ 0 := by positivity
    field_simp at h2
    nlinarith
  show (mStep3 (fun _ => inv1) 1 1 { r with inDocCov := fun _ => 1 }).inDocCov 0 < (mStep3 (fun _ => inv1) 1 1 r).inDocCov 0
  rw [mStep_in, mStep_in]
  exact rounds1 _ _ (mul_self_pos.2 hq) (by linarith) 5 _ _ zero_lt_one hi

/-! ## mtm -/

/-- The iterations when nothing ends the loop -/
theorem loop_iterate (inv : (Nat → Nat → ℝ) → Nat → Nat → ℝ) (psi : ℝ → ℝ) (c : Fixed) (x links : Data) (fuel : Nat) : ∀ itr st,
    trainLoop inv psi c x links (fun _ _ => false) fuel itr st = (iteration inv psi c x links)^[fuel] st := by
  induction fuel with
  | zero => exact fun _ _ => rfl
  | succ fuel ih =>
    intro itr st
    unfold trainLoop
    rw [if_neg (by simp), ih, Function.iterate_succ_apply]

/-- The running maxima are those of the new weights, but at least `10 ^ -300`. -/
theorem sweep_maxes (inv : (Nat → Nat → ℝ) → Nat → Nat → ℝ) (psi : ℝ → ℝ) (c : Fixed) (x links : Data) (st : MState) (k : Nat) (n : Nat) :
    (∀ d, d < n → (sweep inv psi c x links st n).topics d k ≤ (sweep inv psi c x links st n).newMaxes k)
      ∧ ((sweep inv psi c x links st n).newMaxes k = 1 / 10 ^ 300
        ∨ ∃ d, d < n ∧ (sweep inv psi c x links st n).newMaxes k = (sweep inv psi c x links st n).topics d k) := by
  induction n with
  | zero => exact ⟨fun d hd => absurd hd (by omega), .inl rfl⟩
  | succ n ih =>
    have h : sweep inv psi c x links st (n + 1) = docStep inv psi c x links st (sweep inv psi c x links st n) n := by
      unfold sweep
      rw [List.range_succ, List.foldl_append]
      rfl
    rw [h]
    generalize sweep inv psi c x links st n = w at ih
    unfold docStep
    dsimp only
    refine ⟨fun d hd => ?_, ?_⟩
    · by_cases hdn : d = n
      · rw [if_pos hdn]
        exact le_max_right _ _
      · rw [if_neg hdn]
        exact (ih.1 d (by omega)).trans (le_max_left _ _)
    · rcases max_choice (w.newMaxes k) (∑ j ∈ Finset.range c.K, inv (lhs c x st n) k j * rhs psi c x st w n j) with h1 | h1
      · rw [h1]
        rcases ih.2 with h2 | ⟨d, hd, h2⟩
        · exact .inl h2
        · refine .inr ⟨d, by omega, ?_⟩
          rw [if_neg (by omega)]
          exact h2
      · rw [h1]
        exact .inr ⟨n, by omega, by rw [if_pos rfl]⟩

theorem same_refl {D K T : Nat} (s : MState) : SameM (Equiv.refl _) (Equiv.refl _) D K T s s :=
  ⟨fun _ _ _ _ => rfl, fun _ _ => rfl, fun _ _ => rfl, fun _ _ => rfl, fun _ _ => rfl, fun _ _ _ _ => rfl, fun _ _ _ _ => rfl, fun _ _ _ _ => rfl,
    fun _ _ _ _ => rfl⟩

/-- **C310** (mtm): if after the first stage every topic has a document with a weight of `10 ^ -300` or more, then the second stage ends where a single run
ends, within the sizes of the tables.  The inverse depends on the entries of the matrix only. -/
theorem mtm_stages_partial {inv : (Nat → Nat → ℝ) → Nat → Nat → ℝ} (psi : ℝ → ℝ) {c : Fixed} (hinv : SameInv (Equiv.refl _) c.K inv) (x links : Data)
    (hD : 0 < x.D) (hl : links.T = x.D) (L n m : Nat) (hL : 0 < L) (u : Bool) (st r1 : MState)
    (h1 : Mtm.train inv psi c x links (fun _ _ => false) L (n + 1) u st = .ok r1) (hpos : ∀ k, k < c.K → ∃ d, d < x.D ∧ 1 / 10 ^ 300 ≤ r1.topics d k) :
    Alike (SameM (Equiv.refl _) (Equiv.refl _) x.D c.K x.T) (Mtm.train inv psi c x links (fun _ _ => false) L (n + 1 + m) u st)
      (Mtm.train inv psi c x links (fun _ _ => false) L m u r1) := by
  unfold Mtm.train at h1 ⊢
  by_cases hx : ∃ d ∈ Finset.range x.D, x.len d < 1
  · rw [if_pos hx] at h1
    cases h1
  · rw [if_neg hx, if_neg (by omega)] at h1
    rw [if_neg hx, if_neg hx, if_neg (by omega), if_neg (by omega)]
    rw [loop_iterate, Except.ok.injEq] at h1
    rw [loop_iterate, loop_iterate]
    have h2 : (iteration inv psi c x links)^[n + 1 + m] (trainStart inv x.D st) = (iteration inv psi c x links)^[m] r1 := by
      rw [Nat.add_comm (n + 1) m, Function.iterate_add_apply, h1]
    rw [h2]
    have h3 : SameM (Equiv.refl _) (Equiv.refl _) x.D c.K x.T r1 (trainStart inv x.D r1) := by
      rw [Function.iterate_succ_apply'] at h1
      generalize (iteration inv psi c x links)^[n] (trainStart inv x.D st) = s at h1
      subst h1
      refine ⟨fun _ _ _ _ => rfl, fun _ _ => rfl, fun _ _ => rfl, fun k hk => ?_, fun _ _ => rfl, fun _ _ _ _ => rfl, fun _ _ _ _ => rfl,
        fun _ _ _ _ => rfl, fun _ _ _ _ => rfl⟩
      obtain ⟨d, hd, hp⟩ := hpos k hk
      obtain ⟨a1, a2⟩ := sweep_maxes inv psi c x links s k x.D
      obtain ⟨b1, d', hd', b2⟩ := Numerics.rowMax_spec x.D (fun d => (iteration inv psi c x links s).topics d k) hD
      show Numerics.rowMax x.D (fun d => (iteration inv psi c x links s).topics d k) = (sweep inv psi c x links s x.D).newMaxes k
      apply le_antisymm
      · rw [b2]
        exact a1 d' hd'
      · rcases a2 with h | ⟨d2, hd2, h⟩
        · rw [h]
          exact hp.trans (b1 d hd)
        · rw [h]
          exact b1 d2 hd2
    show SameM (Equiv.refl _) (Equiv.refl _) x.D c.K x.T ((iteration inv psi c x links)^[m] r1) ((iteration inv psi c x links)^[m] (trainStart inv x.D r1))
    clear h1 h2 hpos
    generalize trainStart inv x.D r1 = r2 at h3
    induction m generalizing r1 r2 with
    | zero => exact h3
    | succ m ih =>
      rw [Function.iterate_succ_apply, Function.iterate_succ_apply]
      refine ih _ _ (iteration_eq psi hinv ⟨keeps_refl _, keeps_refl _, rfl, rfl, fun _ _ _ _ => rfl⟩ (keeps_refl _)
        ⟨rfl, rfl, fun _ _ _ _ => rfl, fun _ _ => rfl, fun _ _ => rfl⟩ hl h3)

/-- The document links to itself. -/
def selfLink : Data := ⟨1, 1, fun _ _ => 1⟩

/-- The starting point: a new query state (mtm.py:113-147) with weights of zero -/
noncomputable def oneM : MState := newQuery 1 oneX selfLink (fun _ _ => 0) (fun _ _ => 1) (fun _ _ => 1)
noncomputable def oneC (u : ℝ) : Fixed := newFixed 1 1 oneX selfLink (fun _ _ => 0) (fun _ _ => u)

theorem one_soft (r : Nat → ℝ) : soft 1 r 0 = 1 := by simp [soft, Numerics.rowMax]

/-- An iteration with one topic and one document -/
theorem one_iteration (psi : ℝ → ℝ) (u : ℝ) (st : MState) :
    (iteration inv1 psi (oneC u) oneX selfLink st).topics 0 0 = 1 / (st.invCov 0 0 + 5 / 2)
        * (st.invCov 0 0 * u + (st.topics 0 0 - 1 / 2 * st.topics 0 0)
          + (st.topics 0 0 - 1 / 2 * st.sums 0 - Real.exp (st.topics 0 0 - st.maxes 0) / st.expSums 0) * st.inCounts 0)
      ∧ (iteration inv1 psi (oneC u) oneX selfLink st).inCounts 0 = 1 := by
  have h : iteration inv1 psi (oneC u) oneX selfLink st = _ := rfl
  constructor
  · unfold iteration sweep docStep
    simp only [oneX, List.range_one, List.foldl_cons, List.foldl_nil, if_true, sweepStart]
    unfold rhs lhs wordTopics share inv1
    simp only [oneC, newFixed, Finset.range_one, Finset.sum_singleton, one_soft, Mtm.outCounts, Data.len, selfLink, oneX]
    simp only [if_true]
    norm_num
    left
    ring
  · unfold iteration sweep docStep
    simp only [oneX, List.range_one, List.foldl_cons, List.foldl_nil, sweepStart]
    unfold linkTopics
    simp [oneC, newFixed, one_soft, selfLink]

/-- **C310** (mtm): with one topic and one document that links to itself, two stages of one iteration end with another weight than a single run of two:
the second stage computes the maxima anew, without the bound of `10 ^ -300`, but keeps the sums of exponentials that belong to the bounded ones. -/
theorem mtm_stages_violated (psi : ℝ → ℝ) : ∃ r1 r2 r,
    Mtm.train inv1 psi (oneC 0) oneX selfLink (fun _ _ => false) 1 1 true oneM = .ok r1
      ∧ Mtm.train inv1 psi (oneC 0) oneX selfLink (fun _ _ => false) 1 1 true r1 = .ok r2
      ∧ Mtm.train inv1 psi (oneC 0) oneX selfLink (fun _ _ => false) 1 2 true oneM = .ok r ∧ r2.topics 0 0 ≠ r.topics 0 0 := by
  have hx : ¬ ∃ d ∈ Finset.range oneX.D, oneX.len d < 1 := by decide
  have ok : ∀ n s, Mtm.train inv1 psi (oneC 0) oneX selfLink (fun _ _ => false) 1 n true s
      = .ok ((iteration inv1 psi (oneC 0) oneX selfLink)^[n] (trainStart inv1 oneX.D s)) := by
    intro n s
    unfold Mtm.train
    rw [if_neg hx, if_neg (by simp), loop_iterate]
  refine ⟨_, _, _, ok 1 oneM, ok 1 _, ok 2 oneM, ?_⟩
  simp only [Function.iterate_succ_apply, Function.iterate_zero, id_eq]
  have h0 := one_iteration psi 0 (trainStart inv1 oneX.D oneM)
  have s0 : (trainStart inv1 oneX.D oneM).topics 0 0 = 0 := rfl
  have s1 : (trainStart inv1 oneX.D oneM).sums 0 = 0 := by simp [trainStart, oneM, newQuery]
  have s2 : (trainStart inv1 oneX.D oneM).expSums 0 = 1 := by simp [trainStart, oneM, newQuery, oneX]
  have s3 : (trainStart inv1 oneX.D oneM).maxes 0 = 0 := by simp [trainStart, oneM, newQuery, oneX, Numerics.rowMax]
  have s4 : (trainStart inv1 oneX.D oneM).inCounts 0 = 1 := by simp [trainStart, oneM, newQuery, oneX, selfLink]
  have s5 : (trainStart inv1 oneX.D oneM).invCov 0 0 = 1 := by simp [trainStart, oneM, newQuery, inv1]
  rw [s0, s1, s2, s3, s4, s5] at h0
  have hneg : (iteration inv1 psi (oneC 0) oneX selfLink (trainStart inv1 oneX.D oneM)).topics 0 0 = -(2 / 7) := by
    rw [h0.1]
    norm_num
  have hin := h0.2
  have hmax : (iteration inv1 psi (oneC 0) oneX selfLink (trainStart inv1 oneX.D oneM)).maxes 0 = 1 / 10 ^ 300 := by
    rcases (sweep_maxes inv1 psi (oneC 0) oneX selfLink (trainStart inv1 oneX.D oneM) 0 1).2 with h | ⟨d, hd, h⟩
    · exact h
    · obtain rfl : d = 0 := by omega
      have h1 : (1 : ℝ) / 10 ^ 300 ≤ (iteration inv1 psi (oneC 0) oneX selfLink (trainStart inv1 oneX.D oneM)).maxes 0 := by
        unfold iteration sweep docStep
        simp only [oneX, List.range_one, List.foldl_cons, List.foldl_nil, sweepStart]
        exact le_max_left _ _
      have h2 : (iteration inv1 psi (oneC 0) oneX selfLink (trainStart inv1 oneX.D oneM)).maxes 0
          = (iteration inv1 psi (oneC 0) oneX selfLink (trainStart inv1 oneX.D oneM)).topics 0 0 := h
      rw [h2, hneg] at h1
      exact absurd (h1.trans (by norm_num : -(2 / 7 : ℝ) ≤ 0)) (not_le.2 (by positivity))
  have hexp : (iteration inv1 psi (oneC 0) oneX selfLink (trainStart inv1 oneX.D oneM)).expSums 0 = Real.exp (-(2 / 7) - 1 / 10 ^ 300) := by
    have : (iteration inv1 psi (oneC 0) oneX selfLink (trainStart inv1 oneX.D oneM)).expSums 0
        = ∑ d ∈ Finset.range 1, Real.exp ((iteration inv1 psi (oneC 0) oneX selfLink (trainStart inv1 oneX.D oneM)).topics d 0
          - (iteration inv1 psi (oneC 0) oneX selfLink (trainStart inv1 oneX.D oneM)).maxes 0) := rfl
    rw [this, Finset.sum_range_one, hneg, hmax]
  have hcov : (iteration inv1 psi (oneC 0) oneX selfLink (trainStart inv1 oneX.D oneM)).invCov
      = inv1 (iteration inv1 psi (oneC 0) oneX selfLink (trainStart inv1 oneX.D oneM)).cov := rfl
  have hpos : 0 < (iteration inv1 psi (oneC 0) oneX selfLink (trainStart inv1 oneX.D oneM)).invCov 0 0 := by
    rw [hcov]
    have : (iteration inv1 psi (oneC 0) oneX selfLink (trainStart inv1 oneX.D oneM)).cov 0 0
        = 0 + ((iteration inv1 psi (oneC 0) oneX selfLink (trainStart inv1 oneX.D oneM)).topics 0 0 - 0)
            * ((iteration inv1 psi (oneC 0) oneX selfLink (trainStart inv1 oneX.D oneM)).topics 0 0 - 0) + 2 / 7 := by
      have h4 : inv1 (lhs (oneC 0) oneX (trainStart inv1 oneX.D oneM) 0) 0 0 = 2 / 7 := by
        show 1 / lhs (oneC 0) oneX (trainStart inv1 oneX.D oneM) 0 0 0 = 2 / 7
        unfold lhs
        rw [s5]
        simp [oneC, newFixed, Mtm.outCounts, Data.len, selfLink, oneX]
        norm_num
      rw [← h4]
      rfl
    show 0 < 1 / (iteration inv1 psi (oneC 0) oneX selfLink (trainStart inv1 oneX.D oneM)).cov 0 0
    rw [this, hneg]
    norm_num
  generalize iteration inv1 psi (oneC 0) oneX selfLink (trainStart inv1 oneX.D oneM) = r at *
  rw [(one_iteration psi 0 r).1, (one_iteration psi 0 (trainStart inv1 oneX.D r)).1]
  have t0 : (trainStart inv1 oneX.D r).maxes 0 = r.topics 0 0 := by simp [trainStart, oneX, Numerics.rowMax]
  have t1 : (trainStart inv1 oneX.D r).invCov = r.invCov := by rw [hcov]; rfl
  rw [t0, t1]
  show 1 / (r.invCov 0 0 + 5 / 2) * (r.invCov 0 0 * 0 + (r.topics 0 0 - 1 / 2 * r.topics 0 0)
    + (r.topics 0 0 - 1 / 2 * r.sums 0 - Real.exp (r.topics 0 0 - r.topics 0 0) / r.expSums 0) * r.inCounts 0) ≠ _
  rw [hin, hexp, hneg, hmax, sub_self, Real.exp_zero]
  intro h
  have h5 : 1 / (r.invCov 0 0 + 5 / 2) ≠ 0 := by positivity
  have h6 := mul_left_cancel₀ h5 h
  have h7 : (1 : ℝ) / Real.exp (-(2 / 7) - 1 / 10 ^ 300) = Real.exp (-(2 / 7) - 1 / 10 ^ 300) / Real.exp (-(2 / 7) - 1 / 10 ^ 300) := by
    generalize (1 : ℝ) / 10 ^ 300 = z at h6
    linarith
  rw [div_self (Real.exp_ne_zero _), one_div, inv_eq_one, Real.exp_eq_one_iff] at h7
  have h8 : (0 : ℝ) < 1 / 10 ^ 300 := by positivity
  generalize (1 : ℝ) / 10 ^ 300 = z at h7 h8
  linarith

/-! ## rtm -/

section
open Verif.Rtm
open Verif.VbPython (toMeans toDirichlet)

/-- Equal within the sizes of the tables -/
abbrev Within (e : Env) : Rtm.State → Rtm.State → Prop := SameRtm (Equiv.refl _) (Equiv.refl _) e.x.D e.K e.x.T

variable {e : Env} {num : Rtm.Numerics}

theorem within_refl (e : Env) (s : Rtm.State) : Within e s s := ⟨fun _ _ _ _ => rfl, fun _ _ _ _ => rfl, fun _ _ => rfl, fun _ _ => rfl⟩

theorem within_symm {s r : Rtm.State} (h : Within e s r) : Within e r s :=
  ⟨fun i hi j hj => (h.word i hi j hj).symm, fun i hi j hj => (h.means i hi j hj).symm, fun i hi => (h.weights i hi).symm, fun i hi => (h.prior i hi).symm⟩

theorem within_trans {s r t : Rtm.State} (h : Within e s r) (h' : Within e r t) : Within e s t :=
  ⟨fun i hi j hj => (h'.word i hi j hj).trans (h.word i hi j hj), fun i hi j hj => (h'.means i hi j hj).trans (h.means i hi j hj),
    fun i hi => (h'.weights i hi).trans (h.weights i hi), fun i hi => (h'.prior i hi).trans (h.prior i hi)⟩

theorem alike_trans {α : Type} {R : α → α → Prop} (hR : ∀ a b c, R a b → R b c → R a c) {a b c : Py α} (h : Alike R a b) (h' : Alike R b c) :
    Alike R a c := by
  cases a <;> cases b <;> cases c
  all_goals first
    | exact h.elim
    | exact h'.elim
    | exact Eq.trans h h'
    | exact hR _ _ _ h h'

theorem alike_symm {α : Type} {R : α → α → Prop} (hR : ∀ a b, R a b → R b a) {a b : Py α} (h : Alike R a b) : Alike R b a := by
  cases a <;> cases b
  all_goals first
    | exact h.elim
    | exact Eq.symm h
    | exact hR _ _ h

theorem alike_bind {α β : Type} {R : α → α → Prop} {S : β → β → Prop} {a b : Py α} {f g : α → Py β} (h : Alike R a b)
    (hfg : ∀ a b, R a b → Alike S (f a) (g b)) : Alike S (a >>= f) (b >>= g) := by
  cases a <;> cases b
  all_goals first
    | exact h.elim
    | exact h
    | exact hfg _ _ h

/-- Converting to Dirichlet parameters and back does nothing. -/
theorem there_and_back (e : Env) (a : Nat → ℝ) (m : Nat → Nat → ℝ) (d k : Nat) (hd : 0 < e.x.len d) :
    toMeans ⟨e.K, a, e.v⟩ e.x (toDirichlet ⟨e.K, a, e.v⟩ e.x m) d k = m d k := by
  have : (0 : ℝ) < e.x.len d := by exact_mod_cast hd
  unfold toMeans toDirichlet
  field_simp
  ring

theorem measured_within (hx : ∀ d, d < e.x.D → 0 < e.x.len d) (s : Rtm.State) : Within e (measured e s) s := by
  refine ⟨fun _ _ _ _ => rfl, fun d hd k _ => ?_, fun _ _ => rfl, fun _ _ => rfl⟩
  show s.means d k = toMeans ⟨e.K, s.prior, e.v⟩ e.x (toDirichlet ⟨e.K, s.prior, e.v⟩ e.x _) d k
  rw [there_and_back e _ _ _ _ (hx d hd)]
  exact (there_and_back e _ _ _ _ (hx d hd)).symm

/-- The iteration without the measurements -/
noncomputable def core (e : Env) (num : Rtm.Numerics) (s : Rtm.State) : Py Rtm.State :=
  match num.weights 0 (Rtm.sweep e s) with
  | .error err => .error err
  | .ok w => .ok { Rtm.sweep e s with weights := w }

noncomputable def cores (e : Env) (num : Rtm.Numerics) : Nat → Rtm.State → Py Rtm.State
  | 0, s => .ok s
  | n + 1, s => core e num s >>= cores e num n

theorem cores_add (n m : Nat) (s : Rtm.State) : cores e num (n + m) s = (cores e num n s >>= cores e num m) := by
  induction n generalizing s with
  | zero => rw [Nat.zero_add]; rfl
  | succ n ih =>
    rw [Nat.succ_add]
    unfold cores
    cases core e num s with
    | error err => rfl
    | ok s' => exact ih s'

/-- Documents have links to documents. -/
theorem same_env (hin : ∀ d, ∀ j ∈ e.links d, j < e.x.D) : SameEnv (Equiv.refl _) e e :=
  ⟨rfl, rfl, rfl, rfl, rfl, ⟨keeps_refl _, keeps_refl _, rfl, rfl, fun _ _ _ _ => rfl⟩, rfl, hin, rfl⟩

theorem core_within (hin : ∀ d, ∀ j ∈ e.links d, j < e.x.D) (hn : SameNumerics (Equiv.refl _) (Equiv.refl _) e.x.D e.K e.x.T num num) {s r : Rtm.State}
    (h : Within e s r) : Alike (Within e) (core e num s) (core e num r) := by
  have h1 := visits_eq (same_env hin) (keeps_refl _) rfl h
  have h2 := hn.weights 0 _ _ h1
  unfold core
  generalize num.weights 0 (Rtm.sweep e s) = a at h2
  generalize num.weights 0 (Rtm.sweep e r) = b at h2
  cases a <;> cases b
  · exact h2
  · exact h2.elim
  · exact h2.elim
  · exact ⟨h1.word, h1.means, h2, h1.prior⟩

theorem cores_within (hin : ∀ d, ∀ j ∈ e.links d, j < e.x.D) (hn : SameNumerics (Equiv.refl _) (Equiv.refl _) e.x.D e.K e.x.T num num) (n : Nat) :
    ∀ {s r : Rtm.State}, Within e s r → Alike (Within e) (cores e num n s) (cores e num n r) := by
  induction n with
  | zero => exact fun h => h
  | succ n ih => exact fun h => alike_bind (core_within hin hn h) fun _ _ h' => ih h'

/-- Up to iteration 4 there is no update of the hyperparameters. -/
theorem loop_cores (hx : ∀ d, d < e.x.D → 0 < e.x.len d) (hin : ∀ d, ∀ j ∈ e.links d, j < e.x.D)
    (hn : SameNumerics (Equiv.refl _) (Equiv.refl _) e.x.D e.K e.x.T num num) (hw : ∀ i, num.weights i = num.weights 0)
    (hc : ∀ i s, num.converged i s = false) (hL : 0 < e.logFrequency) (n : Nat) : ∀ itr s, itr + n ≤ 5 →
    Alike (Within e) (Rtm.loop e num n itr s) (cores e num n s) := by
  induction n with
  | zero => exact fun _ s _ => within_refl e s
  | succ n ih =>
    intro itr s hi
    unfold Rtm.loop cores core Rtm.iteration
    dsimp only
    rw [hw itr]
    cases hW : num.weights 0 (Rtm.sweep e s) with
    | error err => rfl
    | ok w =>
      dsimp only
      have hh : ∀ s, hyperUpdate e num itr s = s := by
        intro s
        unfold hyperUpdate
        rw [if_neg]
        rintro ⟨h1, h2⟩
        omega
      rw [if_neg (by omega)]
      simp only [hc, hh, Bool.false_eq_true, if_false]
      have tr : ∀ a b c, Within e a b → Within e b c → Within e a c := fun _ _ _ => within_trans
      by_cases h : itr % e.logFrequency = 0
      · rw [if_pos h]
        exact alike_trans tr (ih (itr + 1) _ (by omega)) (cores_within hin hn n (measured_within hx _))
      · rw [if_neg h]
        exact ih (itr + 1) _ (by omega)

/-- **C310** (rtm): up to five iterations can be divided into two stages.  The numerical routines depend neither on what is outside the tables nor on the
number of the iteration. -/
theorem rtm_stages_partial (hin : ∀ d, ∀ j ∈ e.links d, j < e.x.D)
    (hn : SameNumerics (Equiv.refl _) (Equiv.refl _) e.x.D e.K e.x.T num num) (hw : ∀ i, num.weights i = num.weights 0)
    (hc : ∀ i s, num.converged i s = false) (hL : 0 < e.logFrequency) (n m : Nat) (hnm : n + m ≤ 5) (s : Rtm.State) :
    Alike (Within e) (Rtm.train e num (n + m) s) (Rtm.train e num n s >>= Rtm.train e num m) := by
  by_cases hl : (List.range e.x.D).any (fun d => decide (e.x.len d < 1)) = true
  · unfold Rtm.train
    rw [if_pos hl, if_pos hl]
    rfl
  · have hx : ∀ d, d < e.x.D → 0 < e.x.len d := by
      intro d hd
      simp only [List.any_eq_true, List.mem_range, decide_eq_true_eq, not_exists, not_and] at hl
      have := hl d hd
      omega
    have tr : ∀ a b c, Within e a b → Within e b c → Within e a c := fun _ _ _ => within_trans
    have sy : ∀ a b, Within e a b → Within e b a := fun _ _ => within_symm
    have key : ∀ n s, n ≤ 5 → Alike (Within e) (Rtm.train e num n s)
        (cores e num n { s with means := toMeans ⟨e.K, s.prior, e.v⟩ e.x s.means } >>= fun s' =>
          .ok { s' with means := toDirichlet ⟨e.K, s'.prior, e.v⟩ e.x s'.means }) := by
      intro n s hn5
      have h := loop_cores hx hin hn hw hc hL n 0 { s with means := toMeans ⟨e.K, s.prior, e.v⟩ e.x s.means } (by omega)
      unfold Rtm.train
      rw [if_neg hl]
      generalize Rtm.loop e num n 0 { s with means := toMeans ⟨e.K, s.prior, e.v⟩ e.x s.means } = a at h
      generalize cores e num n { s with means := toMeans ⟨e.K, s.prior, e.v⟩ e.x s.means } = b at h
      cases a <;> cases b
      · exact h
      · exact h.elim
      · exact h.elim
      · exact ⟨h.word, toDirichlet_eq (same_env hin) h.prior h.means, h.weights, h.prior⟩
    refine alike_trans tr (key (n + m) s hnm) ?_
    refine alike_trans tr ?_ (alike_bind (alike_symm sy (key n s (by omega))) fun a b hab =>
      rtm_train (same_env hin) (keeps_refl _) rfl hn m hab)
    rw [cores_add]
    generalize cores e num n { s with means := toMeans ⟨e.K, s.prior, e.v⟩ e.x s.means } = a
    cases a with
    | error err => rfl
    | ok s' =>
      refine alike_trans tr ?_ (alike_symm sy (key m _ (by omega)))
      refine alike_bind (cores_within hin hn m ⟨fun _ _ _ _ => rfl, fun d hd k _ => ?_, fun _ _ => rfl, fun _ _ => rfl⟩)
        fun a b h => ⟨h.word, toDirichlet_eq (same_env hin) h.prior h.means, h.weights, h.prior⟩
      exact there_and_back e _ _ _ _ (hx d hd)

theorem sweep_prior (s : Rtm.State) : (Rtm.sweep e s).prior = s.prior := by
  have : ∀ (l : List Nat) (w : Nat → Nat → ℝ) (a : Rtm.State), (l.foldl (visit e w) a).prior = a.prior := by
    intro l w
    induction l with
    | nil => exact fun _ => rfl
    | cons d l ih => exact fun a => ih _
  exact this _ _ _

/-- No iteration before number 5 changes the topic prior. -/
theorem loop_prior (hw : ∀ i s, ∃ w, num.weights i s = .ok w) (hc : ∀ i s, num.converged i s = false) (hL : 0 < e.logFrequency) (n : Nat) :
    ∀ itr s, itr + n ≤ 5 → ∀ m, ∃ s', Rtm.loop e num (n + m) itr s = Rtm.loop e num m (itr + n) s' ∧ s'.prior = s.prior := by
  induction n with
  | zero => exact fun itr s _ m => ⟨s, by rw [Nat.zero_add, Nat.add_zero], rfl⟩
  | succ n ih =>
    intro itr s hi m
    obtain ⟨w, hW⟩ := hw itr (Rtm.sweep e s)
    have hh : ∀ s, hyperUpdate e num itr s = s := by
      intro s
      unfold hyperUpdate
      rw [if_neg]
      rintro ⟨h1, h2⟩
      omega
    have hsweep := sweep_prior (e := e) s
    have hit : ∃ s', Rtm.iteration e num itr s = .ok (s', false) ∧ s'.prior = s.prior := by
      unfold Rtm.iteration
      dsimp only
      rw [hW]
      dsimp only
      rw [if_neg (by omega)]
      simp only [hc, hh, Bool.false_eq_true, if_false]
      by_cases h : itr % e.logFrequency = 0
      · rw [if_pos h]
        exact ⟨_, rfl, hsweep⟩
      · rw [if_neg h]
        exact ⟨_, rfl, hsweep⟩
    obtain ⟨s', h1, h2⟩ := hit
    obtain ⟨s2, h3, h4⟩ := ih (itr + 1) s' (by omega) m
    refine ⟨s2, ?_, h4.trans h2⟩
    rw [Nat.succ_add]
    conv_lhs => unfold Rtm.loop
    rw [h1]
    dsimp only
    rw [h3, Nat.add_right_comm itr 1 n, Nat.add_assoc]

/-- **C310** (rtm): the topic prior is learned in a single run of six iterations, but not in stages of five and one, since every stage counts from zero
and the first update is at number 5. -/
theorem rtm_stages_violated (hx : ∀ d, d < e.x.D → 0 < e.x.len d) (hw : ∀ i s, ∃ w, num.weights i s = .ok w) (hc : ∀ i s, num.converged i s = false)
    (hL : 0 < e.logFrequency) (s : Rtm.State) : ∃ r1 r2 r, Rtm.train e num 5 s = .ok r1 ∧ Rtm.train e num 1 r1 = .ok r2 ∧ Rtm.train e num 6 s = .ok r
      ∧ r2.prior = s.prior ∧ ∃ s', s'.prior = s.prior ∧ ∀ k, k < e.K → r.prior k = num.hyper 5 s' k := by
  have hl : ¬ (List.range e.x.D).any (fun d => decide (e.x.len d < 1)) = true := by
    simp only [List.any_eq_true, List.mem_range, decide_eq_true_eq, not_exists, not_and]
    intro d hd h
    have := hx d hd
    omega
  have short : ∀ n s, n ≤ 5 → ∃ r, Rtm.train e num n s = .ok r ∧ r.prior = s.prior := by
    intro n s h5
    obtain ⟨s', h1, h2⟩ := loop_prior (e := e) hw hc hL n 0 { s with means := toMeans ⟨e.K, s.prior, e.v⟩ e.x s.means } (by omega) 0
    unfold Rtm.train
    rw [if_neg hl]
    rw [Nat.add_zero] at h1
    rw [h1]
    exact ⟨_, rfl, h2⟩
  obtain ⟨r1, a1, a2⟩ := short 5 s (le_refl _)
  obtain ⟨r2, b1, b2⟩ := short 1 r1 (by omega)
  obtain ⟨s', h1, h2⟩ := loop_prior (e := e) hw hc hL 5 0 { s with means := toMeans ⟨e.K, s.prior, e.v⟩ e.x s.means } (by omega) 1
  obtain ⟨w, hW⟩ := hw 5 (Rtm.sweep e s')
  have hlast : ∃ t u, Rtm.loop e num 1 5 s' = .ok t ∧ u.prior = s'.prior ∧ ∀ k, k < e.K → t.prior k = num.hyper 5 u k := by
    unfold Rtm.loop Rtm.iteration Rtm.loop
    dsimp only
    rw [hW]
    dsimp only
    rw [if_neg (by omega)]
    simp only [hc, Bool.false_eq_true, if_false]
    have hh : ∀ s, ∀ k, k < e.K → (hyperUpdate e num 5 s).prior k = num.hyper 5 s k := by
      intro s k hk
      unfold hyperUpdate
      rw [if_pos (by decide)]
      exact if_neg (by omega)
    by_cases h : 5 % e.logFrequency = 0
    · rw [if_pos h]
      exact ⟨_, _, rfl, by exact sweep_prior s', hh _⟩
    · rw [if_neg h]
      exact ⟨_, _, rfl, by exact sweep_prior s', hh _⟩
  obtain ⟨t, u, c1, c3, c2⟩ := hlast
  refine ⟨r1, r2, { t with means := toDirichlet ⟨e.K, t.prior, e.v⟩ e.x t.means }, a1, b1, ?_, b2.trans a2, u, c3.trans h2, c2⟩
  unfold Rtm.train
  rw [if_neg hl, show (6 : Nat) = 5 + 1 from rfl, h1, Nat.zero_add, c1]

end

/-! ## Examples -/

/-- mtm with products `U V` of 3: after the first iteration the weight is 4/7. -/
example (psi : ℝ → ℝ) (m : Nat) : ∃ r1, Mtm.train inv1 psi (oneC 3) oneX selfLink (fun _ _ => false) 1 1 true oneM = .ok r1 ∧ r1.topics 0 0 = 4 / 7
    ∧ Alike (SameM (Equiv.refl _) (Equiv.refl _) 1 1 1) (Mtm.train inv1 psi (oneC 3) oneX selfLink (fun _ _ => false) 1 (1 + m) true oneM)
      (Mtm.train inv1 psi (oneC 3) oneX selfLink (fun _ _ => false) 1 m true r1) := by
  have h1 : Mtm.train inv1 psi (oneC 3) oneX selfLink (fun _ _ => false) 1 1 true oneM
      = .ok (iteration inv1 psi (oneC 3) oneX selfLink (trainStart inv1 oneX.D oneM)) := by
    unfold Mtm.train
    rw [if_neg (by decide), if_neg (by simp), loop_iterate]
    rfl
  have h2 : (iteration inv1 psi (oneC 3) oneX selfLink (trainStart inv1 oneX.D oneM)).topics 0 0 = 4 / 7 := by
    rw [(one_iteration psi 3 _).1]
    simp only [trainStart, oneM, newQuery, inv1, oneX, selfLink, Numerics.rowMax]
    norm_num
  refine ⟨_, h1, h2, ?_⟩
  refine mtm_stages_partial (c := oneC 3) psi ?_ oneX selfLink (by decide) rfl 1 0 m (by decide) true oneM _ h1 ?_
  · intro A B hAB i hi j hj
    show 1 / B 0 0 = 1 / A 0 0
    rw [hAB 0 (by decide) 0 (by decide)]
    rfl
  · intro k hk
    obtain rfl : k = 0 := by
      have : k < 1 := hk
      omega
    refine ⟨0, by decide, ?_⟩
    rw [h2]
    have h3 : (1 : ℝ) / 10 ^ 300 ≤ 1 / 10 ^ 1 := one_div_le_one_div_of_le (by norm_num) (pow_le_pow_right₀ (by norm_num) (by norm_num))
    refine h3.trans ?_
    norm_num

/-- rtm: weights that double, hyperparameters that grow by one -/
noncomputable def exN2 : Rtm.Numerics := ⟨fun _ s => .ok fun k => 2 * s.weights k, fun _ _ => false, fun _ s k => s.prior k + 1⟩

theorem exN2_same (D K T : Nat) : SameNumerics (Equiv.refl _) (Equiv.refl _) D K T exN2 exN2 where
  weights _ s r h := fun k hk => by
    show 2 * r.weights k = 2 * s.weights k
    rw [h.weights k hk]
    rfl
  converged _ _ _ _ := rfl
  hyper _ s r h := fun k hk => by
    show r.prior k + 1 = s.prior k + 1
    rw [h.prior k (by omega)]
    rfl

/-- Two documents that link to each other, two topics -/
def exE (psi pdf cdf : ℝ → ℝ) : Rtm.Env := ⟨psi, pdf, cdf, 2, 1, exX, fun d => if d = 0 then [1] else [0], 3⟩

theorem exE_inside (psi pdf cdf : ℝ → ℝ) : ∀ d, ∀ j ∈ (exE psi pdf cdf).links d, j < (exE psi pdf cdf).x.D := by
  intro d j hj
  show j < 2
  change j ∈ (if d = 0 then [1] else [0]) at hj
  split at hj <;> simp at hj <;> omega

example (psi pdf cdf : ℝ → ℝ) (s : Rtm.State) :
    Alike (Within (exE psi pdf cdf)) (Rtm.train (exE psi pdf cdf) exN2 5 s) (Rtm.train (exE psi pdf cdf) exN2 2 s >>= Rtm.train (exE psi pdf cdf) exN2 3) :=
  rtm_stages_partial (exE_inside psi pdf cdf) (exN2_same _ _ _) (fun _ => rfl) (fun _ _ => rfl) (Nat.succ_pos 2) 2 3 (by decide) s

example (psi pdf cdf : ℝ → ℝ) (s : Rtm.State) : ∃ r1 r2 r, Rtm.train (exE psi pdf cdf) exN2 5 s = .ok r1 ∧ Rtm.train (exE psi pdf cdf) exN2 1 r1 = .ok r2
    ∧ Rtm.train (exE psi pdf cdf) exN2 6 s = .ok r ∧ r2.prior = s.prior ∧ r.prior 0 = s.prior 0 + 1 := by
  have hx : ∀ d, d < exX.D → 0 < exX.len d := by decide
  obtain ⟨r1, r2, r, h1, h2, h3, h4, s', h5, h6⟩ := rtm_stages_violated (e := exE psi pdf cdf) (num := exN2) hx
    (fun _ s => ⟨fun k => 2 * s.weights k, rfl⟩) (fun _ _ => rfl) (Nat.succ_pos 2) s
  refine ⟨r1, r2, r, h1, h2, h3, h4, ?_⟩
  rw [h6 0 (Nat.succ_pos 1), ← h5]
  rfl

end Verif.Props.StagesLinks
