import Mathlib.Tactic.Ring
import Mathlib.Tactic.Linarith
import Mathlib.Tactic.FieldSimp
import Mathlib.Tactic.Positivity
import Mathlib.Tactic.IntervalCases
import Mathlib.Algebra.Order.BigOperators.Group.Finset
import Mathlib.Algebra.BigOperators.Field
import Verif.Model.Mom
import Verif.Props.Numerics

/-!
# The mixture of multinomials trained by Gibbs sampling (C70, C71, C104, C107)
-/

namespace Verif.Props.MomGibbs

open Verif Verif.Mom
open Verif.Props.Numerics (almostZero_pos)

/-! ## One sweep (C70) -/

/-- The memberships when the first `m` documents have been drawn. -/
noncomputable def midway (draw : Nat → Nat) (mem : Nat → Nat → ℝ) (m d k : Nat) : ℝ :=
  if d < m then oneHot (draw d) k else mem d k

theorem midway_succ (draw : Nat → Nat) (mem : Nat → Nat → ℝ) (D m : Nat) (hm : m < D) (k : Nat) :
    ∑ d ∈ Finset.range D, midway draw mem (m + 1) d k
      = ∑ d ∈ Finset.range D, midway draw mem m d k - mem m k + oneHot (draw m) k := by
  rw [← Finset.sum_erase_add _ _ (Finset.mem_range.mpr hm),
    ← Finset.sum_erase_add _ (fun d => midway draw mem m d k) (Finset.mem_range.mpr hm)]
  have h1 : midway draw mem (m + 1) m k = oneHot (draw m) k := if_pos (by omega)
  have h2 : midway draw mem m m k = mem m k := if_neg (by omega)
  rw [h1, h2]
  have : ∀ d ∈ (Finset.range D).erase m, midway draw mem (m + 1) d k = midway draw mem m d k := by
    intro d hd
    have := Finset.ne_of_mem_erase hd
    unfold midway
    by_cases h : d < m
    · rw [if_pos h, if_pos (by omega)]
    · rw [if_neg h, if_neg (by omega)]
  rw [Finset.sum_congr rfl this]
  ring

theorem sweep_inv (p : GibbsParams) (x : Data) (draw : Nat → Nat) (mem : Nat → Nat → ℝ) (m : Nat) (hm : m ≤ x.D) :
    (List.range m).foldl (sweepDoc draw)
        { num := fun k => ∑ d ∈ Finset.range x.D, mem d k + p.a k - 1, mem := mem, used := [] }
      = { num := fun k => ∑ d ∈ Finset.range x.D, midway draw mem m d k + p.a k - 1
          mem := midway draw mem m
          used := (List.range m).map (fun d k =>
            ∑ j ∈ Finset.range x.D, midway draw mem d j k + p.a k - 1 - mem d k) } := by
  induction m with
  | zero =>
    have : midway draw mem 0 = mem := by funext d k; exact if_neg (by omega)
    simp [this]
  | succ m ih =>
    rw [List.range_succ, List.foldl_append, ih (by omega)]
    simp only [List.foldl_cons, List.foldl_nil, List.map_append, List.map_cons, List.map_nil]
    unfold sweepDoc
    have hmm : ∀ k, midway draw mem m m k = mem m k := fun k => if_neg (by omega)
    simp only [hmm]
    congr 1
    · funext k
      rw [midway_succ draw mem x.D m (by omega)]
      ring
    · funext d k
      show (if d = m then oneHot (draw m) k else midway draw mem m d k) = midway draw mem (m + 1) d k
      by_cases hd : d = m
      · subst hd
        rw [if_pos rfl]
        exact (if_pos (by omega)).symm
      · rw [if_neg hd]
        unfold midway
        by_cases h : d < m
        · rw [if_pos h, if_pos (by omega)]
        · rw [if_neg h, if_neg (by omega)]

/-- **C70**: after a sweep every document belongs to exactly one topic, the one that was drawn. -/
theorem hard_memberships (p : GibbsParams) (x : Data) (draw : Nat → Nat) (mem : Nat → Nat → ℝ) (d : Nat) (hd : d < x.D) (k : Nat) :
    (sampleMemberships p x draw mem).mem d k = if k = draw d then 1 else 0 := by
  unfold sampleMemberships
  rw [sweep_inv p x draw mem x.D le_rfl]
  show midway draw mem x.D d k = _
  unfold midway
  rw [if_pos hd]
  rfl

/-- The number of documents other than `d` in topic `k`, when document `j` is in topic `cur j`. -/
def others (D : Nat) (cur : Nat → Nat) (d k : Nat) : Nat := ((List.range D).filter (fun j => j ≠ d ∧ cur j = k)).length

theorem sum_oneHot (D : Nat) (cur : Nat → Nat) (d : Nat) (hd : d < D) (k : Nat) :
    ∑ j ∈ Finset.range D, oneHot (cur j) k - oneHot (cur d) k = others D cur d k := by
  have gen : ∀ D, ∑ j ∈ Finset.range D, oneHot (cur j) k
      = others D cur d k + if d < D then oneHot (cur d) k else 0 := by
    intro D
    induction D with
    | zero => simp [others]
    | succ D ih =>
      rw [Finset.sum_range_succ, ih]
      unfold others
      rw [List.range_succ, List.filter_append, List.length_append]
      by_cases hD : D = d
      · subst hD
        simp [oneHot]
      · by_cases hc : cur D = k
        · have h1 : oneHot (cur D) k = 1 := if_pos hc.symm
          have h2 : ((List.filter (fun j => decide (j ≠ d ∧ cur j = k)) [D]).length) = 1 := by simp [hD, hc]
          rw [h1, h2]
          push_cast
          by_cases hlt : d < D
          · rw [if_pos hlt, if_pos (by omega)]; ring
          · rw [if_neg hlt, if_neg (by omega)]; ring
        · have h1 : oneHot (cur D) k = 0 := if_neg (fun h => hc h.symm)
          have h2 : ((List.filter (fun j => decide (j ≠ d ∧ cur j = k)) [D]).length) = 0 := by simp [hc]
          rw [h1, h2]
          push_cast
          by_cases hlt : d < D
          · rw [if_pos hlt, if_pos (by omega)]; ring
          · rw [if_neg hlt, if_neg (by omega)]
  rw [gen D, if_pos hd]
  ring

/-- **C70**, exactly: when document `d` is drawn, the weight of topic `k` before normalisation is the prior, minus one, plus the
number of the other documents that are in the topic at that time (new draws before `d`, old ones after). -/
theorem weights_exact (p : GibbsParams) (x : Data) (old draw : Nat → Nat) (mem : Nat → Nat → ℝ)
    (hold : ∀ d, d < x.D → mem d = oneHot (old d)) (d : Nat) (hd : d < x.D) :
    ∃ num, (sampleMemberships p x draw mem).used[d]? = some num
      ∧ ∀ k, num k = p.a k - 1 + others x.D (fun j => if j < d then draw j else old j) d k := by
  unfold sampleMemberships
  rw [sweep_inv p x draw mem x.D le_rfl]
  refine ⟨fun k => ∑ j ∈ Finset.range x.D, midway draw mem d j k + p.a k - 1 - mem d k, ?_, fun k => ?_⟩
  · simp only [List.getElem?_map, List.getElem?_range hd, Option.map_some]
  · show ∑ j ∈ Finset.range x.D, midway draw mem d j k + p.a k - 1 - mem d k = _
    rw [← sum_oneHot x.D _ d hd k]
    have e : ∀ j ∈ Finset.range x.D, midway draw mem d j k = oneHot (if j < d then draw j else old j) k := by
      intro j hj
      unfold midway
      split
      · rfl
      · rw [hold j (Finset.mem_range.mp hj)]
    rw [Finset.sum_congr rfl e, if_neg (by omega), hold d hd]
    ring

/-- **C70** is violated: with a prior below one the weight of a topic without other documents is negative, where the prior plus
the number of documents would be positive. -/
theorem weights_violated (p : GibbsParams) (x : Data) (old draw : Nat → Nat) (mem : Nat → Nat → ℝ)
    (hold : ∀ d, d < x.D → mem d = oneHot (old d)) (d : Nat) (hd : d < x.D) (k : Nat) (ha : 0 < p.a k) (ha1 : p.a k < 1)
    (hk : others x.D (fun j => if j < d then draw j else old j) d k = 0) :
    ∃ num, (sampleMemberships p x draw mem).used[d]? = some num ∧ num k < 0
      ∧ num k ≠ p.a k + others x.D (fun j => if j < d then draw j else old j) d k := by
  obtain ⟨num, h1, h2⟩ := weights_exact p x old draw mem hold d hd
  refine ⟨num, h1, ?_, ?_⟩
  · rw [h2 k, hk]; push_cast; linarith
  · rw [h2 k]; intro h; linarith

/-- What remains of the claim about the weights in **C70**: for priors of at least one all weights are at least zero. -/
theorem weights_nonneg_partial (p : GibbsParams) (x : Data) (old draw : Nat → Nat) (mem : Nat → Nat → ℝ)
    (hold : ∀ d, d < x.D → mem d = oneHot (old d)) (d : Nat) (hd : d < x.D) (ha : ∀ k, 1 ≤ p.a k) :
    ∃ num, (sampleMemberships p x draw mem).used[d]? = some num ∧ ∀ k, 0 ≤ num k := by
  obtain ⟨num, h1, h2⟩ := weights_exact p x old draw mem hold d hd
  refine ⟨num, h1, fun k => ?_⟩
  rw [h2 k]
  have := ha k
  have h0 : (0 : ℝ) ≤ others x.D (fun j => if j < d then draw j else old j) d k := Nat.cast_nonneg _
  linarith

/-- Between two topics with the same word probabilities, the one with the smaller score is less likely to be drawn. -/
theorem sampleDist_lt (p : GibbsParams) (x : Data) (word : Nat → Nat → ℝ) (num : Nat → ℝ) (d i j : Nat) (hw : word i = word j)
    (h : Numerics.safeLogOut false (num i / ∑ k ∈ Finset.range p.K, num k)
      < Numerics.safeLogOut false (num j / ∑ k ∈ Finset.range p.K, num k)) :
    sampleDist p x word num d i < sampleDist p x word num d j := by
  unfold sampleDist
  simp only
  rw [Real.exp_lt_exp, hw]
  linarith

/-- The default prior of `K` topics (mom_gibbs.py:80-81). -/
noncomputable def defaultPrior (K : Nat) : GibbsParams := ⟨K, fun _ => 5 / (K : ℝ) + 1 / 2⟩

/-- Three documents. -/
def exX : Data := ⟨3, 2, fun _ _ => 1⟩

/-- A consequence: with the default prior of twenty topics and three documents that are all in topic 0, the third document is
more likely to be put into an empty topic than into topic 0, even if both have the same words. -/
theorem preference_inverted (draw : Nat → Nat) (hdraw : ∀ d, draw d = 0) (word : Nat → Nat → ℝ) (hw : word 0 = word 5) :
    ∃ num, (sampleMemberships (defaultPrior 20) exX draw (fun _ => oneHot 0)).used[2]? = some num
      ∧ sampleDist (defaultPrior 20) exX word num 2 0 < sampleDist (defaultPrior 20) exX word num 2 5 := by
  obtain ⟨num, h1, h2⟩ := weights_exact (defaultPrior 20) exX (fun _ => 0) draw (fun _ => oneHot 0) (fun _ _ => rfl) 2 (by decide)
  have hc : (fun j => if j < 2 then draw j else (fun _ => 0) j) = fun _ : Nat => 0 := by
    funext j; simp [hdraw]
  rw [hc] at h2
  have hD : exX.D = 3 := rfl
  have o0 : others exX.D (fun _ => 0) 2 0 = 2 := by decide
  have ok : ∀ k, k ≠ 0 → others exX.D (fun _ => 0) 2 k = 0 := by
    intro k hk
    unfold others
    rw [List.length_eq_zero_iff, List.filter_eq_nil_iff]
    intro j _
    simp only [decide_eq_true_eq, not_and]
    intro _ h
    exact hk h.symm
  have ha : ∀ k, (defaultPrior 20).a k = 3 / 4 := by
    intro k
    show (5 : ℝ) / ((20 : Nat) : ℝ) + 1 / 2 = 3 / 4
    norm_num
  have n0 : num 0 = 7 / 4 := by rw [h2, o0, ha]; norm_num
  have nk : ∀ k, k ≠ 0 → num k = -1 / 4 := by intro k hk; rw [h2, ok k hk, ha]; norm_num
  have hsum : ∑ k ∈ Finset.range (defaultPrior 20).K, num k = -3 := by
    show ∑ k ∈ Finset.range (19 + 1), num k = -3
    rw [Finset.sum_range_succ', n0, Finset.sum_congr rfl (fun k _ => nk (k + 1) (by omega))]
    simp
    norm_num
  refine ⟨num, h1, sampleDist_lt _ _ _ _ _ _ _ hw ?_⟩
  rw [hsum, n0, nk 5 (by decide)]
  have hz := (almostZero_pos false).1
  have hz1 : Numerics.almostZero false < 1 / 12 := by
    show (if false = true then ((1 : ℝ) / 10) ^ 35 else (1 / 10) ^ 300) < 1 / 12
    rw [if_neg (by decide)]
    calc ((1 : ℝ) / 10) ^ 300 ≤ (1 / 10) ^ 2 := pow_le_pow_of_le_one (by norm_num) (by norm_num) (by norm_num)
      _ < 1 / 12 := by norm_num
  unfold Numerics.safeLogOut
  rw [if_neg (by norm_num; linarith), if_pos (by norm_num; linarith)]
  refine Real.log_lt_log hz ?_
  norm_num
  linarith

/-! ## Plans (C71, C104) -/

/-- The default thinning is zero for fewer than ten iterations and one otherwise. -/
theorem default_thinning (n lf : Nat) (debug : Bool) :
    (newTrainPlan n lf debug).thinning = if n < 10 then 0 else 1 := by
  show min 1 (n / 10) = _
  split
  · rw [Nat.div_eq_of_lt (by omega)]; rfl
  · have : 1 ≤ n / 10 := (Nat.one_le_div_iff (by omega)).mpr (by omega)
    omega

/-- The iterations whose state is sampled. -/
def Sampled (plan : GibbsPlan) (itr : Nat) : Prop := 0 < itr ∧ plan.burnIn < itr ∧ itr % plan.thinning = 0

instance (plan : GibbsPlan) (itr : Nat) : Decidable (Sampled plan itr) := by unfold Sampled; infer_instance

theorem isSampling_ok (plan : GibbsPlan) (ht : 0 < plan.thinning) (itr : Nat) :
    isSampling plan itr = .ok (decide (Sampled plan itr)) := by
  unfold isSampling
  by_cases h : 0 < itr ∧ plan.burnIn < itr
  · rw [if_pos h, if_neg (by omega)]
    congr 1
    simp [Sampled, h.1, h.2]
  · rw [if_neg h]
    congr 1
    symm
    refine decide_eq_false ?_
    unfold Sampled
    tauto

theorem isSampling_zero (plan : GibbsPlan) (ht : plan.thinning = 0) (itr : Nat) :
    isSampling plan itr = if 0 < itr ∧ plan.burnIn < itr then .error .zeroDivisionError else .ok false := by
  unfold isSampling
  split
  · simp
  · rfl

/-! ### A fold in which a step fails -/

theorem foldlM_ok_of {σ : Type} (f : σ → Nat → Py σ) (n : Nat) (s : σ) (h : ∀ s itr, itr < n → ∃ s', f s itr = .ok s') :
    ∃ s', (List.range n).foldlM f s = .ok s' := by
  induction n with
  | zero => exact ⟨s, rfl⟩
  | succ n ih =>
    obtain ⟨s1, h1⟩ := ih (fun s itr hi => h s itr (by omega))
    obtain ⟨s2, h2⟩ := h s1 n (by omega)
    refine ⟨s2, ?_⟩
    rw [List.range_succ, List.foldlM_append, h1]
    simp only [bind, Except.bind, List.foldlM_cons, List.foldlM_nil, pure, Except.pure]
    rw [h2]

theorem foldlM_error_at {σ : Type} (f : σ → Nat → Py σ) (n m : Nat) (s : σ) (e : PyErr) (hm : m < n)
    (hok : ∀ s itr, itr < m → ∃ s', f s itr = .ok s') (herr : ∀ s, f s m = .error e) :
    (List.range n).foldlM f s = .error e := by
  obtain ⟨s1, h1⟩ := foldlM_ok_of f m s hok
  have : List.range n = List.range m ++ (m :: List.range' (m + 1) (n - m - 1)) := by
    rw [List.range_eq_range', List.range_eq_range', show n = m + (n - m - 1 + 1) from by omega]
    rw [show m + (n - m - 1 + 1) - m - 1 = n - m - 1 from by omega, ← List.range'_append_1, List.range'_succ]
    simp
  rw [this, List.foldlM_append, h1]
  show (List.foldlM f s1 (m :: _)) = _
  rw [List.foldlM_cons, herr]
  rfl

/-- **C104** (Gibbs) is violated: with any positive log frequency (or in debug mode) training fails in the first iteration. -/
theorem gibbs_logged (p : GibbsParams) (x : Data) (hx : ∀ d, d < x.D → 0 < x.len d) (plan : GibbsPlan)
    (hi : 0 < plan.iterations) (hl : 0 < plan.logFrequency ∨ plan.debug = true) (draws : Nat → Nat → Nat)
    (words : Nat → Nat → Nat → ℝ) (mem word : Nat → Nat → ℝ) :
    gibbsTrain p x plan draws words mem word = .error .nameError := by
  have hne : ¬ ((List.range x.D).any (fun d => decide (x.len d < 1))) = true := by
    simp only [List.any_eq_true, List.mem_range, decide_eq_true_eq, not_exists, not_and]
    intro d hd
    have := hx d hd
    omega
  unfold gibbsTrain
  rw [if_neg hne]
  refine foldlM_error_at _ _ 0 _ _ (by omega) (fun s itr h => absurd h (by omega)) (fun s => ?_)
  unfold gibbsTrainStep
  have h0 : isSampling plan 0 = .ok false := by unfold isSampling; rw [if_neg (by omega)]
  have hlog : logging plan.debug plan.logFrequency 0 = true := by
    unfold logging
    rcases hl with h | h <;> simp [h]
  simp only [h0, hlog, if_true]

/-- **C71** is violated (training): without measurements the default plan fails for two to nine iterations. -/
theorem short_training_fails (p : GibbsParams) (x : Data) (hx : ∀ d, d < x.D → 0 < x.len d) (n : Nat) (h2 : 2 ≤ n) (h9 : n ≤ 9)
    (draws : Nat → Nat → Nat) (words : Nat → Nat → Nat → ℝ) (mem word : Nat → Nat → ℝ) :
    gibbsTrain p x (newTrainPlan n 0 false) draws words mem word = .error .zeroDivisionError := by
  have hne : ¬ ((List.range x.D).any (fun d => decide (x.len d < 1))) = true := by
    simp only [List.any_eq_true, List.mem_range, decide_eq_true_eq, not_exists, not_and]
    intro d hd
    have := hx d hd
    omega
  have ht : (newTrainPlan n 0 false).thinning = 0 := by rw [default_thinning, if_pos (by omega)]
  unfold gibbsTrain
  rw [if_neg hne]
  refine foldlM_error_at _ _ (n / 4 + 1) _ _ ?_ (fun s itr h => ?_) (fun s => ?_)
  · show n / 4 + 1 < n + n / 4
    omega
  · unfold gibbsTrainStep
    simp only [isSampling_zero _ ht]
    rw [if_neg (by show ¬ (0 < itr ∧ n / 4 < itr); omega)]
    exact ⟨_, rfl⟩
  · unfold gibbsTrainStep
    simp only [isSampling_zero _ ht]
    rw [if_pos (by show 0 < n / 4 + 1 ∧ n / 4 < n / 4 + 1; omega)]

/-- **C71** is violated (queries): a default plan of two to nine iterations fails. -/
theorem short_query_fails (p : GibbsParams) (x : Data) (n lf : Nat) (debug : Bool) (h2 : 2 ≤ n) (h9 : n ≤ 9)
    (draws : Nat → Nat → Nat) (mem word : Nat → Nat → ℝ) :
    gibbsQuery p x (newTrainPlan n lf debug) draws mem word = .error .zeroDivisionError := by
  have ht : (newTrainPlan n lf debug).thinning = 0 := by rw [default_thinning, if_pos (by omega)]
  unfold gibbsQuery
  rw [foldlM_error_at _ _ (n / 4 + 1) _ .zeroDivisionError ?_ (fun s itr h => ?_) (fun s => ?_)]
  · show n / 4 + 1 < n
    omega
  · unfold gibbsQueryStep
    simp only [isSampling_zero _ ht]
    rw [if_neg (by show ¬ (0 < itr ∧ n / 4 < itr); omega)]
    exact ⟨_, rfl⟩
  · unfold gibbsQueryStep
    simp only [isSampling_zero _ ht]
    rw [if_pos (by show 0 < n / 4 + 1 ∧ n / 4 < n / 4 + 1; omega)]

/-- **C71** is violated (queries): a plan of one iteration takes no sample and returns nothing but NaNs. -/
theorem single_query_nan (p : GibbsParams) (x : Data) (lf : Nat) (debug : Bool) (draws : Nat → Nat → Nat)
    (mem word : Nat → Nat → ℝ) : gibbsQuery p x (newTrainPlan 1 lf debug) draws mem word = .ok none := by
  unfold gibbsQuery
  have : (List.range (newTrainPlan 1 lf debug).iterations) = [0] := rfl
  rw [this]
  have h0 : isSampling (newTrainPlan 1 lf debug) 0 = .ok false := by unfold isSampling; rw [if_neg (by omega)]
  have hs : ∀ s : GibbsState, gibbsQueryStep p x (newTrainPlan 1 lf debug) draws s 0
      = .ok { s with mem := (sampleMemberships p x (draws 0) s.mem).mem } := by
    intro s; unfold gibbsQueryStep; simp only [h0, Bool.false_eq_true, if_false]
  rw [List.foldlM_cons, hs]
  rfl

/-! ### Queries that take samples -/

/-- The iterations sampled among the first `n`. -/
def samples (plan : GibbsPlan) (n : Nat) : List Nat := (List.range n).filter (fun itr => decide (Sampled plan itr))

theorem query_fold (p : GibbsParams) (x : Data) (plan : GibbsPlan) (ht : 0 < plan.thinning) (draws : Nat → Nat → Nat)
    (mem word : Nat → Nat → ℝ) (n : Nat) :
    ∃ s, (List.range n).foldlM (gibbsQueryStep p x plan draws) ⟨mem, word, fun _ _ => 0, fun _ _ => 0, 0⟩ = .ok s
      ∧ s.count = (samples plan n).length
      ∧ (∀ d, d < x.D → ∀ k, s.memSum d k = ((samples plan n).countP (fun itr => decide (draws itr d = k)) : ℝ)) := by
  induction n with
  | zero => exact ⟨_, rfl, rfl, fun d _ k => by simp [samples]⟩
  | succ n ih =>
    obtain ⟨s, h1, h2, h3⟩ := ih
    rw [List.range_succ, List.foldlM_append, h1]
    have hstep : gibbsQueryStep p x plan draws s n
        = .ok (if Sampled plan n then accumulate { s with mem := (sampleMemberships p x (draws n) s.mem).mem }
            else { s with mem := (sampleMemberships p x (draws n) s.mem).mem }) := by
      unfold gibbsQueryStep
      simp only [isSampling_ok plan ht]
      by_cases h : Sampled plan n <;> simp [h]
    refine ⟨_, by
      simp only [bind, Except.bind, List.foldlM_cons, List.foldlM_nil, pure, Except.pure]
      rw [hstep], ?_, ?_⟩
    · unfold samples
      rw [List.range_succ, List.filter_append, List.length_append]
      by_cases h : Sampled plan n
      · rw [if_pos h]
        show s.count + 1 = _
        rw [h2, List.filter_cons_of_pos (by simpa using h)]
        rfl
      · rw [if_neg h]
        show s.count = _
        rw [h2, List.filter_cons_of_neg (by simpa using h)]
        rfl
    · intro d hd k
      unfold samples
      rw [List.range_succ, List.filter_append, List.countP_append]
      by_cases h : Sampled plan n
      · rw [if_pos h]
        show s.memSum d k + (sampleMemberships p x (draws n) s.mem).mem d k = _
        rw [h3 d hd k, hard_memberships p x (draws n) s.mem d hd k, List.filter_cons_of_pos (by simpa using h)]
        by_cases hk : k = draws n d
        · rw [if_pos hk]
          simp [samples, hk]
        · rw [if_neg hk]
          have hk' : ¬ draws n d = k := fun h => hk h.symm
          simp [samples, hk']
      · rw [if_neg h]
        show s.memSum d k = _
        rw [h3 d hd k, List.filter_cons_of_neg (by simpa using h)]
        simp [samples]

theorem sum_countP (l : List Nat) (f : Nat → Nat) (K : Nat) (h : ∀ i ∈ l, f i < K) :
    ∑ k ∈ Finset.range K, (l.countP (fun i => decide (f i = k)) : ℝ) = l.length := by
  induction l with
  | nil => simp
  | cons i l ih =>
    simp only [List.countP_cons, List.length_cons, decide_eq_true_eq]
    push_cast
    rw [Finset.sum_add_distrib, ih (fun j hj => h j (List.mem_cons_of_mem _ hj))]
    rw [Finset.sum_ite_eq, if_pos (Finset.mem_range.mpr (h i (by simp)))]

/-- What remains of **C71**: a query with a default plan of at least ten iterations takes samples, and returns the share of
the samples in which the document was in the topic: a distribution over the topics. -/
theorem long_query_partial (p : GibbsParams) (x : Data) (n lf : Nat) (debug : Bool) (h : 10 ≤ n) (draws : Nat → Nat → Nat)
    (hdraws : ∀ itr d, draws itr d < p.K) (mem word : Nat → Nat → ℝ) :
    0 < (samples (newTrainPlan n lf debug) n).length
      ∧ ∃ r, gibbsQuery p x (newTrainPlan n lf debug) draws mem word = .ok (some r)
        ∧ (∀ d, d < x.D → ∀ k, r d k
            = (samples (newTrainPlan n lf debug) n).countP (fun itr => decide (draws itr d = k))
              / (samples (newTrainPlan n lf debug) n).length)
        ∧ (∀ d, d < x.D → (∀ k, 0 ≤ r d k) ∧ ∑ k ∈ Finset.range p.K, r d k = 1) := by
  have ht : (newTrainPlan n lf debug).thinning = 1 := by rw [default_thinning, if_neg (by omega)]
  have hlen : 0 < (samples (newTrainPlan n lf debug) n).length := by
    refine List.length_pos_of_mem (a := n - 1) ?_
    unfold samples
    rw [List.mem_filter, List.mem_range, decide_eq_true_eq]
    refine ⟨by omega, by omega, ?_, by rw [ht, Nat.mod_one]⟩
    show n / 4 < n - 1
    omega
  obtain ⟨s, h1, h2, h3⟩ := query_fold p x (newTrainPlan n lf debug) (by omega) draws mem word n
  have hc : s.count ≠ 0 := by omega
  have hr : ∀ d, d < x.D → ∀ k, s.memSum d k / (s.count : ℝ)
            = (samples (newTrainPlan n lf debug) n).countP (fun itr => decide (draws itr d = k))
              / (samples (newTrainPlan n lf debug) n).length := by
    intro d hd k
    rw [h3 d hd k, h2]
  refine ⟨hlen, fun d k => s.memSum d k / s.count, ?_, hr, fun d hd => ⟨fun k => ?_, ?_⟩⟩
  · unfold gibbsQuery
    rw [show (newTrainPlan n lf debug).iterations = n from rfl, h1]
    simp only
    rw [if_neg hc]
  · show 0 ≤ s.memSum d k / (s.count : ℝ)
    rw [hr d hd k]
    positivity
  · show ∑ k ∈ Finset.range p.K, s.memSum d k / (s.count : ℝ) = 1
    rw [Finset.sum_congr rfl (fun k _ => hr d hd k), ← Finset.sum_div,
      sum_countP _ _ _ (fun itr _ => hdraws itr d), div_self]
    exact_mod_cast hlen.ne'

/-! ## The result of training (C107) -/

/-- A plan that can be trained: no measurements, positive thinning. -/
structure Trainable (plan : GibbsPlan) : Prop where
  lf : plan.logFrequency = 0
  debug : plan.debug = false
  thinning : 0 < plan.thinning

/-- **C107** is violated: the memberships and word distributions that training returns are those of the last iteration; the
accumulated samples are dropped. -/
theorem training_returns_last (p : GibbsParams) (x : Data) (hx : ∀ d, d < x.D → 0 < x.len d) (plan : GibbsPlan)
    (hp : Trainable plan) (hi : 0 < plan.iterations) (draws : Nat → Nat → Nat) (words : Nat → Nat → Nat → ℝ)
    (mem word : Nat → Nat → ℝ) :
    ∃ s, gibbsTrain p x plan draws words mem word = .ok s
      ∧ s.word = words (plan.iterations + plan.burnIn - 1)
      ∧ ∀ d, d < x.D → ∀ k, s.mem d k = if k = draws (plan.iterations + plan.burnIn - 1) d then 1 else 0 := by
  have hne : ¬ ((List.range x.D).any (fun d => decide (x.len d < 1))) = true := by
    simp only [List.any_eq_true, List.mem_range, decide_eq_true_eq, not_exists, not_and]
    intro d hd
    have := hx d hd
    omega
  have hlog : ∀ itr, logging plan.debug plan.logFrequency itr = false := by
    intro itr; unfold logging; simp [hp.lf, hp.debug]
  have hstep : ∀ s itr, ∃ s', gibbsTrainStep p x plan draws words s itr = .ok s' ∧ s'.word = words itr
      ∧ s'.mem = (sampleMemberships p x (draws itr) s.mem).mem := by
    intro s itr
    unfold gibbsTrainStep
    simp only [isSampling_ok plan hp.thinning, hlog itr, Bool.false_eq_true, if_false]
    refine ⟨_, rfl, ?_, ?_⟩
    · split <;> rfl
    · split <;> rfl
  unfold gibbsTrain
  rw [if_neg hne]
  obtain ⟨m, hm⟩ : ∃ m, plan.iterations + plan.burnIn = m + 1 := ⟨plan.iterations + plan.burnIn - 1, by omega⟩
  rw [hm, Nat.add_sub_cancel]
  obtain ⟨s1, h1⟩ := foldlM_ok_of (gibbsTrainStep p x plan draws words) m ⟨mem, word, fun _ _ => 0, fun _ _ => 0, 0⟩
    (fun s itr _ => ⟨_, (hstep s itr).choose_spec.1⟩)
  obtain ⟨s2, h2, h3, h4⟩ := hstep s1 m
  refine ⟨s2, ?_, h3, fun d hd k => ?_⟩
  · rw [List.range_succ, List.foldlM_append, h1]
    simp only [bind, Except.bind, List.foldlM_cons, List.foldlM_nil, pure, Except.pure]
    rw [h2]
  · rw [h4, hard_memberships p x (draws m) s1.mem d hd k]

/-- What remains of **C107**: the word distributions returned are the last ones drawn, so they are as proper as the draws. -/
theorem training_proper_partial (p : GibbsParams) (x : Data) (hx : ∀ d, d < x.D → 0 < x.len d) (plan : GibbsPlan)
    (hp : Trainable plan) (hi : 0 < plan.iterations) (draws : Nat → Nat → Nat) (hdraws : ∀ itr d, draws itr d < p.K)
    (words : Nat → Nat → Nat → ℝ) (hwords : ∀ itr k, ∑ t ∈ Finset.range x.T, words itr k t = 1) (mem word : Nat → Nat → ℝ) :
    ∃ s, gibbsTrain p x plan draws words mem word = .ok s
      ∧ (∀ k, ∑ t ∈ Finset.range x.T, s.word k t = 1)
      ∧ (∀ d, d < x.D → ∑ k ∈ Finset.range p.K, s.mem d k = 1) := by
  obtain ⟨s, h1, h2, h3⟩ := training_returns_last p x hx plan hp hi draws words mem word
  refine ⟨s, h1, fun k => by rw [h2]; exact hwords _ k, fun d hd => ?_⟩
  rw [Finset.sum_congr rfl (fun k _ => h3 d hd k), Finset.sum_ite_eq', if_pos (Finset.mem_range.mpr (hdraws _ d))]

/-! ## Examples -/

theorem exX_len : ∀ d, d < exX.D → 0 < exX.len d := fun _ _ => by show 0 < _; decide +revert

example : others 5 (fun j => j % 2) 1 1 = 1 := by decide

example (draw : Nat → Nat) (h : ∀ d, draw d = 0) :
    ∃ num, (sampleMemberships (defaultPrior 20) exX draw (fun _ => oneHot 0)).used[2]? = some num
      ∧ sampleDist (defaultPrior 20) exX (fun _ _ => 1 / 2) num 2 0 < sampleDist (defaultPrior 20) exX (fun _ _ => 1 / 2) num 2 5 :=
  preference_inverted draw h _ rfl

example (draws : Nat → Nat → Nat) (words : Nat → Nat → Nat → ℝ) :
    gibbsTrain (defaultPrior 2) exX (newTrainPlan 100 10 false) draws words (fun _ _ => 0) (fun _ _ => 0) = .error .nameError :=
  gibbs_logged _ exX exX_len _ (by decide) (Or.inl (by decide)) _ _ _ _

example (draws : Nat → Nat → Nat) (words : Nat → Nat → Nat → ℝ) :
    gibbsTrain (defaultPrior 2) exX (newTrainPlan 5 0 false) draws words (fun _ _ => 0) (fun _ _ => 0)
      = .error .zeroDivisionError :=
  short_training_fails _ exX exX_len 5 (by decide) (by decide) _ _ _ _

example : samples (newTrainPlan 12 0 false) 12 = [4, 5, 6, 7, 8, 9, 10, 11] := by decide

example : ∃ r, gibbsQuery (defaultPrior 2) exX (newTrainPlan 12 0 false) (fun itr _ => itr % 2) (fun _ _ => 0) (fun _ _ => 0)
      = .ok (some r) ∧ ∀ d, d < exX.D → (∀ k, 0 ≤ r d k) ∧ ∑ k ∈ Finset.range (defaultPrior 2).K, r d k = 1 := by
  obtain ⟨-, r, h1, -, h2⟩ := long_query_partial (defaultPrior 2) exX 12 0 false (by decide) (fun itr _ => itr % 2)
    (fun itr _ => Nat.mod_lt _ (by decide)) (fun _ _ => 0) (fun _ _ => 0)
  exact ⟨r, h1, h2⟩

example : Trainable (newTrainPlan 12 0 false) := ⟨rfl, rfl, by decide⟩

/-- Two different samples: training for two iterations returns the second. -/
example : ∃ s, gibbsTrain (defaultPrior 2) exX ⟨2, 0, false, 0, 1⟩ (fun itr _ => itr) (fun _ _ _ => 1 / 2) (fun _ _ => 0)
    (fun _ _ => 0) = .ok s ∧ s.mem 0 1 = 1 := by
  obtain ⟨s, h1, -, h3⟩ := training_returns_last (defaultPrior 2) exX exX_len ⟨2, 0, false, 0, 1⟩ ⟨rfl, rfl, by decide⟩
    (by decide) (fun itr _ => itr) (fun _ _ _ => 1 / 2) (fun _ _ => 0) (fun _ _ => 0)
  exact ⟨s, h1, (h3 0 (by decide) 1).trans (if_pos rfl)⟩

end Verif.Props.MomGibbs
