import Mathlib.Tactic.NormNum
import Mathlib.Tactic.ByContra
import Verif.Model.Mtm
import Verif.Props.Bohning

/-!
# The matrix topic model of `mtm.py` (C163 to C170)
-/

namespace Verif.Props.Mtm

open Verif Verif.Mtm
open Verif.Mom (Data)
open Verif.Props.MomEm (IsDist softmax_dist)
open Verif.Props.Numerics (softmax sum_exp_pos rowMax_spec)
open Verif.Props.Bohning (IsInv)

theorem soft_eq (K : Nat) (r : Nat → ℝ) : soft K r = softmax K r := by
  funext k
  unfold soft
  exact Props.Numerics.shifted K r (Numerics.rowMax K r) k

theorem soft_dist (K : Nat) (hK : 0 < K) (r : Nat → ℝ) : IsDist K (soft K r) := by
  rw [soft_eq]
  exact softmax_dist K r hK

/-! ## Sweeps -/

section
variable (inv : (Nat → Nat → ℝ) → Nat → Nat → ℝ) (psi : ℝ → ℝ) (c : Fixed) (x links : Data) (st : MState)

theorem sweep_succ (n : Nat) :
    sweep inv psi c x links st (n + 1) = docStep inv psi c x links st (sweep inv psi c x links st n) n := by
  unfold sweep
  rw [List.range_succ, List.foldl_append]
  rfl

/-- A document keeps its weights until it is its turn. -/
theorem sweep_later (n d : Nat) (h : n ≤ d) : (sweep inv psi c x links st n).topics d = st.topics d := by
  induction n with
  | zero => rfl
  | succ n ih =>
    rw [sweep_succ]
    funext k
    show (if d = n then _ else _) = _
    rw [if_neg (by omega), ih (by omega)]

/-- A document keeps its weights after its turn. -/
theorem sweep_earlier (n m d : Nat) (h : d < n) (hm : n ≤ m) :
    (sweep inv psi c x links st m).topics d = (sweep inv psi c x links st n).topics d := by
  induction m with
  | zero => omega
  | succ m ih =>
    rcases Nat.lt_or_ge m n with h1 | h1
    · rw [show m + 1 = n by omega]
    · rw [sweep_succ, ← ih h1]
      funext k
      show (if d = m then _ else _) = _
      rw [if_neg (by omega)]

/-- The sums kept up to date within a sweep are the sums of the current weights. -/
theorem sweep_sums (h : ∀ k, st.sums k = ∑ d ∈ Finset.range x.D, st.topics d k) (n : Nat) (hn : n ≤ x.D) (k : Nat) :
    (sweep inv psi c x links st n).sums k = ∑ d ∈ Finset.range x.D, (sweep inv psi c x links st n).topics d k := by
  induction n with
  | zero => exact h k
  | succ n ih =>
    have ih := ih (by omega)
    rw [sweep_succ]
    set sw := sweep inv psi c x links st n with hsw
    show sw.sums k - sw.topics n k + _ = ∑ d ∈ Finset.range x.D, if d = n then _ else sw.topics d k
    rw [ih]
    have hmem : n ∈ Finset.range x.D := Finset.mem_range.mpr (by omega)
    rw [← Finset.sum_erase_add _ _ hmem, ← Finset.sum_erase_add _ _ hmem, if_pos rfl]
    have : ∀ d ∈ (Finset.range x.D).erase n, (if d = n then (∑ j ∈ Finset.range c.K, inv (lhs c x st n) k j * rhs psi c x st sw n j)
        else sw.topics d k) = sw.topics d k := fun d hd => if_neg (Finset.ne_of_mem_erase hd)
    rw [Finset.sum_congr rfl this]
    ring

/-- **C166** After any number of iterations the running sums are the sums of the weights over the documents. -/
theorem running_sums (stop : Nat → MState → Bool) (fuel itr : Nat) (h : ∀ k, st.sums k = ∑ d ∈ Finset.range x.D, st.topics d k) (k : Nat) :
    (trainLoop inv psi c x links stop fuel itr st).sums k
      = ∑ d ∈ Finset.range x.D, (trainLoop inv psi c x links stop fuel itr st).topics d k := by
  induction fuel generalizing itr st with
  | zero => exact h k
  | succ fuel ih =>
    unfold trainLoop
    split
    · exact h k
    · exact ih _ _ fun k => sweep_sums inv psi c x links st h x.D le_rfl k

/-- Training carries out one iteration after the other and ends before the first one, the third at the earliest, at which the bounds have converged, or when all
are done. -/
theorem train_count (stop : Nat → MState → Bool) (logFrequency iterations : Nat) (upd : Bool) (st' : MState)
    (h : Mtm.train inv psi c x links stop logFrequency iterations upd st = .ok st') :
    ∃ n, n ≤ iterations ∧ st' = (iteration inv psi c x links)^[n] (trainStart inv x.D st) ∧
      (n < iterations → 2 ≤ n ∧ stop n st' = true) ∧
      ∀ m, 2 ≤ m → m < n → stop m ((iteration inv psi c x links)^[m] (trainStart inv x.D st)) = false := by
  have key : ∀ (fuel itr : Nat) (s : MState), ∃ n, n ≤ fuel ∧
      trainLoop inv psi c x links stop fuel itr s = (iteration inv psi c x links)^[n] s ∧
      (n < fuel → 2 ≤ itr + n ∧ stop (itr + n) ((iteration inv psi c x links)^[n] s) = true) ∧
      ∀ m, 2 ≤ itr + m → m < n → stop (itr + m) ((iteration inv psi c x links)^[m] s) = false := by
    intro fuel
    induction fuel with
    | zero => intro itr s; exact ⟨0, le_rfl, rfl, fun h => absurd h (by omega), fun m _ h => absurd h (by omega)⟩
    | succ fuel ih =>
      intro itr s
      by_cases hs : 2 ≤ itr ∧ stop itr s = true
      · refine ⟨0, Nat.zero_le _, ?_, fun _ => hs, fun m _ h => absurd h (by omega)⟩
        unfold trainLoop
        rw [if_pos hs]
        rfl
      · obtain ⟨n, h1, h2, h3, h4⟩ := ih (itr + 1) (iteration inv psi c x links s)
        refine ⟨n + 1, by omega, ?_, ?_, ?_⟩
        · unfold trainLoop
          rw [if_neg hs, h2]
          rfl
        · intro hn
          have := h3 (by omega)
          rw [show itr + (n + 1) = itr + 1 + n by omega]
          exact this
        · intro m hm hmn
          rcases m with _ | m
          · rw [Bool.eq_false_iff]
            exact fun h => hs ⟨hm, h⟩
          · have := h4 m (by omega) (by omega)
            rw [show itr + (m + 1) = itr + 1 + m by omega]
            exact this
  unfold Mtm.train at h
  split at h
  · cases h
  · split at h
    · cases h
    · obtain rfl := Except.ok.inj h
      obtain ⟨n, h1, h2, h3, h4⟩ := key iterations 0 (trainStart inv x.D st)
      refine ⟨n, h1, h2, ?_, ?_⟩
      · rw [h2]
        simpa using h3
      · intro m hm hmn
        simpa using h4 m (by omega) hmn

/-- **C166** So it is for a new query state. -/
theorem running_sums_train (stop : Nat → MState → Bool) (K logFrequency iterations : Nat) (upd : Bool) (topics words cov : Nat → Nat → ℝ)
    (st' : MState) (h : Mtm.train inv psi c x links stop logFrequency iterations upd (newQuery K x links topics words cov) = .ok st')
    (k : Nat) : st'.sums k = ∑ d ∈ Finset.range x.D, st'.topics d k := by
  unfold Mtm.train at h
  split at h
  · cases h
  · split at h
    · cases h
    · obtain rfl := Except.ok.inj h
      exact running_sums inv psi c x links _ stop iterations 0 (fun _ => rfl) k

/-! ## Counts of words -/

theorem sweep_words (hK : 0 < c.K) (n t : Nat) :
    (∀ k, k < c.K → c.vocabPrior ≤ (sweep inv psi c x links st n).wordDists k t) ∧
    ∑ k ∈ Finset.range c.K, (sweep inv psi c x links st n).wordDists k t
      = c.K * c.vocabPrior + ∑ d ∈ Finset.range n, (x.words d t : ℝ) := by
  induction n with
  | zero =>
    refine ⟨fun _ _ => le_rfl, ?_⟩
    show ∑ k ∈ Finset.range c.K, c.vocabPrior = _
    simp
  | succ n ih =>
    rw [sweep_succ]
    set sw := sweep inv psi c x links st n with hsw
    have hd := soft_dist c.K hK (fun k => psi (st.wordDists k t) - psi (∑ t' ∈ Finset.range x.T, st.wordDists k t') + sw.topics n k)
    constructor
    · intro k hk
      show _ ≤ sw.wordDists k t + (x.words n t : ℝ) * wordTopics psi c.K x.T st.wordDists (sw.topics n) t k
      have h1 : 0 ≤ (x.words n t : ℝ) * wordTopics psi c.K x.T st.wordDists (sw.topics n) t k :=
        mul_nonneg (Nat.cast_nonneg _) (hd.1 k hk).le
      linarith [ih.1 k hk]
    · show ∑ k ∈ Finset.range c.K, (sw.wordDists k t + (x.words n t : ℝ) * wordTopics psi c.K x.T st.wordDists (sw.topics n) t k) = _
      rw [Finset.sum_add_distrib, ih.2, ← Finset.mul_sum]
      have : ∑ k ∈ Finset.range c.K, wordTopics psi c.K x.T st.wordDists (sw.topics n) t k = 1 := hd.2
      rw [this, mul_one, Finset.sum_range_succ]
      ring

/-- **C165** An iteration hands out every occurrence of a word once: summed over the topics, the word's parameters are the prior of
each topic and its number of occurrences, and none is below the prior. -/
theorem word_counts (hK : 0 < c.K) (t : Nat) :
    (∀ k, k < c.K → c.vocabPrior ≤ (iteration inv psi c x links st).wordDists k t) ∧
    ∑ k ∈ Finset.range c.K, (iteration inv psi c x links st).wordDists k t
      = c.K * c.vocabPrior + ∑ d ∈ Finset.range x.D, (x.words d t : ℝ) :=
  sweep_words inv psi c x links st hK x.D t

/-- After at least one iteration the parameters come from an iteration on this corpus. -/
theorem trainLoop_words (hK : 0 < c.K) (stop : Nat → MState → Bool) (fuel itr : Nat) (t : Nat)
    (h : (0 < fuel ∧ itr < 2) ∨ ∑ k ∈ Finset.range c.K, st.wordDists k t = c.K * c.vocabPrior + ∑ d ∈ Finset.range x.D, (x.words d t : ℝ)) :
    ∑ k ∈ Finset.range c.K, (trainLoop inv psi c x links stop fuel itr st).wordDists k t
      = c.K * c.vocabPrior + ∑ d ∈ Finset.range x.D, (x.words d t : ℝ) := by
  induction fuel generalizing itr st with
  | zero =>
    rcases h with h | h
    · omega
    · exact h
  | succ fuel ih =>
    unfold trainLoop
    split
    · rename_i hs
      rcases h with h | h
      · omega
      · exact h
    · exact ih _ _ (Or.inr (word_counts inv psi c x links st hK t).2)

/-- **C165** So it is after training for any positive number of iterations. -/
theorem train_word_counts (hK : 0 < c.K) (stop : Nat → MState → Bool) (logFrequency iterations : Nat) (hi : 0 < iterations) (upd : Bool)
    (st' : MState) (h : Mtm.train inv psi c x links stop logFrequency iterations upd st = .ok st') (t : Nat) :
    ∑ k ∈ Finset.range c.K, st'.wordDists k t = c.K * c.vocabPrior + ∑ d ∈ Finset.range x.D, (x.words d t : ℝ) := by
  unfold Mtm.train at h
  split at h
  · cases h
  · split at h
    · cases h
    · obtain rfl := Except.ok.inj h
      exact trainLoop_words inv psi c x links _ hK stop iterations 0 t (Or.inl ⟨hi, by omega⟩)

/-! ## Queries -/

/-- **C163** A query overwrites the word parameters of the model: whatever they were, for every word they now account for the
occurrences in the query's documents. -/
theorem query_overwrites (hK : 0 < c.K) (stop : Nat → MState → Bool) (logFrequency iterations : Nat) (hi : 0 < iterations)
    (st' : MState) (h : Mtm.query inv psi c x links stop logFrequency iterations st = .ok st') (t : Nat) :
    ∑ k ∈ Finset.range c.K, st'.wordDists k t = c.K * c.vocabPrior + ∑ d ∈ Finset.range x.D, (x.words d t : ℝ) :=
  train_word_counts inv psi c x links st hK stop logFrequency iterations hi false st' h t

/-- **C163** (violation) If some word is not as frequent in the query as it was in training, the query changes the model. -/
theorem query_alters (hK : 0 < c.K) (stop : Nat → MState → Bool) (logFrequency iterations : Nat) (hi : 0 < iterations) (st' : MState)
    (h : Mtm.query inv psi c x links stop logFrequency iterations st = .ok st') (t n : Nat)
    (htrain : ∑ k ∈ Finset.range c.K, st.wordDists k t = c.K * c.vocabPrior + (n : ℝ)) (hne : n ≠ ∑ d ∈ Finset.range x.D, x.words d t) :
    st'.wordDists ≠ st.wordDists := by
  intro he
  have h1 := query_overwrites inv psi c x links st hK stop logFrequency iterations hi st' h t
  rw [he, htrain] at h1
  have h2 : (n : ℝ) = ((∑ d ∈ Finset.range x.D, x.words d t : Nat) : ℝ) := by
    push_cast
    linarith
  exact hne (by exact_mod_cast h2)

/-- **C163** (what remains) Only a query without iterations leaves word parameters and covariance alone. -/
theorem query_unchanged_partial (stop : Nat → MState → Bool) (logFrequency : Nat) (st' : MState)
    (h : Mtm.query inv psi c x links stop logFrequency 0 st = .ok st') :
    st'.wordDists = st.wordDists ∧ st'.cov = st.cov ∧ st'.topics = st.topics := by
  unfold Mtm.query Mtm.train at h
  split at h
  · cases h
  · split at h
    · cases h
    · obtain rfl := Except.ok.inj h
      exact ⟨rfl, rfl, rfl⟩

/-! ## The covariance -/

/-- The weights document `d` gets in this iteration -/
theorem iteration_topics (d : Nat) (hd : d < x.D) :
    (iteration inv psi c x links st).topics d = (sweep inv psi c x links st (d + 1)).topics d :=
  sweep_earlier inv psi c x links st (d + 1) x.D d (by omega) (by omega)

theorem sweep_cov (n : Nat) (hn : n ≤ x.D) (i j : Nat) :
    (sweep inv psi c x links st n).newCov i j
      = ∑ d ∈ Finset.range n, (((iteration inv psi c x links st).topics d i - c.UV d i) * ((iteration inv psi c x links st).topics d j - c.UV d j)
        + inv (lhs c x st d) j j) := by
  induction n with
  | zero => rfl
  | succ n ih =>
    rw [Finset.sum_range_succ, ← ih (by omega), iteration_topics inv psi c x links st n (by omega), sweep_succ]
    set sw := sweep inv psi c x links st n with hsw
    show sw.newCov i j + ((∑ l ∈ Finset.range c.K, inv (lhs c x st n) i l * rhs psi c x st sw n l) - c.UV n i)
      * ((∑ l ∈ Finset.range c.K, inv (lhs c x st n) j l * rhs psi c x st sw n l) - c.UV n j) + inv (lhs c x st n) j j
      = _ + (((if n = n then _ else _) - c.UV n i) * ((if n = n then _ else _) - c.UV n j) + _)
    rw [if_pos rfl, if_pos rfl]
    ring

/-- **C167** The covariance an iteration computes: the posterior variance of a topic is added to the whole column of the topic. -/
theorem cov_formula (i j : Nat) :
    (iteration inv psi c x links st).cov i j
      = ∑ d ∈ Finset.range x.D, (((iteration inv psi c x links st).topics d i - c.UV d i) * ((iteration inv psi c x links st).topics d j - c.UV d j)
        + inv (lhs c x st d) j j) :=
  sweep_cov inv psi c x links st x.D le_rfl i j

/-- **C167** (exactly when) Two entries across the diagonal agree if and only if the total variances of the two topics do. -/
theorem cov_symmetric_partial (i j : Nat) :
    (iteration inv psi c x links st).cov i j = (iteration inv psi c x links st).cov j i
      ↔ ∑ d ∈ Finset.range x.D, inv (lhs c x st d) j j = ∑ d ∈ Finset.range x.D, inv (lhs c x st d) i i := by
  rw [cov_formula, cov_formula, Finset.sum_add_distrib, Finset.sum_add_distrib,
    Finset.sum_congr rfl (fun d _ => mul_comm ((iteration inv psi c x links st).topics d i - c.UV d i) _)]
  constructor
  · intro h; linarith
  · intro h; linarith

/-! ## Shares of the documents in a topic -/

/-- The share of document `d` in topic `k` that the iteration uses when it comes to `d` -/
noncomputable def usedShare (d k : Nat) : ℝ := share st ((sweep inv psi c x links st d).topics d) k

theorem usedShare_eq (d k : Nat) : usedShare inv psi c x links st d k = share st (st.topics d) k := by
  unfold usedShare
  rw [sweep_later inv psi c x links st d d le_rfl]

/-- **C168** From the second iteration on, the shares of the documents in a topic are the softmax of the weights of the topic at the start
of the iteration. -/
theorem shares_partial (d k : Nat) :
    usedShare inv psi c x links (iteration inv psi c x links st) d k
      = softmax x.D (fun e => (iteration inv psi c x links st).topics e k) d := by
  rw [usedShare_eq]
  exact Props.Numerics.shifted x.D (fun e => (iteration inv psi c x links st).topics e k) ((sweep inv psi c x links st x.D).newMaxes k) d

/-- **C168** So they sum to one. -/
theorem shares_sum_partial (hD : 0 < x.D) (k : Nat) :
    ∑ d ∈ Finset.range x.D, usedShare inv psi c x links (iteration inv psi c x links st) d k = 1 := by
  simp only [shares_partial]
  exact (softmax_dist x.D _ hD).2

/-- **C168** (violation) In the first iteration of a new query state the shares sum to `exp (-m)`, where `m` is the greatest weight of the
topic. -/
theorem first_shares (hD : 0 < x.D) (K : Nat) (topics words cov : Nat → Nat → ℝ) (k : Nat) :
    ∑ d ∈ Finset.range x.D, usedShare inv psi c x links (trainStart inv x.D (newQuery K x links topics words cov)) d k
      = Real.exp (-Numerics.rowMax x.D (fun d => topics d k)) := by
  have hpos := sum_exp_pos x.D (fun d => topics d k) hD
  have h1 : ∀ d ∈ Finset.range x.D, usedShare inv psi c x links (trainStart inv x.D (newQuery K x links topics words cov)) d k
      = Real.exp (topics d k) / (∑ e ∈ Finset.range x.D, Real.exp (topics e k)) * Real.exp (-Numerics.rowMax x.D (fun d => topics d k)) := by
    intro d _
    rw [usedShare_eq]
    show Real.exp (topics d k - Numerics.rowMax x.D (fun d => topics d k)) / (∑ e ∈ Finset.range x.D, Real.exp (topics e k)) = _
    rw [sub_eq_add_neg, Real.exp_add]
    ring
  rw [Finset.sum_congr rfl h1, ← Finset.sum_mul, ← Finset.sum_div, div_self hpos.ne', one_mul]

/-- **C168** (violation) Initial weights are positive (mtm.py:122), so the shares of the first iteration always sum to less than one. -/
theorem first_shares_violation (hD : 0 < x.D) (K : Nat) (topics words cov : Nat → Nat → ℝ) (k : Nat) (hpos : ∀ d, d < x.D → 0 < topics d k) :
    ∑ d ∈ Finset.range x.D, usedShare inv psi c x links (trainStart inv x.D (newQuery K x links topics words cov)) d k < 1 := by
  rw [first_shares inv psi c x links hD]
  obtain ⟨-, d, hd, he⟩ := rowMax_spec x.D (fun d => topics d k) hD
  have : 0 < Numerics.rowMax x.D (fun d => topics d k) := by
    rw [he]
    exact hpos d hd
  rw [Real.exp_lt_one_iff]
  linarith

end

/-! ## The topics of links -/

/-- The probability that the link from `d` to `p` is due to topic `k`: the weight of the topic in `d` times the weight of `p` in the topic,
normalised -/
noncomputable def linkPosterior (D K : Nat) (topics : Nat → Nat → ℝ) (d p k : Nat) : ℝ :=
  softmax K (topics d) k * softmax D (fun e => topics e k) p
    / ∑ j ∈ Finset.range K, softmax K (topics d) j * softmax D (fun e => topics e j) p

theorem softmax_eq_iff (K : Nat) (hK : 0 < K) (r s : Nat → ℝ) :
    (∀ k, k < K → softmax K r k = softmax K s k) ↔ ∀ k j, k < K → j < K → r k - s k = r j - s j := by
  have hr := sum_exp_pos K r hK
  have hs := sum_exp_pos K s hK
  unfold softmax
  constructor
  · intro h
    have h1 : ∀ k, k < K → r k - s k = Real.log ((∑ j ∈ Finset.range K, Real.exp (r j)) / ∑ j ∈ Finset.range K, Real.exp (s j)) := by
      intro k hk
      rw [← Real.log_exp (r k - s k), Real.exp_sub]
      congr 1
      have := h k hk
      rw [div_eq_div_iff hr.ne' hs.ne'] at this
      rw [div_eq_div_iff (Real.exp_pos _).ne' hs.ne']
      linarith
    intro k j hk hj
    rw [h1 k hk, h1 j hj]
  · intro h k hk
    have h1 : ∀ j ∈ Finset.range K, Real.exp (r j) = Real.exp (s j) * Real.exp (r k - s k) := fun j hj => by
      rw [← Real.exp_add, h k j hk (Finset.mem_range.mp hj)]
      congr 1
      ring
    rw [Finset.sum_congr rfl h1, h1 k (Finset.mem_range.mpr hk), ← Finset.sum_mul, mul_div_mul_right _ _ (Real.exp_pos _).ne']

theorem linkPosterior_eq (D K : Nat) (hD : 0 < D) (hK : 0 < K) (topics : Nat → Nat → ℝ) (d p k : Nat) :
    linkPosterior D K topics d p k
      = softmax K (fun j => topics p j - Real.log (∑ e ∈ Finset.range D, Real.exp (topics e j)) + topics d j) k := by
  have hZ := sum_exp_pos K (topics d) hK
  have h1 : ∀ j, softmax K (topics d) j * softmax D (fun e => topics e j) p
      = Real.exp (topics p j - Real.log (∑ e ∈ Finset.range D, Real.exp (topics e j)) + topics d j) / ∑ i ∈ Finset.range K, Real.exp (topics d i) := by
    intro j
    have hL := sum_exp_pos D (fun e => topics e j) hD
    rw [Real.exp_add, Real.exp_sub, Real.exp_log hL]
    unfold softmax
    field_simp
  unfold linkPosterior
  simp only [h1]
  rw [← Finset.sum_div, div_div_div_cancel_right₀ hZ.ne']
  rfl

/-- **C169** (exactly when) The probabilities for the topics of a link are the posterior ones under the current weights if and only if the stored
normalisers are off by the same amount for all topics. -/
theorem link_topics_iff_partial (D K : Nat) (hD : 0 < D) (hK : 0 < K) (lse : Nat → ℝ) (topics : Nat → Nat → ℝ) (d p : Nat) :
    (∀ k, k < K → linkTopics K lse topics d p k = linkPosterior D K topics d p k)
      ↔ ∀ k j, k < K → j < K → lse k - Real.log (∑ e ∈ Finset.range D, Real.exp (topics e k))
        = lse j - Real.log (∑ e ∈ Finset.range D, Real.exp (topics e j)) := by
  unfold linkTopics
  simp only [linkPosterior_eq D K hD hK, soft_eq]
  rw [softmax_eq_iff K hK]
  constructor
  · intro h k j hk hj
    linarith [h k j hk hj]
  · intro h k j hk hj
    linarith [h k j hk hj]

/-- **C169** They are for the first document of the first iteration, whose normalisers are up to date, and they always sum to one. -/
theorem link_topics_initial (K : Nat) (hK : 0 < K) (vp : ℝ) (x links : Data) (hD : 0 < x.D) (topics UV : Nat → Nat → ℝ) (d p : Nat) :
    (∀ k, k < K → linkTopics K (newFixed K vp x links topics UV).lse topics d p k = linkPosterior x.D K topics d p k)
      ∧ ∀ topics', IsDist K (linkTopics K (newFixed K vp x links topics UV).lse topics' d p) := by
  refine ⟨(link_topics_iff_partial x.D K hD hK _ topics d p).mpr fun k j _ _ => ?_, fun topics' => soft_dist K hK _⟩
  show Real.log _ - _ = Real.log _ - _
  rw [sub_self, sub_self]

/-! ## A small run -/

/-- The inverse of a matrix of two rows -/
noncomputable def inv2 (M : Nat → Nat → ℝ) (i j : Nat) : ℝ :=
  (if i = j then M (1 - i) (1 - j) else -M i j) / (M 0 0 * M 1 1 - M 0 1 * M 1 0)

theorem inv2_inverts (M : Nat → Nat → ℝ) (h : M 0 0 * M 1 1 - M 0 1 * M 1 0 ≠ 0) : IsInv 2 M (inv2 M) := by
  intro i j hi hj
  unfold inv2
  have hi' : i = 0 ∨ i = 1 := by omega
  have hj' : j = 0 ∨ j = 1 := by omega
  generalize hΔ : M 0 0 * M 1 1 - M 0 1 * M 1 0 = Δ at h ⊢
  rcases hi' with rfl | rfl <;> rcases hj' with rfl | rfl <;>
    simp only [Finset.sum_range_succ, Finset.sum_range_zero] <;> norm_num <;> field_simp <;> linarith

/-- One document with one word that links to itself -/
def exX : Data := ⟨1, 1, fun _ _ => 1⟩

/-- Equal weights for two topics -/
noncomputable def exTopics : Nat → Nat → ℝ := fun _ _ => 1 / 2

noncomputable def exUV : Nat → Nat → ℝ := fun _ k => if k = 0 then 1 / 2 else 0

noncomputable def exFixed : Fixed := newFixed 2 (6 / 10) exX exX exTopics exUV

noncomputable def exStart : MState :=
  trainStart inv2 1 (newQuery 2 exX exX exTopics (fun _ _ => 1) (fun i j => if i = j then 1 else 0))

theorem ex_soft (r : Nat → ℝ) (h : ∀ k, r k = r 0) (k : Nat) : soft 2 r k = 1 / 2 := by
  rw [soft_eq]
  unfold softmax
  have h1 : ∀ k, Real.exp (r k) = Real.exp (r 0) := fun k => by rw [h k]
  simp only [Finset.sum_range_succ, Finset.sum_range_zero, h1, zero_add]
  have := Real.exp_pos (r 0)
  field_simp
  norm_num

/-- In this run the two weights of the document differ after an iteration. -/
theorem ex_differ (psi : ℝ → ℝ) :
    (iteration inv2 psi exFixed exX exX exStart).topics 0 0 ≠ (iteration inv2 psi exFixed exX exX exStart).topics 0 1 := by
  have hrhs : rhs psi exFixed exX exStart (sweepStart exFixed exStart) 0 0
      = rhs psi exFixed exX exStart (sweepStart exFixed exStart) 0 1 + 1 / 2 := by
    have h1 : ∀ k t, wordTopics psi 2 1 (fun _ _ => 1) (exTopics 0) t k = 1 / 2 := fun k t => ex_soft _ (fun _ => rfl) k
    have h2 : ∀ k, soft 2 (exTopics 0) k = 1 / 2 := fun k => ex_soft _ (fun _ => rfl) k
    have h3 : share exStart (exTopics 0) 0 = share exStart (exTopics 0) 1 := rfl
    show ∑ j ∈ Finset.range 2, inv2 (fun i j => if i = j then 1 else 0) 0 j * exUV 0 j
        + ∑ t ∈ Finset.range 1, wordTopics psi 2 1 (fun _ _ => 1) (exTopics 0) t 0 * ((1 : Nat) : ℝ)
        + (1 / 2 - 1 / ((2 : Nat) + 1 : ℝ) * ∑ j ∈ Finset.range 2, (1 / 2 : ℝ) - soft 2 (exTopics 0) 0) * _
        + (1 / 2 - _ - share exStart (exTopics 0) 0) * _ + _
      = ∑ j ∈ Finset.range 2, inv2 (fun i j => if i = j then 1 else 0) 1 j * exUV 0 j
        + ∑ t ∈ Finset.range 1, wordTopics psi 2 1 (fun _ _ => 1) (exTopics 0) t 1 * ((1 : Nat) : ℝ)
        + (1 / 2 - 1 / ((2 : Nat) + 1 : ℝ) * ∑ j ∈ Finset.range 2, (1 / 2 : ℝ) - soft 2 (exTopics 0) 1) * _
        + (1 / 2 - _ - share exStart (exTopics 0) 1) * _ + _ + 1 / 2
    rw [h3]
    simp only [h1, h2]
    have h4 : ∑ j ∈ Finset.range 2, inv2 (fun i j => if i = j then 1 else 0) 0 j * exUV 0 j = 1 / 2 := by
      simp [inv2, exUV]
    have h5 : ∑ j ∈ Finset.range 2, inv2 (fun i j => if i = j then 1 else 0) 1 j * exUV 0 j = 0 := by
      simp [inv2, exUV]
    rw [h4, h5]
    have e1 : (sweepStart exFixed exStart).sums 0 = (sweepStart exFixed exStart).sums 1 := rfl
    have e2 : exStart.inCounts 0 = exStart.inCounts 1 := rfl
    have e3 : (sweepStart exFixed exStart).topics 0 0 = (sweepStart exFixed exStart).topics 0 1 := rfl
    rw [e1, e2, e3]
    ring
  have hl : ∀ i j, i < 2 → j < 2 → lhs exFixed exX exStart 0 i j = if i = j then 47 / 12 else -1 / 3 := by
    intro i j hi hj
    have hi' : i = 0 ∨ i = 1 := by omega
    have hj' : j = 0 ∨ j = 1 := by omega
    unfold lhs
    show inv2 (fun i j => if i = j then 1 else 0) i j + (if i = j then ((exX.len 0 : Nat) : ℝ) + ((outCounts exX exX 0 : Nat) : ℝ) else 0)
      - 1 / (((2 : Nat) : ℝ) + 1) + (if i = j then (((2 : Nat) : ℝ) - 1) / ((2 : Nat) : ℝ) * (((1 : Nat) : ℝ) / ((2 : Nat) : ℝ)) else 0) = _
    have e1 : exX.len 0 = 1 := rfl
    have e2 : outCounts exX exX 0 = 2 := rfl
    rw [e1, e2]
    rcases hi' with rfl | rfl <;> rcases hj' with rfl | rfl <;> simp [inv2] <;> norm_num
  intro he
  rw [iteration_topics inv2 psi exFixed exX exX exStart 0 (by decide)] at he
  have he' : ∑ j ∈ Finset.range 2, inv2 (lhs exFixed exX exStart 0) 0 j * rhs psi exFixed exX exStart (sweepStart exFixed exStart) 0 j
      = ∑ j ∈ Finset.range 2, inv2 (lhs exFixed exX exStart 0) 1 j * rhs psi exFixed exX exStart (sweepStart exFixed exStart) 0 j := he
  simp only [Finset.sum_range_succ, Finset.sum_range_zero, hrhs] at he'
  unfold inv2 at he'
  rw [hl 0 0 (by decide) (by decide), hl 0 1 (by decide) (by decide), hl 1 0 (by decide) (by decide), hl 1 1 (by decide) (by decide)] at he'
  norm_num at he'
  linarith

/-- **C169** (violation) After an iteration from a new query state the topics of links are not the posterior ones: the normalisers are still
those of the initial weights. -/
theorem link_topics_stale (psi : ℝ → ℝ) :
    ∃ k, k < 2 ∧ linkTopics 2 exFixed.lse (iteration inv2 psi exFixed exX exX exStart).topics 0 0 k
      ≠ linkPosterior 1 2 (iteration inv2 psi exFixed exX exX exStart).topics 0 0 k := by
  by_contra hc
  push Not at hc
  have h := (link_topics_iff_partial 1 2 (by decide) (by decide) exFixed.lse _ 0 0).mp hc 0 1 (by decide) (by decide)
  have hl : exFixed.lse 0 = exFixed.lse 1 := rfl
  simp only [Finset.sum_range_one, Real.log_exp, hl] at h
  exact ex_differ psi (by linarith)

/-- A state in which the links of a corpus are not evenly spread over the topics -/
noncomputable def exUneven : MState :=
  { exStart with inCounts := fun k => if k = 0 then 3 / 4 else 1 / 4 }

/-- **C167** (violation) An iteration may produce a covariance that is not symmetric. -/
theorem cov_asymmetric (psi : ℝ → ℝ) :
    (iteration inv2 psi exFixed exX exX exUneven).cov 0 1 ≠ (iteration inv2 psi exFixed exX exX exUneven).cov 1 0 := by
  rw [Ne, cov_symmetric_partial]
  show ¬(∑ d ∈ Finset.range 1, _ = ∑ d ∈ Finset.range 1, _)
  rw [Finset.sum_range_one, Finset.sum_range_one]
  have hl : ∀ i j, i < 2 → j < 2 → lhs exFixed exX exUneven 0 i j = if i = j then (if i = 0 then 97 / 24 else 91 / 24) else -1 / 3 := by
    intro i j hi hj
    have hi' : i = 0 ∨ i = 1 := by omega
    have hj' : j = 0 ∨ j = 1 := by omega
    unfold lhs
    show inv2 (fun i j => if i = j then 1 else 0) i j + (if i = j then ((exX.len 0 : Nat) : ℝ) + ((outCounts exX exX 0 : Nat) : ℝ) else 0)
      - 1 / (((2 : Nat) : ℝ) + 1) + (if i = j then (((2 : Nat) : ℝ) - 1) / ((2 : Nat) : ℝ) * (if i = 0 then 3 / 4 else 1 / 4) else 0) = _
    have e1 : exX.len 0 = 1 := rfl
    have e2 : outCounts exX exX 0 = 2 := rfl
    rw [e1, e2]
    rcases hi' with rfl | rfl <;> rcases hj' with rfl | rfl <;> simp [inv2] <;> norm_num
  unfold inv2
  rw [hl 0 0 (by decide) (by decide), hl 0 1 (by decide) (by decide), hl 1 0 (by decide) (by decide), hl 1 1 (by decide) (by decide)]
  norm_num

/-! ## Numbers of links -/

/-- The number of links out of a document -/
def outDegree (D : Nat) (links : Data) (d : Nat) : Nat := ∑ e ∈ Finset.range D, links.words d e

/-- **C170** The stored counts are the length of the document and its number of incoming links; (violation) for symmetric links and a document
with words they exceed the number of outgoing links. -/
theorem out_counts_violation (x links : Data) (d : Nat) (hd : d < x.D) (hlen : 0 < x.len d)
    (hsym : ∀ a b, a < x.D → b < x.D → links.words a b = links.words b a) :
    outCounts x links d = x.len d + ∑ e ∈ Finset.range x.D, links.words e d ∧ outDegree x.D links d < outCounts x links d := by
  refine ⟨rfl, ?_⟩
  have : ∑ e ∈ Finset.range x.D, links.words e d = outDegree x.D links d :=
    Finset.sum_congr rfl fun e he => hsym e d (Finset.mem_range.mp he) hd
  unfold outCounts
  omega

/-- **C170** (what holds) For symmetric links they are the number of outgoing links and the length together. -/
theorem out_counts_partial (x links : Data) (d : Nat) (hd : d < x.D)
    (hsym : ∀ a b, a < x.D → b < x.D → links.words a b = links.words b a) :
    outCounts x links d = x.len d + outDegree x.D links d := by
  unfold outCounts outDegree
  rw [Finset.sum_congr rfl fun e he => hsym e d (Finset.mem_range.mp he) hd]

/-- **C170** In total the counts exceed the number of links by the number of words. -/
theorem out_counts_total (x links : Data) :
    ∑ d ∈ Finset.range x.D, outCounts x links d
      = ∑ d ∈ Finset.range x.D, x.len d + ∑ d ∈ Finset.range x.D, outDegree x.D links d := by
  unfold outCounts outDegree
  rw [Finset.sum_add_distrib, Finset.sum_comm (f := fun d e => links.words e d)]

/-! ## Distributions of links -/

/-- **C171** The entries of all rows sum to the number of documents, (violation) so unless there are as many documents as topics some row is not a
distribution over the documents. -/
theorem link_dists_violation (D K : Nat) (hK : 0 < K) (topics : Nat → Nat → ℝ) :
    ∑ k ∈ Finset.range K, ∑ d ∈ Finset.range D, linkDists K topics k d = D ∧
    (D ≠ K → ∃ k, k < K ∧ ∑ d ∈ Finset.range D, linkDists K topics k d ≠ 1) := by
  have h : ∑ k ∈ Finset.range K, ∑ d ∈ Finset.range D, linkDists K topics k d = D := by
    rw [Finset.sum_comm]
    have h1 : ∀ d ∈ Finset.range D, ∑ k ∈ Finset.range K, linkDists K topics k d = 1 := fun d _ => (soft_dist K hK (topics d)).2
    rw [Finset.sum_congr rfl h1]
    simp
  refine ⟨h, fun hne => ?_⟩
  by_contra hc
  push Not at hc
  rw [Finset.sum_congr rfl (fun k hk => hc k (Finset.mem_range.mp hk))] at h
  simp only [Finset.sum_const, Finset.card_range, nsmul_eq_mul, mul_one] at h
  exact hne (by exact_mod_cast h.symm)

/-- **C171** (what holds) Each document's column is its distribution over the topics. -/
theorem link_dists_columns_partial (K : Nat) (hK : 0 < K) (topics : Nat → Nat → ℝ) (d : Nat) :
    IsDist K (fun k => linkDists K topics k d) ∧ ∀ k, linkDists K topics k d = softmax K (topics d) k :=
  ⟨soft_dist K hK (topics d), fun k => congrFun (soft_eq K (topics d)) k⟩

/-! ## Copies -/

/-- **C164** In `mtm2.py` and `mtm3.py` a copy has the same contents, and training it leaves the original alone. -/
theorem copy_independent_partial (m : Module) (hm : m ≠ .mtm) (h : Heap) (r : Refs) (fresh : Nat) (hr : r.wordDists < fresh ∧ r.cov < fresh)
    (words cov : Nat → Nat → ℝ) :
    let c := copyModel m h r fresh
    c.1 c.2.wordDists = h r.wordDists ∧ c.1 c.2.cov = h r.cov ∧
    writeBack m c.1 c.2 words cov r.wordDists = h r.wordDists ∧ writeBack m c.1 c.2 words cov r.cov = h r.cov := by
  obtain ⟨h1, h2⟩ := hr
  cases m with
  | mtm => exact absurd rfl hm
  | mtm2 =>
    refine ⟨?_, ?_, ?_, ?_⟩
    · simp [copyModel]
    · simp [copyModel]
    · have : r.wordDists ≠ fresh := by omega
      have : r.wordDists ≠ fresh + 1 := by omega
      simp [copyModel, writeBack, *]
    · have : r.cov ≠ fresh := by omega
      have : r.cov ≠ fresh + 1 := by omega
      simp [copyModel, writeBack, *]
  | mtm3 =>
    refine ⟨?_, ?_, ?_, ?_⟩
    · simp [copyModel]
    · simp [copyModel]
    · have : r.wordDists ≠ fresh := by omega
      have : r.wordDists ≠ fresh + 1 := by omega
      simp [copyModel, writeBack, *]
    · have : r.cov ≠ fresh := by omega
      have : r.cov ≠ fresh + 1 := by omega
      simp [copyModel, writeBack, *]

/-- **C164** (violation) In `mtm.py` training the copy overwrites the covariance of the original with that of the copy; its word parameters are
left alone. -/
theorem copy_shares_covariance (h : Heap) (r : Refs) (fresh : Nat) (hr : r.wordDists < fresh ∧ r.cov < fresh) (hne : r.wordDists ≠ r.cov)
    (words cov : Nat → Nat → ℝ) :
    let c := copyModel .mtm h r fresh
    writeBack .mtm c.1 c.2 words cov r.cov = cov ∧ writeBack .mtm c.1 c.2 words cov r.wordDists = h r.wordDists := by
  obtain ⟨h1, h2⟩ := hr
  have : r.wordDists ≠ fresh := by omega
  constructor
  · simp [copyModel, writeBack]
  · simp [copyModel, writeBack, *]

/-! ## Attributes -/

/-- **C172** (violation) In `mtm2.py` and `mtm3.py` the topic distributions cannot be read, and in `mtm.py` links cannot be predicted, from any
state. -/
theorem attributes_missing {α : Type} (rest : α) :
    Module.mtm2.topicDists rest = .error .attributeError ∧ Module.mtm3.topicDists rest = .error .attributeError ∧
    Module.mtm.linkProbs rest = .error .attributeError := ⟨rfl, rfl, rfl⟩

/-- **C172** (what works) -/
theorem attributes_present_partial {α : Type} (rest : α) :
    Module.mtm.topicDists rest = .ok rest ∧ Module.mtm2.linkProbs rest = .ok rest ∧ Module.mtm3.linkProbs rest = .ok rest := ⟨rfl, rfl, rfl⟩

/-! ## Examples -/

example : ∃ st', Mtm.train inv2 id exFixed exX exX (fun _ _ => false) 1 3 true
    (newQuery 2 exX exX exTopics (fun _ _ => 1) (fun i j => if i = j then 1 else 0)) = .ok st' := by
  unfold Mtm.train
  rw [if_neg, if_neg]
  · exact ⟨_, rfl⟩
  · omega
  · rintro ⟨d, hd, h⟩
    have : exX.len d = 1 := rfl
    omega

/-- A model that has seen its only word five times, asked about a document in which it occurs once -/
example : (2 : Nat) = exFixed.K ∧ ∑ k ∈ Finset.range 2, (fun _ _ => 31 / 10 : Nat → Nat → ℝ) k 0 = (2 : Nat) * exFixed.vocabPrior + (5 : Nat)
    ∧ (5 : Nat) ≠ ∑ d ∈ Finset.range exX.D, exX.words d 0 := by
  refine ⟨rfl, ?_, by decide⟩
  show _ = ((2 : Nat) : ℝ) * (6 / 10) + _
  norm_num [Finset.sum_range_succ]

example : 0 < exX.len 0 ∧ ∀ d, d < exX.D → 0 < exTopics d 0 := ⟨by decide, fun _ _ => by unfold exTopics; norm_num⟩

example : ∃ r : Refs, (r.wordDists < 2 ∧ r.cov < 2) ∧ r.wordDists ≠ r.cov := ⟨⟨0, 1⟩, by decide, by decide⟩

end Verif.Props.Mtm
