import Mathlib.Algebra.Order.Floor.Semiring
import Mathlib.Data.Rat.Floor
import Mathlib.Algebra.Order.BigOperators.Ring.Finset
import Mathlib.Algebra.BigOperators.Fin
import Verif.Props.Gibbs
import Verif.Lemmas.GibbsChain

/-!
# Collapsed Gibbs sampling draws from the posterior
-/

namespace Verif.Props.GibbsPosterior

open Verif Verif.Gibbs Verif.Props.Gibbs
open Verif.GibbsChain (step run)

/-! ## The choice of a topic -/

theorem partial_mono (K : Nat) (dist : Nat → ℚ) (hd : ∀ j, j < K → 0 ≤ dist j) (i j : Nat) (hij : i ≤ j) (hj : j ≤ K) :
    ∑ l ∈ Finset.range i, dist l ≤ ∑ l ∈ Finset.range j, dist l :=
  Finset.sum_le_sum_of_subset_of_nonneg (Finset.range_subset_range.2 hij)
    (fun l hl _ => hd l (by have := Finset.mem_range.1 hl; omega))

/-- C198: with a draw between zero and the sum of the weights, topic `k` is chosen exactly when the draw lies in the `k`-th of
adjacent intervals, whose length is the weight of the topic. -/
theorem choice_iff (K : Nat) (dist : Nat → ℚ) (hd : ∀ j, j < K → 0 ≤ dist j) (draw : ℚ) (h0 : 0 < draw)
    (h1 : draw ≤ ∑ j ∈ Finset.range K, dist j) (k : Nat) :
    chooseLoop K dist K (-1) draw = some (k : Int) ↔
      k < K ∧ ∑ j ∈ Finset.range k, dist j < draw ∧ draw ≤ ∑ j ∈ Finset.range k, dist j + dist k := by
  obtain ⟨k', hk', hrun, hlo, hhi⟩ := chooseLoop_valid K dist draw h1 K 0 (by omega) (by simpa using h0)
  have hrun' : chooseLoop K dist K (-1) draw = some (k' : Int) := by simpa using hrun
  rw [hrun', ← Finset.sum_range_succ]
  constructor
  · intro h
    have : k' = k := by simpa using h
    subst this
    exact ⟨hk', hlo, hhi⟩
  · rintro ⟨hk, hlo', hhi'⟩
    have : k' = k := by
      rcases Nat.lt_trichotomy k' k with h | h | h
      · have := partial_mono K dist hd (k' + 1) k h hk.le
        linarith
      · exact h
      · have := partial_mono K dist hd (k + 1) k' h hk'.le
        linarith
    rw [this]

/-- C198: of the `RAND_MAX + 1` numbers `rand()` can return, those that choose topic `k` are as many as the chance of the topic
demands, up to less than one. -/
theorem draws_of_topic (K : Nat) (dist : Nat → ℚ) (hd : ∀ j, j < K → 0 ≤ dist j) (hpos : 0 < ∑ j ∈ Finset.range K, dist j)
    (k : Nat) (hk : k < K) :
    |((((Finset.range (randMax + 1)).filter fun r => chooseTopic K dist r = some (k : Int)).card : ℚ)
      - randMax * (dist k / ∑ j ∈ Finset.range K, dist j))| < 1 := by
  obtain ⟨S, hS⟩ : ∃ S, S = ∑ j ∈ Finset.range K, dist j := ⟨_, rfl⟩
  have hR : (0 : ℚ) < randMax := by unfold randMax; norm_num
  obtain ⟨A, hA⟩ : ∃ A : ℚ, A = randMax * (∑ j ∈ Finset.range k, dist j) / S := ⟨_, rfl⟩
  obtain ⟨B, hB⟩ : ∃ B : ℚ, B = randMax * (∑ j ∈ Finset.range (k + 1), dist j) / S := ⟨_, rfl⟩
  have hSpos : 0 < S := hS ▸ hpos
  have hA0 : 0 ≤ A := by
    rw [hA]
    exact div_nonneg (mul_nonneg hR.le (Finset.sum_nonneg fun j hj => hd j (by have := Finset.mem_range.1 hj; omega))) hSpos.le
  have hAB : B - A = randMax * (dist k / S) := by
    rw [hA, hB, Finset.sum_range_succ]; ring
  have hAB0 : A ≤ B := by
    have : 0 ≤ randMax * (dist k / S) := mul_nonneg hR.le (div_nonneg (hd k hk) hSpos.le)
    linarith
  have hBR : B ≤ randMax := by
    rw [hB, div_le_iff₀ hSpos]
    have := partial_mono K dist hd (k + 1) K hk le_rfl
    rw [← hS] at this
    exact mul_le_mul_of_nonneg_left this hR.le
  have hset : (Finset.range (randMax + 1)).filter (fun r => chooseTopic K dist r = some (k : Int)) = Finset.Ioc ⌊A⌋₊ ⌊B⌋₊ := by
    ext r
    rw [Finset.mem_filter, Finset.mem_range, Finset.mem_Ioc]
    rcases Nat.eq_zero_or_pos r with rfl | hr
    · rw [zero_draw_selects_no_topic]
      constructor
      · rintro ⟨_, h⟩
        simp at h
      · rintro ⟨h, _⟩
        omega
    · have hr0 : (0 : ℚ) < r := by exact_mod_cast hr
      have hlo : ∑ j ∈ Finset.range k, dist j < (r : ℚ) / randMax * S ↔ ⌊A⌋₊ < r := by
        rw [Nat.floor_lt hA0, hA, div_lt_iff₀ hSpos, div_mul_eq_mul_div, lt_div_iff₀ hR, mul_comm]
      have hhi : (r : ℚ) / randMax * S ≤ ∑ j ∈ Finset.range (k + 1), dist j ↔ r ≤ ⌊B⌋₊ := by
        rw [Nat.le_floor_iff (hA0.trans hAB0), hB, le_div_iff₀ hSpos, div_mul_eq_mul_div, div_le_iff₀ hR, mul_comm (randMax : ℚ)]
      have hchoose : r ≤ randMax → (chooseTopic K dist r = some (k : Int) ↔ ⌊A⌋₊ < r ∧ r ≤ ⌊B⌋₊) := by
        intro hrm
        have hrm' : (r : ℚ) ≤ randMax := by exact_mod_cast hrm
        unfold chooseTopic
        rw [choice_iff K dist hd _ (mul_pos (div_pos hr0 hR) hpos) ?_ k, ← Finset.sum_range_succ, ← hS, hlo, hhi]
        · exact ⟨fun h => h.2, fun h => ⟨hk, h⟩⟩
        · have : (r : ℚ) / randMax ≤ 1 := (div_le_one hR).2 hrm'
          calc (r : ℚ) / randMax * ∑ j ∈ Finset.range K, dist j ≤ 1 * ∑ j ∈ Finset.range K, dist j :=
                mul_le_mul_of_nonneg_right this hpos.le
            _ = _ := one_mul _
      constructor
      · rintro ⟨h1, h2⟩
        exact (hchoose (by omega)).1 h2
      · rintro ⟨h1, h2⟩
        have hle : r ≤ randMax := by
          have h3 : (⌊B⌋₊ : ℚ) ≤ B := Nat.floor_le (hA0.trans hAB0)
          have h4 : (r : ℚ) ≤ ⌊B⌋₊ := by exact_mod_cast h2
          have h5 : (r : ℚ) ≤ randMax := h4.trans (h3.trans hBR)
          exact_mod_cast h5
        exact ⟨by omega, (hchoose hle).2 ⟨h1, h2⟩⟩
  rw [hset, Nat.card_Ioc, Nat.cast_sub (Nat.floor_le_floor hAB0), ← hS, ← hAB, abs_lt]
  have h1 := Nat.floor_le hA0
  have h2 := Nat.lt_floor_add_one A
  have h3 := Nat.floor_le (hA0.trans hAB0)
  have h4 := Nat.lt_floor_add_one B
  constructor <;> linarith

/-! ## The joint probability of words and topics -/

/-- `a (a+1) ... (a+n-1)` -/
def rise (a : ℚ) (n : Nat) : ℚ := ∏ i ∈ Finset.range n, (a + i)

/-- How many tokens of document `d` have topic `k` -/
def docCount (p : Params) (z : Nat → Nat) (d k : Nat) : Nat := count p.lens (fun d' n => d' = d ∧ z n = k)

/-- How many tokens of topic `k` are word `v` -/
def wordCount (p : Params) (z : Nat → Nat) (k v : Nat) : Nat := count p.lens (fun _ n => z n = k ∧ p.w n = v)

/-- How many tokens have topic `k` -/
def topicCount (p : Params) (z : Nat → Nat) (k : Nat) : Nat := count p.lens (fun _ n => z n = k)

/-- The probability of the topics of all tokens: in every document they are drawn from a distribution with a Dirichlet prior. -/
def topicProb (p : Params) (m : Nat → Nat → Nat) : ℚ :=
  ∏ d ∈ Finset.range p.lens.length,
    (∏ k ∈ Finset.range p.K, rise (p.a d k) (m d k)) / rise (∑ k ∈ Finset.range p.K, p.a d k) (p.lens.getD d 0)

/-- The probability of the words given the topics: for every topic they are drawn from a distribution with a Dirichlet prior. -/
def wordProb (p : Params) (c : Nat → Nat → Nat) (s : Nat → Nat) : ℚ :=
  ∏ k ∈ Finset.range p.K, (∏ v ∈ Finset.range p.T, rise (p.b v) (c k v)) / rise (∑ v ∈ Finset.range p.T, p.b v) (s k)

/-- The joint probability of topics and words under LDA, the distributions integrated out -/
def joint (p : Params) (z : Nat → Nat) : ℚ := topicProb p (docCount p z) * wordProb p (wordCount p z) (topicCount p z)

theorem rise_succ (a : ℚ) (n : Nat) : rise a (n + 1) = rise a n * (a + n) := by
  unfold rise
  rw [Finset.prod_range_succ]

theorem rise_pos (a : ℚ) (ha : 0 < a) (n : Nat) : 0 < rise a n :=
  Finset.prod_pos fun i _ => by
    have : (0 : ℚ) ≤ i := Nat.cast_nonneg i
    linarith

theorem rise_bump (a : ℚ) (n : Nat) (q : Prop) [Decidable q] : rise a (n + if q then 1 else 0) = rise a n * if q then a + n else 1 := by
  split_ifs
  · exact rise_succ a n
  · simp

theorem topicProb_bump (p : Params) (m : Nat → Nat → Nat) (d0 j : Nat) (hd : d0 < p.lens.length) (hj : j < p.K) :
    topicProb p (fun d k => m d k + if d = d0 ∧ k = j then 1 else 0) = topicProb p m * (p.a d0 j + m d0 j) := by
  have h1 : ∀ d, (∏ k ∈ Finset.range p.K, rise (p.a d k) (m d k + if d = d0 ∧ k = j then 1 else 0))
      / rise (∑ k ∈ Finset.range p.K, p.a d k) (p.lens.getD d 0)
      = (∏ k ∈ Finset.range p.K, rise (p.a d k) (m d k)) / rise (∑ k ∈ Finset.range p.K, p.a d k) (p.lens.getD d 0)
        * if d = d0 then p.a d0 j + m d0 j else 1 := by
    intro d
    have h2 : ∏ k ∈ Finset.range p.K, rise (p.a d k) (m d k + if d = d0 ∧ k = j then 1 else 0)
        = (∏ k ∈ Finset.range p.K, rise (p.a d k) (m d k)) * ∏ k ∈ Finset.range p.K, if d = d0 ∧ k = j then p.a d k + m d k else 1 := by
      rw [← Finset.prod_mul_distrib]
      exact Finset.prod_congr rfl fun k _ => rise_bump _ _ _
    have h3 : (∏ k ∈ Finset.range p.K, if d = d0 ∧ k = j then p.a d k + (m d k : ℚ) else 1) = if d = d0 then p.a d0 j + m d0 j else 1 := by
      by_cases hdd : d = d0
      · subst hdd
        simp only [true_and, if_true]
        rw [Finset.prod_ite_eq' (Finset.range p.K) j (fun k => p.a d k + (m d k : ℚ)), if_pos (Finset.mem_range.2 hj)]
      · simp [hdd]
    rw [h2, h3]
    ring
  unfold topicProb
  rw [Finset.prod_congr rfl fun d _ => h1 d, Finset.prod_mul_distrib, Finset.prod_ite_eq' (Finset.range p.lens.length) d0
    (fun _ => p.a d0 j + (m d0 j : ℚ)), if_pos (Finset.mem_range.2 hd)]

theorem wordProb_bump (p : Params) (c : Nat → Nat → Nat) (s : Nat → Nat) (j v0 : Nat) (hj : j < p.K) (hv : v0 < p.T) :
    wordProb p (fun k v => c k v + if k = j ∧ v = v0 then 1 else 0) (fun k => s k + if k = j then 1 else 0)
      = wordProb p c s * ((p.b v0 + c j v0) / (∑ v ∈ Finset.range p.T, p.b v + s j)) := by
  have h1 : ∀ k, (∏ v ∈ Finset.range p.T, rise (p.b v) (c k v + if k = j ∧ v = v0 then 1 else 0))
      / rise (∑ v ∈ Finset.range p.T, p.b v) (s k + if k = j then 1 else 0)
      = (∏ v ∈ Finset.range p.T, rise (p.b v) (c k v)) / rise (∑ v ∈ Finset.range p.T, p.b v) (s k)
        * if k = j then (p.b v0 + c j v0) / (∑ v ∈ Finset.range p.T, p.b v + s j) else 1 := by
    intro k
    have h2 : ∏ v ∈ Finset.range p.T, rise (p.b v) (c k v + if k = j ∧ v = v0 then 1 else 0)
        = (∏ v ∈ Finset.range p.T, rise (p.b v) (c k v)) * ∏ v ∈ Finset.range p.T, if k = j ∧ v = v0 then p.b v + c k v else 1 := by
      rw [← Finset.prod_mul_distrib]
      exact Finset.prod_congr rfl fun v _ => rise_bump _ _ _
    have h3 : (∏ v ∈ Finset.range p.T, if k = j ∧ v = v0 then p.b v + (c k v : ℚ) else 1) = if k = j then p.b v0 + c j v0 else 1 := by
      by_cases hkj : k = j
      · subst hkj
        simp only [true_and, if_true]
        rw [Finset.prod_ite_eq' (Finset.range p.T) v0 (fun v => p.b v + (c k v : ℚ)), if_pos (Finset.mem_range.2 hv)]
      · simp [hkj]
    rw [h2, h3, rise_bump]
    by_cases hkj : k = j
    · subst hkj
      simp only [if_true]
      rw [mul_div_mul_comm]
    · simp [hkj]
  unfold wordProb
  rw [Finset.prod_congr rfl fun k _ => h1 k, Finset.prod_mul_distrib, Finset.prod_ite_eq' (Finset.range p.K) j
    (fun _ => (p.b v0 + (c j v0 : ℚ)) / (∑ v ∈ Finset.range p.T, p.b v + s j)), if_pos (Finset.mem_range.2 hj)]

theorem docCount_eq (p : Params) (z : Nat → Nat) (d k : Nat) :
    (docCount p z d k : Int) = cnt (tokens p.lens) z (fun d' _ k' => decide (d' = d) && decide (k' = k)) :=
  (cnt_eq_count _ _ _ _ (fun d' n => by simp)).symm

theorem wordCount_eq (p : Params) (z : Nat → Nat) (k v : Nat) :
    (wordCount p z k v : Int) = cnt (tokens p.lens) z (fun _ n k' => decide (k' = k) && decide (p.w n = v)) :=
  (cnt_eq_count _ _ _ _ (fun d' n => by simp)).symm

theorem topicCount_eq (p : Params) (z : Nat → Nat) (k : Nat) :
    (topicCount p z k : Int) = cnt (tokens p.lens) z (fun _ _ k' => decide (k' = k)) :=
  (cnt_eq_count _ _ _ _ (fun d' n => by simp)).symm

/-- The counts without one token -/
theorem doc_without (p : Params) (z : Nat → Nat) (t : Nat × Nat) (ht : t ∈ tokens p.lens) :
    ∃ m : Nat → Nat → Nat, (∀ d k, (m d k : Int) = bump2 (fun d k => (docCount p z d k : Int)) t.1 (z t.2) (-1) d k) ∧
      ∀ j, docCount p (Function.update z t.2 j) = fun d k => m d k + if d = t.1 ∧ k = j then 1 else 0 := by
  have hpos : ∀ d k, d = t.1 ∧ k = z t.2 → 1 ≤ docCount p z d k := by
    intro d k h
    have := cnt_pos (tokens p.lens) t ht z (fun d' _ k' => decide (d' = d) && decide (k' = k)) (by simp [h.1, h.2])
    rw [← docCount_eq] at this
    omega
  refine ⟨fun d k => (bump2 (fun d k => (docCount p z d k : Int)) t.1 (z t.2) (-1) d k).toNat, ?_, ?_⟩
  · intro d k
    rw [Int.toNat_of_nonneg]
    rw [bump2_at]
    split
    · rename_i h
      have := hpos d k h
      omega
    · omega
  · intro j
    funext d k
    have h1 := docCount_eq p (Function.update z t.2 j) d k
    rw [cnt_update _ (tokens_nodup p.lens) t ht, ← docCount_eq] at h1
    simp only [Bool.and_eq_true, decide_eq_true_eq, eq_comm (a := t.1), eq_comm (a := z t.2), eq_comm (a := j)] at h1
    dsimp only
    rw [bump2_at]
    have := hpos d k
    split_ifs at h1 ⊢ <;> omega

theorem word_without (p : Params) (z : Nat → Nat) (t : Nat × Nat) (ht : t ∈ tokens p.lens) :
    ∃ c : Nat → Nat → Nat, (∀ k v, (c k v : Int) = bump2 (fun k v => (wordCount p z k v : Int)) (z t.2) (p.w t.2) (-1) k v) ∧
      ∀ j, wordCount p (Function.update z t.2 j) = fun k v => c k v + if k = j ∧ v = p.w t.2 then 1 else 0 := by
  have hpos : ∀ k v, k = z t.2 ∧ v = p.w t.2 → 1 ≤ wordCount p z k v := by
    intro k v h
    have := cnt_pos (tokens p.lens) t ht z (fun _ n k' => decide (k' = k) && decide (p.w n = v)) (by simp [h.1, h.2])
    rw [← wordCount_eq] at this
    omega
  refine ⟨fun k v => (bump2 (fun k v => (wordCount p z k v : Int)) (z t.2) (p.w t.2) (-1) k v).toNat, ?_, ?_⟩
  · intro k v
    rw [Int.toNat_of_nonneg]
    rw [bump2_at]
    split
    · rename_i h
      have := hpos k v h
      omega
    · omega
  · intro j
    funext k v
    have h1 := wordCount_eq p (Function.update z t.2 j) k v
    rw [cnt_update _ (tokens_nodup p.lens) t ht, ← wordCount_eq] at h1
    simp only [Bool.and_eq_true, decide_eq_true_eq, eq_comm (a := p.w t.2), eq_comm (a := z t.2), eq_comm (a := j)] at h1
    dsimp only
    rw [bump2_at]
    have := hpos k v
    split_ifs at h1 ⊢ <;> omega

theorem topic_without (p : Params) (z : Nat → Nat) (t : Nat × Nat) (ht : t ∈ tokens p.lens) :
    ∃ c : Nat → Nat, (∀ k, (c k : Int) = bump (fun k => (topicCount p z k : Int)) (z t.2) (-1) k) ∧
      ∀ j, topicCount p (Function.update z t.2 j) = fun k => c k + if k = j then 1 else 0 := by
  have hpos : ∀ k, k = z t.2 → 1 ≤ topicCount p z k := by
    intro k h
    have := cnt_pos (tokens p.lens) t ht z (fun _ _ k' => decide (k' = k)) (by simp [h])
    rw [← topicCount_eq] at this
    omega
  refine ⟨fun k => (bump (fun k => (topicCount p z k : Int)) (z t.2) (-1) k).toNat, ?_, ?_⟩
  · intro k
    rw [Int.toNat_of_nonneg]
    rw [bump_at]
    split
    · rename_i h
      have := hpos k h
      omega
    · omega
  · intro j
    funext k
    have h1 := topicCount_eq p (Function.update z t.2 j) k
    rw [cnt_update _ (tokens_nodup p.lens) t ht, ← topicCount_eq] at h1
    simp only [decide_eq_true_eq, eq_comm (a := z t.2), eq_comm (a := j)] at h1
    dsimp only
    rw [bump_at]
    have := hpos k
    split_ifs at h1 ⊢ <;> omega

/-- What the sampler looks at when it chooses a topic for token `t`: the weights after the token has been taken out -/
def weights (p : Params) (delta : Int) (s : Tables) (t : Nat × Nat) : Nat → ℚ :=
  topicWeights p (bump2 s.ndk t.1 (s.z t.2) (-1)) (bump2 s.nkv (s.z t.2) (p.w t.2) (-delta)) (bump s.nk (s.z t.2) (-delta)) t.1 (p.w t.2)

/-- The tables count the assignments. -/
structure Counted (p : Params) (s : Tables) : Prop where
  ndk : ∀ d k, s.ndk d k = docCount p s.z d k
  nkv : ∀ k v, s.nkv k v = wordCount p s.z k v
  nk : ∀ k, s.nk k = topicCount p s.z k

theorem topicProb_pos (p : Params) (hp : PositivePriors p) (hK : 0 < p.K) (m : Nat → Nat → Nat) : 0 < topicProb p m := by
  refine Finset.prod_pos fun d hd => ?_
  have hd := Finset.mem_range.1 hd
  refine div_pos (Finset.prod_pos fun k hk => rise_pos _ (hp.1 d k hd (Finset.mem_range.1 hk)) _) (rise_pos _ ?_ _)
  exact Finset.sum_pos (fun k hk => hp.1 d k hd (Finset.mem_range.1 hk)) ⟨0, Finset.mem_range.2 hK⟩

theorem wordProb_pos (p : Params) (hp : PositivePriors p) (hT : 0 < p.T) (c : Nat → Nat → Nat) (s : Nat → Nat) : 0 < wordProb p c s := by
  refine Finset.prod_pos fun k _ => ?_
  refine div_pos (Finset.prod_pos fun v hv => rise_pos _ (hp.2 v (Finset.mem_range.1 hv)) _) (rise_pos _ ?_ _)
  exact Finset.sum_pos (fun v hv => hp.2 v (Finset.mem_range.1 hv)) ⟨0, Finset.mem_range.2 hT⟩

theorem joint_pos (p : Params) (hp : PositivePriors p) (hK : 0 < p.K) (hT : 0 < p.T) (z : Nat → Nat) : 0 < joint p z :=
  mul_pos (topicProb_pos p hp hK _) (wordProb_pos p hp hT _ _)

/-- C199: the weights of the topics of a token are proportional to the joint probabilities of the assignments that result. -/
theorem weights_exact (p : Params) (hp : PositivePriors p) (hw : ValidWords p) (hK : 0 < p.K) (s : Tables) (hs : Counted p s)
    (t : Nat × Nat) (ht : t ∈ tokens p.lens) :
    ∃ C : ℚ, 0 < C ∧ ∀ k, k < p.K → joint p (Function.update s.z t.2 k) = C * weights p 1 s t k := by
  obtain ⟨m, hm, hm'⟩ := doc_without p s.z t ht
  obtain ⟨c, hc, hc'⟩ := word_without p s.z t ht
  obtain ⟨n, hn, hn'⟩ := topic_without p s.z t ht
  have hd : t.1 < p.lens.length := by
    have := tokens_doc_lt p.lens 0 0 t ht; omega
  have hv := hw t.2 (tokens_lt _ _ ht)
  have hT : 0 < p.T := by omega
  refine ⟨topicProb p m * wordProb p c n, mul_pos (topicProb_pos p hp hK _) (wordProb_pos p hp hT _ _), ?_⟩
  intro k hk
  have e1 : s.ndk = fun d k => (docCount p s.z d k : Int) := funext fun d => funext fun k => hs.ndk d k
  have e2 : s.nkv = fun k v => (wordCount p s.z k v : Int) := funext fun k => funext fun v => hs.nkv k v
  have e3 : s.nk = fun k => (topicCount p s.z k : Int) := funext fun k => hs.nk k
  unfold joint weights topicWeights
  rw [hm', hc', hn', topicProb_bump p m t.1 k hd hk, wordProb_bump p c n k (p.w t.2) hk hv, e1, e2, e3, ← hm, ← hc, ← hn]
  unfold Params.bSum
  push_cast
  ring

/-- The chance of topic `k` for token `t`: the weight over the sum of the weights -/
def chance (p : Params) (delta : Int) (s : Tables) (t : Nat × Nat) (k : Nat) : ℚ :=
  weights p delta s t k / ∑ j ∈ Finset.range p.K, weights p delta s t j

/-- C199: the chances of the topics of a token are their conditional probabilities given the words and all other topics. -/
theorem chance_exact (p : Params) (hp : PositivePriors p) (hw : ValidWords p) (hK : 0 < p.K) (s : Tables) (hs : Counted p s)
    (t : Nat × Nat) (ht : t ∈ tokens p.lens) (k : Nat) (hk : k < p.K) :
    chance p 1 s t k = joint p (Function.update s.z t.2 k) / ∑ j ∈ Finset.range p.K, joint p (Function.update s.z t.2 j) := by
  obtain ⟨C, hC, h⟩ := weights_exact p hp hw hK s hs t ht
  rw [h k hk, Finset.sum_congr rfl fun j hj => h j (Finset.mem_range.1 hj), ← Finset.mul_sum, mul_div_mul_left _ _ hC.ne']
  rfl

/-! ## Sweeps -/

/-- The tables after topic `k` has been chosen for token `t` -/
def moved (p : Params) (delta : Int) (s : Tables) (t : Nat × Nat) (k : Nat) : Tables where
  z := Function.update s.z t.2 k
  ndk := bump2 (bump2 s.ndk t.1 (s.z t.2) (-1)) t.1 k 1
  nkv := bump2 (bump2 s.nkv (s.z t.2) (p.w t.2) (-delta)) k (p.w t.2) delta
  nk := bump (bump s.nk (s.z t.2) (-delta)) k delta

/-- C198: a number from `rand()` leads to the tables of the topic it chooses. -/
theorem resample_moves (p : Params) (hK : p.K ≤ 256) (delta : Int) (r : Nat) (t : Nat × Nat) (s : Tables) (k : Nat) (hk : k < p.K) :
    resample p delta r t s = some (moved p delta s t k) ↔ chooseTopic p.K (weights p delta s t) r = some (k : Int) := by
  constructor
  · intro h
    unfold resample at h
    simp only at h
    change (match chooseTopic p.K (weights p delta s t) r with
      | some (.ofNat k') => some _
      | _ => none) = _ at h
    rcases hc : chooseTopic p.K (weights p delta s t) r with _ | k'
    · rw [hc] at h; cases h
    · rw [hc] at h
      cases k' with
      | negSucc n => cases h
      | ofNat k' =>
        have hk' := chooseTopic_lt p.K (by omega) _ r k' hc
        have h2 := congrArg (fun o => (o.map fun s' => s'.z t.2)) h
        simp only [Option.map_some, moved, Function.update_self, Option.some.injEq] at h2
        rw [Nat.mod_eq_of_lt (by omega)] at h2
        rw [h2]
        rfl
  · intro h
    unfold resample
    simp only
    change (match chooseTopic p.K (weights p delta s t) r with
      | some (.ofNat k') => some _
      | _ => none) = _
    rw [h]
    show some _ = _
    congr 1
    unfold moved
    congr 1
    rw [Nat.mod_eq_of_lt (by omega)]

/-- The expected value of `F` after the tokens in `order` have been given new topics, each drawn with the chances of the topics -/
def expect (p : Params) (delta : Int) : List (Nat × Nat) → (Tables → ℚ) → Tables → ℚ
  | [], F, s => F s
  | t :: ts, F, s => ∑ k ∈ Finset.range p.K, chance p delta s t k * expect p delta ts F (moved p delta s t k)

/-- All assignments of topics to tokens -/
abbrev Assign (p : Params) := Fin p.lens.sum → Fin p.K

/-- An assignment as a list of topics -/
def ext (p : Params) (f : Assign p) (n : Nat) : Nat := if h : n < p.lens.sum then (f ⟨n, h⟩ : Nat) else 0

/-- The tables with which training starts from an assignment -/
def start (p : Params) (f : Assign p) : Tables := sumSuffStats p.w p.lens (zeroTables (ext p f))

/-- The position of a token -/
def idx (p : Params) (t : Nat × Nat) : Option (Fin p.lens.sum) := if h : t.2 < p.lens.sum then some ⟨t.2, h⟩ else none

theorem ext_update (p : Params) (f : Assign p) (n : Nat) (hn : n < p.lens.sum) (k : Fin p.K) :
    ext p (Function.update f ⟨n, hn⟩ k) = Function.update (ext p f) n k := by
  funext i
  unfold ext
  by_cases hi : i = n
  · subst hi
    simp [hn]
  · rw [Function.update_of_ne hi]
    split_ifs with h
    · rw [Function.update_of_ne (by simpa using hi)]
    · rfl

theorem start_eq (p : Params) (f : Assign p) : start p f = ⟨ext p f, fun d k => (docCount p (ext p f) d k : Int),
    fun k v => (wordCount p (ext p f) k v : Int), fun k => (topicCount p (ext p f) k : Int)⟩ := by
  unfold start
  rw [sumSuffStats_eq]
  simp only [zeroTables, docCount_eq, wordCount_eq, topicCount_eq, zero_add]

theorem start_counted (p : Params) (f : Assign p) : Counted p (start p f) := by
  rw [start_eq]
  exact ⟨fun _ _ => rfl, fun _ _ => rfl, fun _ => rfl⟩

theorem start_moved (p : Params) (f : Assign p) (t : Nat × Nat) (ht : t ∈ tokens p.lens) (k : Fin p.K) :
    moved p 1 (start p f) t k = start p (Function.update f ⟨t.2, tokens_lt _ _ ht⟩ k) := by
  obtain ⟨m, hm, hm'⟩ := doc_without p (ext p f) t ht
  obtain ⟨c, hc, hc'⟩ := word_without p (ext p f) t ht
  obtain ⟨n, hn, hn'⟩ := topic_without p (ext p f) t ht
  rw [start_eq, start_eq, ext_update, hm', hc', hn']
  unfold moved
  congr 1
  · funext d j
    rw [bump2_at, ← hm]
    push_cast
    rfl
  · funext j v
    rw [bump2_at, ← hc]
    push_cast
    rfl
  · funext j
    rw [bump_at, ← hn]
    push_cast
    rfl

/-- Sampling tokens one after another, seen as a walk on the assignments -/
theorem expect_eq_run (p : Params) (delta : Int) (J : Assign p → ℚ) (tab : Assign p → Tables)
    (hmove : ∀ f t (ht : t ∈ tokens p.lens) (k : Fin p.K),
      moved p delta (tab f) t k = tab (Function.update f ⟨t.2, tokens_lt _ _ ht⟩ k))
    (hchance : ∀ f t (ht : t ∈ tokens p.lens) (k : Fin p.K),
      chance p delta (tab f) t k = GibbsChain.cond J f ⟨t.2, tokens_lt _ _ ht⟩ k)
    (F : Tables → ℚ) (order : List (Nat × Nat)) : (∀ t ∈ order, t ∈ tokens p.lens) → ∀ f,
    expect p delta order F (tab f) = run J (order.filterMap (idx p)) (fun g => F (tab g)) f := by
  induction order with
  | nil => exact fun _ f => rfl
  | cons t order ih =>
    intro hmem f
    have ht := hmem t List.mem_cons_self
    have hidx : idx p t = some ⟨t.2, tokens_lt _ _ ht⟩ := dif_pos (tokens_lt _ _ ht)
    rw [List.filterMap_cons_some hidx]
    show ∑ k ∈ Finset.range p.K, chance p delta (tab f) t k * expect p delta order F (moved p delta (tab f) t k) = ∑ k : Fin p.K, _
    rw [Finset.sum_range]
    refine Finset.sum_congr rfl fun k _ => ?_
    rw [hmove f t ht k, hchance f t ht k, ih (fun t' ht' => hmem t' (List.mem_cons_of_mem _ ht'))]

theorem idx_values (p : Params) (order : List (Nat × Nat)) (h : ∀ t ∈ order, t.2 < p.lens.sum) :
    (order.filterMap (idx p)).map Fin.val = order.map Prod.snd := by
  induction order with
  | nil => rfl
  | cons t order ih =>
    have ht := h t List.mem_cons_self
    have hidx : idx p t = some ⟨t.2, ht⟩ := dif_pos ht
    rw [List.filterMap_cons_some hidx, List.map_cons, List.map_cons, ih (fun t' ht' => h t' (List.mem_cons_of_mem _ ht'))]

theorem sweep_positions (p : Params) (rnd : Nat → Nat) :
    ((sweepOrder rnd p.lens).filterMap (idx p)).length = p.lens.sum ∧
    ∀ i, i ∈ (sweepOrder rnd p.lens).filterMap (idx p) := by
  have hval := idx_values p (sweepOrder rnd p.lens) (fun t ht => tokens_lt _ _ (mem_sweep _ _ t ht))
  have hperm : ((sweepOrder rnd p.lens).map Prod.snd).Perm (List.range' 0 p.lens.sum) := by
    have := (sweepFrom_perm rnd p.lens 0 0).map Prod.snd
    rwa [tokensFrom_snd] at this
  constructor
  · have h1 := congrArg List.length hval
    rw [List.length_map] at h1
    rw [h1, hperm.length_eq, List.length_range']
  · intro i
    have h1 : (i : Nat) ∈ (sweepOrder rnd p.lens).map Prod.snd := by
      rw [hperm.mem_iff, List.mem_range'_1]
      have := i.2
      omega
    rw [← hval, List.mem_map] at h1
    obtain ⟨j, hj, hji⟩ := h1
    rwa [← Fin.ext hji]

/-- The mean of `F` over all assignments, each with its posterior probability (the joint probability over its sum) -/
def posteriorMean (p : Params) (J : Assign p → ℚ) (F : Assign p → ℚ) : ℚ := (∑ f, J f * F f) / ∑ f, J f

/-- Sampling tokens with `delta` is a walk on the assignments, whose steps are draws from the conditional probabilities of `J`. -/
structure Walk (p : Params) (delta : Int) (J : Assign p → ℚ) (tab : Assign p → Tables) : Prop where
  pos : ∀ f, 0 < J f
  move : ∀ f t (ht : t ∈ tokens p.lens) (k : Fin p.K),
    moved p delta (tab f) t k = tab (Function.update f ⟨t.2, tokens_lt _ _ ht⟩ k)
  chance : ∀ f t (ht : t ∈ tokens p.lens) (k : Fin p.K),
    chance p delta (tab f) t k = GibbsChain.cond J f ⟨t.2, tokens_lt _ _ ht⟩ k
  weight : ∀ f t, t ∈ tokens p.lens → ∀ k, k < p.K → 0 < weights p delta (tab f) t k

/-- The order in which the tokens are visited in several sweeps -/
def sweeps (p : Params) (starts : List (Nat → Nat)) : List (Nat × Nat) := starts.flatMap fun rnd => sweepOrder rnd p.lens

theorem sweeps_mem (p : Params) (starts : List (Nat → Nat)) : ∀ t ∈ sweeps p starts, t ∈ tokens p.lens := by
  intro t ht
  obtain ⟨rnd, _, h⟩ := List.mem_flatMap.1 ht
  exact mem_sweep _ _ t h

theorem walk_run {p : Params} {delta : Int} {J : Assign p → ℚ} {tab : Assign p → Tables} (h : Walk p delta J tab)
    (F : Tables → ℚ) (order : List (Nat × Nat)) (hmem : ∀ t ∈ order, t ∈ tokens p.lens) (f : Assign p) :
    expect p delta order F (tab f) = run J (order.filterMap (idx p)) (fun g => F (tab g)) f :=
  expect_eq_run p delta J tab h.move h.chance F order hmem f

theorem walk_keeps {p : Params} {delta : Int} {J : Assign p → ℚ} {tab : Assign p → Tables} (h : Walk p delta J tab)
    (F : Tables → ℚ) (order : List (Nat × Nat)) (hmem : ∀ t ∈ order, t ∈ tokens p.lens) :
    posteriorMean p J (fun f => expect p delta order F (tab f)) = posteriorMean p J (fun f => F (tab f)) := by
  unfold posteriorMean
  congr 1
  rw [← GibbsChain.run_invariant J (fun f => (h.pos f).le) (order.filterMap (idx p)) (fun f => F (tab f))]
  refine Finset.sum_congr rfl fun f _ => ?_
  dsimp only
  rw [walk_run h F order hmem f]

theorem walk_converges {p : Params} {delta : Int} {J : Assign p → ℚ} {tab : Assign p → Tables} (h : Walk p delta J tab) :
    ∃ ρ : ℚ, 0 ≤ ρ ∧ ρ < 1 ∧ ∀ (starts : List (Nat → Nat)) (F : Tables → ℚ) (lo hi : ℚ),
      (∀ f, lo ≤ F (tab f) ∧ F (tab f) ≤ hi) → ∀ f,
      |expect p delta (sweeps p starts) F (tab f) - posteriorMean p J (fun f => F (tab f))| ≤ ρ ^ starts.length * (hi - lo) := by
  obtain ⟨ρ, h0, h1, hc⟩ := GibbsChain.converges J h.pos p.lens.sum
  refine ⟨ρ, h0, h1, ?_⟩
  intro starts F lo hi hF f
  rw [walk_run h F _ (sweeps_mem p starts) f]
  have hflat : (sweeps p starts).filterMap (idx p)
      = (starts.map fun rnd => (sweepOrder rnd p.lens).filterMap (idx p)).flatten := by
    unfold sweeps
    rw [List.filterMap_flatMap]
    rfl
  have := hc (starts.map fun rnd => (sweepOrder rnd p.lens).filterMap (idx p)) (by
    intro l hl
    obtain ⟨rnd, _, rfl⟩ := List.mem_map.1 hl
    exact sweep_positions p rnd) (fun f => F (tab f)) lo hi hF f
  rw [List.length_map] at this
  rw [hflat]
  exact this

/-- In training the assignments are drawn from their conditional probabilities given the words. -/
theorem train_walk (p : Params) (hp : PositivePriors p) (hw : ValidWords p) (hK : 0 < p.K) (hT : 0 < p.T) :
    Walk p 1 (fun f => joint p (ext p f)) (start p) := by
  refine ⟨fun f => joint_pos p hp hK hT _, start_moved p, ?_, ?_⟩
  swap
  · intro f t ht k hk
    obtain ⟨C, hC, h⟩ := weights_exact p hp hw hK _ (start_counted p f) t ht
    have := joint_pos p hp hK hT (Function.update (start p f).z t.2 k)
    rw [h k hk] at this
    exact (mul_pos_iff_of_pos_left hC).1 this
  intro f t ht k
  rw [chance_exact p hp hw hK _ (start_counted p f) t ht k k.2]
  have hz : (start p f).z = ext p f := by rw [start_eq]
  unfold GibbsChain.cond
  rw [hz, Finset.sum_range]
  simp only [ext_update]

/-- C200: tokens drawn from the posterior are still drawn from the posterior after any number of sweeps, whatever the starting
points in the documents: all expected values remain the same. -/
theorem sweeps_keep_posterior (p : Params) (hp : PositivePriors p) (hw : ValidWords p) (hK : 0 < p.K) (hT : 0 < p.T)
    (starts : List (Nat → Nat)) (F : Tables → ℚ) :
    posteriorMean p (fun f => joint p (ext p f)) (fun f => expect p 1 (sweeps p starts) F (start p f))
      = posteriorMean p (fun f => joint p (ext p f)) (fun f => F (start p f)) :=
  walk_keeps (train_walk p hp hw hK hT) F _ (sweeps_mem p starts)

/-- C201: from every assignment, expected values approach those of the posterior: the distance shrinks by a constant factor in
every sweep, whatever the starting points in the documents. -/
theorem sampler_converges (p : Params) (hp : PositivePriors p) (hw : ValidWords p) (hK : 0 < p.K) (hT : 0 < p.T) :
    ∃ ρ : ℚ, 0 ≤ ρ ∧ ρ < 1 ∧ ∀ (starts : List (Nat → Nat)) (F : Tables → ℚ) (lo hi : ℚ),
      (∀ f, lo ≤ F (start p f) ∧ F (start p f) ≤ hi) → ∀ f,
      |expect p 1 (sweeps p starts) F (start p f)
        - posteriorMean p (fun f => joint p (ext p f)) (fun f => F (start p f))| ≤ ρ ^ starts.length * (hi - lo) :=
  walk_converges (train_walk p hp hw hK hT)

/-! ## Examples -/

/-- three topics with weights 1, 2 and 1: the second one is chosen by draws between 1 and 3, -/
example : chooseLoop 3 (fun k => if k = 1 then 2 else 1) 3 (-1) (5 / 2) = some 1 :=
  (choice_iff 3 (fun k => if k = 1 then 2 else 1) (fun j _ => by split_ifs <;> norm_num) (5 / 2) (by norm_num)
    (by norm_num [Finset.sum_range_succ]) 1).2 ⟨by decide, by norm_num [Finset.sum_range_succ], by norm_num [Finset.sum_range_succ]⟩

/-- that is, by half of the random numbers -/
example : |((((Finset.range (randMax + 1)).filter fun r => chooseTopic 3 (fun k => if k = 1 then 2 else 1) r = some ((1 : Nat) : Int)).card : ℚ)
    - randMax * (1 / 2))| < 1 := by
  have h := draws_of_topic 3 (fun k => if k = 1 then 2 else 1) (fun j _ => by split_ifs <;> norm_num)
    (by norm_num [Finset.sum_range_succ]) 1 (by decide)
  have e : (if 1 = 1 then (2 : ℚ) else 1) / ∑ j ∈ Finset.range 3, (if j = 1 then (2 : ℚ) else 1) = 1 / 2 := by
    norm_num [Finset.sum_range_succ]
  rw [e] at h
  exact h

/-- the topics of the four tokens of the corpus -/
def exF : Assign exP := fun i => ⟨i % 2, Nat.mod_lt _ (by decide)⟩

/-- joint probabilities of the first token's two topics, and the chance the sampler gives them -/
example : chance exP 1 (start exP exF) (0, 0) 0
    = joint exP (Function.update (start exP exF).z 0 0) / ∑ j ∈ Finset.range exP.K, joint exP (Function.update (start exP exF).z 0 j) :=
  chance_exact exP exP_priors exP_words (by decide) _ (start_counted _ _) (0, 0) (by decide) 0 (by decide)

example : joint exP (Function.update (start exP exF).z 0 0) ≠ joint exP (Function.update (start exP exF).z 0 1) := by decide +kernel

/-- a draw for the first token -/
example : resample exP 1 2000000000 (0, 0) (start exP exF) = some (moved exP 1 (start exP exF) (0, 0) 1) :=
  (resample_moves exP (by decide) 1 2000000000 (0, 0) (start exP exF) 1 (by decide)).2 (by decide +kernel)

/-- two sweeps leave the posterior as it is -/
example : posteriorMean exP (fun f => joint exP (ext exP f))
      (fun f => expect exP 1 (sweeps exP [fun _ => 0, fun _ => 1]) (fun s => (s.ndk 0 0 : ℚ) * s.nk 1) (start exP f))
    = posteriorMean exP (fun f => joint exP (ext exP f)) (fun f => ((start exP f).ndk 0 0 : ℚ) * (start exP f).nk 1) :=
  sweeps_keep_posterior exP exP_priors exP_words (by decide) (by decide) _ _

/-- and the chance that the first two tokens have the same topic approaches its posterior probability. -/
example : ∃ ρ : ℚ, 0 ≤ ρ ∧ ρ < 1 ∧ ∀ starts : List (Nat → Nat),
    |expect exP 1 (sweeps exP starts) (fun s => if s.z 0 = s.z 1 then 1 else 0) (start exP exF)
      - posteriorMean exP (fun f => joint exP (ext exP f)) (fun f => if (start exP f).z 0 = (start exP f).z 1 then 1 else 0)|
      ≤ ρ ^ starts.length * (1 - 0) := by
  obtain ⟨ρ, h0, h1, h⟩ := sampler_converges exP exP_priors exP_words (by decide) (by decide)
  exact ⟨ρ, h0, h1, fun starts => h starts (fun s => if s.z 0 = s.z 1 then 1 else 0) 0 1
    (fun f => by split_ifs <;> norm_num) exF⟩

end Verif.Props.GibbsPosterior
