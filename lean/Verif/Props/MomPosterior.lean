import Mathlib.Algebra.Order.BigOperators.Ring.Finset
import Mathlib.Analysis.SpecialFunctions.Log.Basic
import Verif.Lemmas.GibbsChain
import Verif.Props.MomGibbs
import Verif.Props.MomEm

/-!
# The distribution sampled by the mixture of multinomials (C204, C205)
-/

namespace Verif.Props.MomPosterior

open Verif Verif.Mom Verif.Props.MomGibbs
open Verif.Props.Numerics (almostZero_pos)
open Verif.GibbsChain (run)

/-! ## The mixture -/

/-- `a (a + 1) ⋯ (a + n - 1)` -/
noncomputable def rise (a : ℝ) (n : Nat) : ℝ := ∏ i ∈ Finset.range n, (a + i)

/-- The number of documents in topic `k` -/
def size (D : Nat) (z : Nat → Nat) (k : Nat) : Nat := ((List.range D).filter fun d => z d = k).length

/-- The probability of the words of document `d` in topic `k` -/
noncomputable def docProb (x : Data) (word : Nat → Nat → ℝ) (d k : Nat) : ℝ := ∏ t ∈ Finset.range x.T, word k t ^ x.words d t

/-- The joint probability of topics and words of the documents, when the weights of the topics have a Dirichlet prior `b` -/
noncomputable def joint (K : Nat) (b : Nat → ℝ) (x : Data) (word : Nat → Nat → ℝ) (z : Nat → Nat) : ℝ :=
  (∏ k ∈ Finset.range K, rise (b k) (size x.D z k)) / rise (∑ k ∈ Finset.range K, b k) x.D
    * ∏ d ∈ Finset.range x.D, docProb x word d (z d)

theorem rise_pos (a : ℝ) (ha : 0 < a) (n : Nat) : 0 < rise a n :=
  Finset.prod_pos fun i _ => by positivity

theorem rise_succ (a : ℝ) (n : Nat) : rise a (n + 1) = rise a n * (a + n) := by
  unfold rise
  rw [Finset.prod_range_succ]

/-- Without document `d` there are only the other ones. -/
theorem size_update (D : Nat) (z : Nat → Nat) (d : Nat) (hd : d < D) (k j : Nat) :
    size D (Function.update z d j) k = others D z d k + if k = j then 1 else 0 := by
  have gen : ∀ D, size D (Function.update z d j) k = others D z d k + if d < D ∧ k = j then 1 else 0 := by
    intro D
    induction D with
    | zero => simp [size, others]
    | succ D ih =>
      unfold size others at *
      rw [List.range_succ, List.filter_append, List.filter_append, List.length_append, List.length_append, ih]
      by_cases hD : D = d
      · subst hD
        by_cases hk : k = j
        · subst hk; simp
        · have : ¬ j = k := fun h => hk h.symm
          simp [hk, this]
      · have h1 : (Function.update z d j) D = z D := Function.update_of_ne hD _ _
        have h2 : ((d < D ∧ k = j) ↔ (d < D + 1 ∧ k = j)) := by
          constructor <;> rintro ⟨h, h'⟩ <;> exact ⟨by omega, h'⟩
        simp only [h2]
        by_cases hc : z D = k <;> simp [hD, hc]
        omega
  rw [gen D]
  simp [hd]

/-- The joint probability when document `d` moves to topic `k` -/
theorem joint_update (K : Nat) (b : Nat → ℝ) (hb : ∀ k, k < K → 0 < b k) (x : Data) (word : Nat → Nat → ℝ)
    (hw : ∀ k t, k < K → t < x.T → 0 < word k t) (z : Nat → Nat) (hz : ∀ d, d < x.D → z d < K) (d : Nat) (hd : d < x.D) :
    ∃ C : ℝ, 0 < C ∧ ∀ k, k < K → joint K b x word (Function.update z d k) = C * (docProb x word d k * (b k + others x.D z d k)) := by
  have hK : 0 < K := lt_of_le_of_lt (Nat.zero_le _) (hz d hd)
  have hdp : ∀ d k, k < K → 0 < docProb x word d k := fun d k hk =>
    Finset.prod_pos fun t ht => pow_pos (hw k t hk (Finset.mem_range.1 ht)) _
  refine ⟨(∏ k ∈ Finset.range K, rise (b k) (others x.D z d k)) / rise (∑ k ∈ Finset.range K, b k) x.D
    * ∏ e ∈ (Finset.range x.D).erase d, docProb x word e (z e), ?_, ?_⟩
  · refine mul_pos (div_pos (Finset.prod_pos fun k hk => rise_pos _ (hb k (Finset.mem_range.1 hk)) _) (rise_pos _ ?_ _))
      (Finset.prod_pos fun e he => hdp _ _ (hz e (Finset.mem_range.1 (Finset.mem_of_mem_erase he))))
    exact Finset.sum_pos (fun k hk => hb k (Finset.mem_range.1 hk)) ⟨0, Finset.mem_range.2 hK⟩
  · intro k hk
    unfold joint
    have h1 : ∏ j ∈ Finset.range K, rise (b j) (size x.D (Function.update z d k) j)
        = (∏ j ∈ Finset.range K, rise (b j) (others x.D z d j)) * (b k + others x.D z d k) := by
      have : ∀ j ∈ Finset.range K, rise (b j) (size x.D (Function.update z d k) j)
          = rise (b j) (others x.D z d j) * if j = k then b k + others x.D z d k else 1 := by
        intro j _
        rw [size_update x.D z d hd j k]
        split_ifs with h
        · subst h; exact rise_succ _ _
        · simp
      rw [Finset.prod_congr rfl this, Finset.prod_mul_distrib, Finset.prod_ite_eq', if_pos (Finset.mem_range.2 hk)]
    have h2 : ∏ e ∈ Finset.range x.D, docProb x word e (Function.update z d k e)
        = docProb x word d k * ∏ e ∈ (Finset.range x.D).erase d, docProb x word e (z e) := by
      rw [← Finset.mul_prod_erase _ _ (Finset.mem_range.2 hd), Function.update_self]
      congr 1
      exact Finset.prod_congr rfl fun e he => by rw [Function.update_of_ne (Finset.ne_of_mem_erase he)]
    rw [h1, h2]
    ring

theorem joint_pos (K : Nat) (hK : 0 < K) (b : Nat → ℝ) (hb : ∀ k, k < K → 0 < b k) (x : Data) (word : Nat → Nat → ℝ)
    (hw : ∀ k t, k < K → t < x.T → 0 < word k t) (z : Nat → Nat) (hz : ∀ d, d < x.D → z d < K) : 0 < joint K b x word z := by
  refine mul_pos (div_pos (Finset.prod_pos fun k hk => rise_pos _ (hb k (Finset.mem_range.1 hk)) _) (rise_pos _ ?_ _))
    (Finset.prod_pos fun d hd => Finset.prod_pos fun t ht => pow_pos (hw _ t (hz d (Finset.mem_range.1 hd)) (Finset.mem_range.1 ht)) _)
  exact Finset.sum_pos (fun k hk => hb k (Finset.mem_range.1 hk)) ⟨0, Finset.mem_range.2 hK⟩

/-! ## The chances -/

/-- The word distributions and the priors are not so small that `safe_log` changes them. -/
structure Fine (p : GibbsParams) (x : Data) (word : Nat → Nat → ℝ) : Prop where
  topics : 0 < p.K
  prior : ∀ k, k < p.K → 1 < p.a k
  word : ∀ k t, k < p.K → t < x.T → Numerics.almostZero false ≤ word k t
  share : ∀ k, k < p.K → Numerics.almostZero false ≤ (p.a k - 1) / (∑ j ∈ Finset.range p.K, (p.a j - 1) + x.D)

theorem Fine.word_pos {p : GibbsParams} {x : Data} {word : Nat → Nat → ℝ} (h : Fine p x word) (k t : Nat) (hk : k < p.K) (ht : t < x.T) :
    0 < word k t := lt_of_lt_of_le (almostZero_pos false).1 (h.word k t hk ht)

theorem Fine.prior_pos {p : GibbsParams} {x : Data} {word : Nat → Nat → ℝ} (h : Fine p x word) (k : Nat) (hk : k < p.K) :
    0 < p.a k - 1 := by have := h.prior k hk; linarith

/-- The distribution a topic is drawn from is the softmax of its logarithms. -/
theorem sampleDist_softmax (p : GibbsParams) (hK : 0 < p.K) (x : Data) (word : Nat → Nat → ℝ) (num : Nat → ℝ) (d k : Nat) :
    sampleDist p x word num d k
      = Real.exp (∑ t ∈ Finset.range x.T, (x.words d t : ℝ) * Numerics.safeLogOut false (word k t)
          + Numerics.safeLogOut false (num k / ∑ j ∈ Finset.range p.K, num j))
        / ∑ i ∈ Finset.range p.K, Real.exp (∑ t ∈ Finset.range x.T, (x.words d t : ℝ) * Numerics.safeLogOut false (word i t)
          + Numerics.safeLogOut false (num i / ∑ j ∈ Finset.range p.K, num j)) := by
  show (let l := fun k => ∑ t ∈ Finset.range x.T, (x.words d t : ℝ) * Numerics.safeLogOut false (word k t)
      + Numerics.safeLogOut false (num k / ∑ j ∈ Finset.range p.K, num j)
    Real.exp (l k - Numerics.rowMax p.K l - Real.log (∑ j ∈ Finset.range p.K, Real.exp (l j - Numerics.rowMax p.K l)))
      = Real.exp (l k) / ∑ i ∈ Finset.range p.K, Real.exp (l i))
  generalize (fun k => ∑ t ∈ Finset.range x.T, (x.words d t : ℝ) * Numerics.safeLogOut false (word k t)
    + Numerics.safeLogOut false (num k / ∑ j ∈ Finset.range p.K, num j)) = l
  intro l
  have hpos : ∀ c : ℝ, 0 < ∑ i ∈ Finset.range p.K, Real.exp (l i - c) := fun c =>
    Finset.sum_pos (fun i _ => Real.exp_pos _) ⟨0, Finset.mem_range.2 hK⟩
  rw [Real.exp_sub, Real.exp_log (hpos _)]
  have h1 : ∑ j ∈ Finset.range p.K, Real.exp (l j - Numerics.rowMax p.K l)
      = (∑ j ∈ Finset.range p.K, Real.exp (l j)) / Real.exp (Numerics.rowMax p.K l) := by
    rw [Finset.sum_div]
    exact Finset.sum_congr rfl fun j _ => Real.exp_sub _ _
  rw [h1, Real.exp_sub, div_div_div_cancel_right₀ (Real.exp_pos _).ne']

theorem sampleDist_nonneg (p : GibbsParams) (hK : 0 < p.K) (x : Data) (word : Nat → Nat → ℝ) (num : Nat → ℝ) (d k : Nat) :
    0 ≤ sampleDist p x word num d k := by
  rw [sampleDist_softmax p hK]
  exact div_nonneg (Real.exp_pos _).le (Finset.sum_nonneg fun _ _ => (Real.exp_pos _).le)

theorem sampleDist_sum (p : GibbsParams) (hK : 0 < p.K) (x : Data) (word : Nat → Nat → ℝ) (num : Nat → ℝ) (d : Nat) :
    ∑ k ∈ Finset.range p.K, sampleDist p x word num d k = 1 := by
  rw [Finset.sum_congr rfl fun k _ => sampleDist_softmax p hK x word num d k, ← Finset.sum_div]
  exact div_self (Finset.sum_pos (fun _ _ => Real.exp_pos _) ⟨0, Finset.mem_range.2 hK⟩).ne'

theorem safeLog_exact (v : ℝ) (h : Numerics.almostZero false ≤ v) : Numerics.safeLogOut false v = Real.log v := if_pos h

/-- The chances from the weights, when `safe_log` is the logarithm -/
theorem sampleDist_exact (p : GibbsParams) (hK : 0 < p.K) (x : Data) (word : Nat → Nat → ℝ) (num : Nat → ℝ) (d k : Nat) (hk : k < p.K)
    (hw : ∀ k t, k < p.K → t < x.T → Numerics.almostZero false ≤ word k t)
    (hs : 0 < ∑ j ∈ Finset.range p.K, num j)
    (hn : ∀ k, k < p.K → Numerics.almostZero false ≤ num k / ∑ j ∈ Finset.range p.K, num j) :
    sampleDist p x word num d k
      = docProb x word d k * num k / ∑ i ∈ Finset.range p.K, docProb x word d i * num i := by
  have h1 : ∀ i, i < p.K → Real.exp (∑ t ∈ Finset.range x.T, (x.words d t : ℝ) * Numerics.safeLogOut false (word i t)
      + Numerics.safeLogOut false (num i / ∑ j ∈ Finset.range p.K, num j))
      = docProb x word d i * num i / ∑ j ∈ Finset.range p.K, num j := by
    intro i hi
    rw [Real.exp_add, safeLog_exact _ (hn i hi), Real.exp_log (lt_of_lt_of_le (almostZero_pos false).1 (hn i hi)), Real.exp_sum, mul_div_assoc]
    congr 1
    refine Finset.prod_congr rfl fun t ht => ?_
    have hwt := hw i t hi (Finset.mem_range.1 ht)
    rw [safeLog_exact _ hwt, ← Real.log_pow, Real.exp_log (pow_pos (lt_of_lt_of_le (almostZero_pos false).1 hwt) _)]
  rw [sampleDist_softmax p hK, h1 k hk, Finset.sum_congr rfl fun i hi => h1 i (Finset.mem_range.1 hi), ← Finset.sum_div,
    div_div_div_cancel_right₀ hs.ne']

/-- The weights when the documents are in the topics `z`, for document `d`: the prior, minus one, plus the other documents -/
noncomputable def hardNum (p : GibbsParams) (x : Data) (z : Nat → Nat) (d k : Nat) : ℝ := p.a k - 1 + others x.D z d k

theorem others_total (D : Nat) (z : Nat → Nat) (d : Nat) (K : Nat) (hz : ∀ d, d < D → z d < K) :
    ∑ k ∈ Finset.range K, others D z d k ≤ D := by
  have gen : ∀ l : List Nat, (∀ j ∈ l, z j < K) →
      ∑ k ∈ Finset.range K, (l.filter fun j => j ≠ d ∧ z j = k).length ≤ l.length := by
    intro l
    induction l with
    | nil => simp
    | cons j l ih =>
      intro h
      have ih := ih fun i hi => h i (List.mem_cons_of_mem _ hi)
      have h1 : ∀ k, ((j :: l).filter fun j => j ≠ d ∧ z j = k).length
          ≤ (l.filter fun j => j ≠ d ∧ z j = k).length + if z j = k then 1 else 0 := by
        intro k
        rw [List.filter_cons]
        by_cases hk : z j = k
        · split_ifs <;> simp
        · simp [hk]
      refine (Finset.sum_le_sum fun k _ => h1 k).trans ?_
      rw [Finset.sum_add_distrib, Finset.sum_ite_eq, if_pos (Finset.mem_range.2 (h j List.mem_cons_self)), List.length_cons]
      omega
  have := gen (List.range D) fun j hj => hz j (List.mem_range.1 hj)
  rwa [List.length_range] at this

/-- C204, exactly: given the other documents' topics, a document's topic is drawn from its conditional probabilities in the mixture
whose prior is the one given minus one. -/
theorem chance_exact (p : GibbsParams) (x : Data) (word : Nat → Nat → ℝ) (h : Fine p x word) (z : Nat → Nat)
    (hz : ∀ d, d < x.D → z d < p.K) (d : Nat) (hd : d < x.D) (k : Nat) (hk : k < p.K) :
    sampleDist p x word (hardNum p x z d) d k
      = joint p.K (fun k => p.a k - 1) x word (Function.update z d k)
        / ∑ j ∈ Finset.range p.K, joint p.K (fun k => p.a k - 1) x word (Function.update z d j) := by
  have hnum : ∀ k, k < p.K → p.a k - 1 ≤ hardNum p x z d k := fun k _ => by unfold hardNum; linarith [Nat.cast_nonneg (α := ℝ) (others x.D z d k)]
  have hpos : ∀ k, k < p.K → 0 < hardNum p x z d k := fun k hk => lt_of_lt_of_le (h.prior_pos k hk) (hnum k hk)
  have hs : 0 < ∑ j ∈ Finset.range p.K, hardNum p x z d j :=
    Finset.sum_pos (fun j hj => hpos j (Finset.mem_range.1 hj)) ⟨0, Finset.mem_range.2 h.topics⟩
  have hle : ∑ j ∈ Finset.range p.K, hardNum p x z d j ≤ ∑ j ∈ Finset.range p.K, (p.a j - 1) + x.D := by
    unfold hardNum
    rw [Finset.sum_add_distrib]
    have := others_total x.D z d p.K hz
    have h2 : (∑ k ∈ Finset.range p.K, (others x.D z d k : ℝ)) ≤ x.D := by exact_mod_cast this
    linarith
  rw [sampleDist_exact p h.topics x word _ d k hk h.word hs ?_]
  · obtain ⟨C, hC, hJ⟩ := joint_update p.K (fun k => p.a k - 1) (h.prior_pos) x word h.word_pos z hz d hd
    rw [hJ k hk, Finset.sum_congr rfl fun j hj => hJ j (Finset.mem_range.1 hj), ← Finset.mul_sum, mul_div_mul_left _ _ hC.ne']
    rfl
  · intro k hk
    refine (h.share k hk).trans ?_
    exact div_le_div₀ (hpos k hk).le (hnum k hk) hs hle

/-- C204: a document's topic is drawn from its conditional probabilities under the prior given only when prior and counts add up
to the same number for all topics. -/
theorem chance_iff (p : GibbsParams) (x : Data) (word : Nat → Nat → ℝ) (h : Fine p x word) (z : Nat → Nat)
    (hz : ∀ d, d < x.D → z d < p.K) (d : Nat) (hd : d < x.D) :
    (∀ k, k < p.K → sampleDist p x word (hardNum p x z d) d k
        = joint p.K p.a x word (Function.update z d k) / ∑ j ∈ Finset.range p.K, joint p.K p.a x word (Function.update z d j))
      ↔ ∀ k j, k < p.K → j < p.K → p.a k + others x.D z d k = p.a j + others x.D z d j := by
  have ha : ∀ k, k < p.K → 0 < p.a k := fun k hk => by have := h.prior k hk; linarith
  obtain ⟨C, hC, hJ⟩ := joint_update p.K p.a ha x word h.word_pos z hz d hd
  obtain ⟨C', hC', hJ'⟩ := joint_update p.K (fun k => p.a k - 1) (h.prior_pos) x word h.word_pos z hz d hd
  have hL : ∀ k, k < p.K → 0 < docProb x word d k := fun k hk =>
    Finset.prod_pos fun t ht => pow_pos (h.word_pos k t hk (Finset.mem_range.1 ht)) _
  have e1 : ∀ k, k < p.K → sampleDist p x word (hardNum p x z d) d k
      = docProb x word d k * (p.a k + others x.D z d k - 1)
        / ∑ j ∈ Finset.range p.K, docProb x word d j * (p.a j + others x.D z d j - 1) := by
    intro k hk
    rw [chance_exact p x word h z hz d hd k hk, hJ' k hk, Finset.sum_congr rfl fun j hj => hJ' j (Finset.mem_range.1 hj),
      ← Finset.mul_sum, mul_div_mul_left _ _ hC'.ne']
    simp only [add_sub_right_comm]
  have e2 : ∀ k, k < p.K → joint p.K p.a x word (Function.update z d k) / ∑ j ∈ Finset.range p.K, joint p.K p.a x word (Function.update z d j)
      = docProb x word d k * (p.a k + others x.D z d k)
        / ∑ j ∈ Finset.range p.K, docProb x word d j * (p.a j + others x.D z d j) := by
    intro k hk
    rw [hJ k hk, Finset.sum_congr rfl fun j hj => hJ j (Finset.mem_range.1 hj), ← Finset.mul_sum, mul_div_mul_left _ _ hC.ne']
  obtain ⟨c, hc⟩ : ∃ c : Nat → ℝ, c = fun k => p.a k + others x.D z d k := ⟨_, rfl⟩
  have hc' : ∀ k, p.a k + others x.D z d k = c k := fun k => by rw [hc]
  simp only [hc'] at e1 e2 ⊢
  have hcpos : ∀ k, k < p.K → 1 < c k := fun k hk => by
    rw [← hc']; have := h.prior k hk; linarith [Nat.cast_nonneg (α := ℝ) (others x.D z d k)]
  have hA : 0 < ∑ j ∈ Finset.range p.K, docProb x word d j * (c j - 1) :=
    Finset.sum_pos (fun j hj => mul_pos (hL j (Finset.mem_range.1 hj)) (by have := hcpos j (Finset.mem_range.1 hj); linarith))
      ⟨0, Finset.mem_range.2 h.topics⟩
  have hB : 0 < ∑ j ∈ Finset.range p.K, docProb x word d j * c j :=
    Finset.sum_pos (fun j hj => mul_pos (hL j (Finset.mem_range.1 hj)) (by have := hcpos j (Finset.mem_range.1 hj); linarith))
      ⟨0, Finset.mem_range.2 h.topics⟩
  constructor
  · intro hall k j hk hj
    have key : ∀ k, k < p.K → c k * (∑ j ∈ Finset.range p.K, docProb x word d j * c j - ∑ j ∈ Finset.range p.K, docProb x word d j * (c j - 1))
        = ∑ j ∈ Finset.range p.K, docProb x word d j * c j := by
      intro k hk
      have := hall k hk
      rw [e1 k hk, e2 k hk, div_eq_div_iff hA.ne' hB.ne'] at this
      have hl := (hL k hk).ne'
      rw [mul_assoc, mul_assoc] at this
      have h3 := mul_left_cancel₀ hl this
      linarith
    have h4 : ∑ j ∈ Finset.range p.K, docProb x word d j * c j - ∑ j ∈ Finset.range p.K, docProb x word d j * (c j - 1) ≠ 0 := by
      intro h0
      have := key k hk
      rw [h0, mul_zero] at this
      exact hB.ne this
    exact mul_right_cancel₀ h4 ((key k hk).trans (key j hj).symm)
  · intro heq k hk
    rw [e1 k hk, e2 k hk]
    have h5 : ∀ j ∈ Finset.range p.K, docProb x word d j * (c j - 1) = docProb x word d j * (c k - 1) := fun j hj => by
      rw [heq j k (Finset.mem_range.1 hj) hk]
    have h6 : ∀ j ∈ Finset.range p.K, docProb x word d j * c j = docProb x word d j * c k := fun j hj => by
      rw [heq j k (Finset.mem_range.1 hj) hk]
    rw [Finset.sum_congr rfl h5, Finset.sum_congr rfl h6, ← Finset.sum_mul, ← Finset.sum_mul,
      mul_div_mul_right _ _ (by have := hcpos k hk; linarith), mul_div_mul_right _ _ (by have := hcpos k hk; linarith)]

/-! ## Sweeps -/

/-- The expected value of `H` over the topics drawn for the documents given, each from the distribution the code draws it from -/
noncomputable def expectDraws (p : GibbsParams) (x : Data) (word : Nat → Nat → ℝ) : List Nat → Sweep → ((Nat → Nat) → ℝ) → ℝ
  | [], _, H => H (fun _ => 0)
  | d :: ds, s, H => ∑ k ∈ Finset.range p.K, sampleDist p x word (fun j => s.num j - s.mem d j) d k
      * expectDraws p x word ds (sweepDoc (fun _ => k) s d) (fun dr => H (Function.update dr d k))

/-- The state `sample_memberships` starts from -/
noncomputable def begin (p : GibbsParams) (x : Data) (mem : Nat → Nat → ℝ) : Sweep :=
  { num := fun k => ∑ d ∈ Finset.range x.D, mem d k + p.a k - 1, mem := mem, used := [] }

/-- The expected value of `H` over the topics drawn in `n` iterations from iteration `i` on -/
noncomputable def expectRuns (p : GibbsParams) (x : Data) (word : Nat → Nat → ℝ) :
    Nat → Nat → (Nat → Nat → ℝ) → ((Nat → Nat → Nat) → ℝ) → ℝ
  | 0, _, _, H => H (fun _ _ => 0)
  | n + 1, i, mem, H => expectDraws p x word (List.range x.D) (begin p x mem) fun dr =>
      expectRuns p x word n (i + 1) (sampleMemberships p x dr mem).mem fun drs => H (Function.update drs i dr)

theorem expectDraws_add (p : GibbsParams) (x : Data) (word : Nat → Nat → ℝ) (ds : List Nat) : ∀ s (H G : (Nat → Nat) → ℝ),
    expectDraws p x word ds s (fun dr => H dr + G dr) = expectDraws p x word ds s H + expectDraws p x word ds s G := by
  induction ds with
  | nil => exact fun _ _ _ => rfl
  | cons d ds ih =>
    intro s H G
    simp only [expectDraws, ih, mul_add, Finset.sum_add_distrib]

theorem expectDraws_mul (p : GibbsParams) (x : Data) (word : Nat → Nat → ℝ) (ds : List Nat) : ∀ s (c : ℝ) (H : (Nat → Nat) → ℝ),
    expectDraws p x word ds s (fun dr => c * H dr) = c * expectDraws p x word ds s H := by
  induction ds with
  | nil => exact fun _ _ _ => rfl
  | cons d ds ih =>
    intro s c H
    simp only [expectDraws, ih, Finset.mul_sum]
    exact Finset.sum_congr rfl fun k _ => by ring

theorem expectDraws_between (p : GibbsParams) (hK : 0 < p.K) (x : Data) (word : Nat → Nat → ℝ) (lo hi : ℝ) (ds : List Nat) :
    ∀ s (H : (Nat → Nat) → ℝ), (∀ dr, (∀ d ∈ ds, dr d < p.K) → lo ≤ H dr ∧ H dr ≤ hi) →
      lo ≤ expectDraws p x word ds s H ∧ expectDraws p x word ds s H ≤ hi := by
  induction ds with
  | nil => exact fun s H h => h _ (fun d hd => absurd hd List.not_mem_nil)
  | cons d ds ih =>
    intro s H h
    have h1 : ∀ k ∈ Finset.range p.K, lo ≤ expectDraws p x word ds (sweepDoc (fun _ => k) s d) (fun dr => H (Function.update dr d k))
        ∧ expectDraws p x word ds (sweepDoc (fun _ => k) s d) (fun dr => H (Function.update dr d k)) ≤ hi := by
      intro k hk
      refine ih _ _ fun dr hdr => h _ fun e he => ?_
      by_cases hed : e = d
      · subst hed; rw [Function.update_self]; exact Finset.mem_range.1 hk
      · rw [Function.update_of_ne hed]
        exact hdr e ((List.mem_cons.1 he).resolve_left hed)
    have h2 := sampleDist_sum p hK x word (fun j => s.num j - s.mem d j) d
    have h3 := sampleDist_nonneg p hK x word (fun j => s.num j - s.mem d j) d
    simp only [expectDraws]
    constructor
    · calc lo = ∑ k ∈ Finset.range p.K, sampleDist p x word (fun j => s.num j - s.mem d j) d k * lo := by
            rw [← Finset.sum_mul, h2, one_mul]
        _ ≤ _ := Finset.sum_le_sum fun k hk => mul_le_mul_of_nonneg_left (h1 k hk).1 (h3 k)
    · calc _ ≤ ∑ k ∈ Finset.range p.K, sampleDist p x word (fun j => s.num j - s.mem d j) d k * hi :=
            Finset.sum_le_sum fun k hk => mul_le_mul_of_nonneg_left (h1 k hk).2 (h3 k)
        _ = hi := by rw [← Finset.sum_mul, h2, one_mul]

theorem expectDraws_const (p : GibbsParams) (hK : 0 < p.K) (x : Data) (word : Nat → Nat → ℝ) (ds : List Nat) (s : Sweep) (c : ℝ) :
    expectDraws p x word ds s (fun _ => c) = c := by
  obtain ⟨h1, h2⟩ := expectDraws_between p hK x word c c ds s (fun _ => c) (fun _ _ => ⟨le_rfl, le_rfl⟩)
  exact le_antisymm h2 h1

theorem expectRuns_add (p : GibbsParams) (x : Data) (word : Nat → Nat → ℝ) (n : Nat) : ∀ i mem (H G : (Nat → Nat → Nat) → ℝ),
    expectRuns p x word n i mem (fun drs => H drs + G drs) = expectRuns p x word n i mem H + expectRuns p x word n i mem G := by
  induction n with
  | zero => exact fun _ _ _ _ => rfl
  | succ n ih =>
    intro i mem H G
    simp only [expectRuns, ih, expectDraws_add]

theorem expectRuns_mul (p : GibbsParams) (x : Data) (word : Nat → Nat → ℝ) (n : Nat) : ∀ i mem (c : ℝ) (H : (Nat → Nat → Nat) → ℝ),
    expectRuns p x word n i mem (fun drs => c * H drs) = c * expectRuns p x word n i mem H := by
  induction n with
  | zero => exact fun _ _ _ _ => rfl
  | succ n ih =>
    intro i mem c H
    simp only [expectRuns, ih, expectDraws_mul]

theorem expectRuns_const (p : GibbsParams) (hK : 0 < p.K) (x : Data) (word : Nat → Nat → ℝ) (c : ℝ) (n : Nat) : ∀ i mem,
    expectRuns p x word n i mem (fun _ => c) = c := by
  induction n with
  | zero => exact fun _ _ => rfl
  | succ n ih =>
    intro i mem
    simp only [expectRuns, ih, expectDraws_const p hK]

theorem sweepDoc_congr (dr dr' : Nat → Nat) (ds : List Nat) (h : ∀ d ∈ ds, dr d = dr' d) : ∀ s,
    ds.foldl (sweepDoc dr) s = ds.foldl (sweepDoc dr') s := by
  induction ds with
  | nil => exact fun _ => rfl
  | cons d ds ih =>
    intro s
    rw [List.foldl_cons, List.foldl_cons, ih (fun e he => h e (List.mem_cons_of_mem _ he))]
    congr 1
    unfold sweepDoc
    rw [h d List.mem_cons_self]

/-- All assignments of topics to documents -/
abbrev Assign (p : GibbsParams) (x : Data) := Fin x.D → Fin p.K

/-- An assignment as a list -/
def ext (p : GibbsParams) (x : Data) (f : Assign p x) (d : Nat) : Nat := if h : d < x.D then (f ⟨d, h⟩ : Nat) else 0

theorem ext_lt (p : GibbsParams) (x : Data) (f : Assign p x) (d : Nat) (hd : d < x.D) : ext p x f d < p.K := by
  unfold ext
  rw [dif_pos hd]
  exact (f ⟨d, hd⟩).2

theorem ext_update (p : GibbsParams) (x : Data) (f : Assign p x) (d : Nat) (hd : d < x.D) (k : Fin p.K) :
    ext p x (Function.update f ⟨d, hd⟩ k) = Function.update (ext p x f) d k := by
  funext i
  unfold ext
  by_cases hi : i = d
  · subst hi
    simp [hd]
  · rw [Function.update_of_ne hi]
    split_ifs with h
    · rw [Function.update_of_ne (by simpa using hi)]
    · rfl

/-- The documents are in the topics of the assignment. -/
structure Hard (p : GibbsParams) (x : Data) (s : Sweep) (f : Assign p x) : Prop where
  mem : ∀ d, d < x.D → s.mem d = oneHot (ext p x f d)
  num : ∀ k, s.num k = ∑ d ∈ Finset.range x.D, oneHot (ext p x f d) k + p.a k - 1

theorem Hard.weights {p : GibbsParams} {x : Data} {s : Sweep} {f : Assign p x} (h : Hard p x s f) (d : Nat) (hd : d < x.D) :
    (fun j => s.num j - s.mem d j) = hardNum p x (ext p x f) d := by
  funext j
  rw [h.num, h.mem d hd]
  unfold hardNum
  rw [← sum_oneHot x.D (ext p x f) d hd j]
  ring

theorem Hard.next {p : GibbsParams} {x : Data} {s : Sweep} {f : Assign p x} (h : Hard p x s f) (d : Nat) (hd : d < x.D) (k : Fin p.K) :
    Hard p x (sweepDoc (fun _ => k) s d) (Function.update f ⟨d, hd⟩ k) := by
  constructor
  · intro e he
    funext j
    show (if e = d then oneHot k j else s.mem e j) = _
    rw [ext_update]
    split_ifs with hed
    · rw [hed, Function.update_self]
    · rw [Function.update_of_ne hed, h.mem e he]
  · intro j
    show s.num j - s.mem d j + oneHot k j = _
    rw [h.num, h.mem d hd, ext_update, ← Finset.add_sum_erase _ _ (Finset.mem_range.2 hd),
      ← Finset.add_sum_erase _ (fun e => oneHot (Function.update (ext p x f) d k e) j) (Finset.mem_range.2 hd), Function.update_self]
    have : ∑ e ∈ (Finset.range x.D).erase d, oneHot (Function.update (ext p x f) d k e) j
        = ∑ e ∈ (Finset.range x.D).erase d, oneHot (ext p x f e) j :=
      Finset.sum_congr rfl fun e he => by rw [Function.update_of_ne (Finset.ne_of_mem_erase he)]
    rw [this]
    ring

/-- The joint probabilities with the prior minus one -/
noncomputable def weight (p : GibbsParams) (x : Data) (word : Nat → Nat → ℝ) (f : Assign p x) : ℝ :=
  joint p.K (fun k => p.a k - 1) x word (ext p x f)

theorem weight_pos {p : GibbsParams} {x : Data} {word : Nat → Nat → ℝ} (h : Fine p x word) (f : Assign p x) : 0 < weight p x word f :=
  joint_pos p.K h.topics _ h.prior_pos x word h.word_pos _ (ext_lt p x f)

/-- The position of a document -/
def idx (x : Data) (d : Nat) : Option (Fin x.D) := if h : d < x.D then some ⟨d, h⟩ else none

/-- From memberships, drawing topics for documents is a walk on the assignments. -/
theorem expectDraws_run {p : GibbsParams} {x : Data} {word : Nat → Nat → ℝ} (h : Fine p x word) (G : Sweep → ℝ) (g : Assign p x → ℝ)
    (hG : ∀ s f, Hard p x s f → G s = g f) (ds : List Nat) : ds.Nodup → (∀ d ∈ ds, d < x.D) → ∀ s f, Hard p x s f →
    expectDraws p x word ds s (fun dr => G (ds.foldl (sweepDoc dr) s)) = run (weight p x word) (ds.filterMap (idx x)) g f := by
  induction ds with
  | nil => exact fun _ _ s f hs => hG s f hs
  | cons d ds ih =>
    intro hnd hlt s f hs
    have hd := hlt d List.mem_cons_self
    have hidx : idx x d = some ⟨d, hd⟩ := dif_pos hd
    obtain ⟨hn1, hn2⟩ := List.nodup_cons.1 hnd
    rw [List.filterMap_cons_some hidx]
    show ∑ k ∈ Finset.range p.K, sampleDist p x word (fun j => s.num j - s.mem d j) d k * _
      = ∑ k : Fin p.K, GibbsChain.cond (weight p x word) f ⟨d, hd⟩ k * run _ _ g (Function.update f ⟨d, hd⟩ k)
    rw [Finset.sum_range]
    refine Finset.sum_congr rfl fun k _ => ?_
    congr 1
    · rw [hs.weights d hd, chance_exact p x word h _ (ext_lt p x f) d hd k k.2]
      unfold GibbsChain.cond weight
      rw [Finset.sum_range]
      simp only [ext_update]
    · rw [← ih hn2 (fun e he => hlt e (List.mem_cons_of_mem _ he)) _ _ (hs.next d hd k)]
      congr 1
      funext dr
      dsimp only
      rw [List.foldl_cons]
      congr 1
      rw [sweepDoc_congr (Function.update dr d k) dr ds (fun e he => Function.update_of_ne (by rintro rfl; exact hn1 he) _ _)]
      congr 1
      unfold sweepDoc
      rw [Function.update_self]

/-- The documents in the order in which they are drawn -/
def order (x : Data) : List (Fin x.D) := (List.range x.D).filterMap (idx x)

theorem order_good (x : Data) : (order x).length = x.D ∧ ∀ i, i ∈ order x := by
  have hval : (order x).map Fin.val = List.range x.D := by
    unfold order
    have gen : ∀ l : List Nat, (∀ d ∈ l, d < x.D) → (l.filterMap (idx x)).map Fin.val = l := by
      intro l
      induction l with
      | nil => exact fun _ => rfl
      | cons d l ih =>
        intro hl
        have hidx : idx x d = some ⟨d, hl d List.mem_cons_self⟩ := dif_pos (hl d List.mem_cons_self)
        rw [List.filterMap_cons_some hidx, List.map_cons, ih fun e he => hl e (List.mem_cons_of_mem _ he)]
    exact gen _ fun d hd => List.mem_range.1 hd
  constructor
  · have := congrArg List.length hval
    rwa [List.length_map, List.length_range] at this
  · intro i
    have h1 : (i : Nat) ∈ (order x).map Fin.val := by rw [hval]; exact List.mem_range.2 i.2
    obtain ⟨j, hj, hji⟩ := List.mem_map.1 h1
    rwa [← Fin.ext hji]

/-- Whether a document is in a topic -/
def isIn (p : GibbsParams) (x : Data) (d k : Nat) (f : Assign p x) : ℝ := if ext p x f d = k then 1 else 0

theorem begin_hard (p : GibbsParams) (x : Data) (mem : Nat → Nat → ℝ) (f : Assign p x)
    (h : ∀ d, d < x.D → mem d = oneHot (ext p x f d)) : Hard p x (begin p x mem) f := by
  refine ⟨h, fun k => ?_⟩
  show ∑ d ∈ Finset.range x.D, mem d k + p.a k - 1 = _
  rw [Finset.sum_congr rfl fun d hd => by rw [h d (Finset.mem_range.1 hd)]]

/-- The chance that a document is in a topic after some iterations from memberships: a walk on the assignments -/
theorem expectRuns_hard {p : GibbsParams} {x : Data} {word : Nat → Nat → ℝ} (h : Fine p x word) (d k : Nat) (hd : d < x.D) (n : Nat) :
    ∀ i j mem f, (∀ d, d < x.D → mem d = oneHot (ext p x f d)) → i ≤ j → j < i + n →
    expectRuns p x word n i mem (fun drs => if drs j d = k then 1 else 0)
      = run (weight p x word) (List.replicate (j - i + 1) (order x)).flatten (isIn p x d k) f := by
  induction n with
  | zero => intro i j _ _ _ h1 h2; omega
  | succ n ih =>
    intro i j mem f hf hij hjn
    have hhard := begin_hard p x mem f hf
    rcases Nat.eq_or_lt_of_le hij with heq | hlt
    · subst heq
      rw [Nat.sub_self]
      show expectDraws p x word (List.range x.D) (begin p x mem) (fun dr => expectRuns p x word n (i + 1) _
        (fun drs => if Function.update drs i dr i d = k then 1 else 0)) = _
      simp only [Function.update_self]
      simp only [expectRuns_const p h.topics]
      have h1 : ∀ dr : Nat → Nat, (if dr d = k then (1 : ℝ) else 0)
          = (fun s : Sweep => s.mem d k) ((List.range x.D).foldl (sweepDoc dr) (begin p x mem)) := by
        intro dr
        have := hard_memberships p x dr mem d hd k
        have h2 : (if dr d = k then (1 : ℝ) else 0) = if k = dr d then 1 else 0 := by simp only [eq_comm]
        rw [h2]
        exact this.symm
      simp only [h1]
      rw [expectDraws_run h (fun s => s.mem d k) (isIn p x d k) ?_ _ List.nodup_range (fun e he => List.mem_range.1 he) _ f hhard]
      · show _ = run _ ([order x].flatten) _ _
        rw [List.flatten_singleton]
        rfl
      · intro s g hs
        rw [hs.mem d hd]
        unfold oneHot isIn
        simp only [eq_comm]
    · have hsub : j - i + 1 = j - (i + 1) + 1 + 1 := by omega
      rw [hsub, List.replicate_succ, List.flatten_cons, GibbsChain.run_append]
      show expectDraws p x word (List.range x.D) (begin p x mem) (fun dr => expectRuns p x word n (i + 1) _
        (fun drs => if Function.update drs i dr j d = k then 1 else 0)) = _
      have hne : j ≠ i := by omega
      simp only [Function.update_of_ne hne]
      refine expectDraws_run h (fun s => expectRuns p x word n (i + 1) s.mem (fun drs => if drs j d = k then 1 else 0)) _ ?_ _
        List.nodup_range (fun e he => List.mem_range.1 he) _ f hhard
      intro s g hs
      exact ih (i + 1) j s.mem g hs.mem (by omega) (by omega)

/-! ## Queries -/

/-- The posterior probability that document `d` is in topic `k`, with prior `b`: by summing over all assignments -/
noncomputable def posterior (p : GibbsParams) (b : Nat → ℝ) (x : Data) (word : Nat → Nat → ℝ) (d k : Nat) : ℝ :=
  (∑ f : Assign p x, joint p.K b x word (ext p x f) * if ext p x f d = k then 1 else 0) / ∑ f : Assign p x, joint p.K b x word (ext p x f)

/-- The chance that a document is in a topic approaches the posterior probability, from any memberships. -/
theorem iterations_converge {p : GibbsParams} {x : Data} {word : Nat → Nat → ℝ} (h : Fine p x word) :
    ∃ ρ : ℝ, 0 ≤ ρ ∧ ρ < 1 ∧ ∀ (n j : Nat) (mem : Nat → Nat → ℝ) (d k : Nat), d < x.D → j < n →
      |expectRuns p x word n 0 mem (fun drs => if drs j d = k then 1 else 0) - posterior p (fun k => p.a k - 1) x word d k| ≤ ρ ^ j := by
  obtain ⟨ρ, h0, h1, hc⟩ := GibbsChain.converges (weight p x word) (weight_pos h) x.D
  refine ⟨ρ, h0, h1, ?_⟩
  intro n j mem d k hd hjn
  have hone : ∀ f : Assign p x, 0 ≤ isIn p x d k f ∧ isIn p x d k f ≤ 1 := fun f => by
    unfold isIn; split_ifs <;> norm_num
  have hpost : posterior p (fun k => p.a k - 1) x word d k = (∑ y, weight p x word y * isIn p x d k y) / ∑ y, weight p x word y := rfl
  obtain ⟨m, rfl⟩ : ∃ m, n = m + 1 := ⟨n - 1, by omega⟩
  rcases Nat.eq_zero_or_pos j with rfl | hj
  · rw [pow_zero]
    have hfirst : 0 ≤ expectRuns p x word (m + 1) 0 mem (fun drs => if drs 0 d = k then 1 else 0)
        ∧ expectRuns p x word (m + 1) 0 mem (fun drs => if drs 0 d = k then 1 else 0) ≤ 1 := by
      show 0 ≤ expectDraws p x word (List.range x.D) (begin p x mem) (fun dr => expectRuns p x word m (0 + 1) _
        (fun drs => if Function.update drs 0 dr 0 d = k then 1 else 0)) ∧ _ ≤ (1 : ℝ)
      refine expectDraws_between p h.topics x word 0 1 _ _ _ fun dr _ => ?_
      simp only [Function.update_self]
      rw [expectRuns_const p h.topics]
      split_ifs <;> norm_num
    have hm := GibbsChain.mean_between (weight p x word) (weight_pos h) (fun _ => ⟨0, h.topics⟩) (isIn p x d k) 0 1 hone
    rw [← hpost] at hm
    rw [abs_le]
    constructor <;> linarith [hfirst.1, hfirst.2, hm.1, hm.2]
  · suffices hb : posterior p (fun k => p.a k - 1) x word d k - ρ ^ j ≤ expectRuns p x word (m + 1) 0 mem (fun drs => if drs j d = k then 1 else 0)
        ∧ expectRuns p x word (m + 1) 0 mem (fun drs => if drs j d = k then 1 else 0) ≤ posterior p (fun k => p.a k - 1) x word d k + ρ ^ j by
      rw [abs_le]
      constructor <;> linarith [hb.1, hb.2]
    show _ ≤ expectDraws p x word (List.range x.D) (begin p x mem) (fun dr => expectRuns p x word m (0 + 1) _
        (fun drs => if Function.update drs 0 dr j d = k then 1 else 0)) ∧ _ ≤ (_ : ℝ)
    refine expectDraws_between p h.topics x word _ _ _ _ _ fun dr hdr => ?_
    have hne : j ≠ 0 := by omega
    simp only [Function.update_of_ne hne]
    obtain ⟨f, hf⟩ : ∃ f : Assign p x, ∀ d, d < x.D → ext p x f d = dr d := by
      refine ⟨fun i => ⟨dr i, hdr i (List.mem_range.2 i.2)⟩, fun d hd => ?_⟩
      unfold ext
      rw [dif_pos hd]
    have hmem : ∀ d, d < x.D → (sampleMemberships p x dr mem).mem d = oneHot (ext p x f d) := by
      intro e he
      funext i
      rw [hard_memberships p x dr mem e he i, hf e he]
      rfl
    rw [expectRuns_hard h d k hd m (0 + 1) j _ f hmem (by omega) (by omega)]
    have hlen : j - (0 + 1) + 1 = j := by omega
    rw [hlen]
    have := hc (List.replicate j (order x)) (fun l hl => by rw [List.eq_of_mem_replicate hl]; exact order_good x) (isIn p x d k) 0 1 hone f
    rw [List.length_replicate, sub_zero, mul_one, ← hpost, abs_le] at this
    constructor <;> linarith [this.1, this.2]

/-- The topics a query returns, if it returns any -/
noncomputable def answer (o : Py (Option (Nat → Nat → ℝ))) (d k : Nat) : ℝ :=
  match o with
  | .ok (some m) => m d k
  | _ => 0

/-- C205: the expected topics returned by a query are the posterior probabilities under the prior minus one, up to an error that
shrinks geometrically with the burn-in. -/
theorem query_converges_partial (p : GibbsParams) (x : Data) (word : Nat → Nat → ℝ) (h : Fine p x word) :
    ∃ ρ : ℝ, 0 ≤ ρ ∧ ρ < 1 ∧ ∀ (plan : GibbsPlan) (mem : Nat → Nat → ℝ) (d k : Nat), d < x.D → 0 < plan.thinning →
      samples plan plan.iterations ≠ [] →
      |expectRuns p x word plan.iterations 0 mem (fun drs => answer (gibbsQuery p x plan drs mem word) d k)
        - posterior p (fun k => p.a k - 1) x word d k| ≤ ρ ^ plan.burnIn := by
  obtain ⟨ρ, h0, h1, hc⟩ := iterations_converge h
  refine ⟨ρ, h0, h1, ?_⟩
  intro plan mem d k hd ht hne
  have hlen : 0 < (samples plan plan.iterations).length := List.length_pos_iff.2 hne
  have hcast : (0 : ℝ) < (samples plan plan.iterations).length := by exact_mod_cast hlen
  have hval : ∀ drs, answer (gibbsQuery p x plan drs mem word) d k
      = (1 / ((samples plan plan.iterations).length : ℝ))
        * ((samples plan plan.iterations).map (fun j => if drs j d = k then (1 : ℝ) else 0)).sum := by
    intro drs
    obtain ⟨s, e1, e2, e3⟩ := query_fold p x plan ht drs mem word plan.iterations
    have hq : gibbsQuery p x plan drs mem word = .ok (some (fun d k => s.memSum d k / s.count)) := by
      unfold gibbsQuery
      rw [e1]
      show Except.ok (if s.count = 0 then none else _) = _
      rw [if_neg (by rw [e2]; omega)]
    rw [hq]
    show s.memSum d k / (s.count : ℝ) = _
    rw [e3 d hd k, e2]
    have : ∀ l : List Nat, (l.map (fun j => if drs j d = k then (1 : ℝ) else 0)).sum = (l.countP (fun itr => decide (drs itr d = k)) : ℝ) := by
      intro l
      induction l with
      | nil => simp
      | cons a l ih =>
        rw [List.map_cons, List.sum_cons, ih, List.countP_cons]
        by_cases ha : drs a d = k <;> simp [ha, add_comm]
    rw [this]
    ring
  simp only [hval]
  rw [expectRuns_mul]
  have hsum : ∀ l : List Nat, (∀ j ∈ l, plan.burnIn < j ∧ j < plan.iterations) →
      |expectRuns p x word plan.iterations 0 mem (fun drs => (l.map (fun j => if drs j d = k then (1 : ℝ) else 0)).sum)
        - l.length * posterior p (fun k => p.a k - 1) x word d k| ≤ l.length * ρ ^ plan.burnIn := by
    intro l
    induction l with
    | nil =>
      intro _
      simp only [List.map_nil, List.sum_nil]
      rw [expectRuns_const p h.topics]
      simp
    | cons j l ih =>
      intro hl
      have ih := ih fun j hj => hl j (List.mem_cons_of_mem _ hj)
      obtain ⟨hb, hj⟩ := hl j List.mem_cons_self
      have hj' := hc plan.iterations j mem d k hd hj
      have hle : ρ ^ j ≤ ρ ^ plan.burnIn := pow_le_pow_of_le_one h0 h1.le hb.le
      simp only [List.map_cons, List.sum_cons, List.length_cons]
      rw [expectRuns_add]
      push_cast
      rw [abs_le] at ih hj' ⊢
      constructor <;> nlinarith [ih.1, ih.2, hj'.1, hj'.2]
  have := hsum (samples plan plan.iterations) (fun j hj => by
    unfold samples at hj
    rw [List.mem_filter, List.mem_range, decide_eq_true_eq] at hj
    exact ⟨hj.2.2.1, hj.1⟩)
  rw [show (1 / ((samples plan plan.iterations).length : ℝ))
      * expectRuns p x word plan.iterations 0 mem (fun drs => ((samples plan plan.iterations).map (fun j => if drs j d = k then (1 : ℝ) else 0)).sum)
      - posterior p (fun k => p.a k - 1) x word d k
    = (1 / ((samples plan plan.iterations).length : ℝ)) * (expectRuns p x word plan.iterations 0 mem
        (fun drs => ((samples plan plan.iterations).map (fun j => if drs j d = k then (1 : ℝ) else 0)).sum)
      - (samples plan plan.iterations).length * posterior p (fun k => p.a k - 1) x word d k) from by
    field_simp, abs_mul, abs_of_pos (by positivity), one_div, inv_mul_le_iff₀ hcast]
  exact this

/-! ## A single document -/

/-- two topics with prior weights 2 and 3 -/
noncomputable def exP : GibbsParams := ⟨2, fun k => k + 2⟩

/-- one document of one word -/
def exX : Data := ⟨1, 1, fun _ _ => 1⟩

/-- the same words in both topics -/
def exWord : Nat → Nat → ℝ := fun _ _ => 1

theorem ex_fine : Fine exP exX exWord := by
  have hz : Numerics.almostZero false ≤ 1 / 4 := by
    show (1 / 10 : ℝ) ^ 300 ≤ 1 / 4
    have : (1 / 10 : ℝ) ^ 300 ≤ (1 / 10) ^ 1 := pow_le_pow_of_le_one (by norm_num) (by norm_num) (by norm_num)
    exact this.trans (by norm_num)
  refine ⟨by decide, fun k _ => ?_, fun k t _ _ => ?_, fun k hk => ?_⟩
  · show (1 : ℝ) < k + 2
    linarith [Nat.cast_nonneg (α := ℝ) k]
  · show _ ≤ (1 : ℝ)
    linarith
  · refine hz.trans ?_
    have h1 : ∑ j ∈ Finset.range exP.K, (exP.a j - 1) + (exX.D : ℝ) = 4 := by
      show ∑ j ∈ Finset.range 2, (((j : ℝ) + 2) - 1) + ((1 : Nat) : ℝ) = 4
      norm_num [Finset.sum_range_succ]
    rw [h1]
    show (1 : ℝ) / 4 ≤ ((k : ℝ) + 2 - 1) / 4
    linarith [Nat.cast_nonneg (α := ℝ) k]

/-- C204 is violated: the topic of a single document is not drawn from the prior. -/
theorem chance_violation : sampleDist exP exX exWord (hardNum exP exX (fun _ => 0) 0) 0 0 = 1 / 3
    ∧ joint 2 exP.a exX exWord (Function.update (fun _ => 0) 0 0)
      / ∑ j ∈ Finset.range 2, joint 2 exP.a exX exWord (Function.update (fun _ => 0) 0 j) = 2 / 5 := by
  have hsize : ∀ j k, size 1 (Function.update (fun _ => 0) 0 j) k = if k = j then 1 else 0 := by
    intro j k
    rw [size_update 1 _ 0 (by decide)]
    simp [others]
  have hj : ∀ (b : Nat → ℝ) j, joint 2 b exX exWord (Function.update (fun _ => 0) 0 j)
      = (∏ k ∈ Finset.range 2, rise (b k) (if k = j then 1 else 0)) / rise (∑ k ∈ Finset.range 2, b k) 1 := by
    intro b j
    unfold joint
    show (∏ k ∈ Finset.range 2, rise (b k) (size 1 _ k)) / rise _ 1 * ∏ d ∈ Finset.range 1, ∏ t ∈ Finset.range 1, (1 : ℝ) ^ 1 = _
    simp [hsize]
  constructor
  · rw [chance_exact exP exX exWord ex_fine _ (fun _ _ => by decide) 0 (by decide) 0 (by decide)]
    show joint 2 _ exX exWord _ / ∑ j ∈ Finset.range 2, joint 2 _ exX exWord _ = _
    simp only [hj]
    norm_num [Finset.sum_range_succ, Finset.prod_range_succ, rise, exP]
  · simp only [hj]
    norm_num [Finset.sum_range_succ, Finset.prod_range_succ, rise, exP]

theorem single_posterior (b : Nat → ℝ) : posterior exP b exX exWord 0 0
    = (joint 2 b exX exWord (Function.update (fun _ => 0) 0 0))
      / ∑ j ∈ Finset.range 2, joint 2 b exX exWord (Function.update (fun _ => 0) 0 j) := by
  have hext : ∀ f : Assign exP exX, ext exP exX f = Function.update (fun _ => 0) 0 (f ⟨0, by decide⟩ : Nat) := by
    intro f
    funext d
    unfold ext
    by_cases hd : d = 0
    · subst hd
      rw [dif_pos (by decide), Function.update_self]
    · rw [dif_neg (by show ¬ d < 1; omega), Function.update_of_ne hd]
  have hsum : ∀ g : Nat → ℝ, ∑ f : Assign exP exX, g (f ⟨0, by decide⟩ : Nat) = ∑ j ∈ Finset.range 2, g j := by
    intro g
    rw [Finset.sum_range]
    exact Fintype.sum_equiv (Equiv.funUnique (Fin 1) (Fin 2)) _ _ (fun f => rfl)
  unfold posterior
  simp only [hext, Function.update_self]
  rw [hsum (fun j => joint exP.K b exX exWord (Function.update (fun _ => 0) 0 j) * if j = 0 then 1 else 0),
    hsum (fun j => joint exP.K b exX exWord (Function.update (fun _ => 0) 0 j))]
  have h2 : ∑ j ∈ Finset.range 2, (joint exP.K b exX exWord (Function.update (fun _ => 0) 0 j) * if j = 0 then 1 else 0)
      = joint 2 b exX exWord (Function.update (fun _ => 0) 0 0) := by
    rw [Finset.sum_range_succ, Finset.sum_range_one]
    simp
    rfl
  rw [h2]
  rfl

/-! ## The weights of the sampler itself -/

/-- The topics of the documents when document `d` is drawn: new ones before it, old ones from it on -/
def current (old draw : Nat → Nat) (d j : Nat) : Nat := if j < d then draw j else old j

/-- In a sweep, document `d` is drawn with the weights that `hardNum` gives. -/
theorem sweep_weights (p : GibbsParams) (x : Data) (old draw : Nat → Nat) (mem : Nat → Nat → ℝ) (hold : ∀ d, d < x.D → mem d = oneHot (old d))
    (d : Nat) (hd : d < x.D) : (sampleMemberships p x draw mem).used[d]? = some (hardNum p x (current old draw d) d) := by
  obtain ⟨num, h1, h2⟩ := weights_exact p x old draw mem hold d hd
  rw [h1]
  exact congrArg some (funext fun k => h2 k)

/-- C204, exactly: in every sweep every document is drawn, given the topics that the others have at that time, from its conditional
probabilities in the mixture whose prior is the one given minus one. -/
theorem sampled_exact (p : GibbsParams) (x : Data) (word : Nat → Nat → ℝ) (h : Fine p x word) (old draw : Nat → Nat)
    (ho : ∀ d, d < x.D → old d < p.K) (hn : ∀ d, d < x.D → draw d < p.K) (mem : Nat → Nat → ℝ) (hold : ∀ d, d < x.D → mem d = oneHot (old d))
    (d : Nat) (hd : d < x.D) : ∃ num, (sampleMemberships p x draw mem).used[d]? = some num ∧ ∀ k, k < p.K →
      sampleDist p x word num d k = joint p.K (fun k => p.a k - 1) x word (Function.update (current old draw d) d k)
        / ∑ j ∈ Finset.range p.K, joint p.K (fun k => p.a k - 1) x word (Function.update (current old draw d) d j) := by
  refine ⟨_, sweep_weights p x old draw mem hold d hd, fun k hk => chance_exact p x word h _ (fun j hj => ?_) d hd k hk⟩
  unfold current
  split
  · exact hn j hj
  · exact ho j hj

/-- C204: that is its conditional probability under the prior given only when prior and counts add up to the same number for all topics. -/
theorem sampled_iff (p : GibbsParams) (x : Data) (word : Nat → Nat → ℝ) (h : Fine p x word) (old draw : Nat → Nat)
    (ho : ∀ d, d < x.D → old d < p.K) (hn : ∀ d, d < x.D → draw d < p.K) (mem : Nat → Nat → ℝ) (hold : ∀ d, d < x.D → mem d = oneHot (old d))
    (d : Nat) (hd : d < x.D) : ∃ num, (sampleMemberships p x draw mem).used[d]? = some num ∧
      ((∀ k, k < p.K → sampleDist p x word num d k = joint p.K p.a x word (Function.update (current old draw d) d k)
          / ∑ j ∈ Finset.range p.K, joint p.K p.a x word (Function.update (current old draw d) d j))
        ↔ ∀ k j, k < p.K → j < p.K →
          p.a k + others x.D (current old draw d) d k = p.a j + others x.D (current old draw d) d j) := by
  refine ⟨_, sweep_weights p x old draw mem hold d hd, chance_iff p x word h _ (fun j hj => ?_) d hd⟩
  unfold current
  split
  · exact hn j hj
  · exact ho j hj

/-- C204 is violated: in a sweep over a single document topic 0 is drawn with probability 1/3, and its probability is 2/5. -/
theorem sampled_violation (draw : Nat → Nat) : ∃ num, (sampleMemberships exP exX draw (fun _ => oneHot 0)).used[0]? = some num
    ∧ sampleDist exP exX exWord num 0 0 = 1 / 3
    ∧ joint 2 exP.a exX exWord (Function.update (fun _ => 0) 0 0)
      / ∑ j ∈ Finset.range 2, joint 2 exP.a exX exWord (Function.update (fun _ => 0) 0 j) = 2 / 5 := by
  refine ⟨_, sweep_weights exP exX (fun _ => 0) draw _ (fun _ _ => rfl) 0 (by decide), ?_, chance_violation.2⟩
  have h : current (fun _ => 0) draw 0 = fun _ => 0 := funext fun j => if_neg (Nat.not_lt_zero j)
  rw [h]
  exact chance_violation.1

/-- A sweep over the single document -/
example : ∃ num, (sampleMemberships exP exX (fun _ => 1) (fun _ => oneHot 0)).used[0]? = some num ∧ ∀ k, k < 2 →
    sampleDist exP exX exWord num 0 k = joint 2 (fun k => exP.a k - 1) exX exWord (Function.update (current (fun _ => 0) (fun _ => 1) 0) 0 k)
      / ∑ j ∈ Finset.range 2, joint 2 (fun k => exP.a k - 1) exX exWord (Function.update (current (fun _ => 0) (fun _ => 1) 0) 0 j) :=
  sampled_exact exP exX exWord ex_fine (fun _ => 0) (fun _ => 1) (fun _ _ => by decide) (fun _ _ => by decide) _ (fun _ _ => rfl) 0 (by decide)

/-- C205 is violated: with any long burn-in the expected answer for the single document is away from the posterior. -/
theorem query_violation : ∃ B, ∀ (plan : GibbsPlan) (mem : Nat → Nat → ℝ), B ≤ plan.burnIn → 0 < plan.thinning →
    samples plan plan.iterations ≠ [] →
    1 / 30 ≤ |expectRuns exP exX exWord plan.iterations 0 mem (fun drs => answer (gibbsQuery exP exX plan drs mem exWord) 0 0)
      - posterior exP exP.a exX exWord 0 0| := by
  obtain ⟨ρ, h0, h1, h⟩ := query_converges_partial exP exX exWord ex_fine
  obtain ⟨B, hB⟩ := exists_pow_lt_of_lt_one (show (0 : ℝ) < 1 / 30 by norm_num) h1
  refine ⟨B, fun plan mem hb ht hs => ?_⟩
  have h2 := h plan mem 0 0 (by decide) ht hs
  have h3 : ρ ^ plan.burnIn ≤ ρ ^ B := pow_le_pow_of_le_one h0 h1.le hb
  have h4 : posterior exP exP.a exX exWord 0 0 = 2 / 5 := (single_posterior _).trans chance_violation.2
  have h5 : posterior exP (fun k => exP.a k - 1) exX exWord 0 0 = 1 / 3 := by
    rw [single_posterior, ← chance_violation.1]
    exact (chance_exact exP exX exWord ex_fine _ (fun _ _ => by decide) 0 (by decide) 0 (by decide)).symm
  rw [h5, abs_le] at h2
  rw [h4, le_abs]
  right
  linarith [h2.1, h2.2]

/-- a plan with which the query takes samples -/
example : samples ⟨20, 0, false, 5, 2⟩ 20 = [6, 8, 10, 12, 14, 16, 18] := by decide

/-- equal priors and the same number of documents in each topic: the chances are right -/
example : ∀ k j, k < 2 → j < 2 → (3 : ℝ) + others 3 (fun d => d % 2) 2 k = 3 + others 3 (fun d => d % 2) 2 j := by
  intro k j hk hj
  interval_cases k <;> interval_cases j <;> norm_num [others, List.range_succ]

end Verif.Props.MomPosterior
