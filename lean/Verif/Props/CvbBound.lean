import Verif.Model.CvbBound
import Verif.Props.Cvb2
import Verif.Props.VbElbo
import Verif.Props.WordList

/-!
# The bound of the collapsed models (C223 to C225)
-/

namespace Verif.Props.CvbBound

open Verif Verif.Cvb Verif.CvbBound Verif.Dirichlet Verif.Evidence
open Verif.Mom (loggamma)
open Verif.Props.MomEm (urn urn_pos)
open Verif.Props.VbElbo (sum_by_two)
open Verif.Props.Cvb0 (CountsAreSums TokenDists PositivePriors GoodRandom overDoc overAll overWord)

/-! ## Specification -/

/-- The tokens of the corpus: document and position -/
abbrev Token (c : Corpus) : Type := (d : Fin c.lens.length) × Fin (c.len d)

/-- How many tokens of document `d` have topic `k` -/
def docCount (c : Corpus) (K : Nat) (z : Token c → Fin K) (d k : Nat) : Nat := ∑ i, if (i.1 : Nat) = d ∧ (z i : Nat) = k then 1 else 0

/-- How many tokens of topic `k` are the word `t` -/
def wordCount (c : Corpus) (K : Nat) (z : Token c → Fin K) (k t : Nat) : Nat := ∑ i, if (z i : Nat) = k ∧ c.w i.1 i.2 = t then 1 else 0

/-- The prior of the topics of a document -/
def prior (p : Params) (k : Nat) : ℝ := p.a k

/-- The probability of the topics `z` and the corpus: every token draws its topic from the urn of its document and its word from the urn of the topic;
balls are returned with another of the same colour. -/
noncomputable def joint (p : Params) (c : Corpus) (z : Token c → Fin p.K) : ℝ :=
  (∏ d ∈ Finset.range c.lens.length, urn p.K (prior p) (docCount c p.K z d)) * ∏ k ∈ Finset.range p.K, urn p.T (fun _ => (p.b : ℝ)) (wordCount c p.K z k)

/-- The probability of the corpus -/
noncomputable def evidence (p : Params) (c : Corpus) : ℝ := ∑ z, joint p c z

/-- The entropy of the distributions of the topics of all tokens -/
noncomputable def entropy (p : Params) (c : Corpus) (s : State) : ℝ :=
  ∑ d ∈ Finset.range c.lens.length, ∑ n ∈ Finset.range (c.len d), ∑ k ∈ Finset.range p.K, (s.z d n k : ℝ) * Real.log (1 / s.z d n k)

/-- All words are words of the vocabulary -/
def ValidWords (p : Params) (c : Corpus) : Prop := ∀ d < c.lens.length, ∀ n < c.len d, c.w d n < p.T

/-! ## The expected part by normalisers of Dirichlet distributions -/

theorem sum_words (T : Nat) (c : Corpus) (hw : ∀ d < c.lens.length, ∀ n < c.len d, c.w d n < T)
    (g : Nat → Nat → ℝ) :
    ∑ t ∈ Finset.range T, ∑ d ∈ Finset.range c.lens.length, ∑ n ∈ Finset.range (c.len d), (if c.w d n = t then g d n else 0)
      = ∑ d ∈ Finset.range c.lens.length, ∑ n ∈ Finset.range (c.len d), g d n := by
  rw [Finset.sum_comm]
  refine Finset.sum_congr rfl fun d hd => ?_
  rw [Finset.sum_comm]
  refine Finset.sum_congr rfl fun n hn => ?_
  rw [Finset.sum_ite_eq, if_pos (Finset.mem_range.2 (hw d (Finset.mem_range.1 hd) n (Finset.mem_range.1 hn)))]

/-- The counts of the words of a topic add up to the count of the topic. -/
theorem topic_total (p : Params) (c : Corpus) (hw : ValidWords p c) (s : State) (hs : CountsAreSums p c (fun _ _ => 0) (fun _ => 0) s) (k : Nat)
    (hk : k < p.K) : ∑ t ∈ Finset.range p.T, (s.n.kt k t : ℝ) = (s.n.k k : ℝ) := by
  have h1 : ∀ t, (s.n.kt k t : ℝ) = ∑ d ∈ Finset.range c.lens.length, ∑ n ∈ Finset.range (c.len d), if c.w d n = t then (s.z d n k : ℝ) else 0 := by
    intro t
    rw [hs.word k hk t, overWord, overAll]
    simp only [overDoc]
    push_cast
    rw [zero_add]
    refine Finset.sum_congr rfl fun d _ => Finset.sum_congr rfl fun n _ => ?_
    split <;> simp
  have h2 : (s.n.k k : ℝ) = ∑ d ∈ Finset.range c.lens.length, ∑ n ∈ Finset.range (c.len d), (s.z d n k : ℝ) := by
    rw [hs.topic k hk, overAll]
    simp only [overDoc]
    push_cast
    simp
  simp only [h1]
  rw [h2, sum_words p.T c hw]

theorem doc_total (p : Params) (c : Corpus) (s : State) (hs : CountsAreSums p c (fun _ _ => 0) (fun _ => 0) s) (hz : TokenDists p c s) (d : Nat)
    (hd : d < c.lens.length) : ∑ k ∈ Finset.range p.K, (s.n.dk d k : ℝ) = c.len d := by
  have := (Cvb0.cvb0_totals p c _ _ s hs hz).1 d hd
  exact_mod_cast congrArg (fun q : ℚ => (q : ℝ)) this

theorem expected_eq (p : Params) (c : Corpus) (hw : ValidWords p c) (s : State) (hs : CountsAreSums p c (fun _ _ => 0) (fun _ => 0) s)
    (hz : TokenDists p c s) :
    expected p c s.n = ∑ d ∈ Finset.range c.lens.length, (logB p.K (fun k => s.n.dk d k + prior p k) - logB p.K (prior p))
      + ∑ k ∈ Finset.range p.K, (logB p.T (fun t => s.n.kt k t + (p.b : ℝ)) - logB p.T (fun _ => (p.b : ℝ))) := by
  have e1 : ∀ d, d < c.lens.length → logB p.K (fun k => s.n.dk d k + prior p k)
      = ∑ k ∈ Finset.range p.K, loggamma (p.a k + s.n.dk d k) - loggamma (∑ k ∈ Finset.range p.K, (p.a k : ℝ) + c.len d) := by
    intro d hd
    unfold logB prior loggamma
    rw [Finset.sum_add_distrib, doc_total p c s hs hz d hd, add_comm (c.len d : ℝ)]
    congr 1
    exact Finset.sum_congr rfl fun k _ => by rw [add_comm]
  have e2 : ∀ k, k < p.K → logB p.T (fun t => s.n.kt k t + (p.b : ℝ))
      = ∑ t ∈ Finset.range p.T, loggamma (p.b + s.n.kt k t) - loggamma (p.T * p.b + s.n.k k) := by
    intro k hk
    unfold logB loggamma
    rw [Finset.sum_add_distrib, topic_total p c hw s hs k hk, Finset.sum_const, Finset.card_range, nsmul_eq_mul, add_comm (s.n.k k : ℝ)]
    congr 1
    exact Finset.sum_congr rfl fun k _ => by rw [add_comm]
  have e3 : logB p.T (fun _ => (p.b : ℝ)) = p.T * loggamma p.b - loggamma (p.T * p.b) := by
    unfold logB loggamma
    simp
  have t1 : ∑ d ∈ Finset.range c.lens.length, (logB p.K (fun k => s.n.dk d k + prior p k) - logB p.K (prior p))
      = ∑ d ∈ Finset.range c.lens.length, (∑ k ∈ Finset.range p.K, loggamma (p.a k + s.n.dk d k)
          - loggamma (∑ k ∈ Finset.range p.K, (p.a k : ℝ) + c.len d) - logB p.K (prior p)) :=
    Finset.sum_congr rfl fun d hd => by rw [e1 d (Finset.mem_range.1 hd)]
  have t2 : ∑ k ∈ Finset.range p.K, (logB p.T (fun t => s.n.kt k t + (p.b : ℝ)) - logB p.T (fun _ => (p.b : ℝ)))
      = ∑ k ∈ Finset.range p.K, (∑ t ∈ Finset.range p.T, loggamma (p.b + s.n.kt k t) - loggamma (p.T * p.b + s.n.k k)
          - (p.T * loggamma p.b - loggamma (p.T * p.b))) :=
    Finset.sum_congr rfl fun k hk => by rw [e2 k (Finset.mem_range.1 hk), e3]
  rw [t1, t2]
  unfold expected logB prior loggamma
  simp only [Finset.sum_sub_distrib, Finset.sum_const, Finset.card_range, nsmul_eq_mul]
  ring

/-! ## The bound is below the evidence -/

theorem joint_pos (p : Params) (c : Corpus) (hp : PositivePriors p) (z : Token c → Fin p.K) : 0 < joint p c z :=
  mul_pos (Finset.prod_pos fun _ _ => urn_pos p.K hp.K _ (fun k hk => by unfold prior; exact_mod_cast hp.a k hk) _)
    (Finset.prod_pos fun _ _ => urn_pos p.T hp.T _ (fun _ _ => by exact_mod_cast hp.b) _)

theorem log_joint (p : Params) (c : Corpus) (hp : PositivePriors p) (z : Token c → Fin p.K) :
    Real.log (joint p c z) = ∑ d ∈ Finset.range c.lens.length, (logB p.K (fun k => docCount c p.K z d k + prior p k) - logB p.K (prior p))
      + ∑ k ∈ Finset.range p.K, (logB p.T (fun t => wordCount c p.K z k t + (p.b : ℝ)) - logB p.T (fun _ => (p.b : ℝ))) := by
  have ha : ∀ k, k < p.K → 0 < prior p k := fun k hk => by unfold prior; exact_mod_cast hp.a k hk
  have hb : (0 : ℝ) < p.b := by exact_mod_cast hp.b
  have h1 : ∀ d, urn p.K (prior p) (docCount c p.K z d) ≠ 0 := fun d => (urn_pos p.K hp.K _ ha _).ne'
  have h2 : ∀ k, urn p.T (fun _ => (p.b : ℝ)) (wordCount c p.K z k) ≠ 0 := fun k => (urn_pos p.T hp.T _ (fun _ _ => hb) _).ne'
  unfold joint
  rw [Real.log_mul (Finset.prod_ne_zero_iff.mpr fun d _ => h1 d) (Finset.prod_ne_zero_iff.mpr fun k _ => h2 k),
    Real.log_prod (hf := fun d _ => h1 d), Real.log_prod (hf := fun k _ => h2 k)]
  congr 1
  · exact Finset.sum_congr rfl fun d _ => log_urn p.K hp.K _ ha _
  · exact Finset.sum_congr rfl fun k _ => log_urn p.T hp.T (fun _ => (p.b : ℝ)) (fun _ _ => hb) _

theorem z_nonneg {p : Params} {c : Corpus} {s : State} (hz : TokenDists p c s) {d n k : Nat} (hd : d < c.lens.length) (hn : n < c.len d) (hk : k < p.K) :
    (0 : ℝ) ≤ s.z d n k := by exact_mod_cast hz.nonneg d hd n hn k hk

theorem dk_nonneg {p : Params} {c : Corpus} {s : State} (hs : CountsAreSums p c (fun _ _ => 0) (fun _ => 0) s) (hz : TokenDists p c s) {d k : Nat}
    (hd : d < c.lens.length) (hk : k < p.K) : 0 ≤ s.n.dk d k := by
  rw [hs.doc d hd k hk, overDoc]
  exact Finset.sum_nonneg fun n hn => hz.nonneg d hd n (Finset.mem_range.1 hn) k hk

theorem kt_nonneg {p : Params} {c : Corpus} {s : State} (hs : CountsAreSums p c (fun _ _ => 0) (fun _ => 0) s) (hz : TokenDists p c s) {k t : Nat}
    (hk : k < p.K) : 0 ≤ s.n.kt k t := by
  rw [hs.word k hk t, overWord, overAll, zero_add]
  refine Finset.sum_nonneg fun d hd => Finset.sum_nonneg fun n hn => ?_
  dsimp only
  split
  · exact hz.nonneg d (Finset.mem_range.1 hd) n (Finset.mem_range.1 hn) k hk
  · exact le_refl _

theorem entropy_nonneg (p : Params) (c : Corpus) (s : State) (hz : TokenDists p c s) : 0 ≤ entropy p c s := by
  refine Finset.sum_nonneg fun d hd => Finset.sum_nonneg fun n hn => Finset.sum_nonneg fun k hk => ?_
  have h0 := z_nonneg hz (Finset.mem_range.1 hd) (Finset.mem_range.1 hn) (Finset.mem_range.1 hk)
  rcases h0.eq_or_lt with h | h
  · rw [← h, zero_mul]
  · refine mul_nonneg h0 (Real.log_nonneg ((one_le_div h).2 ?_))
    have hone := hz.one d (Finset.mem_range.1 hd) n (Finset.mem_range.1 hn)
    have : s.z d n k ≤ ∑ j ∈ Finset.range p.K, s.z d n j :=
      Finset.single_le_sum (f := fun j => s.z d n j) (fun j hj => hz.nonneg d (Finset.mem_range.1 hd) n (Finset.mem_range.1 hn) j (Finset.mem_range.1 hj)) hk
    rw [hone] at this
    exact_mod_cast this

/-- The approximate expectation plus the entropy is at most the logarithm of the evidence. -/
theorem expected_le_evidence (p : Params) (c : Corpus) (hp : PositivePriors p) (hw : ValidWords p c) (s : State)
    (hs : CountsAreSums p c (fun _ _ => 0) (fun _ => 0) s) (hz : TokenDists p c s) :
    expected p c s.n + entropy p c s ≤ Real.log (evidence p c) := by
  have ha : ∀ k, k < p.K → 0 < prior p k := fun k hk => by unfold prior; exact_mod_cast hp.a k hk
  have hb : (0 : ℝ) < p.b := by exact_mod_cast hp.b
  set α : Nat → Nat → ℝ := fun d k => s.n.dk d k + prior p k with hα
  set β : Nat → Nat → ℝ := fun k t => s.n.kt k t + (p.b : ℝ) with hβ
  have hαp : ∀ d k, d < c.lens.length → k < p.K → 0 < α d k := fun d k hd hk =>
    add_pos_of_nonneg_of_pos (by exact_mod_cast dk_nonneg hs hz hd hk) (ha k hk)
  have hβp : ∀ k t, k < p.K → 0 < β k t := fun k t hk => add_pos_of_nonneg_of_pos (by exact_mod_cast kt_nonneg hs hz hk) hb
  set l : Token c → Nat → ℝ := fun i k => expLog p.K (α i.1) k + expLog p.T (β k) (c.w i.1 i.2) with hl
  set C : ℝ := ∑ d ∈ Finset.range c.lens.length, dirTerm p.K (prior p) (α d) + ∑ k ∈ Finset.range p.K, dirTerm p.T (fun _ => (p.b : ℝ)) (β k) with hC
  have key := product_bound (ι := Token c) p.K hp.K l (fun i k => (s.z i.1 i.2 k : ℝ))
    (fun i k hk => z_nonneg hz i.1.isLt i.2.isLt hk)
    (fun i => by exact_mod_cast congrArg (fun q : ℚ => (q : ℝ)) (hz.one i.1 i.1.isLt i.2 i.2.isLt)) C (fun z => Real.log (joint p c z)) ?_
  · simp only [Real.exp_log (joint_pos p c hp _)] at key
    refine le_trans (le_of_eq ?_) key
    rw [expected_eq p c hw s hs hz]
    have d1 : ∀ d, d < c.lens.length → logB p.K (fun k => s.n.dk d k + prior p k) - logB p.K (prior p)
        = ∑ k ∈ Finset.range p.K, (s.n.dk d k : ℝ) * expLog p.K (α d) k + dirTerm p.K (prior p) (α d) := fun d _ =>
      (dir_gain_eq p.K (prior p) (α d) (fun k => (s.n.dk d k : ℝ)) fun k _ => rfl).symm
    have d2 : ∀ k, k < p.K → logB p.T (fun t => s.n.kt k t + (p.b : ℝ)) - logB p.T (fun _ => (p.b : ℝ))
        = ∑ t ∈ Finset.range p.T, (s.n.kt k t : ℝ) * expLog p.T (β k) t + dirTerm p.T (fun _ => (p.b : ℝ)) (β k) := fun k _ =>
      (dir_gain_eq p.T (fun _ => (p.b : ℝ)) (β k) (fun t => (s.n.kt k t : ℝ)) fun t _ => rfl).symm
    rw [Finset.sum_congr rfl fun d hd => d1 d (Finset.mem_range.1 hd), Finset.sum_congr rfl fun k hk => d2 k (Finset.mem_range.1 hk),
      Finset.sum_add_distrib, Finset.sum_add_distrib]
    have s1 : ∑ d ∈ Finset.range c.lens.length, ∑ k ∈ Finset.range p.K, (s.n.dk d k : ℝ) * expLog p.K (α d) k
        = ∑ d ∈ Finset.range c.lens.length, ∑ n ∈ Finset.range (c.len d), ∑ k ∈ Finset.range p.K, (s.z d n k : ℝ) * expLog p.K (α d) k := by
      refine Finset.sum_congr rfl fun d hd => ?_
      rw [Finset.sum_comm]
      refine Finset.sum_congr rfl fun k hk => ?_
      rw [hs.doc d (Finset.mem_range.1 hd) k (Finset.mem_range.1 hk), overDoc]
      push_cast
      rw [Finset.sum_mul]
    have s2 : ∑ k ∈ Finset.range p.K, ∑ t ∈ Finset.range p.T, (s.n.kt k t : ℝ) * expLog p.T (β k) t
        = ∑ d ∈ Finset.range c.lens.length, ∑ n ∈ Finset.range (c.len d), ∑ k ∈ Finset.range p.K, (s.z d n k : ℝ) * expLog p.T (β k) (c.w d n) := by
      have : ∀ k ∈ Finset.range p.K, ∑ t ∈ Finset.range p.T, (s.n.kt k t : ℝ) * expLog p.T (β k) t
          = ∑ d ∈ Finset.range c.lens.length, ∑ n ∈ Finset.range (c.len d), (s.z d n k : ℝ) * expLog p.T (β k) (c.w d n) := by
        intro k hk
        rw [← sum_words p.T c hw]
        refine Finset.sum_congr rfl fun t _ => ?_
        rw [hs.word k (Finset.mem_range.1 hk) t, overWord, overAll]
        simp only [overDoc]
        push_cast
        rw [zero_add, Finset.sum_mul]
        refine Finset.sum_congr rfl fun d _ => ?_
        rw [Finset.sum_mul]
        refine Finset.sum_congr rfl fun n _ => ?_
        split
        · rename_i h
          rw [h]
        · simp
      rw [Finset.sum_congr rfl this, Finset.sum_comm]
      refine Finset.sum_congr rfl fun d _ => ?_
      rw [Finset.sum_comm]
    rw [s1, s2]
    have s3 : ∑ i : Token c, ∑ k ∈ Finset.range p.K, (s.z i.1 i.2 k : ℝ) * (l i k - Real.log (s.z i.1 i.2 k))
        = ∑ d ∈ Finset.range c.lens.length, ∑ n ∈ Finset.range (c.len d), ∑ k ∈ Finset.range p.K,
            (s.z d n k : ℝ) * (expLog p.K (α d) k + expLog p.T (β k) (c.w d n) - Real.log (s.z d n k)) := by
      rw [Fintype.sum_sigma, Finset.sum_range]
      refine Finset.sum_congr rfl fun d _ => ?_
      rw [Finset.sum_range]
    rw [s3]
    have s4 : ∑ d ∈ Finset.range c.lens.length, ∑ n ∈ Finset.range (c.len d), ∑ k ∈ Finset.range p.K,
            (s.z d n k : ℝ) * (expLog p.K (α d) k + expLog p.T (β k) (c.w d n) - Real.log (s.z d n k))
        = ∑ d ∈ Finset.range c.lens.length, ∑ n ∈ Finset.range (c.len d), ∑ k ∈ Finset.range p.K, (s.z d n k : ℝ) * expLog p.K (α d) k
          + ∑ d ∈ Finset.range c.lens.length, ∑ n ∈ Finset.range (c.len d), ∑ k ∈ Finset.range p.K, (s.z d n k : ℝ) * expLog p.T (β k) (c.w d n)
          + entropy p c s := by
      unfold entropy
      simp only [← Finset.sum_add_distrib]
      refine Finset.sum_congr rfl fun d _ => Finset.sum_congr rfl fun n _ => Finset.sum_congr rfl fun k _ => ?_
      rw [one_div, Real.log_inv]
      ring
    rw [s4, hC]
    ring
  · intro z
    rw [log_joint p c hp z]
    have g1 : ∑ d ∈ Finset.range c.lens.length, (∑ k ∈ Finset.range p.K, (docCount c p.K z d k : ℝ) * expLog p.K (α d) k
          + dirTerm p.K (prior p) (α d))
        ≤ ∑ d ∈ Finset.range c.lens.length, (logB p.K (fun k => docCount c p.K z d k + prior p k) - logB p.K (prior p)) :=
      Finset.sum_le_sum fun d hd => dir_gain_le p.K hp.K (prior p) (α d) (fun k => (docCount c p.K z d k : ℝ))
        (fun k hk => hαp d k (Finset.mem_range.mp hd) hk) (fun k hk => add_pos_of_nonneg_of_pos (Nat.cast_nonneg _) (ha k hk))
    have g2 : ∑ k ∈ Finset.range p.K, (∑ t ∈ Finset.range p.T, (wordCount c p.K z k t : ℝ) * expLog p.T (β k) t
          + dirTerm p.T (fun _ => (p.b : ℝ)) (β k))
        ≤ ∑ k ∈ Finset.range p.K, (logB p.T (fun t => wordCount c p.K z k t + (p.b : ℝ)) - logB p.T (fun _ => (p.b : ℝ))) :=
      Finset.sum_le_sum fun k hk => dir_gain_le p.T hp.T (fun _ => (p.b : ℝ)) (β k) (fun t => (wordCount c p.K z k t : ℝ))
        (fun t _ => hβp k t (Finset.mem_range.mp hk)) (fun t _ => add_pos_of_nonneg_of_pos (Nat.cast_nonneg _) hb)
    rw [Finset.sum_add_distrib] at g1 g2
    have e : ∑ i : Token c, l i (z i)
        = ∑ d ∈ Finset.range c.lens.length, ∑ k ∈ Finset.range p.K, (docCount c p.K z d k : ℝ) * expLog p.K (α d) k
          + ∑ k ∈ Finset.range p.K, ∑ t ∈ Finset.range p.T, (wordCount c p.K z k t : ℝ) * expLog p.T (β k) t := by
      rw [hl]
      dsimp only
      rw [Finset.sum_add_distrib, sum_by_two c.lens.length p.K (fun i : Token c => i.1) z (fun d k => expLog p.K (α d) k),
        sum_by_two p.K p.T z (fun i : Token c => ⟨c.w i.1 i.2, hw i.1 i.1.isLt i.2 i.2.isLt⟩) (fun k t => expLog p.T (β k) t)]
      rfl
    rw [e, hC]
    linarith

theorem entropy_code (p : Params) (c : Corpus) (s : State) :
    (∑ d ∈ Finset.range c.lens.length, ∑ n ∈ Finset.range (c.len d), ∑ k ∈ Finset.range p.K, -((s.z d n k : ℝ) * Real.log (s.z d n k)))
      = entropy p c s := by
  unfold entropy
  refine Finset.sum_congr rfl fun d _ => Finset.sum_congr rfl fun n _ => Finset.sum_congr rfl fun k _ => ?_
  rw [one_div, Real.log_inv]
  ring

/-- C225: what the function returns: a number if no topic of any token has probability zero; it is the approximate expectation *minus* the entropy. -/
theorem bound_exact (p : Params) (c : Corpus) (s : State) :
    (∀ v, varBound true p c s = .ok (some v) → v = expected p c s.n - entropy p c s) ∧
    (varBound true p c s = .ok none ↔ ¬ ∀ d < c.lens.length, ∀ n < c.len d, ∀ k < p.K, 0 < s.z d n k) := by
  unfold varBound jaggedEntropy
  constructor
  · intro v hv
    rw [if_pos rfl] at hv
    split at hv
    · simp only [Option.map_some, Except.ok.injEq, Option.some.injEq] at hv
      rw [← hv, entropy_code]
    · simp at hv
  · rw [if_pos rfl]
    split
    · rename_i h
      exact ⟨fun h' => by simp at h', fun h' => absurd h h'⟩
    · rename_i h
      exact ⟨fun _ => h, fun _ => rfl⟩

/-- C224: whenever the counts are the sums of the probabilities of the tokens, the bound is at most the logarithm of the evidence. -/
theorem bound_le_evidence (p : Params) (c : Corpus) (hp : PositivePriors p) (hw : ValidWords p c) (s : State)
    (hs : CountsAreSums p c (fun _ _ => 0) (fun _ => 0) s) (hz : TokenDists p c s) (v : ℝ) (hv : varBound true p c s = .ok (some v)) :
    v ≤ Real.log (evidence p c) := by
  have h1 := (bound_exact p c s).1 v hv
  have h2 := expected_le_evidence p c hp hw s hs hz
  have h3 := entropy_nonneg p c s hz
  linarith

/-- C224: in particular after any number of iterations of training of the zeroth-order model. -/
theorem training_bound (p : Params) (c : Corpus) (hp : PositivePriors p) (hw : ValidWords p c) (r : Nat → Nat → Nat → ℚ) (hr : GoodRandom p c r)
    (iterations : Nat) (v : ℝ) (hv : varBound true p c (iterate kernel0 p c iterations (newQueryState c p.K r)).1 = .ok (some v)) :
    v ≤ Real.log (evidence p c) := by
  obtain ⟨-, h1, h2⟩ := Cvb0.cvb0_counts_are_sums p c hp r hr iterations
  exact bound_le_evidence p c hp hw _ h1 h2 v hv

/-- C224: and after any number of iterations of training of the second-order model. -/
theorem training_bound2 (ex : ℚ → ℚ) (hex : ∀ x, 0 < ex x) (p : Params) (c : Corpus) (hp : PositivePriors p) (hw : ValidWords p c)
    (r : Nat → Nat → Nat → ℚ) (hr : GoodRandom p c r) (iterations : Nat) (v : ℝ)
    (hv : varBound true p c (iterate (kernel64 ex) p c iterations (newQueryState c p.K r)).1 = .ok (some v) ∨
      varBound true p c (iterate (kernel32 ex) p c iterations (newQueryState c p.K r)).1 = .ok (some v)) :
    v ≤ Real.log (evidence p c) := by
  have h0 := Cvb0.newQueryState_consistent p c r hr
  rcases hv with hv | hv
  · obtain ⟨h1, h2⟩ := (lawful64 hp.priors hex).iterate_good hp.priors (Cvb0.zeroBase p).base iterations _ (Cvb0.good_iff.2 h0)
    obtain ⟨h3, h4⟩ := Cvb0.good_iff.1 h2
    exact bound_le_evidence p c hp hw _ h3 h4 v hv
  · obtain ⟨h1, h2⟩ := (lawful32 hp.priors hex).iterate_good hp.priors (Cvb0.zeroBase p).base iterations _ (Cvb0.good_iff.2 h0)
    obtain ⟨h3, h4⟩ := Cvb0.good_iff.1 h2
    exact bound_le_evidence p c hp hw _ h3 h4 v hv

/-- C225: the bound that adds the entropy is a bound too, and better by twice the entropy. -/
theorem bound_violation (p : Params) (c : Corpus) (hp : PositivePriors p) (hw : ValidWords p c) (s : State)
    (hs : CountsAreSums p c (fun _ _ => 0) (fun _ => 0) s) (hz : TokenDists p c s) (v : ℝ) (hv : varBound true p c s = .ok (some v)) :
    v + 2 * entropy p c s = expected p c s.n + entropy p c s ∧ v + 2 * entropy p c s ≤ Real.log (evidence p c) := by
  have h1 := (bound_exact p c s).1 v hv
  have h2 := expected_le_evidence p c hp hw s hs hz
  constructor <;> linarith

/-- C225: for one topic nothing is lost: the bound is the logarithm of the evidence. -/
theorem bound_partial (p : Params) (c : Corpus) (hp : PositivePriors p) (hK : p.K = 1) (hw : ValidWords p c) (s : State)
    (hs : CountsAreSums p c (fun _ _ => 0) (fun _ => 0) s) (hz : TokenDists p c s) :
    varBound true p c s = .ok (some (Real.log (evidence p c))) := by
  have hz1 : ∀ d < c.lens.length, ∀ n < c.len d, s.z d n 0 = 1 := by
    intro d hd n hn
    have := hz.one d hd n hn
    rwa [hK, Finset.sum_range_one] at this
  have hz2 : ∀ d < c.lens.length, ∀ n < c.len d, ∀ k < p.K, s.z d n k = 1 := by
    intro d hd n hn k hk
    obtain rfl : k = 0 := by omega
    exact hz1 d hd n hn
  have hent : entropy p c s = 0 := by
    unfold entropy
    refine Finset.sum_eq_zero fun d hd => Finset.sum_eq_zero fun n hn => Finset.sum_eq_zero fun k hk => ?_
    rw [hz2 d (Finset.mem_range.1 hd) n (Finset.mem_range.1 hn) k (Finset.mem_range.1 hk)]
    simp
  have hval : varBound true p c s = .ok (some (expected p c s.n - entropy p c s)) := by
    unfold varBound jaggedEntropy
    rw [if_pos rfl, if_pos fun d hd n hn k hk => by rw [hz2 d hd n hn k hk]; exact one_pos, entropy_code]
    rfl
  rw [hval, hent, sub_zero]
  have hu : ∀ z z' : Token c → Fin p.K, z = z' := by
    intro z z'
    funext i
    ext
    have h1 := (z i).isLt
    have h2 := (z' i).isLt
    omega
  have z0 : Token c → Fin p.K := fun _ => ⟨0, hp.K⟩
  have hev : evidence p c = joint p c z0 := by
    unfold evidence
    rw [Finset.sum_eq_single z0 (fun z _ h => absurd (hu z z0) h) (fun h => absurd (Finset.mem_univ _) h)]
  rw [hev, log_joint p c hp z0, expected_eq p c hw s hs hz]
  have hd : ∀ d ∈ Finset.range c.lens.length, ∀ k ∈ Finset.range p.K, (s.n.dk d k : ℝ) = docCount c p.K z0 d k := by
    intro d hd k hk
    rw [hs.doc d (Finset.mem_range.1 hd) k (Finset.mem_range.1 hk), overDoc, Finset.sum_congr rfl fun n hn =>
      hz2 d (Finset.mem_range.1 hd) n (Finset.mem_range.1 hn) k (Finset.mem_range.1 hk)]
    unfold docCount
    rw [Fintype.sum_sigma]
    have hk0 : ∀ i, ((z0 i : Nat) = k) := fun i => by
      have h1 := (z0 i).isLt
      have h2 := Finset.mem_range.1 hk
      omega
    simp only [hk0, and_true]
    rw [Finset.sum_eq_single (⟨d, Finset.mem_range.1 hd⟩ : Fin c.lens.length)]
    · simp
    · intro e _ he
      have : (e : Nat) ≠ d := fun h => he (Fin.ext h)
      simp [this]
    · intro h
      exact absurd (Finset.mem_univ _) h
  have hk : ∀ k ∈ Finset.range p.K, ∀ t, (s.n.kt k t : ℝ) = wordCount c p.K z0 k t := by
    intro k hk t
    rw [hs.word k (Finset.mem_range.1 hk) t, overWord, overAll]
    unfold wordCount
    have hk0 : ∀ i, ((z0 i : Nat) = k) := fun i => by
      have h1 := (z0 i).isLt
      have h2 := Finset.mem_range.1 hk
      omega
    simp only [hk0, true_and, overDoc]
    rw [Fintype.sum_sigma, zero_add]
    push_cast
    rw [Finset.sum_range]
    refine Finset.sum_congr rfl fun d _ => ?_
    rw [Finset.sum_range]
    refine Finset.sum_congr rfl fun n _ => ?_
    rw [hz2 d d.isLt n n.isLt k (Finset.mem_range.1 hk)]
    split <;> simp
  have l1 : ∀ d ∈ Finset.range c.lens.length, logB p.K (fun k => s.n.dk d k + prior p k) = logB p.K (fun k => docCount c p.K z0 d k + prior p k) := by
    intro d hd'
    unfold logB
    have : ∀ k ∈ Finset.range p.K, (s.n.dk d k : ℝ) + prior p k = docCount c p.K z0 d k + prior p k := fun k hk' => by rw [hd d hd' k hk']
    congr 1
    · exact Finset.sum_congr rfl fun k hk' => by dsimp only; rw [this k hk']
    · congr 2
      exact Finset.sum_congr rfl this
  have l2 : ∀ k ∈ Finset.range p.K, logB p.T (fun t => s.n.kt k t + (p.b : ℝ)) = logB p.T (fun t => wordCount c p.K z0 k t + (p.b : ℝ)) := by
    intro k hk'
    have : (fun t => (s.n.kt k t : ℝ) + (p.b : ℝ)) = fun t => (wordCount c p.K z0 k t : ℝ) + (p.b : ℝ) := funext fun t => by rw [hk k hk' t]
    rw [this]
  congr 3
  · exact Finset.sum_congr rfl fun d hd' => by rw [l1 d hd']
  · exact Finset.sum_congr rfl fun k hk' => by rw [l2 k hk']

/-! ## From counts to counts -/

theorem count_take (row : List Nat) (t : Nat) : ∀ len, len ≤ row.length →
    (row.take len).count t = ∑ n ∈ Finset.range len, if row.getD n 0 = t then 1 else 0 := by
  intro len
  induction len with
  | zero => simp
  | succ n ih =>
    intro h
    rw [Finset.sum_range_succ, ← ih (by omega), List.take_succ_eq_append_getElem (by omega), List.count_append, List.count_singleton,
      List.getD_eq_getElem _ _ (by omega)]
    simp

/-- C223: for whole counts the topic counts that the collapsed models keep are a division of the counts of the corpus: over the topics, the counts of
a document add up to its length and the counts of a word to the number of times it is in the corpus. -/
theorem training_counts (e : WordList.Elem) (he : e ≠ .other) (rand : Nat → Nat) (w : Csr ℚ) (hwf : w.WF) (hD : 2 ≤ w.rows)
    (hnat : ∀ d, d < w.rows → ∀ q ∈ w.row d, ∃ n : Nat, q.2 = n) (p : Params) :
    ∃ rows lens, WordList.toWordList e rand w = .ok (some (rows, lens)) ∧
      ∀ s, CountsAreSums p (corpusOf rows lens) (fun _ _ => 0) (fun _ => 0) s → TokenDists p (corpusOf rows lens) s →
        (∀ d < w.rows, ∑ k ∈ Finset.range p.K, s.n.dk d k = ((w.row d).map Prod.snd).sum) ∧
        (∀ t, ∑ k ∈ Finset.range p.K, s.n.kt k t = ∑ d ∈ Finset.range w.rows, w.entry d t) := by
  obtain ⟨rows, lens, h1, h2, h3⟩ := WordList.word_list_partial e he rand w hwf hD hnat
  refine ⟨rows, lens, h1, ?_⟩
  have hlen : lens.length = w.rows := by
    have hl : lens = WordList.docLens w := by
      unfold WordList.toWordList at h1
      dsimp only at h1
      split at h1
      · simp at h1
      · simp only [Except.ok.injEq] at h1
        rcases hf : WordList.fillRows w (WordList.maxLen (WordList.docLens w)).toNat w.rows 0 0 with _ | x
        · rw [hf] at h1
          simp at h1
        · rw [hf] at h1
          simp only [Option.bind_eq_bind, Option.bind_some, Option.pure_def, Option.some.injEq, Prod.mk.injEq] at h1
          exact h1.2.symm
    rw [hl, WordList.docLens, List.length_map, List.length_range]
  have hcl : (corpusOf rows lens).lens.length = w.rows := by simp [corpusOf, hlen]
  intro s hs hz
  have hrow : ∀ d, d < w.rows → (((corpusOf rows lens).len d : Nat) : ℚ) = ((w.row d).map Prod.snd).sum ∧
      ∀ t, ∑ n ∈ Finset.range ((corpusOf rows lens).len d), (if (corpusOf rows lens).w d n = t then (1 : ℚ) else 0) = w.entry d t := by
    intro d hd
    obtain ⟨row, len, a, b, l, hsum, hcount⟩ := h3 d hd
    have e1 : (corpusOf rows lens).len d = len := by
      unfold Corpus.len corpusOf
      rw [List.getD_eq_getElem?_getD, List.getElem?_map, b]
      rfl
    have e2 : ∀ n, (corpusOf rows lens).w d n = row.getD n 0 := by
      intro n
      show (rows.getD d []).getD n 0 = row.getD n 0
      rw [List.getD_eq_getElem?_getD (l := rows), a]
      rfl
    refine ⟨by rw [e1, hsum], fun t => ?_⟩
    rw [e1, ← hcount t, count_take row t len l]
    simp only [e2]
    push_cast
    rfl
  constructor
  · intro d hd
    rw [(Cvb0.cvb0_totals p _ _ _ s hs hz).1 d (by rw [hcl]; exact hd), (hrow d hd).1]
  · intro t
    rw [Finset.sum_congr rfl fun k hk => hs.word k (Finset.mem_range.1 hk) t]
    unfold overWord overAll
    simp only [overDoc, zero_add]
    rw [Finset.sum_comm, hcl]
    refine Finset.sum_congr rfl fun d hd => ?_
    rw [Finset.sum_comm, ← (hrow d (Finset.mem_range.1 hd)).2 t]
    refine Finset.sum_congr rfl fun n hn => ?_
    by_cases h : (corpusOf rows lens).w d n = t
    · simp only [if_pos h]
      exact hz.one d (by rw [hcl]; exact Finset.mem_range.1 hd) n (Finset.mem_range.1 hn)
    · simp only [if_neg h]
      simp

/-! ## Examples -/

example : ValidWords Cvb0.exP Cvb0.exC := by
  unfold ValidWords
  decide

example : ∃ s v, CountsAreSums Cvb0.exP Cvb0.exC (fun _ _ => 0) (fun _ => 0) s ∧ TokenDists Cvb0.exP Cvb0.exC s ∧
    varBound true Cvb0.exP Cvb0.exC s = .ok (some v) ∧ v ≤ Real.log (evidence Cvb0.exP Cvb0.exC) := by
  have hpos : ∀ d < Cvb0.exC.lens.length, ∀ n < Cvb0.exC.len d, ∀ k < Cvb0.exP.K, 0 < (newQueryState Cvb0.exC Cvb0.exP.K Cvb0.exR).z d n k := by
    decide +kernel
  have hv : ∃ v, varBound true Cvb0.exP Cvb0.exC (newQueryState Cvb0.exC Cvb0.exP.K Cvb0.exR) = .ok (some v) := by
    unfold varBound jaggedEntropy
    rw [if_pos rfl, if_pos hpos]
    exact ⟨_, rfl⟩
  obtain ⟨v, hv⟩ := hv
  exact ⟨_, _, Cvb0.exQ_ok.1, Cvb0.exQ_ok.2, hv, bound_le_evidence _ _ Cvb0.exP_pos (by unfold ValidWords; decide) _ Cvb0.exQ_ok.1 Cvb0.exQ_ok.2 _ hv⟩

/-- The entropy of the initial state of the example is not zero: the sum of the probabilities 1/4 and 3/4 of a token. -/
example : 0 < (1 / 4 : ℝ) * Real.log (1 / (1 / 4)) := mul_pos (by norm_num) (Real.log_pos (by norm_num))

end Verif.Props.CvbBound
