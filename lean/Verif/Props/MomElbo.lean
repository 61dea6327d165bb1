import Verif.Lemmas.Evidence

/-!
# The evidence bound of the mixture of multinomials (C187, C188, C189)

`digamma` is the true digamma function here.  The evidence is the probability of the corpus under the following experiment: documents draw
their topic from an urn that starts with the topic prior, and their words from the urn of the topic, which starts with the vocabulary prior;
every ball drawn is returned with another one of its colour.
-/

namespace Verif.Props.MomElbo

open Verif Verif.Mom Verif.Dirichlet Verif.Evidence
open Verif.Props.MomEm (IsDist softmax_dist eStep_eq urn urn_pos Positive exX exP exS exX_len exS_pos em_query)
open Verif.Props.Numerics (softmax sum_exp_pos)

/-! ## The bound and the evidence -/

/-- The lower bound of the logarithm of the evidence by independent distributions: topics of the documents by `resp`, the distribution of
topics by a Dirichlet distribution with the parameters `topic`, the distributions of words by those with the parameters `word k`. -/
noncomputable def elbo (p : EmParams) (x : Data) (s : EmState) : ℝ :=
  ∑ d ∈ Finset.range x.D, ∑ k ∈ Finset.range p.K,
      s.resp d k * (expLog p.K s.topic k + ∑ t ∈ Finset.range x.T, x.words d t * expLog x.T (s.word k) t - Real.log (s.resp d k))
    + dirTerm p.K p.a s.topic + ∑ k ∈ Finset.range p.K, dirTerm x.T p.b (s.word k)

/-- The number of documents of topic `k` -/
def docCount (K : Nat) {D : Nat} (z : Fin D → Fin K) (k : Nat) : Nat := ∑ d, if (z d : Nat) = k then 1 else 0

/-- How often word `t` is in documents of topic `k` -/
def wordCount (x : Data) (K : Nat) (z : Fin x.D → Fin K) (k t : Nat) : Nat := ∑ d, if (z d : Nat) = k then x.words d t else 0

/-- The probability of the topics `z` and the corpus -/
noncomputable def joint (p : EmParams) (x : Data) (z : Fin x.D → Fin p.K) : ℝ :=
  urn p.K p.a (docCount p.K z) * ∏ k ∈ Finset.range p.K, urn x.T p.b (wordCount x p.K z k)

/-- The probability of the corpus -/
noncomputable def evidence (p : EmParams) (x : Data) : ℝ := ∑ z, joint p x z

/-- Positive priors, at least one topic and one word -/
structure Prior (p : EmParams) (x : Data) : Prop where
  topics : 0 < p.K
  words : 0 < x.T
  a : ∀ k, k < p.K → 0 < p.a k
  b : ∀ t, t < x.T → 0 < p.b t

/-- Distributions over topics that may have zeros -/
def Resp (p : EmParams) (x : Data) (r : Nat → Nat → ℝ) : Prop :=
  ∀ d, d < x.D → (∀ k, k < p.K → 0 ≤ r d k) ∧ ∑ k ∈ Finset.range p.K, r d k = 1

/-! ## The two steps -/

theorem logJoint_eq (p : EmParams) (x : Data) (s : EmState) (d k : Nat) :
    logJoint digamma p x s d k
      = expLog p.K s.topic k + ∑ t ∈ Finset.range x.T, x.words d t * expLog x.T (s.word k) t := by
  unfold logJoint expLog
  rw [add_comm]

/-- With the parameters fixed, the responsibilities of the E-step are the best. -/
theorem estep_best (p : EmParams) (hK : 0 < p.K) (x : Data) (s : EmState) (r : Nat → Nat → ℝ) (hr : Resp p x r) :
    elbo p x { s with resp := r } ≤ elbo p x { s with resp := eStep digamma p x s } := by
  unfold elbo
  simp only [← logJoint_eq p x s]
  refine add_le_add (add_le_add (Finset.sum_le_sum fun d hd => ?_) le_rfl) le_rfl
  obtain ⟨h1, h2⟩ := hr d (Finset.mem_range.mp hd)
  have h3 := entropy_max p.K hK (fun k => logJoint digamma p x s d k) (r d) h1 h2
  have h4 := entropy_attained p.K hK (fun k => logJoint digamma p x s d k)
  rw [eStep_eq]
  unfold softmax
  exact h3.trans h4.ge

/-- The bound by expected counts -/
theorem elbo_counts (p : EmParams) (x : Data) (s : EmState) :
    elbo p x s = -∑ d ∈ Finset.range x.D, ∑ k ∈ Finset.range p.K, s.resp d k * Real.log (s.resp d k)
      + (∑ k ∈ Finset.range p.K, (∑ d ∈ Finset.range x.D, s.resp d k) * expLog p.K s.topic k + dirTerm p.K p.a s.topic)
      + ∑ k ∈ Finset.range p.K, (∑ t ∈ Finset.range x.T,
          (∑ d ∈ Finset.range x.D, (x.words d t : ℝ) * s.resp d k) * expLog x.T (s.word k) t + dirTerm x.T p.b (s.word k)) := by
  unfold elbo
  have e1 : ∑ k ∈ Finset.range p.K, (∑ d ∈ Finset.range x.D, s.resp d k) * expLog p.K s.topic k
      = ∑ d ∈ Finset.range x.D, ∑ k ∈ Finset.range p.K, s.resp d k * expLog p.K s.topic k := by
    rw [Finset.sum_comm]
    exact Finset.sum_congr rfl fun k _ => Finset.sum_mul _ _ _
  have e2 : ∑ k ∈ Finset.range p.K, ∑ t ∈ Finset.range x.T,
        (∑ d ∈ Finset.range x.D, (x.words d t : ℝ) * s.resp d k) * expLog x.T (s.word k) t
      = ∑ d ∈ Finset.range x.D, ∑ k ∈ Finset.range p.K, s.resp d k * ∑ t ∈ Finset.range x.T, x.words d t * expLog x.T (s.word k) t := by
    rw [Finset.sum_comm (s := Finset.range x.D)]
    refine Finset.sum_congr rfl fun k _ => ?_
    simp only [Finset.sum_mul, Finset.mul_sum]
    rw [Finset.sum_comm]
    exact Finset.sum_congr rfl fun d _ => Finset.sum_congr rfl fun t _ => by ring
  rw [e1, Finset.sum_add_distrib, e2]
  have e3 : ∑ d ∈ Finset.range x.D, ∑ k ∈ Finset.range p.K,
        s.resp d k * (expLog p.K s.topic k + ∑ t ∈ Finset.range x.T, x.words d t * expLog x.T (s.word k) t - Real.log (s.resp d k))
      = ∑ d ∈ Finset.range x.D, ∑ k ∈ Finset.range p.K, s.resp d k * expLog p.K s.topic k
        + ∑ d ∈ Finset.range x.D, ∑ k ∈ Finset.range p.K, s.resp d k * ∑ t ∈ Finset.range x.T, x.words d t * expLog x.T (s.word k) t
        - ∑ d ∈ Finset.range x.D, ∑ k ∈ Finset.range p.K, s.resp d k * Real.log (s.resp d k) := by
    rw [← Finset.sum_add_distrib, ← Finset.sum_sub_distrib]
    refine Finset.sum_congr rfl fun d _ => ?_
    rw [← Finset.sum_add_distrib, ← Finset.sum_sub_distrib]
    exact Finset.sum_congr rfl fun k _ => by ring
  rw [e3]
  ring

/-- With the responsibilities fixed, the parameters of the M-step are the best. -/
theorem mstep_best (p : EmParams) (x : Data) (hp : Prior p x) (s : EmState) (hs : Positive p x.T s) (hr : Resp p x s.resp) :
    elbo p x s ≤ elbo p x (mStep p x s) := by
  rw [elbo_counts, elbo_counts]
  have hn : ∀ k, k < p.K → 0 ≤ ∑ d ∈ Finset.range x.D, s.resp d k := fun k hk =>
    Finset.sum_nonneg fun d hd => (hr d (Finset.mem_range.mp hd)).1 k hk
  have hw : ∀ k t, k < p.K → 0 ≤ ∑ d ∈ Finset.range x.D, (x.words d t : ℝ) * s.resp d k := fun k t hk =>
    Finset.sum_nonneg fun d hd => mul_nonneg (Nat.cast_nonneg _) ((hr d (Finset.mem_range.mp hd)).1 k hk)
  refine add_le_add (add_le_add le_rfl ?_) (Finset.sum_le_sum fun k hk => ?_)
  · refine (dir_gain_le p.K hp.topics p.a s.topic _ hs.topic fun k hk => add_pos_of_nonneg_of_pos (hn k hk) (hp.a k hk)).trans ?_
    exact (dir_gain_eq p.K p.a (mStep p x s).topic _ fun k _ => rfl).ge
  · have hk := Finset.mem_range.mp hk
    refine (dir_gain_le x.T hp.words p.b (s.word k) _ (fun t ht => hs.word k t hk ht)
      fun t ht => add_pos_of_nonneg_of_pos (hw k t hk) (hp.b t ht)).trans ?_
    exact (dir_gain_eq x.T p.b ((mStep p x s).word k) _ fun t _ => rfl).ge

theorem eStep_resp (p : EmParams) (hK : 0 < p.K) (x : Data) (s : EmState) : Resp p x (eStep digamma p x s) := by
  intro d _
  rw [eStep_eq]
  have := softmax_dist p.K (logJoint digamma p x s d) hK
  exact ⟨fun k hk => (this.1 k hk).le, this.2⟩

theorem mStep_positive (p : EmParams) (x : Data) (hp : Prior p x) (s : EmState) (hr : Resp p x s.resp) :
    Positive p x.T (mStep p x s) := by
  refine ⟨fun k hk => add_pos_of_nonneg_of_pos ?_ (hp.a k hk), fun k t hk ht => add_pos_of_nonneg_of_pos ?_ (hp.b t ht)⟩
  · exact Finset.sum_nonneg fun d hd => (hr d (Finset.mem_range.mp hd)).1 k hk
  · exact Finset.sum_nonneg fun d hd => mul_nonneg (Nat.cast_nonneg _) ((hr d (Finset.mem_range.mp hd)).1 k hk)

/-! ## C187: training -/

theorem loop_monotone (p : EmParams) (x : Data) (hp : Prior p x) (plan : EmPlan) (fuel itr : Nat) (s s' : EmState)
    (hs : Positive p x.T s) (hr : Resp p x s.resp) (h : emLoop digamma p x plan fuel itr s = .ok s') :
    elbo p x s ≤ elbo p x s' := by
  induction fuel generalizing itr s with
  | zero =>
    rw [emLoop] at h
    obtain rfl := Except.ok.inj h
    exact le_rfl
  | succ fuel ih =>
    rw [emLoop] at h
    have h1 : elbo p x s ≤ elbo p x { s with resp := eStep digamma p x s } := estep_best p hp.topics x s s.resp hr
    have h2 := eStep_resp p hp.topics x s
    simp only at h
    split at h
    · obtain rfl := Except.ok.inj h
      exact h1
    · split at h
      · exact absurd h (by simp)
      · have hs' : Positive p x.T { s with resp := eStep digamma p x s } := ⟨hs.topic, hs.word⟩
        have h3 := mstep_best p x hp { s with resp := eStep digamma p x s } hs' h2
        have h4 := ih (itr + 1) (mStep p x { s with resp := eStep digamma p x s })
          (mStep_positive p x hp { s with resp := eStep digamma p x s } h2) h2 h
        exact h1.trans (h3.trans h4)

/-- **C187**: a training run that returns never lowers the evidence bound, whatever the plan. -/
theorem train_monotone (p : EmParams) (x : Data) (hp : Prior p x) (plan : EmPlan) (s s' : EmState) (hs : Positive p x.T s)
    (hr : Resp p x s.resp) (h : emTrain digamma p x plan s = .ok s') : elbo p x s ≤ elbo p x s' := by
  unfold emTrain at h
  split at h
  · exact absurd h (by simp)
  · exact loop_monotone p x hp plan _ _ s s' hs hr h

/-- **C188**: the topics returned by a query are the best ones for the given model: no other distributions over the topics give a higher
bound. -/
theorem query_best (p : EmParams) (hK : 0 < p.K) (x : Data) (n : Nat) (s s' : EmState) (h : emQuery digamma p x (n + 1) s = .ok s')
    (r : Nat → Nat → ℝ) (hr : Resp p x r) : elbo p x { s' with resp := r } ≤ elbo p x s' := by
  rw [em_query digamma p x n s] at h
  obtain rfl := Except.ok.inj h
  have := estep_best p hK x s r hr
  rwa [funext (eStep_eq digamma p x s)] at this

/-! ## C189: the bound is one -/

theorem joint_pos (p : EmParams) (x : Data) (hp : Prior p x) (z : Fin x.D → Fin p.K) : 0 < joint p x z :=
  mul_pos (urn_pos p.K hp.topics p.a hp.a _) (Finset.prod_pos fun _ _ => urn_pos x.T hp.words p.b hp.b _)

theorem log_joint (p : EmParams) (x : Data) (hp : Prior p x) (z : Fin x.D → Fin p.K) :
    Real.log (joint p x z) = (logB p.K (fun k => docCount p.K z k + p.a k) - logB p.K p.a)
      + ∑ k ∈ Finset.range p.K, (logB x.T (fun t => wordCount x p.K z k t + p.b t) - logB x.T p.b) := by
  unfold joint
  rw [Real.log_mul (urn_pos p.K hp.topics p.a hp.a _).ne'
    (Finset.prod_pos fun k _ => urn_pos x.T hp.words p.b hp.b _).ne', Real.log_prod (hf := fun k _ => (urn_pos x.T hp.words p.b hp.b _).ne'),
    log_urn p.K hp.topics p.a hp.a]
  exact congrArg _ (Finset.sum_congr rfl fun k _ => log_urn x.T hp.words p.b hp.b _)

/-- **C189**: the bound never exceeds the logarithm of the evidence. -/
theorem elbo_le_evidence (p : EmParams) (x : Data) (hp : Prior p x) (s : EmState) (hs : Positive p x.T s) (hr : Resp p x s.resp) :
    elbo p x s ≤ Real.log (evidence p x) := by
  have key := product_bound (ι := Fin x.D) p.K hp.topics
    (fun d k => expLog p.K s.topic k + ∑ t ∈ Finset.range x.T, x.words d t * expLog x.T (s.word k) t) (fun d => s.resp d)
    (fun d => (hr d d.isLt).1) (fun d => (hr d d.isLt).2)
    (dirTerm p.K p.a s.topic + ∑ k ∈ Finset.range p.K, dirTerm x.T p.b (s.word k)) (fun z => Real.log (joint p x z)) ?_
  · simp only [Real.exp_log (joint_pos p x hp _)] at key
    unfold evidence elbo
    refine le_trans (le_of_eq ?_) key
    rw [Finset.sum_range]
    ring
  · intro z
    rw [log_joint p x hp z]
    have g1 := dir_gain_le p.K hp.topics p.a s.topic (fun k => (docCount p.K z k : ℝ)) hs.topic
      (fun k hk => add_pos_of_nonneg_of_pos (Nat.cast_nonneg _) (hp.a k hk))
    have g2 : ∑ k ∈ Finset.range p.K, (∑ t ∈ Finset.range x.T, (wordCount x p.K z k t : ℝ) * expLog x.T (s.word k) t
          + dirTerm x.T p.b (s.word k))
        ≤ ∑ k ∈ Finset.range p.K, (logB x.T (fun t => wordCount x p.K z k t + p.b t) - logB x.T p.b) :=
      Finset.sum_le_sum fun k hk => dir_gain_le x.T hp.words p.b (s.word k) (fun t => (wordCount x p.K z k t : ℝ))
        (fun t ht => hs.word k t (Finset.mem_range.mp hk) ht)
        (fun t ht => add_pos_of_nonneg_of_pos (Nat.cast_nonneg _) (hp.b t ht))
    rw [Finset.sum_add_distrib] at g2
    have e : ∑ d, (expLog p.K s.topic (z d) + ∑ t ∈ Finset.range x.T, (x.words d t : ℝ) * expLog x.T (s.word (z d)) t)
        = ∑ k ∈ Finset.range p.K, (docCount p.K z k : ℝ) * expLog p.K s.topic k
          + ∑ k ∈ Finset.range p.K, ∑ t ∈ Finset.range x.T, (wordCount x p.K z k t : ℝ) * expLog x.T (s.word k) t := by
      rw [Finset.sum_add_distrib, sum_by_class p.K z (fun _ k => expLog p.K s.topic k),
        sum_by_class p.K z (fun d k => ∑ t ∈ Finset.range x.T, (x.words d t : ℝ) * expLog x.T (s.word k) t)]
      congr 1
      · refine Finset.sum_congr rfl fun k _ => ?_
        unfold docCount
        push_cast
        rw [Finset.sum_mul]
        exact Finset.sum_congr rfl fun d _ => by split <;> simp
      · refine Finset.sum_congr rfl fun k _ => ?_
        unfold wordCount
        push_cast
        simp only [Finset.sum_mul]
        rw [Finset.sum_comm]
        refine Finset.sum_congr rfl fun d _ => ?_
        split <;> simp
    rw [e]
    linarith

/-! ## Examples -/

theorem exPrior : Prior exP exX :=
  ⟨by decide, by decide, fun _ _ => by show (0 : ℝ) < 3; norm_num, fun _ _ => by show (0 : ℝ) < 11 / 10; norm_num⟩

theorem exResp : Resp exP exX exS.resp := by
  intro d hd
  have : d = 0 ∨ d = 1 := by change d < 2 at hd; omega
  refine ⟨fun k _ => ?_, ?_⟩
  · show (0 : ℝ) ≤ if d = k then 1 else 0
    split <;> norm_num
  · show ∑ k ∈ Finset.range 2, (if d = k then (1 : ℝ) else 0) = 1
    rcases this with rfl | rfl <;> simp

/-- Ten iterations without logging return and do not lower the bound, which is below the logarithm of the evidence. -/
example : ∃ s', emTrain digamma exP exX ⟨10, 0, false⟩ exS = .ok s' ∧ elbo exP exX exS ≤ elbo exP exX s' := by
  obtain ⟨s', h, -⟩ := MomEm.em_trains_partial digamma exP (by decide) exX exX_len 9 exS
  exact ⟨s', h, train_monotone exP exX exPrior _ exS s' exS_pos exResp h⟩

example : elbo exP exX exS ≤ Real.log (evidence exP exX) := elbo_le_evidence exP exX exPrior exS exS_pos exResp

example : ∃ s', emQuery digamma exP exX 5 exS = .ok s' ∧ elbo exP exX { s' with resp := exS.resp } ≤ elbo exP exX s' := by
  obtain ⟨s', h⟩ : ∃ s', emQuery digamma exP exX 5 exS = .ok s' := ⟨_, em_query digamma exP exX 4 exS⟩
  exact ⟨s', h, query_best exP (by decide) exX 4 exS s' h _ exResp⟩

end Verif.Props.MomElbo
