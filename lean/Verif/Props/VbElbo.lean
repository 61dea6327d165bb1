import Verif.Lemmas.Evidence
import Verif.Model.VbBound
import Verif.Props.VbPython

/-!
# The evidence bound of LDA (C190, C191, C192)

`digamma` is the true digamma function here.  The evidence is the probability of the corpus under the following experiment: every token draws
its topic from the urn of its document, which starts with the topic prior, and its word from the urn of the topic, which starts with the
vocabulary prior; every ball drawn is returned with another one of its colour.
-/

namespace Verif.Props.VbElbo

open Verif Verif.VbPython Verif.Dirichlet Verif.Evidence
open Verif.Mom (Data loggamma)
open Verif.Props.MomEm (urn urn_pos)
open Verif.Props.VbPython (inferTopics_eq infer_pos infer_sum pos nextDoc_pos Corpus tokens)
open Verif.Props.Numerics (softmax sum_exp_pos)

/-! ## The bound and the evidence -/

/-- The expected logarithm of the probability that a token of document `d` has topic `k` and is the word `t` -/
noncomputable def link (p : Params) (x : Data) (word topics : Nat → Nat → ℝ) (d t k : Nat) : ℝ :=
  expLog p.K (topics d) k + expLog x.T (word k) t

/-- The part of the bound that has to do with the parameters only -/
noncomputable def penalty (p : Params) (x : Data) (word topics : Nat → Nat → ℝ) : ℝ :=
  ∑ d ∈ Finset.range x.D, dirTerm p.K p.a (topics d) + ∑ k ∈ Finset.range p.K, dirTerm x.T (fun _ => p.v) (word k)

/-- The lower bound of the logarithm of the evidence by independent distributions: topics of tokens by `q`, the topic distributions of
documents by Dirichlet distributions with the parameters `topics d`, the word distributions of topics by those with the parameters `word k` -/
noncomputable def elbo (p : Params) (x : Data) (q : Nat → Nat → Nat → ℝ) (word topics : Nat → Nat → ℝ) : ℝ :=
  ∑ d ∈ Finset.range x.D, ∑ t ∈ Finset.range x.T, (x.words d t : ℝ) * ∑ k ∈ Finset.range p.K,
      q d t k * (link p x word topics d t k - Real.log (q d t k))
    + penalty p x word topics

/-- The bound with the best distributions of the topics of tokens -/
noncomputable def free (p : Params) (x : Data) (word topics : Nat → Nat → ℝ) : ℝ :=
  ∑ d ∈ Finset.range x.D, ∑ t ∈ Finset.range x.T, (x.words d t : ℝ) * Real.log (∑ k ∈ Finset.range p.K, Real.exp (link p x word topics d t k))
    + penalty p x word topics

/-- The tokens of the corpus: document, word, number of the occurrence -/
abbrev Token (x : Data) : Type := (d : Fin x.D) × (t : Fin x.T) × Fin (x.words d t)

/-- How many tokens of document `d` have topic `k` -/
def docCount (x : Data) (K : Nat) (z : Token x → Fin K) (d k : Nat) : Nat := ∑ i, if (i.1 : Nat) = d ∧ (z i : Nat) = k then 1 else 0

/-- How many tokens of topic `k` are the word `t` -/
def wordCount (x : Data) (K : Nat) (z : Token x → Fin K) (k t : Nat) : Nat := ∑ i, if (z i : Nat) = k ∧ (i.2.1 : Nat) = t then 1 else 0

/-- The probability of the topics `z` and the corpus -/
noncomputable def joint (p : Params) (x : Data) (z : Token x → Fin p.K) : ℝ :=
  (∏ d ∈ Finset.range x.D, urn p.K p.a (docCount x p.K z d)) * ∏ k ∈ Finset.range p.K, urn x.T (fun _ => p.v) (wordCount x p.K z k)

/-- The probability of the corpus -/
noncomputable def evidence (p : Params) (x : Data) : ℝ := ∑ z, joint p x z

/-- Positive priors, at least one topic and one word -/
structure Prior (p : Params) (x : Data) : Prop where
  topics : 0 < p.K
  words : 0 < x.T
  a : ∀ k, k < p.K → 0 < p.a k
  v : 0 < p.v

/-- Positive parameters -/
structure Positive (p : Params) (x : Data) (word topics : Nat → Nat → ℝ) : Prop where
  word : ∀ k t, k < p.K → t < x.T → 0 < word k t
  topics : ∀ d k, d < x.D → k < p.K → 0 < topics d k

/-- Distributions over topics for the words of documents -/
def Resp (p : Params) (x : Data) (q : Nat → Nat → Nat → ℝ) : Prop :=
  ∀ d t, d < x.D → t < x.T → (∀ k, k < p.K → 0 ≤ q d t k) ∧ ∑ k ∈ Finset.range p.K, q d t k = 1

/-! ## The best topics of tokens -/

/-- No distributions of the topics of tokens are better than the best. -/
theorem elbo_le_free (p : Params) (hK : 0 < p.K) (x : Data) (q : Nat → Nat → Nat → ℝ) (hq : Resp p x q) (word topics : Nat → Nat → ℝ) :
    elbo p x q word topics ≤ free p x word topics := by
  unfold elbo free
  refine add_le_add (Finset.sum_le_sum fun d hd => Finset.sum_le_sum fun t ht => ?_) le_rfl
  obtain ⟨h1, h2⟩ := hq d t (Finset.mem_range.mp hd) (Finset.mem_range.mp ht)
  exact mul_le_mul_of_nonneg_left (entropy_max p.K hK _ _ h1 h2) (Nat.cast_nonneg _)

/-- The scores differ from the expected logarithms by a constant, so their softmax is the same. -/
theorem infer_link (p : Params) (x : Data) (word topics means : Nat → Nat → ℝ) (d t k : Nat)
    (hm : ∀ j, p.a j + (x.len d : ℝ) * means d j = topics d j) :
    inferTopics digamma p x word means d t k
      = Real.exp (link p x word topics d t k) / ∑ j ∈ Finset.range p.K, Real.exp (link p x word topics d t j) := by
  rw [inferTopics_eq]
  have h : ∀ j, score digamma p x word means d t j
      = link p x word topics d t j + digamma (∑ i ∈ Finset.range p.K, topics d i) := by
    intro j
    unfold score link expLog
    rw [hm]
    ring
  unfold softmax
  simp only [h, Real.exp_add]
  rw [← Finset.sum_mul]
  exact mul_div_mul_right _ _ (Real.exp_pos _).ne'

/-- The topics found by the program attain the best value. -/
theorem infer_best (p : Params) (hK : 0 < p.K) (x : Data) (word topics means : Nat → Nat → ℝ)
    (hm : ∀ d, d < x.D → ∀ j, p.a j + (x.len d : ℝ) * means d j = topics d j) :
    elbo p x (inferTopics digamma p x word means) word topics = free p x word topics := by
  unfold elbo free
  congr 1
  refine Finset.sum_congr rfl fun d hd => Finset.sum_congr rfl fun t _ => ?_
  congr 1
  rw [← entropy_attained p.K hK (link p x word topics d t)]
  exact Finset.sum_congr rfl fun k _ => by rw [infer_link p x word topics means d t k (hm d (Finset.mem_range.mp hd))]

theorem infer_resp (p : Params) (hK : 0 < p.K) (x : Data) (word means : Nat → Nat → ℝ) :
    Resp p x (inferTopics digamma p x word means) := fun d t _ _ =>
  ⟨fun k hk => (infer_pos digamma p x word means d t k hk).le, infer_sum digamma p x word means d t hK⟩

/-! ## The best parameters -/

/-- The bound by expected counts -/
theorem elbo_counts (p : Params) (x : Data) (q : Nat → Nat → Nat → ℝ) (word topics : Nat → Nat → ℝ) :
    elbo p x q word topics
      = -∑ d ∈ Finset.range x.D, ∑ t ∈ Finset.range x.T, (x.words d t : ℝ) * ∑ k ∈ Finset.range p.K, q d t k * Real.log (q d t k)
      + ∑ d ∈ Finset.range x.D, (∑ k ∈ Finset.range p.K, (∑ t ∈ Finset.range x.T, q d t k * (x.words d t : ℝ)) * expLog p.K (topics d) k
          + dirTerm p.K p.a (topics d))
      + ∑ k ∈ Finset.range p.K, (∑ t ∈ Finset.range x.T, (∑ d ∈ Finset.range x.D, (x.words d t : ℝ) * q d t k) * expLog x.T (word k) t
          + dirTerm x.T (fun _ => p.v) (word k)) := by
  unfold elbo penalty link
  have e1 : ∑ d ∈ Finset.range x.D, ∑ k ∈ Finset.range p.K, (∑ t ∈ Finset.range x.T, q d t k * (x.words d t : ℝ)) * expLog p.K (topics d) k
      = ∑ d ∈ Finset.range x.D, ∑ t ∈ Finset.range x.T, ∑ k ∈ Finset.range p.K, (x.words d t : ℝ) * (q d t k * expLog p.K (topics d) k) := by
    refine Finset.sum_congr rfl fun d _ => ?_
    rw [Finset.sum_comm]
    refine Finset.sum_congr rfl fun k _ => ?_
    rw [Finset.sum_mul]
    exact Finset.sum_congr rfl fun t _ => by ring
  have e2 : ∑ k ∈ Finset.range p.K, ∑ t ∈ Finset.range x.T, (∑ d ∈ Finset.range x.D, (x.words d t : ℝ) * q d t k) * expLog x.T (word k) t
      = ∑ d ∈ Finset.range x.D, ∑ t ∈ Finset.range x.T, ∑ k ∈ Finset.range p.K, (x.words d t : ℝ) * (q d t k * expLog x.T (word k) t) := by
    rw [Finset.sum_comm]
    conv_rhs => rw [Finset.sum_comm]
    refine Finset.sum_congr rfl fun t _ => ?_
    conv_rhs => rw [Finset.sum_comm]
    refine Finset.sum_congr rfl fun k _ => ?_
    rw [Finset.sum_mul]
    exact Finset.sum_congr rfl fun d _ => by ring
  rw [Finset.sum_add_distrib, Finset.sum_add_distrib, e1, e2]
  have e3 : ∑ d ∈ Finset.range x.D, ∑ t ∈ Finset.range x.T, (x.words d t : ℝ) * ∑ k ∈ Finset.range p.K,
        q d t k * (expLog p.K (topics d) k + expLog x.T (word k) t - Real.log (q d t k))
      = ∑ d ∈ Finset.range x.D, ∑ t ∈ Finset.range x.T, ∑ k ∈ Finset.range p.K, (x.words d t : ℝ) * (q d t k * expLog p.K (topics d) k)
        + ∑ d ∈ Finset.range x.D, ∑ t ∈ Finset.range x.T, ∑ k ∈ Finset.range p.K, (x.words d t : ℝ) * (q d t k * expLog x.T (word k) t)
        - ∑ d ∈ Finset.range x.D, ∑ t ∈ Finset.range x.T, (x.words d t : ℝ) * ∑ k ∈ Finset.range p.K, q d t k * Real.log (q d t k) := by
    rw [← Finset.sum_add_distrib, ← Finset.sum_sub_distrib]
    refine Finset.sum_congr rfl fun d _ => ?_
    rw [← Finset.sum_add_distrib, ← Finset.sum_sub_distrib]
    refine Finset.sum_congr rfl fun t _ => ?_
    simp only [Finset.mul_sum]
    rw [← Finset.sum_add_distrib, ← Finset.sum_sub_distrib]
    exact Finset.sum_congr rfl fun k _ => by ring
  rw [e3]
  ring

/-- No parameters are better than the priors plus the expected counts. -/
theorem counts_best (p : Params) (x : Data) (hp : Prior p x) (q : Nat → Nat → Nat → ℝ) (hq : Resp p x q)
    (word topics word' topics' : Nat → Nat → ℝ) (h : Positive p x word topics)
    (ht : ∀ d k, d < x.D → k < p.K → topics' d k = ∑ t ∈ Finset.range x.T, q d t k * (x.words d t : ℝ) + p.a k)
    (hw : ∀ k t, k < p.K → t < x.T → word' k t = ∑ d ∈ Finset.range x.D, (x.words d t : ℝ) * q d t k + p.v) :
    elbo p x q word topics ≤ elbo p x q word' topics' := by
  rw [elbo_counts, elbo_counts]
  refine add_le_add (add_le_add le_rfl (Finset.sum_le_sum fun d hd => ?_)) (Finset.sum_le_sum fun k hk => ?_)
  · have hd := Finset.mem_range.mp hd
    refine (dir_gain_le p.K hp.topics p.a (topics d) _ (fun k hk => h.topics d k hd hk)
      fun k hk => add_pos_of_nonneg_of_pos (Finset.sum_nonneg fun t ht => ?_) (hp.a k hk)).trans
      (dir_gain_eq p.K p.a (topics' d) _ fun k hk => ht d k hd hk).ge
    exact mul_nonneg ((hq d t hd (Finset.mem_range.mp ht)).1 k hk) (Nat.cast_nonneg _)
  · have hk := Finset.mem_range.mp hk
    refine (dir_gain_le x.T hp.words (fun _ => p.v) (word k) _ (fun t ht => h.word k t hk ht)
      fun t ht => add_pos_of_nonneg_of_pos (Finset.sum_nonneg fun d hd => ?_) hp.v).trans
      (dir_gain_eq x.T (fun _ => p.v) (word' k) _ fun t ht => hw k t hk ht).ge
    exact mul_nonneg (Nat.cast_nonneg _) ((hq d t (Finset.mem_range.mp hd) ht).1 k hk)

/-! ## One pass over the corpus -/

/-- The topics found for a document depend on its own means only. -/
theorem infer_congr (psi : ℝ → ℝ) (p : Params) (x : Data) (word means means' : Nat → Nat → ℝ) (d : Nat) (h : means d = means' d) :
    inferTopics psi p x word means d = inferTopics psi p x word means' d := by
  funext t k
  have hs : score psi p x word means d t = score psi p x word means' d t := by
    funext j
    unfold score
    rw [h]
  unfold inferTopics
  rw [hs]

/-- The effect of the first `m` visits of a pass -/
theorem pass_exact (psi : ℝ → ℝ) (p : Params) (x : Data) (hD : 0 < x.D) (word : Nat → Nat → ℝ) (q m : Nat) (hm : m ≤ x.D) (s : Batch)
    (hs : s.d = pos x.D (q * x.D)) :
    ∃ s', (List.range m).foldlM (fun s _ => visit psi p x word s) s = .ok s' ∧ s'.d = pos x.D (q * x.D + m)
      ∧ (∀ d k, s'.means d k = if d < m then
          (∑ t ∈ Finset.range x.T, inferTopics psi p x word s.means d t k * (x.words d t : ℝ)) / (x.len d : ℝ) else s.means d k)
      ∧ ∀ k t, s'.grad k t = s.grad k t + ∑ d ∈ Finset.range m, (x.words d t : ℝ) * inferTopics psi p x word s.means d t k := by
  induction m with
  | zero => exact ⟨s, rfl, hs, fun _ _ => rfl, fun _ _ => by simp⟩
  | succ m ih =>
    obtain ⟨s1, h1, h2, h3, h4⟩ := ih (by omega)
    have hnext : nextDoc x.D s1.d = (m : Int) := by
      rw [h2, nextDoc_pos _ _ hD, Nat.mul_comm, Nat.mul_add_mod, Nat.mod_eq_of_lt (by omega)]
    have hz : inferTopics psi p x word s1.means m = inferTopics psi p x word s.means m := by
      refine infer_congr psi p x word _ _ m (funext fun k => ?_)
      rw [h3, if_neg (lt_irrefl m)]
    have hfold : (List.range (m + 1)).foldlM (fun s _ => visit psi p x word s) s = visit psi p x word s1 := by
      rw [List.range_succ, List.foldlM_append, h1]
      simp only [bind, Except.bind, List.foldlM_cons, List.foldlM_nil, pure, Except.pure]
      split <;> simp_all
    rw [hfold]
    unfold visit
    simp only [hnext, Int.toNat_natCast]
    rw [if_pos (by omega), hz]
    refine ⟨_, rfl, ?_, fun d k => ?_, fun k t => ?_⟩
    · show (m : Int) = pos x.D (q * x.D + (m + 1))
      unfold pos
      rw [if_neg (by omega), show q * x.D + (m + 1) - 1 = x.D * q + m by rw [Nat.mul_comm]; omega, Nat.mul_add_mod,
        Nat.mod_eq_of_lt (by omega)]
    · show (if d = m then _ else s1.means d k) = _
      by_cases hd : d = m
      · subst hd
        rw [if_pos rfl, if_pos (by omega)]
      · rw [if_neg hd, h3]
        by_cases hl : d < m
        · rw [if_pos hl, if_pos (by omega)]
        · rw [if_neg hl, if_neg (by omega)]
    · show s1.grad k t + _ = _
      rw [h4, Finset.sum_range_succ]
      ring

/-- An iteration of batch training: the parameters become the priors plus the expected counts of the topics inferred from the parameters
before. -/
theorem step_exact (psi : ℝ → ℝ) (bound : (Nat → Nat → ℝ) → (Nat → Nat → ℝ) → ℝ) (p : Params) (x : Data) (hx : Corpus x) (plan : Plan)
    (hb : plan.rateAlgor = "batch") (b : Nat) (r : Run) (hd : r.d = pos x.D (b * x.D)) :
    ∃ r', trainStep psi bound p x plan x.D r b = .ok r' ∧ r'.d = pos x.D ((b + 1) * x.D)
      ∧ (∀ d k, d < x.D → toDirichlet p x r'.means d k
          = ∑ t ∈ Finset.range x.T, inferTopics psi p x r.word r.means d t k * (x.words d t : ℝ) + p.a k)
      ∧ ∀ k t, r'.word k t = ∑ d ∈ Finset.range x.D, (x.words d t : ℝ) * inferTopics psi p x r.word r.means d t k + p.v := by
  obtain ⟨g, h1, h2, h3, h4⟩ := pass_exact psi p x hx.some r.word b x.D le_rfl ⟨r.means, r.d, fun _ _ => p.v, r.visits⟩ hd
  have hbatch : batch psi p x x.D r = .ok g := h1
  unfold trainStep
  rw [hbatch]
  simp only [hb, if_true]
  refine ⟨_, rfl, ?_, fun d k hd => ?_, fun k t => ?_⟩
  · rw [Nat.succ_mul]
    exact h2
  · show g.means d k * (x.len d : ℝ) + p.a k = _
    have hl : (x.len d : ℝ) ≠ 0 := by exact_mod_cast (hx.words d hd).ne'
    rw [h3, if_pos hd, div_mul_cancel₀ _ hl]
  · show g.grad k t = _
    rw [h4]
    exact add_comm _ _

/-! ## C190: batch training -/

/-- Parameters of the same values give the same bound. -/
theorem free_congr (p : Params) (x : Data) (word topics topics' : Nat → Nat → ℝ)
    (h : ∀ d, d < x.D → ∀ k, k < p.K → topics d k = topics' d k) : free p x word topics = free p x word topics' := by
  have hs : ∀ d, d < x.D → ∑ j ∈ Finset.range p.K, topics d j = ∑ j ∈ Finset.range p.K, topics' d j := fun d hd =>
    Finset.sum_congr rfl fun k hk => h d hd k (Finset.mem_range.mp hk)
  have he : ∀ d, d < x.D → ∀ k, k < p.K → expLog p.K (topics d) k = expLog p.K (topics' d) k := by
    intro d hd k hk
    unfold expLog
    rw [hs d hd, h d hd k hk]
  have h1 : ∀ d, d < x.D → ∀ t, ∑ k ∈ Finset.range p.K, Real.exp (link p x word topics d t k)
      = ∑ k ∈ Finset.range p.K, Real.exp (link p x word topics' d t k) := by
    intro d hd t
    refine Finset.sum_congr rfl fun k hk => ?_
    unfold link
    rw [he d hd k (Finset.mem_range.mp hk)]
  have h2 : ∀ d, d < x.D → dirTerm p.K p.a (topics d) = dirTerm p.K p.a (topics' d) := by
    intro d hd
    have e1 : ∑ k ∈ Finset.range p.K, (p.a k - topics d k) * expLog p.K (topics d) k
        = ∑ k ∈ Finset.range p.K, (p.a k - topics' d k) * expLog p.K (topics' d) k :=
      Finset.sum_congr rfl fun k hk => by rw [he d hd k (Finset.mem_range.mp hk), h d hd k (Finset.mem_range.mp hk)]
    have e2 : ∑ k ∈ Finset.range p.K, Real.log (Real.Gamma (topics d k)) = ∑ k ∈ Finset.range p.K, Real.log (Real.Gamma (topics' d k)) :=
      Finset.sum_congr rfl fun k hk => by rw [h d hd k (Finset.mem_range.mp hk)]
    unfold dirTerm logB
    rw [e1, e2, hs d hd]
  have h3 : ∑ d ∈ Finset.range x.D, dirTerm p.K p.a (topics d) = ∑ d ∈ Finset.range x.D, dirTerm p.K p.a (topics' d) :=
    Finset.sum_congr rfl fun d hd => h2 d (Finset.mem_range.mp hd)
  have h4 : ∑ d ∈ Finset.range x.D, ∑ t ∈ Finset.range x.T,
        (x.words d t : ℝ) * Real.log (∑ k ∈ Finset.range p.K, Real.exp (link p x word topics d t k))
      = ∑ d ∈ Finset.range x.D, ∑ t ∈ Finset.range x.T,
        (x.words d t : ℝ) * Real.log (∑ k ∈ Finset.range p.K, Real.exp (link p x word topics' d t k)) :=
    Finset.sum_congr rfl fun d hd => Finset.sum_congr rfl fun t _ => by rw [h1 d (Finset.mem_range.mp hd) t]
  unfold free penalty
  rw [h3, h4]

theorem step_monotone (bound : (Nat → Nat → ℝ) → (Nat → Nat → ℝ) → ℝ) (p : Params) (x : Data) (hp : Prior p x) (hx : Corpus x)
    (plan : Plan) (hb : plan.rateAlgor = "batch") (b : Nat) (r : Run) (hd : r.d = pos x.D (b * x.D))
    (hpos : Positive p x r.word (toDirichlet p x r.means)) :
    ∃ r', trainStep digamma bound p x plan x.D r b = .ok r' ∧ r'.d = pos x.D ((b + 1) * x.D)
      ∧ Positive p x r'.word (toDirichlet p x r'.means)
      ∧ free p x r.word (toDirichlet p x r.means) ≤ free p x r'.word (toDirichlet p x r'.means) := by
  obtain ⟨r', h1, h2, h3, h4⟩ := step_exact digamma bound p x hx plan hb b r hd
  have hq := infer_resp p hp.topics x r.word r.means
  refine ⟨r', h1, h2, ⟨fun k t hk ht => ?_, fun d k hd hk => ?_⟩, ?_⟩
  · rw [h4]
    exact add_pos_of_nonneg_of_pos (Finset.sum_nonneg fun d hd =>
      mul_nonneg (Nat.cast_nonneg _) ((hq d t (Finset.mem_range.mp hd) ht).1 k hk)) hp.v
  · rw [h3 d k hd]
    exact add_pos_of_nonneg_of_pos (Finset.sum_nonneg fun t ht =>
      mul_nonneg ((hq d t hd (Finset.mem_range.mp ht)).1 k hk) (Nat.cast_nonneg _)) (hp.a k hk)
  · rw [← infer_best p hp.topics x r.word (toDirichlet p x r.means) r.means (fun d _ j => by unfold toDirichlet; ring)]
    refine (counts_best p x hp _ hq _ _ r'.word (toDirichlet p x r'.means) hpos (fun d k hd _ => h3 d k hd) fun k t _ _ => h4 k t).trans ?_
    exact elbo_le_free p hp.topics x _ hq _ _

/-- **C190**: batch training of any number of iterations succeeds and never lowers the evidence bound. -/
theorem train_monotone (bound : (Nat → Nat → ℝ) → (Nat → Nat → ℝ) → ℝ) (p : Params) (x : Data) (hp : Prior p x) (hx : Corpus x)
    (plan : Plan) (hb : plan.rateAlgor = "batch") (word topics : Nat → Nat → ℝ) (hpos : Positive p x word topics) :
    ∃ r, train digamma bound p x plan word topics = .ok r ∧ Positive p x r.word r.means
      ∧ free p x word topics ≤ free p x r.word r.means := by
  have hu : usedBatchSize x plan = x.D := if_pos hb
  have hc : batchCount x plan = 1 := if_pos hb
  unfold train
  rw [if_neg hx.check, if_neg (by rw [hu]; exact hx.some.ne'), if_neg (not_not.mpr (show Known plan.rateAlgor from Or.inl hb)), hc,
    Nat.one_mul, hu]
  generalize hr0 : ({ word := word, means := toMeans p x topics, d := -1, step := fun _ => 1
                      gradStep := fun _ => 1 / (x.D : ℝ), exGrad := fun _ _ => 0, expGtg := fun _ => 0, visits := [] } : Run)
    = r0
  have hback : ∀ d, d < x.D → ∀ k, k < p.K → toDirichlet p x r0.means d k = topics d k := by
    intro d hd k _
    rw [← hr0]
    exact VbPython.dirichlet_of_means p x topics d k (hx.words d hd)
  have key : ∀ n, ∃ r, (List.range n).foldlM (trainStep digamma bound p x plan x.D) r0 = .ok r ∧ r.d = pos x.D (n * x.D)
      ∧ Positive p x r.word (toDirichlet p x r.means)
      ∧ free p x word topics ≤ free p x r.word (toDirichlet p x r.means) := by
    intro n
    induction n with
    | zero =>
      refine ⟨r0, rfl, by rw [← hr0, Nat.zero_mul]; rfl, ⟨?_, ?_⟩, ?_⟩
      · rw [← hr0]
        exact hpos.word
      · intro d k hd hk
        rw [hback d hd k hk]
        exact hpos.topics d k hd hk
      · rw [free_congr p x r0.word (toDirichlet p x r0.means) topics hback, ← hr0]
    | succ n ih =>
      obtain ⟨r, h1, h2, h3, h4⟩ := ih
      obtain ⟨r', h5, h6, h7, h8⟩ := step_monotone bound p x hp hx plan hb n r h2 h3
      refine ⟨r', ?_, h6, h7, h4.trans h8⟩
      rw [List.range_succ, List.foldlM_append, h1]
      simp only [bind, Except.bind, List.foldlM_cons, List.foldlM_nil, pure, Except.pure]
      rw [h5]
  obtain ⟨r, h1, -, h3, h4⟩ := key plan.iterations
  rw [h1]
  exact ⟨_, rfl, h3, h4⟩

/-! ## C191: the value reported -/

theorem prob_ent (D K : Nat) (a : Nat → ℝ) (P : Nat → Nat → ℝ) :
    (D : ℝ) * (loggamma (∑ k ∈ Finset.range K, a k) - ∑ k ∈ Finset.range K, loggamma (a k))
        + ∑ d ∈ Finset.range D, ∑ k ∈ Finset.range K, (a k - 1) * (digamma (P d k) - digamma (∑ j ∈ Finset.range K, P d j))
        + dirichletEntropy digamma D K P
      = ∑ d ∈ Finset.range D, dirTerm K a (P d) := by
  unfold dirichletEntropy
  have hc : (D : ℝ) * (loggamma (∑ k ∈ Finset.range K, a k) - ∑ k ∈ Finset.range K, loggamma (a k))
      = ∑ _d ∈ Finset.range D, -logB K a := by
    rw [Finset.sum_const, Finset.card_range, nsmul_eq_mul]
    unfold logB loggamma
    ring
  rw [hc, ← Finset.sum_add_distrib, ← Finset.sum_add_distrib]
  refine Finset.sum_congr rfl fun d _ => ?_
  unfold dirTerm
  have h1 : ∑ k ∈ Finset.range K, (a k - P d k) * expLog K (P d) k
      = ∑ k ∈ Finset.range K, (a k - 1) * (digamma (P d k) - digamma (∑ j ∈ Finset.range K, P d j))
        - (∑ k ∈ Finset.range K, (P d k - 1) * digamma (P d k)
          - (∑ k ∈ Finset.range K, P d k - (K : ℝ)) * digamma (∑ j ∈ Finset.range K, P d j)) := by
    have : (∑ k ∈ Finset.range K, P d k - (K : ℝ)) * digamma (∑ j ∈ Finset.range K, P d j)
        = ∑ k ∈ Finset.range K, (P d k - 1) * digamma (∑ j ∈ Finset.range K, P d j) := by
      rw [← Finset.sum_mul, Finset.sum_sub_distrib]
      simp
    rw [this, ← Finset.sum_sub_distrib, ← Finset.sum_sub_distrib]
    refine Finset.sum_congr rfl fun k _ => ?_
    unfold expLog
    ring
  rw [h1]
  have h2 : logB K (P d) = ∑ k ∈ Finset.range K, loggamma (P d k) - loggamma (∑ k ∈ Finset.range K, P d k) := rfl
  rw [h2]
  ring

/-- `1E-300` -/
noncomputable def tiny : ℝ := (1 / 10) ^ 300

/-- How far the logarithm of the program is off -/
noncomputable def slip (z : ℝ) : ℝ := z * (Numerics.safeLogOut false z - Real.log z)

theorem slip_bounds (z : ℝ) (hz : 0 < z) : 0 ≤ slip z ∧ slip z ≤ tiny := by
  have he : Numerics.almostZero false = tiny := rfl
  have hpos : 0 < tiny := by unfold tiny; positivity
  unfold slip Numerics.safeLogOut
  rw [he]
  generalize tiny = e at hpos ⊢
  split_ifs with h
  · rw [sub_self, mul_zero]
    exact ⟨le_rfl, hpos.le⟩
  · push Not at h
    rw [← Real.log_div hpos.ne' hz.ne']
    have h1 : 1 ≤ e / z := (one_le_div hz).mpr h.le
    refine ⟨mul_nonneg hz.le (Real.log_nonneg h1), ?_⟩
    have h2 := Real.log_le_sub_one_of_pos (div_pos hpos hz)
    have h3 := mul_le_mul_of_nonneg_left h2 hz.le
    have h4 : z * (e / z - 1) = e - z := by field_simp
    rw [h4] at h3
    linarith

/-- The value of `var_bound` is the best bound less the slips. -/
theorem varBound_eq (p : Params) (hK : 0 < p.K) (x : Data) (hx : ∀ d, d < x.D → 0 < x.len d) (word topics : Nat → Nat → ℝ) :
    varBound digamma p x word topics = free p x word topics
      - ∑ d ∈ Finset.range x.D, ∑ t ∈ Finset.range x.T, (x.words d t : ℝ) * ∑ k ∈ Finset.range p.K,
          slip (boundTopics digamma p x word topics d t k) := by
  have hm : ∀ d, d < x.D → ∀ j, p.a j + (x.len d : ℝ) * toMeans p x topics d j = topics d j := by
    intro d hd j
    have := VbPython.dirichlet_of_means p x topics d j (hx d hd)
    unfold toDirichlet at this
    linarith
  rw [← infer_best p hK x word topics (toMeans p x topics) hm]
  have h1 := prob_ent x.D p.K p.a topics
  have h2 := prob_ent p.K x.T (fun _ => p.v) word
  have h3 : probVocabs digamma p x word
      = (p.K : ℝ) * (loggamma (∑ _t ∈ Finset.range x.T, p.v) - ∑ _t ∈ Finset.range x.T, loggamma p.v)
        + ∑ k ∈ Finset.range p.K, ∑ t ∈ Finset.range x.T, (p.v - 1) * (digamma (word k t) - digamma (∑ u ∈ Finset.range x.T, word k u)) := by
    unfold probVocabs
    simp only [Finset.sum_const, Finset.card_range, nsmul_eq_mul]
    rw [mul_comm p.v]
  have h4 : ∑ d ∈ Finset.range x.D, probZ digamma p x word topics d + ∑ d ∈ Finset.range x.D, entZ digamma p x word topics d
        + ∑ d ∈ Finset.range x.D, probWords digamma p x word topics d
      = ∑ d ∈ Finset.range x.D, ∑ t ∈ Finset.range x.T, (x.words d t : ℝ) * ∑ k ∈ Finset.range p.K,
          inferTopics digamma p x word (toMeans p x topics) d t k
            * (link p x word topics d t k - Real.log (inferTopics digamma p x word (toMeans p x topics) d t k))
        - ∑ d ∈ Finset.range x.D, ∑ t ∈ Finset.range x.T, (x.words d t : ℝ) * ∑ k ∈ Finset.range p.K,
            slip (boundTopics digamma p x word topics d t k) := by
    rw [← Finset.sum_add_distrib, ← Finset.sum_add_distrib, ← Finset.sum_sub_distrib]
    refine Finset.sum_congr rfl fun d _ => ?_
    unfold probZ entZ probWords
    rw [← Finset.sum_neg_distrib, ← Finset.sum_add_distrib, ← Finset.sum_add_distrib, ← Finset.sum_sub_distrib]
    refine Finset.sum_congr rfl fun t _ => ?_
    rw [← mul_sub, ← Finset.sum_sub_distrib, ← Finset.sum_neg_distrib, ← Finset.sum_add_distrib, ← Finset.sum_add_distrib, Finset.mul_sum]
    refine Finset.sum_congr rfl fun k _ => ?_
    unfold slip boundTopics link expLog
    ring
  unfold varBound elbo penalty
  rw [h4, h3]
  unfold probTopics
  linarith

/-- **C191**: the value reported by `var_bound` never exceeds the true bound, and is below it by at most `1E-300` per token and topic. -/
theorem varBound_near (p : Params) (hK : 0 < p.K) (x : Data) (hx : ∀ d, d < x.D → 0 < x.len d) (word topics : Nat → Nat → ℝ) :
    varBound digamma p x word topics ≤ free p x word topics
      ∧ free p x word topics ≤ varBound digamma p x word topics + (tokens x : ℝ) * p.K * tiny := by
  rw [varBound_eq p hK x hx word topics]
  have hz : ∀ d t k, k < p.K → 0 < boundTopics digamma p x word topics d t k := fun d t k hk => infer_pos digamma p x word _ d t k hk
  constructor
  · refine sub_le_self _ (Finset.sum_nonneg fun d _ => Finset.sum_nonneg fun t _ => mul_nonneg (Nat.cast_nonneg _)
      (Finset.sum_nonneg fun k hk => (slip_bounds _ (hz d t k (Finset.mem_range.mp hk))).1))
  · have : ∑ d ∈ Finset.range x.D, ∑ t ∈ Finset.range x.T, (x.words d t : ℝ) * ∑ k ∈ Finset.range p.K,
          slip (boundTopics digamma p x word topics d t k)
        ≤ ∑ d ∈ Finset.range x.D, ∑ t ∈ Finset.range x.T, (x.words d t : ℝ) * ((p.K : ℝ) * tiny) := by
      refine Finset.sum_le_sum fun d _ => Finset.sum_le_sum fun t _ => mul_le_mul_of_nonneg_left ?_ (Nat.cast_nonneg _)
      refine (Finset.sum_le_sum fun k hk => (slip_bounds _ (hz d t k (Finset.mem_range.mp hk))).2).trans ?_
      rw [Finset.sum_const, Finset.card_range, nsmul_eq_mul]
    have e : ∑ d ∈ Finset.range x.D, ∑ t ∈ Finset.range x.T, (x.words d t : ℝ) * ((p.K : ℝ) * tiny)
        = (tokens x : ℝ) * p.K * tiny := by
      simp only [← Finset.sum_mul]
      unfold tokens Data.len
      push_cast
      ring
    rw [e] at this
    linarith

/-- **C191**: batch training never lowers the value reported by more than `1E-300` per token and topic. -/
theorem reported_monotone (bound : (Nat → Nat → ℝ) → (Nat → Nat → ℝ) → ℝ) (p : Params) (x : Data) (hp : Prior p x) (hx : Corpus x)
    (plan : Plan) (hb : plan.rateAlgor = "batch") (word topics : Nat → Nat → ℝ) (hpos : Positive p x word topics) :
    ∃ r, train digamma bound p x plan word topics = .ok r
      ∧ varBound digamma p x word topics ≤ varBound digamma p x r.word r.means + (tokens x : ℝ) * p.K * tiny := by
  obtain ⟨r, h1, -, h3⟩ := train_monotone bound p x hp hx plan hb word topics hpos
  have h4 := (varBound_near p hp.topics x hx.words word topics).1
  have h5 := (varBound_near p hp.topics x hx.words r.word r.means).2
  exact ⟨r, h1, by linarith⟩

/-! ## C192: the bound is one -/

theorem joint_pos (p : Params) (x : Data) (hp : Prior p x) (z : Token x → Fin p.K) : 0 < joint p x z :=
  mul_pos (Finset.prod_pos fun _ _ => urn_pos p.K hp.topics p.a hp.a _)
    (Finset.prod_pos fun _ _ => urn_pos x.T hp.words _ (fun _ _ => hp.v) _)

theorem log_joint (p : Params) (x : Data) (hp : Prior p x) (z : Token x → Fin p.K) :
    Real.log (joint p x z) = ∑ d ∈ Finset.range x.D, (logB p.K (fun k => docCount x p.K z d k + p.a k) - logB p.K p.a)
      + ∑ k ∈ Finset.range p.K, (logB x.T (fun t => wordCount x p.K z k t + p.v) - logB x.T (fun _ => p.v)) := by
  have h1 : ∀ d, urn p.K p.a (docCount x p.K z d) ≠ 0 := fun d => (urn_pos p.K hp.topics p.a hp.a _).ne'
  have h2 : ∀ k, urn x.T (fun _ => p.v) (wordCount x p.K z k) ≠ 0 := fun k => (urn_pos x.T hp.words _ (fun _ _ => hp.v) _).ne'
  unfold joint
  rw [Real.log_mul (Finset.prod_ne_zero_iff.mpr fun d _ => h1 d) (Finset.prod_ne_zero_iff.mpr fun k _ => h2 k),
    Real.log_prod (hf := fun d _ => h1 d), Real.log_prod (hf := fun k _ => h2 k)]
  congr 1
  · exact Finset.sum_congr rfl fun d _ => log_urn p.K hp.topics p.a hp.a _
  · exact Finset.sum_congr rfl fun k _ => log_urn x.T hp.words (fun _ => p.v) (fun _ _ => hp.v) _

/-- Summing over things by two classes they are in -/
theorem sum_by_two {ι : Type} [Fintype ι] (A B : Nat) (g : ι → Fin A) (z : ι → Fin B) (f : Nat → Nat → ℝ) :
    ∑ i, f (g i) (z i) = ∑ a ∈ Finset.range A, ∑ b ∈ Finset.range B,
      ((∑ i, if (g i : Nat) = a ∧ (z i : Nat) = b then 1 else 0 : Nat) : ℝ) * f a b := by
  rw [sum_by_class A g (fun i a => f a (z i))]
  refine Finset.sum_congr rfl fun a _ => ?_
  have : ∀ i, (if (g i : Nat) = a then f a (z i) else 0)
      = ∑ b ∈ Finset.range B, if (z i : Nat) = b then (if (g i : Nat) = a then f a b else 0) else 0 := by
    intro i
    rw [Finset.sum_ite_eq, if_pos (Finset.mem_range.mpr (z i).isLt)]
  simp only [this]
  rw [Finset.sum_comm]
  refine Finset.sum_congr rfl fun b _ => ?_
  push_cast
  rw [Finset.sum_mul]
  refine Finset.sum_congr rfl fun i _ => ?_
  by_cases h1 : (g i : Nat) = a <;> by_cases h2 : (z i : Nat) = b <;> simp [h1, h2]

/-- **C192**: the bound never exceeds the logarithm of the evidence. -/
theorem elbo_le_evidence (p : Params) (x : Data) (hp : Prior p x) (q : Nat → Nat → Nat → ℝ) (hq : Resp p x q)
    (word topics : Nat → Nat → ℝ) (hs : Positive p x word topics) : elbo p x q word topics ≤ Real.log (evidence p x) := by
  have key := product_bound (ι := Token x) p.K hp.topics (fun i k => link p x word topics i.1 i.2.1 k) (fun i => q i.1 i.2.1)
    (fun i => (hq i.1 i.2.1 i.1.isLt i.2.1.isLt).1) (fun i => (hq i.1 i.2.1 i.1.isLt i.2.1.isLt).2)
    (penalty p x word topics) (fun z => Real.log (joint p x z)) ?_
  · simp only [Real.exp_log (joint_pos p x hp _)] at key
    unfold evidence elbo
    refine le_trans (le_of_eq ?_) key
    rw [add_comm]
    congr 1
    rw [Fintype.sum_sigma, Finset.sum_range]
    refine Finset.sum_congr rfl fun d _ => ?_
    rw [Fintype.sum_sigma, Finset.sum_range]
    refine Finset.sum_congr rfl fun t _ => ?_
    simp
  · intro z
    rw [log_joint p x hp z]
    have g1 : ∑ d ∈ Finset.range x.D, (∑ k ∈ Finset.range p.K, (docCount x p.K z d k : ℝ) * expLog p.K (topics d) k
          + dirTerm p.K p.a (topics d))
        ≤ ∑ d ∈ Finset.range x.D, (logB p.K (fun k => docCount x p.K z d k + p.a k) - logB p.K p.a) :=
      Finset.sum_le_sum fun d hd => dir_gain_le p.K hp.topics p.a (topics d) (fun k => (docCount x p.K z d k : ℝ))
        (fun k hk => hs.topics d k (Finset.mem_range.mp hd) hk)
        (fun k hk => add_pos_of_nonneg_of_pos (Nat.cast_nonneg _) (hp.a k hk))
    have g2 : ∑ k ∈ Finset.range p.K, (∑ t ∈ Finset.range x.T, (wordCount x p.K z k t : ℝ) * expLog x.T (word k) t
          + dirTerm x.T (fun _ => p.v) (word k))
        ≤ ∑ k ∈ Finset.range p.K, (logB x.T (fun t => wordCount x p.K z k t + p.v) - logB x.T (fun _ => p.v)) :=
      Finset.sum_le_sum fun k hk => dir_gain_le x.T hp.words (fun _ => p.v) (word k) (fun t => (wordCount x p.K z k t : ℝ))
        (fun t ht => hs.word k t (Finset.mem_range.mp hk) ht)
        (fun t _ => add_pos_of_nonneg_of_pos (Nat.cast_nonneg _) hp.v)
    rw [Finset.sum_add_distrib] at g1 g2
    have e : ∑ i : Token x, link p x word topics i.1 i.2.1 (z i)
        = ∑ d ∈ Finset.range x.D, ∑ k ∈ Finset.range p.K, (docCount x p.K z d k : ℝ) * expLog p.K (topics d) k
          + ∑ k ∈ Finset.range p.K, ∑ t ∈ Finset.range x.T, (wordCount x p.K z k t : ℝ) * expLog x.T (word k) t := by
      unfold link
      rw [Finset.sum_add_distrib, sum_by_two x.D p.K (fun i : Token x => i.1) z (fun d k => expLog p.K (topics d) k),
        sum_by_two p.K x.T z (fun i : Token x => i.2.1) (fun k t => expLog x.T (word k) t)]
      rfl
    rw [e]
    unfold penalty
    linarith

/-- **C192**: the value reported by `var_bound` never exceeds the logarithm of the evidence. -/
theorem reported_le_evidence (p : Params) (x : Data) (hp : Prior p x) (hx : ∀ d, d < x.D → 0 < x.len d)
    (word topics : Nat → Nat → ℝ) (hs : Positive p x word topics) : varBound digamma p x word topics ≤ Real.log (evidence p x) := by
  refine (varBound_near p hp.topics x hx word topics).1.trans ?_
  have hm : ∀ d, d < x.D → ∀ j, p.a j + (x.len d : ℝ) * toMeans p x topics d j = topics d j := by
    intro d hd j
    have := VbPython.dirichlet_of_means p x topics d j (hx d hd)
    unfold toDirichlet at this
    linarith
  rw [← infer_best p hp.topics x word topics (toMeans p x topics) hm]
  exact elbo_le_evidence p x hp _ (infer_resp p hp.topics x word _) word topics hs

/-! ## Examples -/

open Verif.Props.VbPython (exX exP exX_corpus)

theorem exPrior : Prior exP exX :=
  ⟨by show 0 < 2; decide, by decide, fun _ _ => by show (0 : ℝ) < 1 / 2; norm_num, by show (0 : ℝ) < 11 / 10; norm_num⟩

theorem exPositive : Positive exP exX (fun k t => k + t + 1) (fun d k => d + 2 * k + 1) :=
  ⟨fun k t _ _ => by positivity, fun d k _ _ => by positivity⟩

/-- Seven iterations of batch training on three documents -/
example (bound : (Nat → Nat → ℝ) → (Nat → Nat → ℝ) → ℝ) :
    ∃ r, train digamma bound exP exX ⟨7, 0, 1, 1, 1, 1, "batch"⟩ (fun k t => k + t + 1) (fun d k => d + 2 * k + 1) = .ok r
      ∧ free exP exX (fun k t => k + t + 1) (fun d k => d + 2 * k + 1) ≤ free exP exX r.word r.means := by
  obtain ⟨r, h, -, h2⟩ := train_monotone bound exP exX exPrior exX_corpus ⟨7, 0, 1, 1, 1, 1, "batch"⟩ rfl _ _ exPositive
  exact ⟨r, h, h2⟩

example : varBound digamma exP exX (fun k t => k + t + 1) (fun d k => d + 2 * k + 1) ≤ Real.log (evidence exP exX) :=
  reported_le_evidence exP exX exPrior exX_corpus.words _ _ exPositive

end Verif.Props.VbElbo
