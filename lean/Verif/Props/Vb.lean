import Verif.Lemmas.Vb
import Verif.Lemmas.Cvb

/-!
# Variational Bayes (C66, C67, C97, C98, C100–C103)

`psi` is arbitrary throughout; where a violation needs more, the theorem says so (the digamma function is strictly increasing
on the positive numbers).
-/

namespace Verif.Props.Vb

open Verif Verif.Vb
open Verif.Cvb (Corpus)
open Verif.Props.Numerics (softmax)

/-! ## The specification of an iteration -/

/-- The probability of topic `k` for the word `t`, given the vocabulary parameters `v` and the parameters `g` of the document:
`exp (psi v_kt - psi (Σ v_k) + psi g_k)`, normalised. -/
noncomputable def resp (psi : ℝ → ℝ) (p : Params) (v : Nat → Nat → ℝ) (g : Nat → ℝ) (t k : Nat) : ℝ :=
  softmax p.K (fun k => psi (v k t) - psi (∑ t' ∈ Finset.range p.T, v k t') + psi (g k)) k

/-- The document parameters that the code uses to weigh the words: the prior plus the number of documents per topic. -/
noncomputable def used (p : Params) (D : Nat) (k : Nat) : ℝ := p.a k + (D : ℝ) / (p.K : ℝ)

/-- The words are below `T`. -/
def WordsOk (p : Params) (c : Corpus) : Prop := ∀ d, d < c.lens.length → ∀ n, n < c.len d → c.w d n < p.T

theorem probs_eq (psi : ℝ → ℝ) (p : Params) (c : Corpus) (v : Nat → Nat → ℝ) (d n k : Nat) :
    probs psi p (docInput psi p c v d) n k = resp psi p v (used p c.lens.length) (c.w d n) k := rfl

theorem resp_pos (psi : ℝ → ℝ) (p : Params) (hK : 0 < p.K) (v : Nat → Nat → ℝ) (g : Nat → ℝ) (t k : Nat) :
    0 < resp psi p v g t k := softmax_pos _ _ hK _

theorem resp_sum (psi : ℝ → ℝ) (p : Params) (hK : 0 < p.K) (v : Nat → Nat → ℝ) (g : Nat → ℝ) (t : Nat) :
    ∑ k ∈ Finset.range p.K, resp psi p v g t k = 1 := softmax_sum _ _ hK

/-- An iteration in closed form. -/
theorem iterate1_spec (psi : ℝ → ℝ) (p : Params) (c : Corpus) (s : State) :
    (∀ d k, d < c.lens.length → k < p.K → (iterate1 psi p c s).topics d k
        = used p c.lens.length k
          + ∑ n ∈ Finset.range (c.len d), resp psi p s.vocab (used p c.lens.length) (c.w d n) k)
      ∧ (∀ k t, k < p.K → (iterate1 psi p c s).vocab k t
        = p.b + ∑ d ∈ Finset.range c.lens.length, ∑ n ∈ Finset.range (c.len d),
            if c.w d n = t then resp psi p s.vocab (used p c.lens.length) (c.w d n) k else 0)
      ∧ (iterate1 psi p c s).total = s.total + 3 * c.lens.length := by
  obtain ⟨h1, h2, h3⟩ := stepDocs_spec psi p c s.vocab { s with vocab := fun _ _ => p.b } c.lens.length
  refine ⟨fun d k hd hk => ?_, fun k t hk => h2 k t hk, h3⟩
  have := h1 d k hk
  rw [if_pos hd] at this
  exact this

/-! ## C66 -/

/-- **C66** (one iteration): the vocabulary parameters sum to topics × words × prior plus the number of tokens; none is below
the prior; the parameters of a document sum to the prior total plus its length plus the number of documents. -/
theorem iterate1_mass (psi : ℝ → ℝ) (p : Params) (c : Corpus) (s : State) (hK : 0 < p.K) (hw : WordsOk p c) :
    ∑ k ∈ Finset.range p.K, ∑ t ∈ Finset.range p.T, (iterate1 psi p c s).vocab k t
        = p.K * (p.T * p.b) + ∑ d ∈ Finset.range c.lens.length, (c.len d : ℝ)
      ∧ (∀ k t, k < p.K → p.b ≤ (iterate1 psi p c s).vocab k t)
      ∧ (∀ d, d < c.lens.length → ∑ k ∈ Finset.range p.K, (iterate1 psi p c s).topics d k
        = ∑ k ∈ Finset.range p.K, p.a k + c.len d + c.lens.length) := by
  obtain ⟨h1, h2, -⟩ := iterate1_spec psi p c s
  refine ⟨?_, fun k t hk => ?_, fun d hd => ?_⟩
  · have e : ∀ k ∈ Finset.range p.K, ∑ t ∈ Finset.range p.T, (iterate1 psi p c s).vocab k t
        = p.T * p.b + ∑ d ∈ Finset.range c.lens.length, ∑ n ∈ Finset.range (c.len d),
            resp psi p s.vocab (used p c.lens.length) (c.w d n) k := by
      intro k hk
      rw [Finset.sum_congr rfl (fun t _ => h2 k t (Finset.mem_range.mp hk)), Finset.sum_add_distrib, Finset.sum_const,
        Finset.card_range, nsmul_eq_mul, Finset.sum_comm]
      congr 1
      refine Finset.sum_congr rfl fun d hd => ?_
      rw [Finset.sum_comm]
      refine Finset.sum_congr rfl fun n hn => ?_
      rw [Finset.sum_ite_eq, if_pos]
      exact Finset.mem_range.mpr (hw d (Finset.mem_range.mp hd) n (Finset.mem_range.mp hn))
    rw [Finset.sum_congr rfl e, Finset.sum_add_distrib, Finset.sum_const, Finset.card_range, nsmul_eq_mul, Finset.sum_comm]
    congr 1
    refine Finset.sum_congr rfl fun d _ => ?_
    rw [Finset.sum_comm, Finset.sum_congr rfl (fun n _ => resp_sum psi p hK _ _ _)]
    simp
  · rw [h2 k t hk]
    refine le_add_of_nonneg_right (Finset.sum_nonneg fun d _ => Finset.sum_nonneg fun n _ => ?_)
    split
    · exact (resp_pos psi p hK _ _ _ _).le
    · exact le_rfl
  · rw [Finset.sum_congr rfl (fun k hk => h1 d k hd (Finset.mem_range.mp hk)), Finset.sum_add_distrib, Finset.sum_comm,
      Finset.sum_congr rfl (fun n _ => resp_sum psi p hK _ _ _)]
    unfold used
    rw [Finset.sum_add_distrib, Finset.sum_const, Finset.card_range, nsmul_eq_mul,
      mul_div_cancel₀ _ (Nat.cast_ne_zero.mpr (by omega))]
    simp only [Finset.sum_const, Finset.card_range, nsmul_eq_mul, mul_one]
    ring

theorem iterate_succ (psi : ℝ → ℝ) (p : Params) (c : Corpus) (n : Nat) (s : State) :
    iterate psi p c (n + 1) s = iterate1 psi p c (iterate psi p c n s) := by
  induction n generalizing s with
  | zero => rfl
  | succ n ih => rw [iterate, ih]; rfl

/-- **C66**: after any positive number of iterations the vocabulary parameters sum to topics × words × prior plus the number
of tokens, and none is below the prior. -/
theorem vb_mass (psi : ℝ → ℝ) (p : Params) (c : Corpus) (s : State) (hK : 0 < p.K) (hw : WordsOk p c) (n : Nat) (hn : 0 < n) :
    ∑ k ∈ Finset.range p.K, ∑ t ∈ Finset.range p.T, (iterate psi p c n s).vocab k t
        = p.K * (p.T * p.b) + ∑ d ∈ Finset.range c.lens.length, (c.len d : ℝ)
      ∧ (∀ k t, k < p.K → p.b ≤ (iterate psi p c n s).vocab k t) := by
  obtain ⟨m, rfl⟩ : ∃ m, n = m + 1 := ⟨n - 1, by omega⟩
  rw [iterate_succ]
  obtain ⟨h1, h2, -⟩ := iterate1_mass psi p c (iterate psi p c m s) hK hw
  exact ⟨h1, h2⟩

/-- **C66**: every vocabulary parameter is the prior plus the expected number of occurrences. -/
theorem vb_vocab (psi : ℝ → ℝ) (p : Params) (c : Corpus) (s : State) (n k t : Nat) (hk : k < p.K) :
    (iterate psi p c (n + 1) s).vocab k t
      = p.b + ∑ d ∈ Finset.range c.lens.length, ∑ i ∈ Finset.range (c.len d),
          if c.w d i = t then resp psi p (iterate psi p c n s).vocab (used p c.lens.length) (c.w d i) k else 0 := by
  rw [iterate_succ]
  exact (iterate1_spec psi p c _).2.1 k t hk

/-- **C66** for the stochastic trainer without batches: it is the batch trainer. -/
theorem svb_no_batch (psi : ℝ → ℝ) (p : Params) (c : Corpus) (b : Batch) (hb : b.size = 0) (hD : 0 < c.lens.length) (n : Nat)
    (s : State) : siterate psi p c b n s = iterate psi p c n s :=
  siterateFrom_no_batch psi p c b hb hD n 0 _

/-! ## C67 -/

/-- **C67**: exactly three inner rounds are made. -/
theorem three_rounds (psi : ℝ → ℝ) (p : Params) (x : DocInput) (z : Nat → Nat → ℝ) : (inferTopics psi p x z).itrs = 3 :=
  (inferTopics_eq psi p x z).1

/-- **C67**: any positive number of rounds, from any state, gives the topics that inference returns. -/
theorem rounds_idempotent (psi : ℝ → ℝ) (p : Params) (x : DocInput) (z : Nat → Nat → ℝ) (m : Nat) (s : Inner) :
    ((innerRound psi p x)^[m + 1] s).row = (inferTopics psi p x z).row
      ∧ ∀ n, n < x.len → ((innerRound psi p x)^[m + 1] s).z n = (inferTopics psi p x z).z n := by
  obtain ⟨-, h2, h3⟩ := inferTopics_eq psi p x z
  rw [Function.iterate_succ_apply']
  refine ⟨?_, fun n hn => ?_⟩
  · funext k; rw [innerRound_row, h2]
  · funext k; rw [innerRound_z, h3, if_pos hn, if_pos hn]

/-- **C67**: the number of inner rounds that training reports is three per document and iteration. -/
theorem vb_total (psi : ℝ → ℝ) (p : Params) (c : Corpus) (n : Nat) (s : State) :
    (iterate psi p c n s).total = s.total + 3 * c.lens.length * n := by
  induction n with
  | zero => rfl
  | succ n ih => rw [iterate_succ, (iterate1_spec psi p c _).2.2, ih]; ring

/-! ## C103: queries -/

theorem query_succ (psi : ℝ → ℝ) (p : Params) (c : Corpus) (n : Nat) (s : State) :
    query psi p c (n + 1) s = query1 psi p c (query psi p c n s) := by
  induction n generalizing s with
  | zero => rfl
  | succ n ih => rw [query, ih]; rfl

theorem query_vocab (psi : ℝ → ℝ) (p : Params) (c : Corpus) (n : Nat) (s : State) :
    (query psi p c n s).vocab = s.vocab := by
  induction n with
  | zero => rfl
  | succ n ih => rw [query_succ]; exact ((queryDocs_spec psi p c _ _ _).2).trans ih

/-- The row of a document after a query, in closed form. -/
theorem query_row (psi : ℝ → ℝ) (p : Params) (c : Corpus) (n : Nat) (s : State) (d k : Nat) (hd : d < c.lens.length)
    (hk : k < p.K) : (query psi p c (n + 1) s).topics d k
      = used p c.lens.length k
        + ∑ i ∈ Finset.range (c.len d), resp psi p s.vocab (used p c.lens.length) (c.w d i) k := by
  rw [query_succ]
  have h := (queryDocs_spec psi p c (query psi p c n s).vocab (query psi p c n s) c.lens.length).1 d k hk
  rw [if_pos hd, query_vocab] at h
  unfold query1
  rw [query_vocab]
  exact h

/-- **C103**: a query leaves the model unchanged; its result does not depend on the number of iterations (if positive), nor on
the initial query state. -/
theorem query_single_step (psi : ℝ → ℝ) (p : Params) (c : Corpus) (n m : Nat) (s s' : State) (hv : s.vocab = s'.vocab) :
    (query psi p c (n + 1) s).vocab = s.vocab
      ∧ ∀ d k, d < c.lens.length → k < p.K →
          (query psi p c (n + 1) s).topics d k = (query psi p c (m + 1) s').topics d k := by
  refine ⟨query_vocab psi p c _ s, fun d k hd hk => ?_⟩
  rw [query_row psi p c n s d k hd hk, query_row psi p c m s' d k hd hk, hv]

/-! ## C100: independence of the other documents -/

/-- The normalised topics that a query reports for a document. -/
noncomputable def reported (psi : ℝ → ℝ) (p : Params) (c : Corpus) (s : State) (d k : Nat) : ℝ :=
  (topicDists p (query psi p c 1 s)).1 d k

theorem reported_eq (psi : ℝ → ℝ) (p : Params) (c : Corpus) (s : State) (d k : Nat) (hK : 0 < p.K) (hd : d < c.lens.length)
    (hk : k < p.K) : reported psi p c s d k
      = (used p c.lens.length k + ∑ i ∈ Finset.range (c.len d), resp psi p s.vocab (used p c.lens.length) (c.w d i) k)
        / (∑ j ∈ Finset.range p.K, p.a j + c.len d + c.lens.length) := by
  unfold reported topicDists normalise
  simp only
  rw [query_row psi p c 0 s d k hd hk]
  congr 1
  rw [Finset.sum_congr rfl (fun j hj => query_row psi p c 0 s d j hd (Finset.mem_range.mp hj)), Finset.sum_add_distrib,
    Finset.sum_comm, Finset.sum_congr rfl (fun n _ => resp_sum psi p hK _ _ _)]
  unfold used
  rw [Finset.sum_add_distrib, Finset.sum_const, Finset.card_range, nsmul_eq_mul,
    mul_div_cancel₀ _ (Nat.cast_ne_zero.mpr (by omega))]
  simp only [Finset.sum_const, Finset.card_range, nsmul_eq_mul, mul_one]
  ring

/-- With a symmetric prior the probabilities of a word do not depend on the document parameters. -/
theorem resp_symmetric (psi : ℝ → ℝ) (p : Params) (v : Nat → Nat → ℝ) (x y : ℝ) (t k : Nat) :
    resp psi p v (fun _ => x) t k = resp psi p v (fun _ => y) t k := by
  have key : ∀ z : ℝ, resp psi p v (fun _ => z) t k
      = softmax p.K (fun k => psi (v k t) - psi (∑ t' ∈ Finset.range p.T, v k t')) k := by
    intro z
    unfold resp
    rw [← Props.Numerics.shifted p.K (fun k => psi (v k t) - psi (∑ t' ∈ Finset.range p.T, v k t')) (-(psi z)) k]
    unfold softmax
    simp only [sub_neg_eq_add]
  rw [key, key]

/-- **C100** is violated: with a symmetric prior, the same document gets different topics when it is queried among a different
number of documents, unless its words happen to be spread evenly over the topics. -/
theorem topics_depend_on_corpus_size (psi : ℝ → ℝ) (p : Params) (hK : 0 < p.K) (a : ℝ) (ha : 0 < a) (hp : ∀ k, p.a k = a)
    (c c' : Corpus) (s s' : State) (hv : s.vocab = s'.vocab) (d : Nat) (hd : d < c.lens.length) (hd' : d < c'.lens.length)
    (hlen : c.len d = c'.len d) (hw : c.w d = c'.w d) (hD : c.lens.length ≠ c'.lens.length) (k : Nat) (hk : k < p.K) :
    reported psi p c s d k = reported psi p c' s' d k
      ↔ ∑ i ∈ Finset.range (c.len d), resp psi p s.vocab p.a (c.w d i) k = (c.len d : ℝ) / p.K := by
  rw [reported_eq psi p c s d k hK hd hk, reported_eq psi p c' s' d k hK hd' hk, ← hv, ← hlen, ← hw]
  have hu : ∀ D, used p D = fun _ => a + (D : ℝ) / p.K := by intro D; funext j; unfold used; rw [hp]
  have hpa : p.a = fun _ => a := by funext j; exact hp j
  have e : ∀ D i, resp psi p s.vocab (used p D) (c.w d i) k = resp psi p s.vocab p.a (c.w d i) k := by
    intro D i; rw [hu, hpa]; exact resp_symmetric _ _ _ _ _ _ _
  simp only [e]
  generalize ∑ i ∈ Finset.range (c.len d), resp psi p s.vocab p.a (c.w d i) k = S
  have hsum : ∑ j ∈ Finset.range p.K, p.a j = p.K * a := by
    rw [Finset.sum_congr rfl (fun j _ => hp j)]; simp
  rw [hsum, hu, hu]
  have hKr : (0 : ℝ) < p.K := by exact_mod_cast hK
  have hDr : (c.lens.length : ℝ) ≠ c'.lens.length := by exact_mod_cast hD
  have n1 : (0 : ℝ) < p.K * a + c.len d + c.lens.length := by positivity
  have n2 : (0 : ℝ) < p.K * a + c.len d + c'.lens.length := by positivity
  rw [div_eq_div_iff n1.ne' n2.ne', eq_div_iff hKr.ne']
  field_simp
  constructor
  · intro h
    have : ((c.lens.length : ℝ) - c'.lens.length) * (S * p.K - c.len d) = 0 := by nlinarith [h]
    rcases mul_eq_zero.mp this with h | h
    · exact absurd (sub_eq_zero.mp h) hDr
    · linarith
  · intro h
    nlinarith [h]

/-- What remains of **C100**: the other documents matter only through their number. -/
theorem topics_of_document_partial (psi : ℝ → ℝ) (p : Params) (c c' : Corpus) (n m : Nat) (s s' : State)
    (hv : s.vocab = s'.vocab) (hD : c.lens.length = c'.lens.length) (d d' : Nat) (hd : d < c.lens.length)
    (hd' : d' < c'.lens.length) (hlen : c.len d = c'.len d') (hw : ∀ i, i < c.len d → c.w d i = c'.w d' i) (k : Nat)
    (hk : k < p.K) : (query psi p c (n + 1) s).topics d k = (query psi p c' (m + 1) s').topics d' k := by
  rw [query_row psi p c n s d k hd hk, query_row psi p c' m s' d' k hd' hk, hv, hD, hlen]
  congr 1
  refine Finset.sum_congr rfl fun i hi => ?_
  rw [hw i (by rw [hlen]; exact Finset.mem_range.mp hi)]

/-! ## C101: words in their context -/

/-- The state is stationary for a document: its row is the prior plus the probabilities of its words, weighed by that row. -/
def Stationary (psi : ℝ → ℝ) (p : Params) (v : Nat → Nat → ℝ) (len : Nat) (w : Nat → Nat) (z : Nat → Nat → ℝ)
    (row : Nat → ℝ) : Prop :=
  ∀ n, n < len → ∀ k, k < p.K → z n k = resp psi p v row (w n) k

/-- **C101** is violated: the probabilities of a word do not depend on its document at all, only on the word, the prior and the
number of documents. -/
theorem word_out_of_context (psi : ℝ → ℝ) (p : Params) (c : Corpus) (v z : Nat → Nat → ℝ) (d n k : Nat)
    (hn : n < c.len d) :
    (inferTopics psi p (docInput psi p c v d) z).z n k = resp psi p v (used p c.lens.length) (c.w d n) k := by
  rw [(inferTopics_eq psi p (docInput psi p c v d) z).2.2 n k]
  rw [if_pos (show n < (docInput psi p c v d).len from hn), probs_eq]

theorem softmax_ratio (K : Nat) (l : Nat → ℝ) (hK : 0 < K) (i j : Nat) :
    softmax K l i / softmax K l j = Real.exp (l i - l j) := by
  unfold softmax
  have h := Props.Numerics.sum_exp_pos K l hK
  rw [div_div_div_cancel_right₀ h.ne', ← Real.exp_sub]

/-- **C101** is violated: for the digamma function (any strictly increasing one) and a symmetric prior, inference stops at a
stationary point only if every topic is equally probable for the document. -/
theorem not_stationary (psi : ℝ → ℝ) (hpsi : ∀ x y, 0 < x → x < y → psi x < psi y) (p : Params) (hK : 0 < p.K) (a : ℝ)
    (ha : 0 < a) (hp : ∀ k, p.a k = a) (c : Corpus) (v z : Nat → Nat → ℝ) (d : Nat) (hlen : 0 < c.len d)
    (hst : Stationary psi p v (c.len d) (c.w d) (inferTopics psi p (docInput psi p c v d) z).z
      (inferTopics psi p (docInput psi p c v d) z).row) (i j : Nat) (hi : i < p.K) (hj : j < p.K) :
    (inferTopics psi p (docInput psi p c v d) z).row i = (inferTopics psi p (docInput psi p c v d) z).row j := by
  obtain ⟨-, h2, -⟩ := inferTopics_eq psi p (docInput psi p c v d) z
  have hpos : ∀ k, 0 < (inferTopics psi p (docInput psi p c v d) z).row k := by
    intro k
    rw [h2]
    have h0 : 0 < start p (docInput psi p c v d).D k := by
      unfold start; rw [hp]; positivity
    refine add_pos_of_pos_of_nonneg h0 (Finset.sum_nonneg fun n _ => ?_)
    exact (softmax_pos _ _ hK _).le
  have e : ∀ k, k < p.K → resp psi p v (used p c.lens.length) (c.w d 0) k
      = resp psi p v (inferTopics psi p (docInput psi p c v d) z).row (c.w d 0) k := by
    intro k hk
    rw [← hst 0 hlen k hk, word_out_of_context psi p c v z d 0 k hlen]
  generalize (inferTopics psi p (docInput psi p c v d) z).row = row at e hpos ⊢
  have r : resp psi p v (used p c.lens.length) (c.w d 0) i / resp psi p v (used p c.lens.length) (c.w d 0) j
      = resp psi p v row (c.w d 0) i / resp psi p v row (c.w d 0) j := by rw [e i hi, e j hj]
  unfold resp at r
  rw [softmax_ratio _ _ hK, softmax_ratio _ _ hK] at r
  have r' := Real.exp_injective r
  have hu : used p c.lens.length i = used p c.lens.length j := by unfold used; rw [hp, hp]
  rw [hu] at r'
  have r2 : psi (row i) = psi (row j) := by linarith
  rcases lt_trichotomy (row i) (row j) with h | h | h
  · exact absurd r2 (hpsi _ _ (hpos i) h).ne
  · exact h
  · exact absurd r2 (hpsi _ _ (hpos j) h).ne'

/-- What remains of **C101**: a symmetric prior and a document whose topics are all equally probable. -/
theorem stationary_partial (psi : ℝ → ℝ) (p : Params) (a : ℝ) (hp : ∀ k, p.a k = a) (c : Corpus) (v z : Nat → Nat → ℝ) (d : Nat)
    (x : ℝ) (hx : ∀ k, (inferTopics psi p (docInput psi p c v d) z).row k = x) :
    Stationary psi p v (c.len d) (c.w d) (inferTopics psi p (docInput psi p c v d) z).z
      (inferTopics psi p (docInput psi p c v d) z).row := by
  intro n hn k _
  rw [word_out_of_context psi p c v z d n k hn, show (inferTopics psi p (docInput psi p c v d) z).row = fun _ => x from funext hx]
  have hu : used p c.lens.length = fun _ => a + (c.lens.length : ℝ) / p.K := by funext j; unfold used; rw [hp]
  rw [hu]
  exact resp_symmetric _ _ _ _ _ _ _

/-! ## C97: reading -/

/-- **C97**: the returned matrix is the normalised one, -/
theorem wordDists_value (p : Params) (s : State) (k t : Nat) :
    (wordDists p s).1 k t = s.vocab k t / ∑ t' ∈ Finset.range p.T, s.vocab k t' := rfl

/-- but the model afterwards holds it as well: **C97** is violated; the model is left unchanged only if its rows sum to one
(or are zero). -/
theorem wordDists_unchanged_iff (p : Params) (s : State) (k : Nat) (hpos : ∀ t, t < p.T → 0 < s.vocab k t) (hT : 0 < p.T) :
    (∀ t, t < p.T → (wordDists p s).2.vocab k t = s.vocab k t) ↔ ∑ t ∈ Finset.range p.T, s.vocab k t = 1 := by
  have hs : 0 < ∑ t ∈ Finset.range p.T, s.vocab k t :=
    Finset.sum_pos (fun t ht => hpos t (Finset.mem_range.mp ht)) ⟨0, Finset.mem_range.mpr hT⟩
  show (∀ t, t < p.T → s.vocab k t / ∑ t' ∈ Finset.range p.T, s.vocab k t' = s.vocab k t) ↔ _
  constructor
  · intro h
    have h0 := h 0 hT
    rw [div_eq_iff hs.ne'] at h0
    have := hpos 0 hT
    nlinarith
  · intro h t _
    rw [h, div_one]

/-- Reading the distributions of a model that has been trained for at least one iteration changes it, if there is a token and
the total prior of a topic is at least one (by default it is 1.1 per word). -/
theorem reading_changes_trained (psi : ℝ → ℝ) (p : Params) (c : Corpus) (s : State) (hK : 0 < p.K) (hw : WordsOk p c)
    (hb : 0 < p.b) (hTb : 1 ≤ p.T * p.b) (hd : 0 < c.lens.length) (htok : 0 < c.len 0) (n k : Nat) (hk : k < p.K) :
    ∃ t, t < p.T ∧ (wordDists p (iterate psi p c (n + 1) s)).2.vocab k t ≠ (iterate psi p c (n + 1) s).vocab k t := by
  have hw0 := hw 0 hd 0 htok
  obtain ⟨-, hge⟩ := vb_mass psi p c s hK hw (n + 1) (by omega)
  by_contra hcon
  push Not at hcon
  have h1 := (wordDists_unchanged_iff p (iterate psi p c (n + 1) s) k
    (fun t _ => lt_of_lt_of_le hb (hge k t hk)) (by omega)).mp hcon
  have h2 : ∑ t ∈ Finset.range p.T, p.b < ∑ t ∈ Finset.range p.T, (iterate psi p c (n + 1) s).vocab k t := by
    refine Finset.sum_lt_sum (fun t _ => hge k t hk) ⟨c.w 0 0, Finset.mem_range.mpr hw0, ?_⟩
    rw [vb_vocab psi p c s n k _ hk]
    refine lt_add_of_pos_right _ ?_
    refine Finset.sum_pos' (fun d _ => Finset.sum_nonneg fun i _ => ?_) ⟨0, Finset.mem_range.mpr hd, ?_⟩
    · split
      · exact (resp_pos psi p hK _ _ _ _).le
      · exact le_rfl
    · refine Finset.sum_pos' (fun i _ => ?_) ⟨0, Finset.mem_range.mpr htok, ?_⟩
      · split
        · exact (resp_pos psi p hK _ _ _ _).le
        · exact le_rfl
      · rw [if_pos rfl]
        exact resp_pos psi p hK _ _ _ _
  rw [Finset.sum_const, Finset.card_range, nsmul_eq_mul] at h2
  linarith

theorem normalise_idem (n : Nat) (m : Nat → Nat → ℝ) (i : Nat) (h : ∑ j ∈ Finset.range n, m i j ≠ 0) :
    ∑ j ∈ Finset.range n, normalise n m i j = 1 := by
  unfold normalise
  rw [← Finset.sum_div]
  exact div_self h

/-- Training ends with a measurement, so the model that it returns has lost its counts: every row sums to one. -/
theorem train_returns_normalised (psi : ℝ → ℝ) (p : Params) (c : Corpus) (hK : 0 < p.K) (hT : 0 < p.T) (hb : 0 < p.b)
    (hw : WordsOk p c) (segs : List Nat) (n : Nat) (s : State) (k : Nat) (hk : k < p.K) :
    ∑ t ∈ Finset.range p.T, (train psi p c (segs ++ [n + 1]) s).vocab k t = 1 := by
  induction segs generalizing s with
  | cons m segs ih => exact ih (measured p (iterate psi p c m s))
  | nil =>
    show ∑ t ∈ Finset.range p.T,
      normalise p.T (normalise p.T (iterate psi p c (n + 1) s).vocab) k t = 1
    obtain ⟨-, hge⟩ := vb_mass psi p c s hK hw (n + 1) (by omega)
    have hs : 0 < ∑ t ∈ Finset.range p.T, (iterate psi p c (n + 1) s).vocab k t :=
      Finset.sum_pos (fun t _ => lt_of_lt_of_le hb (hge k t hk)) ⟨0, Finset.mem_range.mpr hT⟩
    refine normalise_idem _ _ _ ?_
    rw [normalise_idem _ _ _ hs.ne']
    exact one_ne_zero

/-- What remains of **C97**: a second reading changes nothing, and returns the same as the first. -/
theorem reading_twice_partial (p : Params) (s : State) (k : Nat) (hs : ∑ t ∈ Finset.range p.T, s.vocab k t ≠ 0) (t : Nat) :
    (wordDists p (wordDists p s).2).1 k t = (wordDists p s).1 k t
      ∧ (wordDists p (wordDists p s).2).2.vocab k t = (wordDists p s).2.vocab k t := by
  have : normalise p.T (normalise p.T s.vocab) k t = normalise p.T s.vocab k t := by
    conv_lhs => unfold normalise
    rw [show ∑ j' ∈ Finset.range p.T, s.vocab k j' / ∑ j' ∈ Finset.range p.T, s.vocab k j' = 1 from by
      rw [← Finset.sum_div]; exact div_self hs, div_one]
    rfl
  exact ⟨this, this⟩

/-! ## C98: batches -/

/-- **C98** is violated: with a positive batch size the vocabulary is never changed. -/
theorem svb_never_learns (psi : ℝ → ℝ) (p : Params) (c : Corpus) (b : Batch) (hb : 0 < b.size) (n : Nat) (s : State) :
    (siterate psi p c b n s).vocab = s.vocab := siterateFrom_batch psi p c b hb n 0 _ rfl

/-- What remains of **C98**: without batches every iteration replaces the vocabulary. -/
theorem svb_learns_partial (psi : ℝ → ℝ) (p : Params) (c : Corpus) (b : Batch) (hb : b.size = 0) (hD : 0 < c.lens.length)
    (n : Nat) (s : State) (k t : Nat) (hk : k < p.K) :
    (siterate psi p c b (n + 1) s).vocab k t
      = p.b + ∑ d ∈ Finset.range c.lens.length, ∑ i ∈ Finset.range (c.len d),
          if c.w d i = t then resp psi p (siterate psi p c b n s).vocab (used p c.lens.length) (c.w d i) k else 0 := by
  rw [svb_no_batch psi p c b hb hD, svb_no_batch psi p c b hb hD]
  exact vb_vocab psi p c s n k t hk

/-! ## C102: the bound -/

theorem boundFold (psi : ℝ → ℝ) (p : Params) (c : Corpus) (lnWord topics : Nat → Nat → ℝ) (l : List Nat) (a : ℝ)
    (z z' : Nat → Nat → ℝ) (h : ∀ d ∈ l, ∀ n, n < c.maxN → n < c.len d) :
    (l.foldl (fun (acc : ℝ × (Nat → Nat → ℝ)) d =>
      (acc.1 + ∑ n ∈ Finset.range c.maxN, ∑ k ∈ Finset.range p.K,
        boundZ psi p c lnWord topics acc.2 d n k * (psi (topics d k) - psi (∑ j ∈ Finset.range p.K, topics d j)),
        boundZ psi p c lnWord topics acc.2 d)) (a, z)).1
    = (l.foldl (fun (acc : ℝ × (Nat → Nat → ℝ)) d =>
      (acc.1 + ∑ n ∈ Finset.range c.maxN, ∑ k ∈ Finset.range p.K,
        boundZ psi p c lnWord topics acc.2 d n k * (psi (topics d k) - psi (∑ j ∈ Finset.range p.K, topics d j)),
        boundZ psi p c lnWord topics acc.2 d)) (a, z')).1 := by
  induction l generalizing a z z' with
  | nil => rfl
  | cons d l ih =>
    rw [List.foldl_cons, List.foldl_cons]
    simp only
    have hz : ∀ n ∈ Finset.range c.maxN, ∀ k, boundZ psi p c lnWord topics z d n k = boundZ psi p c lnWord topics z' d n k := by
      intro n hn k
      unfold boundZ
      simp only [if_pos (h d (by simp) n (Finset.mem_range.mp hn))]
    rw [show ∑ n ∈ Finset.range c.maxN, ∑ k ∈ Finset.range p.K,
        boundZ psi p c lnWord topics z d n k * (psi (topics d k) - psi (∑ j ∈ Finset.range p.K, topics d j))
      = ∑ n ∈ Finset.range c.maxN, ∑ k ∈ Finset.range p.K,
        boundZ psi p c lnWord topics z' d n k * (psi (topics d k) - psi (∑ j ∈ Finset.range p.K, topics d j)) from
      Finset.sum_congr rfl fun n hn => Finset.sum_congr rfl fun k _ => by rw [hz n hn k]]
    exact ih _ _ _ (fun d' hd' => h d' (List.mem_cons_of_mem _ hd'))

/-- What remains of **C102**: if all documents are equally long, the contents of the buffer do not matter. -/
theorem bound_equal_lengths_partial (psi : ℝ → ℝ) (p : Params) (c : Corpus) (lnWord topics z z' : Nat → Nat → ℝ)
    (h : ∀ d, d < c.lens.length → c.len d = c.maxN) :
    boundAssign psi p c lnWord topics z = boundAssign psi p c lnWord topics z' := by
  unfold boundAssign
  exact boundFold psi p c lnWord topics _ 0 z z' (fun d hd n hn => by rw [h d (List.mem_range.mp hd)]; exact hn)

theorem boundFold_exact (psi : ℝ → ℝ) (p : Params) (c : Corpus) (lnWord topics : Nat → Nat → ℝ) (l : List Nat) (a : ℝ)
    (z : Nat → Nat → ℝ) (h : ∀ d ∈ l, ∀ n, n < c.maxN → n < c.len d) :
    (l.foldl (fun (acc : ℝ × (Nat → Nat → ℝ)) d =>
      (acc.1 + ∑ n ∈ Finset.range c.maxN, ∑ k ∈ Finset.range p.K,
        boundZ psi p c lnWord topics acc.2 d n k * (psi (topics d k) - psi (∑ j ∈ Finset.range p.K, topics d j)),
        boundZ psi p c lnWord topics acc.2 d)) (a, z)).1
    = a + (l.map fun d => ∑ n ∈ Finset.range c.maxN, ∑ k ∈ Finset.range p.K,
        softmax p.K (fun k => lnWord k (c.w d n) + psi (topics d k)) k
          * (psi (topics d k) - psi (∑ j ∈ Finset.range p.K, topics d j))).sum := by
  induction l generalizing a z with
  | nil => simp
  | cons d l ih =>
    rw [List.foldl_cons]
    simp only
    rw [ih _ _ (fun d' hd' => h d' (List.mem_cons_of_mem _ hd')), List.map_cons, List.sum_cons, ← add_assoc]
    congr 2
    refine Finset.sum_congr rfl fun n hn => Finset.sum_congr rfl fun k _ => ?_
    unfold boundZ
    simp only [if_pos (h d (by simp) n (Finset.mem_range.mp hn)), tokenProbs_eq]

/-- What remains of **C102**, exactly: if all documents are equally long, the part is the sum over the words of the expected
logarithm of the share of their topic, every word having each topic with the softmax of the two expected logarithms. -/
theorem bound_equal_lengths_exact_partial (psi : ℝ → ℝ) (p : Params) (c : Corpus) (lnWord topics z : Nat → Nat → ℝ)
    (h : ∀ d, d < c.lens.length → c.len d = c.maxN) :
    boundAssign psi p c lnWord topics z
      = ∑ d ∈ Finset.range c.lens.length, ∑ n ∈ Finset.range (c.len d), ∑ k ∈ Finset.range p.K,
          Real.exp (lnWord k (c.w d n) + psi (topics d k))
            / (∑ i ∈ Finset.range p.K, Real.exp (lnWord i (c.w d n) + psi (topics d i)))
            * (psi (topics d k) - psi (∑ j ∈ Finset.range p.K, topics d j)) := by
  unfold boundAssign
  refine (boundFold_exact psi p c lnWord topics _ 0 z
    (fun d hd n hn => by rw [h d (List.mem_range.mp hd)]; exact hn)).trans ?_
  rw [zero_add, ← List.sum_toFinset _ (List.nodup_range), List.toFinset_range]
  refine Finset.sum_congr rfl fun d hd => ?_
  rw [h d (Finset.mem_range.mp hd)]
  rfl

example (z : Nat → Nat → ℝ) : boundAssign id ⟨2, 2, fun _ => 1, 1⟩ ⟨[1, 1], fun d _ => d⟩ (fun _ _ => 0) (fun d k => if d = k then 0 else 1) z
    = -2 / (1 + Real.exp 1) := by
  rw [bound_equal_lengths_exact_partial _ _ _ _ _ _ (by decide)]
  have hl : (⟨[1, 1], fun d _ => d⟩ : Corpus).lens.length = 2 := rfl
  have h0 : (⟨[1, 1], fun d _ => d⟩ : Corpus).len 0 = 1 := rfl
  have h1 : (⟨[1, 1], fun d _ => d⟩ : Corpus).len 1 = 1 := rfl
  simp [hl, h0, h1, Finset.sum_range_succ]
  ring

/-- Two documents of one and two words. -/
def exBound : Corpus := ⟨[1, 2], fun _ _ => 0⟩

/-- Two topics, one word. -/
noncomputable def exTwo : Params := ⟨2, 1, fun _ => 1, 1⟩

/-- **C102** is violated: for any digamma function that distinguishes the parameters of the first of two documents, the value
depends on the buffer `np.empty` happened to return. -/
theorem bound_reads_garbage (psi : ℝ → ℝ) (lnWord topics : Nat → Nat → ℝ) (h : psi (topics 0 0) ≠ psi (topics 0 1)) :
    ∃ z z' : Nat → Nat → ℝ, boundAssign psi exTwo exBound lnWord topics z ≠ boundAssign psi exTwo exBound lnWord topics z' := by
  refine ⟨fun _ _ => 0, fun _ k => if k = 0 then 1 else 0, ?_⟩
  have hr : List.range exBound.lens.length = [0, 1] := by decide
  have hm : exBound.maxN = 2 := by decide
  have l0 : exBound.len 0 = 1 := by decide
  have l1 : exBound.len 1 = 2 := by decide
  have hK : exTwo.K = 2 := rfl
  unfold boundAssign
  rw [hr, hm]
  simp only [List.foldl_cons, List.foldl_nil, Finset.sum_range_succ, Finset.sum_range_zero, zero_add, hK]
  unfold boundZ
  simp only [tokenProbs_eq, l0, l1, hK]
  simp only [Nat.lt_irrefl, if_false, show (0 : Nat) < 1 from by decide, show (0 : Nat) < 2 from by decide,
    show (1 : Nat) < 2 from by decide, if_true]
  intro he
  have s0 : ∀ k, softmax 2 (fun _ => (0 : ℝ)) k = 1 / 2 := by
    intro k; unfold softmax; simp
  have s1 : softmax 2 (fun k => if k = 0 then (1 : ℝ) else 0) 0 = Real.exp 1 / (Real.exp 1 + 1) := by
    unfold softmax; simp [Finset.sum_range_succ]
  have s2 : softmax 2 (fun k => if k = 0 then (1 : ℝ) else 0) 1 = 1 / (Real.exp 1 + 1) := by
    unfold softmax; simp [Finset.sum_range_succ]
  rw [s0, s0, s1, s2] at he
  have he1 : (1 : ℝ) < Real.exp 1 := by
    have := Real.add_one_lt_exp (x := 1) one_ne_zero
    linarith
  have hne : (Real.exp 1 + 1) ≠ 0 := by positivity
  field_simp at he
  have : (Real.exp 1 - 1) * (psi (topics 0 0) - psi (topics 0 1)) = 0 := by nlinarith [he]
  rcases mul_eq_zero.mp this with h1 | h1
  · linarith
  · exact h (sub_eq_zero.mp h1)

/-! ## Examples -/

/-- Two topics, three words; documents "0 0" and "1 2 2". -/
def exC : Corpus := ⟨[2, 3], fun d n => if d = 0 then 0 else if n = 0 then 1 else 2⟩

noncomputable def exP : Params := ⟨2, 3, fun _ => 1, 1⟩

noncomputable def exS : State := ⟨fun _ _ => 1 / 2, fun k t => if k = t then 2 else 1, fun _ _ => 0, 0⟩

theorem exC_words : WordsOk exP exC := by
  intro d _ n _
  show (if d = 0 then 0 else if n = 0 then 1 else 2) < 3
  split
  · decide
  · split <;> decide

example (psi : ℝ → ℝ) :
    ∑ k ∈ Finset.range exP.K, ∑ t ∈ Finset.range exP.T, (iterate psi exP exC 7 exS).vocab k t = 11 := by
  rw [(vb_mass psi exP exC exS (by decide) exC_words 7 (by decide)).1]
  have h0 : exC.len 0 = 2 := by decide
  have h1 : exC.len 1 = 3 := by decide
  have hl : exC.lens.length = 2 := by decide
  rw [hl, Finset.sum_range_succ, Finset.sum_range_succ, Finset.sum_range_zero, h0, h1]
  show (2 : Nat) * (((3 : Nat) : ℝ) * 1) + _ = (11 : ℝ)
  norm_num

example (psi : ℝ → ℝ) : (iterate psi exP exC 7 exS).total = 42 := by
  rw [vb_total]; decide +revert

example (psi : ℝ → ℝ) (k : Nat) (hk : k < exP.K) :
    ∃ t, t < exP.T ∧ (wordDists exP (iterate psi exP exC 8 exS)).2.vocab k t ≠ (iterate psi exP exC 8 exS).vocab k t :=
  reading_changes_trained psi exP exC exS (by decide) exC_words one_pos
    (by show (1 : ℝ) ≤ ((3 : Nat) : ℝ) * 1; norm_num) (by decide) (by decide) 7 k hk

example (psi : ℝ → ℝ) (n : Nat) : (siterate psi exP exC ⟨2, fun _ => 1 / 2⟩ n exS).vocab = exS.vocab :=
  svb_never_learns psi exP exC _ (by decide) n exS

/-- The word "0" is more probable in topic 0 (for an increasing `psi`), so a document of this word alone is not spread evenly:
asking about it alone or together with another document gives different answers. -/
example : reported id exP ⟨[1], fun _ _ => 0⟩ exS 0 0 ≠ reported id exP ⟨[1, 1], fun _ _ => 0⟩ exS 0 0 := by
  intro h
  have h' := (topics_depend_on_corpus_size id exP (by decide) 1 one_pos (fun _ => rfl) ⟨[1], fun _ _ => 0⟩
    ⟨[1, 1], fun _ _ => 0⟩ exS exS rfl 0 (by decide) (by decide) (by decide) rfl (by decide) 0 (by decide)).mp h
  rw [show (⟨[1], fun _ _ => 0⟩ : Corpus).len 0 = 1 from by decide, Finset.sum_range_one] at h'
  unfold resp softmax at h'
  have hK : exP.K = 2 := rfl
  have hT : exP.T = 3 := rfl
  have ha : exP.a = fun _ => 1 := rfl
  have hv : exS.vocab = fun k t => if k = t then 2 else 1 := rfl
  rw [hK, hT, ha, hv] at h'
  simp [Finset.sum_range_succ] at h'
  norm_num at h'
  have h1 : Real.exp (-1) < Real.exp (-2) ∨ Real.exp (-2) < Real.exp (-1) := Or.inr (Real.exp_lt_exp.mpr (by norm_num))
  have hp := Real.exp_pos (-1)
  have hp2 := Real.exp_pos (-2)
  rw [div_eq_iff (by positivity)] at h'
  rcases h1 with h1 | h1 <;> nlinarith

/-- Inference for the document of the word "0" alone does not end at a stationary point. -/
example : ¬ Stationary id exP exS.vocab ((⟨[1], fun _ _ => 0⟩ : Corpus).len 0) (fun _ => 0)
    (inferTopics id exP (docInput id exP ⟨[1], fun _ _ => 0⟩ exS.vocab 0) exS.z).z
    (inferTopics id exP (docInput id exP ⟨[1], fun _ _ => 0⟩ exS.vocab 0) exS.z).row := by
  intro h
  have h' := not_stationary id (fun _ _ _ h => h) exP (by decide) 1 one_pos (fun _ => rfl) ⟨[1], fun _ _ => 0⟩ exS.vocab exS.z 0
    (by decide) h 0 1 (by decide) (by decide)
  obtain ⟨-, h2, -⟩ := inferTopics_eq id exP (docInput id exP ⟨[1], fun _ _ => 0⟩ exS.vocab 0) exS.z
  rw [h2, h2] at h'
  have hl : (docInput id exP ⟨[1], fun _ _ => 0⟩ exS.vocab 0).len = 1 := rfl
  rw [hl, Finset.sum_range_one, Finset.sum_range_one] at h'
  have h3 : probs id exP (docInput id exP ⟨[1], fun _ _ => 0⟩ exS.vocab 0) 0 0
      = probs id exP (docInput id exP ⟨[1], fun _ _ => 0⟩ exS.vocab 0) 0 1 := by
    have : start exP (docInput id exP ⟨[1], fun _ _ => 0⟩ exS.vocab 0).D 0
      = start exP (docInput id exP ⟨[1], fun _ _ => 0⟩ exS.vocab 0).D 1 := rfl
    linarith
  have h4 := softmax_ratio exP.K (logits id (docInput id exP ⟨[1], fun _ _ => 0⟩ exS.vocab 0)
    (start exP (docInput id exP ⟨[1], fun _ _ => 0⟩ exS.vocab 0).D) 0) (by decide) 0 1
  unfold probs at h3
  rw [h3, div_self (softmax_pos _ _ (by decide) _).ne'] at h4
  have h5 := (Real.exp_eq_one_iff _).mp h4.symm
  simp [logits, docInput, start, exS, exP, Finset.sum_range_succ] at h5
  norm_num at h5

example : ∃ z z' : Nat → Nat → ℝ, boundAssign id exTwo exBound (fun _ _ => 0) (fun d k => d + k + 1) z
    ≠ boundAssign id exTwo exBound (fun _ _ => 0) (fun d k => d + k + 1) z' :=
  bound_reads_garbage id _ _ (by norm_num)

end Verif.Props.Vb
