import Mathlib.Tactic.Ring
import Mathlib.Tactic.Linarith
import Mathlib.Tactic.FieldSimp
import Mathlib.Tactic.Positivity
import Mathlib.Algebra.Order.BigOperators.Group.Finset
import Mathlib.Algebra.BigOperators.Field
import Verif.Model.Vb
import Verif.Props.Numerics

/-!
# Lemmas about variational Bayes
-/

namespace Verif.Vb

open Verif
open Verif.Cvb (Corpus)
open Verif.Props.Numerics (softmax shifted sum_exp_pos)

theorem tokenProbs_eq (K : Nat) (c : ℝ) (l : Nat → ℝ) (k : Nat) : tokenProbs K c l k = softmax K l k := by
  unfold tokenProbs
  exact shifted K l _ k

theorem softmax_pos (K : Nat) (l : Nat → ℝ) (hK : 0 < K) (k : Nat) : 0 < softmax K l k :=
  div_pos (Real.exp_pos _) (sum_exp_pos K l hK)

theorem softmax_sum (K : Nat) (l : Nat → ℝ) (hK : 0 < K) : ∑ k ∈ Finset.range K, softmax K l k = 1 := by
  unfold softmax
  rw [← Finset.sum_div]
  exact div_self (sum_exp_pos K l hK).ne'

theorem foldl_range (m : Nat) (f : Nat → ℝ) (a : ℝ) :
    (List.range m).foldl (fun acc n => acc + f n) a = a + ∑ n ∈ Finset.range m, f n := by
  induction m with
  | zero => simp
  | succ m ih => rw [List.range_succ, List.foldl_append, ih, Finset.sum_range_succ, ← add_assoc]; rfl

/-- The probabilities of a token, in closed form. -/
noncomputable def probs (psi : ℝ → ℝ) (p : Params) (x : DocInput) (n k : Nat) : ℝ :=
  softmax p.K (logits psi x (start p x.D) n) k

theorem innerRound_row (psi : ℝ → ℝ) (p : Params) (x : DocInput) (s : Inner) (k : Nat) :
    (innerRound psi p x s).row k = start p x.D k + ∑ n ∈ Finset.range x.len, probs psi p x n k := by
  unfold innerRound
  simp only
  rw [foldl_range]
  congr 1
  refine Finset.sum_congr rfl fun n hn => ?_
  rw [if_pos (Finset.mem_range.mp hn), tokenProbs_eq]
  rfl

theorem innerRound_z (psi : ℝ → ℝ) (p : Params) (x : DocInput) (s : Inner) (n k : Nat) :
    (innerRound psi p x s).z n k = if n < x.len then probs psi p x n k else s.z n k := by
  unfold innerRound
  simp only [tokenProbs_eq]
  rfl

/-- A round after another one changes nothing but the copy of the old row. -/
theorem innerRound_twice (psi : ℝ → ℝ) (p : Params) (x : DocInput) (s : Inner) :
    (innerRound psi p x (innerRound psi p x s)).row = (innerRound psi p x s).row
      ∧ (innerRound psi p x (innerRound psi p x s)).z = (innerRound psi p x s).z
      ∧ (innerRound psi p x (innerRound psi p x s)).old = (innerRound psi p x s).row := by
  refine ⟨?_, ?_, rfl⟩
  · funext k; rw [innerRound_row, innerRound_row]
  · funext n k
    simp only [innerRound_z]
    split <;> rfl

theorem l1_self (K : Nat) (u : Nat → ℝ) : l1 K u u = 0 := by
  unfold l1; simp

theorem inferTopics_eq (psi : ℝ → ℝ) (p : Params) (x : DocInput) (z : Nat → Nat → ℝ) :
    (inferTopics psi p x z).itrs = 3
      ∧ (∀ k, (inferTopics psi p x z).row k = start p x.D k + ∑ n ∈ Finset.range x.len, probs psi p x n k)
      ∧ (∀ n k, (inferTopics psi p x z).z n k = if n < x.len then probs psi p x n k else z n k) := by
  obtain ⟨s0, hs0⟩ : ∃ s0 : Inner, s0 = { old := fun _ => 1 / (p.K : ℝ), row := start p x.D, z := z, itrs := 0 } := ⟨_, rfl⟩
  have hrun : inferTopics psi p x z = innerRound psi p x (innerRound psi p x (innerRound psi p x s0)) := by
    unfold inferTopics maxInner
    rw [← hs0, innerLoop, if_pos (by left; rw [hs0]; show 0 < 3; decide)]
    rw [innerLoop, if_pos (by left; rw [hs0]; show 0 + 1 < 3; decide)]
    rw [innerLoop, if_pos (by left; rw [hs0]; show 0 + 1 + 1 < 3; decide)]
    rw [innerLoop, if_neg]
    rintro (h | h)
    · rw [hs0] at h
      exact absurd h (by show ¬ (0 + 1 + 1 + 1 < 3); decide)
    · obtain ⟨h1, -, h3⟩ := innerRound_twice psi p x (innerRound psi p x s0)
      rw [h3, h1, l1_self] at h
      have : (0 : ℝ) ≤ 1 / 100 / (p.K : ℝ) := by positivity
      linarith
  rw [hrun]
  refine ⟨by rw [hs0]; rfl, fun k => innerRound_row _ _ _ _ k, fun n k => ?_⟩
  rw [innerRound_z, innerRound_z, innerRound_z, hs0]
  split <;> rfl

/-! ## Adding the tokens of a document to the vocabulary -/

theorem foldl_bump_of_ne (w : Nat → Nat) (z : Nat → Nat → ℝ) (l : List (Nat × Nat)) (v : Nat → Nat → ℝ) (k t : Nat)
    (h : ∀ q ∈ l, q.1 ≠ k) : l.foldl (fun v kn => bump v kn.1 (w kn.2) (z kn.2 kn.1)) v k t = v k t := by
  induction l generalizing v with
  | nil => rfl
  | cons q l ih =>
    rw [List.foldl_cons, ih _ (fun q' hq' => h q' (List.mem_cons_of_mem _ hq'))]
    unfold bump
    rw [if_neg]
    rintro ⟨rfl, -⟩
    exact h q (by simp) rfl

theorem foldl_bump_row (len : Nat) (w : Nat → Nat) (z : Nat → Nat → ℝ) (v : Nat → Nat → ℝ) (k t : Nat) :
    ((List.range len).map (fun n => (k, n))).foldl (fun v kn => bump v kn.1 (w kn.2) (z kn.2 kn.1)) v k t
      = v k t + ∑ n ∈ Finset.range len, if w n = t then z n k else 0 := by
  induction len with
  | zero => simp
  | succ m ih =>
    rw [List.range_succ, List.map_append, List.foldl_append, Finset.sum_range_succ]
    simp only [List.map_cons, List.map_nil, List.foldl_cons, List.foldl_nil]
    unfold bump at ih ⊢
    simp only [true_and]
    by_cases h : w m = t
    · rw [if_pos h.symm, if_pos h, ih, add_assoc]
    · rw [if_neg (fun h' => h h'.symm), if_neg h, ih, add_zero]

theorem addTokens_eq (K len : Nat) (w : Nat → Nat) (z : Nat → Nat → ℝ) (v : Nat → Nat → ℝ) (k t : Nat) (hk : k < K) :
    addTokens K len w z v k t = v k t + ∑ n ∈ Finset.range len, if w n = t then z n k else 0 := by
  unfold addTokens
  induction K with
  | zero => omega
  | succ K ih =>
    rw [List.range_succ, List.flatMap_append, List.foldl_append]
    simp only [List.flatMap_cons, List.flatMap_nil, List.append_nil]
    rcases Nat.lt_succ_iff_lt_or_eq.mp hk with hk | rfl
    · rw [foldl_bump_of_ne w z _ _ k t, ih hk]
      intro q hq
      obtain ⟨n, -, rfl⟩ := List.mem_map.mp hq
      show K ≠ k
      omega
    · rw [foldl_bump_row]
      congr 1
      refine foldl_bump_of_ne w z _ _ k t ?_
      intro q hq
      obtain ⟨k', hk', hq⟩ := List.mem_flatMap.mp hq
      obtain ⟨n, -, rfl⟩ := List.mem_map.mp hq
      have := List.mem_range.mp hk'
      show k' ≠ k
      omega

/-! ## Iterations -/

theorem inferDoc_vocab (psi : ℝ → ℝ) (p : Params) (c : Corpus) (v : Nat → Nat → ℝ) (s : State) (d : Nat) :
    (inferDoc psi p c v s d).vocab = s.vocab := rfl

/-- What the loop of an iteration has done after `m` documents. -/
theorem stepDocs_spec (psi : ℝ → ℝ) (p : Params) (c : Corpus) (v : Nat → Nat → ℝ) (s : State) (m : Nat) :
    (∀ d k, k < p.K → ((List.range m).foldl (stepDoc psi p c v) s).topics d k
        = if d < m then start p c.lens.length k + ∑ n ∈ Finset.range (c.len d), probs psi p (docInput psi p c v d) n k
          else s.topics d k)
      ∧ (∀ k t, k < p.K → ((List.range m).foldl (stepDoc psi p c v) s).vocab k t
        = s.vocab k t + ∑ d ∈ Finset.range m, ∑ n ∈ Finset.range (c.len d),
            if c.w d n = t then probs psi p (docInput psi p c v d) n k else 0)
      ∧ ((List.range m).foldl (stepDoc psi p c v) s).total = s.total + 3 * m := by
  induction m with
  | zero => exact ⟨fun d k _ => by simp, fun k t _ => by simp, by simp⟩
  | succ m ih =>
    obtain ⟨h1, h2, h3⟩ := ih
    rw [List.range_succ, List.foldl_append, List.foldl_cons, List.foldl_nil]
    generalize (List.range m).foldl (stepDoc psi p c v) s = s' at h1 h2 h3 ⊢
    obtain ⟨e1, e2, e3⟩ := inferTopics_eq psi p (docInput psi p c v m) s'.z
    refine ⟨fun d k hk => ?_, fun k t hk => ?_, ?_⟩
    · show (if d = m ∧ k < p.K then _ else s'.topics d k) = _
      by_cases hd : d = m
      · subst hd
        rw [if_pos ⟨rfl, hk⟩, if_pos (by omega), e2]
        rfl
      · rw [if_neg (by tauto), h1 d k hk]
        by_cases hlt : d < m
        · rw [if_pos hlt, if_pos (by omega)]
        · rw [if_neg hlt, if_neg (by omega)]
    · show addTokens p.K (c.len m) (c.w m) (inferTopics psi p (docInput psi p c v m) s'.z).z s'.vocab k t = _
      rw [addTokens_eq _ _ _ _ _ _ _ hk, h2 k t hk, Finset.sum_range_succ, add_assoc]
      congr 2
      refine Finset.sum_congr rfl fun n hn => ?_
      rw [e3, if_pos (show n < (docInput psi p c v m).len from Finset.mem_range.mp hn)]
    · show s'.total + (inferTopics psi p (docInput psi p c v m) s'.z).itrs = _
      rw [e1, h3]; ring

theorem queryDocs_spec (psi : ℝ → ℝ) (p : Params) (c : Corpus) (v : Nat → Nat → ℝ) (s : State) (m : Nat) :
    (∀ d k, k < p.K → ((List.range m).foldl (inferDoc psi p c v) s).topics d k
        = if d < m then start p c.lens.length k + ∑ n ∈ Finset.range (c.len d), probs psi p (docInput psi p c v d) n k
          else s.topics d k)
      ∧ ((List.range m).foldl (inferDoc psi p c v) s).vocab = s.vocab := by
  induction m with
  | zero => exact ⟨fun d k _ => by simp, rfl⟩
  | succ m ih =>
    obtain ⟨h1, h2⟩ := ih
    rw [List.range_succ, List.foldl_append, List.foldl_cons, List.foldl_nil]
    generalize (List.range m).foldl (inferDoc psi p c v) s = s' at h1 h2 ⊢
    obtain ⟨e1, e2, e3⟩ := inferTopics_eq psi p (docInput psi p c v m) s'.z
    refine ⟨fun d k hk => ?_, h2⟩
    show (if d = m ∧ k < p.K then _ else s'.topics d k) = _
    by_cases hd : d = m
    · subst hd
      rw [if_pos ⟨rfl, hk⟩, if_pos (by omega), e2]
      rfl
    · rw [if_neg (by tauto), h1 d k hk]
      by_cases hlt : d < m
      · rw [if_pos hlt, if_pos (by omega)]
      · rw [if_neg hlt, if_neg (by omega)]

/-! ## The stochastic trainer -/

/-- Without batches the loop over the documents does the same as the batch trainer, but writes to `updates`. -/
theorem sstep_no_batch (psi : ℝ → ℝ) (p : Params) (c : Corpus) (b : Batch) (hb : b.size = 0) (itr : Nat) (s : SState)
    (v : Nat → Nat → ℝ) (hseen : s.seen = v) (m : Nat) (hm : m < c.lens.length) :
    (List.range m).foldl (sstepDoc psi p c b itr) s
      = { base := { (List.range m).foldl (stepDoc psi p c v) { s.base with vocab := s.updates } with vocab := s.base.vocab }
          updates := ((List.range m).foldl (stepDoc psi p c v) { s.base with vocab := s.updates }).vocab
          seen := v, count := s.count } := by
  induction m with
  | zero => subst hseen; rfl
  | succ m ih =>
    rw [List.range_succ, List.foldl_append, List.foldl_append, ih (by omega)]
    simp only [List.foldl_cons, List.foldl_nil]
    generalize (List.range m).foldl (stepDoc psi p c v) { s.base with vocab := s.updates } = A
    unfold sstepDoc
    simp only
    rw [if_neg (by omega), if_neg (by omega)]
    rfl

theorem siterate1_no_batch (psi : ℝ → ℝ) (p : Params) (c : Corpus) (b : Batch) (hb : b.size = 0) (hD : 0 < c.lens.length)
    (itr : Nat) (s : SState) : (siterate1 psi p c b itr s).base = iterate1 psi p c s.base := by
  obtain ⟨D, hDeq⟩ : ∃ D, c.lens.length = D + 1 := ⟨c.lens.length - 1, by omega⟩
  have h := sstep_no_batch psi p c b hb itr
    { s with updates := fun _ _ => if b.size = 0 then p.b else 0, seen := s.base.vocab } s.base.vocab rfl D (by omega)
  unfold siterate1 iterate1
  rw [hDeq, List.range_succ, List.foldl_append, List.foldl_append, h]
  simp only [List.foldl_cons, List.foldl_nil, if_pos hb]
  generalize (List.range D).foldl (stepDoc psi p c s.base.vocab) { s.base with vocab := fun _ _ => p.b } = A
  unfold sstepDoc
  simp only
  rw [if_neg (by omega), if_pos hDeq.symm]
  rfl

theorem siterateFrom_no_batch (psi : ℝ → ℝ) (p : Params) (c : Corpus) (b : Batch) (hb : b.size = 0) (hD : 0 < c.lens.length)
    (n itr : Nat) (s : SState) : (siterateFrom psi p c b itr n s).base = iterate psi p c n s.base := by
  induction n generalizing itr s with
  | zero => rfl
  | succ n ih => rw [siterateFrom, ih, siterate1_no_batch psi p c b hb hD]; rfl

/-- With batches the counter stays at zero and the vocabulary as it is. -/
theorem sstep_batch (psi : ℝ → ℝ) (p : Params) (c : Corpus) (b : Batch) (hb : 0 < b.size) (itr : Nat) (l : List Nat)
    (s : SState) (h : s.count = 0) :
    (l.foldl (sstepDoc psi p c b itr) s).count = 0 ∧ (l.foldl (sstepDoc psi p c b itr) s).base.vocab = s.base.vocab := by
  induction l generalizing s with
  | nil => exact ⟨h, rfl⟩
  | cons d l ih =>
    rw [List.foldl_cons]
    have hs : (sstepDoc psi p c b itr s d).count = 0 ∧ (sstepDoc psi p c b itr s d).base.vocab = s.base.vocab := by
      unfold sstepDoc
      simp only
      rw [if_pos hb, if_neg (by omega)]
      exact ⟨h, rfl⟩
    obtain ⟨h1, h2⟩ := ih _ hs.1
    exact ⟨h1, h2.trans hs.2⟩

theorem siterateFrom_batch (psi : ℝ → ℝ) (p : Params) (c : Corpus) (b : Batch) (hb : 0 < b.size) (n itr : Nat) (s : SState)
    (h : s.count = 0) : (siterateFrom psi p c b itr n s).base.vocab = s.base.vocab := by
  induction n generalizing itr s with
  | zero => rfl
  | succ n ih =>
    rw [siterateFrom]
    obtain ⟨h1, h2⟩ := sstep_batch psi p c b hb itr (List.range c.lens.length)
      { s with updates := fun _ _ => if b.size = 0 then p.b else 0, seen := s.base.vocab } h
    exact (ih (itr + 1) (siterate1 psi p c b itr s) h1).trans h2

end Verif.Vb
