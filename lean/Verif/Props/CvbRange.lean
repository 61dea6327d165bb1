import Verif.Lemmas.Cvb

/-!
# What the collapsed models do with numbers that are not probabilities (C276)
-/

namespace Verif.Props.CvbRange

open Verif Verif.Cvb

/-! ## Specification -/

/-- All topic probabilities of all tokens lie between `lo` and `hi`. -/
def Within (lo hi : ℚ) (s : State) : Prop := ∀ d n k, lo ≤ s.z d n k ∧ s.z d n k ≤ hi

/-- The weight of topic `k` divided by the sum of the weights is a number between `-1/10` and `11/10`. -/
def Accepted (K : Nat) (w : Nat → ℚ) (k : Nat) : Prop :=
  (∑ j ∈ Finset.range K, w j) ≠ 0 ∧ -1 / 10 ≤ w k / ∑ j ∈ Finset.range K, w j ∧ w k / (∑ j ∈ Finset.range K, w j) ≤ 11 / 10

/-- A compiled function: the probabilities of the tokens after visiting one token, and whether it returned early -/
abbrev Stops (r : State × Bool) : Prop := r.2 = true

/-! ## The functions that check -/

theorem invalid_iff (denom x : ℚ) : invalidProb denom x = false ↔ denom ≠ 0 ∧ -1 / 10 ≤ x ∧ x ≤ 11 / 10 := by
  simp [invalidProb]

/-- A function that checks, and stores the new probability of one topic -/
structure Checks (ker : Kernel) : Prop where
  check : ker.check = true
  store : ∀ c d n s k m, (ker.update c d n s k m).z = setZ s.z d n k m

theorem kernel0_checks : Checks kernel0 := ⟨rfl, fun _ _ _ _ _ _ => rfl⟩

theorem kernel64_checks (ex : ℚ → ℚ) : Checks (kernel64 ex) := ⟨rfl, fun _ _ _ _ _ _ => rfl⟩

theorem setZ_within {z : Nat → Nat → Nat → ℚ} {lo hi x : ℚ} {d n k : Nat} (h : ∀ d n k, lo ≤ z d n k ∧ z d n k ≤ hi)
    (hx : lo ≤ x ∧ x ≤ hi) (d' n' k' : Nat) : lo ≤ setZ z d n k x d' n' k' ∧ setZ z d n k x d' n' k' ≤ hi := by
  unfold setZ; split
  · exact hx
  · exact h d' n' k'

theorem topicLoop_within {ker : Kernel} (hc : Checks ker) {lo hi : ℚ} (hlo : lo ≤ -1 / 10) (hhi : 11 / 10 ≤ hi) (c : Corpus)
    (d n : Nat) (w : Nat → ℚ) (denom : ℚ) (ks : List Nat) (s : State) (h : Within lo hi s) :
    Within lo hi (topicLoop ker c d n w denom ks s).1 := by
  induction ks generalizing s with
  | nil => exact h
  | cons k ks ih =>
    rw [topicLoop, hc.check, Bool.true_and]
    cases hv : invalidProb denom (w k / denom) with
    | true => simpa using h
    | false =>
      rw [if_neg (by simp)]
      refine ih _ fun d' n' k' => ?_
      rw [hc.store]
      obtain ⟨-, h1, h2⟩ := (invalid_iff _ _).1 hv
      exact setZ_within h ⟨hlo.trans h1, h2.trans hhi⟩ d' n' k'

theorem visitAll_within {ker : Kernel} (hc : Checks ker) {lo hi : ℚ} (hlo : lo ≤ -1 / 10) (hhi : 11 / 10 ≤ hi) (p : Params)
    (c : Corpus) (toks : List (Nat × Nat)) (s : State) (h : Within lo hi s) :
    Within lo hi (visitAll ker p c toks s).1 := by
  induction toks generalizing s with
  | nil => exact h
  | cons tok toks ih =>
    have hv : Within lo hi (visit ker p c s tok).1 := topicLoop_within hc hlo hhi c _ _ _ _ _ s h
    rw [visitAll]
    split
    · rename_i s' heq; rw [heq] at hv; exact hv
    · rename_i s' heq; rw [heq] at hv; exact ih _ hv

theorem iterate_within {ker : Kernel} (hc : Checks ker) {lo hi : ℚ} (hlo : lo ≤ -1 / 10) (hhi : 11 / 10 ≤ hi) (p : Params)
    (c : Corpus) (i : Nat) (s : State) (h : Within lo hi s) : Within lo hi (iterate ker p c i s).1 := by
  induction i generalizing s with
  | zero => exact h
  | succ i ih =>
    have hv : Within lo hi (visitAll ker p c c.tokens s).1 := visitAll_within hc hlo hhi p c _ s h
    rw [iterate]
    split
    · rename_i s' heq; rw [heq] at hv; exact hv
    · rename_i s' heq; rw [heq] at hv; exact ih _ hv

theorem topicLoop_stops_iff {ker : Kernel} (hc : Checks ker) (c : Corpus) (d n : Nat) (w : Nat → ℚ) (denom : ℚ)
    (ks : List Nat) (s : State) :
    (topicLoop ker c d n w denom ks s).2 = true
      ↔ ∃ k ∈ ks, ¬(denom ≠ 0 ∧ -1 / 10 ≤ w k / denom ∧ w k / denom ≤ 11 / 10) := by
  induction ks generalizing s with
  | nil => simp [topicLoop]
  | cons k ks ih =>
    rw [topicLoop, hc.check, Bool.true_and]
    cases hv : invalidProb denom (w k / denom) with
    | true =>
      simp only [if_true, true_iff]
      refine ⟨k, List.mem_cons_self, fun h => ?_⟩
      rw [(invalid_iff _ _).2 h] at hv; exact absurd hv (by simp)
    | false =>
      rw [if_neg (by simp), ih]
      have := (invalid_iff _ _).1 hv
      constructor
      · rintro ⟨k', h1, h2⟩; exact ⟨k', List.mem_cons_of_mem _ h1, h2⟩
      · rintro ⟨k', h1, h2⟩
        rcases List.mem_cons.1 h1 with rfl | h1
        · exact absurd this h2
        · exact ⟨k', h1, h2⟩

/-- C276 (what works): the zero-order functions and the double precision second-order function, whatever the priors, the
counts and the number of iterations, never store a number outside -1/10 .. 11/10. -/
theorem stays_within_partial (ex : ℚ → ℚ) (p : Params) (c : Corpus) (i : Nat) (s : State)
    (h : Within (-1 / 10) (11 / 10) s) :
    Within (-1 / 10) (11 / 10) (iterate kernel0 p c i s).1
      ∧ Within (-1 / 10) (11 / 10) (iterate (kernel64 ex) p c i s).1 :=
  ⟨iterate_within kernel0_checks le_rfl le_rfl p c i s h,
   iterate_within (kernel64_checks ex) le_rfl le_rfl p c i s h⟩

/-- They return early exactly at a token one of whose new probabilities is outside that range. -/
theorem stops_iff (ex : ℚ → ℚ) (p : Params) (c : Corpus) (s : State) (d n : Nat) :
    (Stops (visit kernel0 p c s (d, n)) ↔ ∃ k < p.K, ¬ Accepted p.K (raw0 p c s d n) k)
      ∧ (Stops (visit (kernel64 ex) p c s (d, n)) ↔ ∃ k < p.K, ¬ Accepted p.K (raw2 ex p c s d n) k) := by
  constructor
  · unfold Stops visit
    rw [topicLoop_stops_iff kernel0_checks]
    simp only [List.mem_range]; rfl
  · unfold Stops visit
    rw [topicLoop_stops_iff (kernel64_checks ex)]
    simp only [List.mem_range]; rfl

/-- Once a function has returned early, the remaining iterations are not done: asking for more of them changes nothing. -/
theorem nothing_after_stop (ker : Kernel) (p : Params) (c : Corpus) (i j : Nat) (s : State)
    (h : Stops (iterate ker p c i s)) : iterate ker p c (i + j) s = iterate ker p c i s := by
  induction i generalizing s with
  | zero => exact absurd h (by simp [Stops, iterate])
  | succ i ih =>
    rw [show i + 1 + j = (i + j) + 1 by omega]
    rw [iterate] at h ⊢
    rw [iterate]
    split
    · rfl
    · rename_i s' heq
      rw [heq] at h
      exact ih s' h

/-- If the tokens are visited without an early return in the first iteration, then the rest is the run from there; if not,
the function returns with the tables as the visit left them. -/
theorem iterate_first (ker : Kernel) (p : Params) (c : Corpus) (i : Nat) (s : State) :
    iterate ker p c (i + 1) s = if (visitAll ker p c c.tokens s).2 then visitAll ker p c c.tokens s
      else iterate ker p c i (visitAll ker p c c.tokens s).1 := by
  rw [iterate]
  split
  · rename_i s' heq; rw [heq]; rfl
  · rename_i s' heq; rw [heq]; rfl

/-! ## The function that does not check -/

theorem kernel32_topicLoop (ex : ℚ → ℚ) (c : Corpus) (d n : Nat) (w : Nat → ℚ) (denom : ℚ) (ks : List Nat) (s : State) :
    (topicLoop (kernel32 ex) c d n w denom ks s).2 = false := by
  induction ks generalizing s with
  | nil => rfl
  | cons k ks ih =>
    rw [topicLoop, show (kernel32 ex).check = false from rfl, Bool.false_and, if_neg (by simp)]
    exact ih _

/-- The single precision second-order function never returns early, whatever it computes. -/
theorem single_never_stops (ex : ℚ → ℚ) (p : Params) (c : Corpus) (i : Nat) (s : State) :
    ¬ Stops (iterate (kernel32 ex) p c i s) := by
  have hvis : ∀ toks s, (visitAll (kernel32 ex) p c toks s).2 = false := by
    intro toks
    induction toks with
    | nil => exact fun _ => rfl
    | cons tok toks ih =>
      intro s
      have hv : (visit (kernel32 ex) p c s tok).2 = false := kernel32_topicLoop ex c _ _ _ _ _ _
      rw [visitAll]
      split
      · rename_i s' heq; rw [heq] at hv; exact hv
      · exact ih _
  induction i generalizing s with
  | zero => simp [Stops, iterate]
  | succ i ih =>
    rw [iterate_first, hvis, if_neg (by simp)]
    exact ih _

/-! ## Nobody is told -/

/-- Training and querying succeed whenever no document is empty: an early return, which prints a message, is neither raised nor
returned to the caller. -/
theorem early_return_succeeds (ker : Kernel) (p : Params) (c : Corpus) (calls : List Int) (query : Bool)
    (m : Option Counts) (m2 : Option Counts2) (q : State) (hc : ∀ l ∈ c.lens, 0 < l) :
    (∃ r, train0 p c calls query m q = .ok r) ∧ ∃ r, train2 ker p c calls query m2 q = .ok r := by
  have : c.lens.any (fun l => decide (l < 1)) = false := by
    rw [List.any_eq_false]
    intro l hl
    have := hc l hl
    simp; omega
  constructor
  · unfold train0
    rw [this, if_neg (by simp)]
    cases m <;> cases query <;> exact ⟨_, rfl⟩
  · unfold train2
    rw [this, if_neg (by simp)]
    cases m2 <;> cases query <;> exact ⟨_, rfl⟩

/-! ## Witnesses -/

/-- One document of two tokens, the words 0 and 1 -/
def exC : Corpus := ⟨[2], fun _ n => n⟩

/-- Random numbers for two topics: the second token belongs to the second topic -/
def exR2 (_ n k : Nat) : ℚ := if n = 1 ∧ k = 0 then 0 else 1

/-- Random numbers for three topics: the second token does not belong to the third topic -/
def exR3 (_ n k : Nat) : ℚ := if n = 1 ∧ k = 2 then 0 else 1

/-- A slightly negative topic prior, which nothing prevents -/
def exP2 : Params := ⟨2, 2, fun _ => -1 / 50, 1⟩

def exP3 : Params := ⟨3, 2, fun _ => -1 / 10, 1⟩

/-- Violation: the comment of the check promises -0.001 .. 1.001; a token is given the probabilities -3/95 and 98/95 and
training goes on. -/
theorem tolerance_violation :
    ¬ Stops (visit kernel0 exP2 exC (newQueryState exC 2 exR2) (0, 0))
      ∧ (visit kernel0 exP2 exC (newQueryState exC 2 exR2) (0, 0)).1.z 0 0 0 = -3 / 95
      ∧ (visit kernel0 exP2 exC (newQueryState exC 2 exR2) (0, 0)).1.z 0 0 1 = 98 / 95 := by
  unfold Stops
  decide +kernel

/-- Violation: after an early return the probabilities of the token no longer sum to one (two of three topics are stored),
and the model is returned all the same. -/
theorem incomplete_violation :
    Stops (iterate kernel0 exP3 exC 1 (newQueryState exC 3 exR3))
      ∧ (∑ k ∈ Finset.range 3, (newQueryState exC 3 exR3).z 0 0 k) = 1
      ∧ (∑ k ∈ Finset.range 3, (iterate kernel0 exP3 exC 1 (newQueryState exC 3 exR3)).1.z 0 0 k) = 41 / 27
      ∧ ∀ calls, ∃ r, train0 exP3 exC calls false none (newQueryState exC 3 exR3) = .ok r := by
  refine ⟨by unfold Stops; decide +kernel, by decide +kernel, by decide +kernel, fun calls => ?_⟩
  exact (early_return_succeeds kernel0 exP3 exC calls false none none _ (by decide)).1

/-- Violation: the single precision second-order function stores -5/27 as a probability (with the second-order correction
equal to one). -/
theorem single_violation :
    (visit (kernel32 fun _ => 1) exP3 exC (newQueryState exC 3 exR3) (0, 0)).1.z 0 0 2 = -5 / 27 := by
  decide +kernel

/-! ## Examples -/

example : Within (-1 / 10) (11 / 10) (iterate kernel0 exP2 exC 4 (newQueryState exC 2 exR2)).1 := by
  refine (stays_within_partial (fun _ => 1) exP2 exC 4 _ fun d n k => ?_).1
  simp only [newQueryState, zeroTail, initZ, exR2, Finset.sum_range_succ, Finset.sum_range_zero]
  split
  · norm_num
  · by_cases hn : n = 1 <;> by_cases hk : k = 0 <;> simp [hn, hk] <;> norm_num

example : iterate kernel0 exP3 exC (1 + 7) (newQueryState exC 3 exR3) = iterate kernel0 exP3 exC 1 (newQueryState exC 3 exR3) :=
  nothing_after_stop _ _ _ _ _ _ incomplete_violation.1

example : ∃ k < 3, ¬ Accepted 3 (raw0 exP3 exC (newQueryState exC 3 exR3) 0 0) k :=
  ((stops_iff (fun _ => 1) exP3 exC (newQueryState exC 3 exR3) 0 0).1).1 (by unfold Stops; decide +kernel)

example : ¬ Stops (iterate (kernel32 fun _ => 1) exP3 exC 3 (newQueryState exC 3 exR3)) := single_never_stops _ _ _ _ _

end Verif.Props.CvbRange
