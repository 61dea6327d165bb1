import Mathlib.Tactic.Linarith
import Mathlib.Tactic.Ring
import Verif.Model.Segments

/-!
# The schedule of variational training (C65, C96)
-/

namespace Verif.Props.Segments

open Verif Verif.Segments

/-- A log frequency that suits the number of iterations: zero (log only at the end), or not larger than it. -/
def Suits (iterations lf : Nat) : Prop := lf = 0 ∨ lf ≤ iterations

theorem logPoints_pos {iterations lf : Nat} (h : Suits iterations lf) : 0 < logPoints iterations lf := by
  unfold logPoints
  split
  · omega
  · rename_i h0
    exact Nat.div_pos (by rcases h with h | h <;> omega) (by omega)

theorem logPoints_zero {iterations lf : Nat} (h : ¬ Suits iterations lf) : logPoints iterations lf = 0 := by
  unfold Suits at h
  unfold logPoints
  rw [if_neg (by tauto)]
  exact Nat.div_eq_of_lt (by omega)

/-- The calls of the loop never exceed the number of iterations. -/
theorem seg_mul_le (iterations lf : Nat) : (logPoints iterations lf - 1) * lf ≤ iterations := by
  unfold logPoints
  split
  · omega
  · have := Nat.div_mul_le_self iterations lf
    refine le_trans (Nat.mul_le_mul_right _ (Nat.sub_le _ _)) this

theorem remainder_eq {iterations lf : Nat} (h : Suits iterations lf) :
    (remainder iterations lf).toNat + (logPoints iterations lf - 1) * lf = iterations := by
  have h1 := seg_mul_le iterations lf
  have h2 := logPoints_pos h
  obtain ⟨m, hm⟩ : ∃ m, logPoints iterations lf = m + 1 := ⟨logPoints iterations lf - 1, by omega⟩
  unfold remainder
  rw [hm] at h1 ⊢
  simp only [Nat.add_sub_cancel] at h1 ⊢
  have : ((iterations : Int) - lf * (((m + 1 : Nat) : Int) - 1)) = ((iterations - m * lf : Nat) : Int) := by
    rw [Nat.cast_sub h1]; push_cast; ring
  rw [this, Int.toNat_natCast]
  omega

theorem cvbLoop_noStop (minIters : Int) (seg : Nat) (ss : List Nat) (t : Trace) :
    cvbLoop minIters (fun _ => false) seg ss t
      = (⟨t.calls ++ ss.map (fun _ => (seg : Int)), t.bounds ++ ss.map (fun s : Nat => (s : Int) * seg)⟩, false) := by
  induction ss generalizing t with
  | nil => simp [cvbLoop]
  | cons s ss ih =>
    rw [cvbLoop]
    simp only [Bool.false_eq_true, and_false, if_false]
    rw [ih]
    simp

/-- **C65** (CVB0 and CVB, suitable log frequency): without early stopping exactly the requested number of iterations is
performed, in as many calls as there are log points, each followed by a measurement. -/
theorem cvb_exact (minIters : Int) (iterations lf : Nat) (h : Suits iterations lf) :
    performed (cvbTrain minIters (fun _ => false) iterations lf) = iterations
      ∧ (cvbTrain minIters (fun _ => false) iterations lf).calls.length = (if lf = 0 then 1 else iterations / lf)
      ∧ (cvbTrain minIters (fun _ => false) iterations lf).bounds.length = (if lf = 0 then 1 else iterations / lf)
      ∧ (cvbTrain minIters (fun _ => false) iterations lf).bounds.getLast? = some ((iterations : Int) - 1) := by
  have h1 := remainder_eq h
  have h2 := logPoints_pos h
  have hlp : logPoints iterations lf = if lf = 0 then 1 else iterations / lf := rfl
  rw [← hlp]
  unfold cvbTrain
  simp only [cvbLoop_noStop, Bool.false_eq_true, if_false]
  refine ⟨?_, ?_, ?_, ?_⟩
  · unfold performed
    simp only [List.nil_append, List.map_append, List.map_map, List.map_cons, List.map_nil, List.sum_append, List.sum_cons,
      List.sum_nil, add_zero]
    have : (List.map (Int.toNat ∘ fun _ => (lf : Int)) (List.range (logPoints iterations lf - 1))).sum
        = (logPoints iterations lf - 1) * lf := by
      rw [show (Int.toNat ∘ fun _ : Nat => (lf : Int)) = fun _ => lf from by funext; simp]
      simp
    rw [this]; omega
  · simp; omega
  · simp; omega
  · simp

/-- **C65** (CVB0 and CVB) is violated for a log frequency larger than the number of iterations: the model is trained for
both together. -/
theorem cvb_too_many (minIters : Int) (flat : Nat → Bool) (iterations lf : Nat) (h : iterations < lf) :
    performed (cvbTrain minIters flat iterations lf) = iterations + lf := by
  have hs : ¬ Suits iterations lf := by unfold Suits; omega
  have h0 := logPoints_zero hs
  unfold cvbTrain remainder
  rw [h0]
  simp only [Nat.zero_sub, List.range_zero, cvbLoop, Bool.false_eq_true, if_false, List.nil_append]
  unfold performed
  simp only [List.map_cons, List.map_nil, List.sum_cons, List.sum_nil, add_zero]
  push_cast
  omega

theorem cvbLoop_calls (minIters : Int) (flat : Nat → Bool) (seg : Int) (ss : List Nat) (t : Trace) :
    ∃ m ≤ ss.length, (cvbLoop minIters flat seg ss t).1.calls = t.calls ++ List.replicate m seg
      ∧ ((cvbLoop minIters flat seg ss t).2 = false → m = ss.length) := by
  induction ss generalizing t with
  | nil => exact ⟨0, by simp, by simp [cvbLoop], fun _ => rfl⟩
  | cons s ss ih =>
    rw [cvbLoop]
    simp only
    split
    · exact ⟨1, by simp, by simp, fun h => absurd h (by simp)⟩
    · obtain ⟨m, hm, h1, h2⟩ := ih ⟨t.calls ++ [seg], t.bounds ++ [s * seg]⟩
      refine ⟨m + 1, by simpa using hm, ?_, fun h => by rw [h2 h]; rfl⟩
      rw [h1, List.replicate_succ]
      simp

/-- Early stopping never makes training longer than requested. -/
theorem cvb_at_most (minIters : Int) (flat : Nat → Bool) (iterations lf : Nat) (h : Suits iterations lf) :
    performed (cvbTrain minIters flat iterations lf) ≤ iterations := by
  have h1 := remainder_eq h
  obtain ⟨m, hm, h2, h3⟩ := cvbLoop_calls minIters flat lf (List.range (logPoints iterations lf - 1)) ⟨[], []⟩
  rw [List.length_range] at hm h3
  have hsum : ((List.replicate m (lf : Int)).map Int.toNat).sum = m * lf := by simp
  have hle : m * lf ≤ (logPoints iterations lf - 1) * lf := Nat.mul_le_mul_right _ hm
  unfold cvbTrain
  simp only
  split
  · unfold performed
    rw [h2, List.nil_append, hsum]
    omega
  · unfold performed
    simp only [h2, List.nil_append, List.map_append, List.sum_append, hsum, List.map_cons, List.map_nil, List.sum_cons,
      List.sum_nil, add_zero]
    omega

/-- An early stop happens only after three measurements, past the minimal number of iterations and at a flat perplexity. -/
theorem cvb_stop_reason (minIters : Int) (flat : Nat → Bool) (seg : Int) (ss : List Nat) (t : Trace)
    (h : (cvbLoop minIters flat seg ss t).2 = true) :
    ∃ s ∈ ss, (cvbLoop minIters flat seg ss t).1.bounds.getLast? = some (s * seg) ∧
      3 ≤ (cvbLoop minIters flat seg ss t).1.bounds.length ∧ minIters < s * seg ∧ flat s = true := by
  induction ss generalizing t with
  | nil => simp [cvbLoop] at h
  | cons s ss ih =>
    rw [cvbLoop] at h ⊢
    simp only at h ⊢
    split
    · rename_i hc
      refine ⟨s, by simp, by simp, hc.1, hc.2⟩
    · rename_i hc
      rw [if_neg hc] at h
      obtain ⟨s', h1, h2⟩ := ih _ h
      exact ⟨s', List.mem_cons_of_mem _ h1, h2⟩

/-! ## Variational Bayes -/

theorem vbLoop_noStop (dt : DType) (args seg size : Nat) (ha : args = iterateParams dt) (ss : List Nat) (t : Trace)
    (hs : t.bounds.length + ss.length ≤ size) :
    vbLoop dt args (fun _ => false) seg size ss t
      = .ok (⟨t.calls ++ ss.map (fun _ => (seg : Int)), t.bounds ++ ss.map (fun s : Nat => (s : Int) * seg)⟩, false) := by
  induction ss generalizing t with
  | nil => simp [vbLoop]
  | cons s ss ih =>
    rw [List.length_cons] at hs
    rw [vbLoop]
    simp only [call, if_pos ha, store, if_pos (show t.bounds.length < size by omega), bind, Except.bind, Bool.false_eq_true,
      if_false]
    rw [ih]
    · simp
    · simp; omega

/-- **C65** (variational Bayes, single precision, suitable log frequency): exactly the requested number of iterations, one
measurement per log point. -/
theorem vb_exact (iterations lf : Nat) (h : Suits iterations lf) :
    ∃ t, vbTrain .f32 (fun _ => false) iterations lf = .ok t ∧ performed t = iterations
      ∧ t.bounds.length = (if lf = 0 then 1 else iterations / lf) ∧ t.bounds.getLast? = some ((iterations : Int) - 1) := by
  obtain ⟨h1, -, h3, h4⟩ := cvb_exact 0 iterations lf h
  refine ⟨cvbTrain 0 (fun _ => false) iterations lf, ?_, h1, h3, h4⟩
  have hp := logPoints_pos h
  unfold vbTrain vbTrainWith cvbTrain
  simp only
  rw [vbLoop_noStop .f32 11 lf (logPoints iterations lf) rfl _ _ (by simp)]
  have hstore : store (logPoints iterations lf)
      ((([] : List Int) ++ (List.range (logPoints iterations lf - 1)).map (fun s : Nat => (s : Int) * lf)).length) = .ok () := by
    unfold store
    rw [if_pos (by simp; omega)]
  simp only [bind, Except.bind, cvbLoop_noStop, Bool.false_eq_true, if_false, call, iterateParams, if_true]
  rw [hstore]

theorem vbLoop_first (dt : DType) (args : Nat) (ha : args = iterateParams dt) (conv : Nat → Bool) (seg size n : Nat) : ∀ a (t : Trace),
    t.bounds.length = a → a + n ≤ size →
    (∃ s b, a ≤ s ∧ s < a + n ∧ conv s = true ∧ (∀ j, a ≤ j → j < s → conv j = false) ∧ b.length = s ∧
      vbLoop dt args conv seg size (List.range' a n) t
        = .ok (⟨t.calls ++ List.replicate (s + 1 - a) (seg : Int), b ++ [(s * seg : Int)]⟩, true)) ∨
    ((∀ j, a ≤ j → j < a + n → conv j = false) ∧ ∃ b, b.length = a + n ∧
      vbLoop dt args conv seg size (List.range' a n) t = .ok (⟨t.calls ++ List.replicate n (seg : Int), b⟩, false)) := by
  induction n with
  | zero =>
    intro a t ht hs
    exact .inr ⟨fun j h1 h2 => absurd h2 (by omega), t.bounds, by omega, by simp [vbLoop]⟩
  | succ n ih =>
    intro a t ht hs
    rw [List.range'_succ, vbLoop]
    simp only [call, if_pos ha, store, if_pos (show t.bounds.length < size by omega), bind, Except.bind]
    by_cases hc : conv a = true
    · refine .inl ⟨a, t.bounds, le_rfl, by omega, hc, fun j h1 h2 => absurd h2 (by omega), ht, ?_⟩
      rw [if_pos hc]
      have : a + 1 - a = 1 := by omega
      rw [this]
      rfl
    · rw [if_neg hc]
      have hc' : conv a = false := by simpa using hc
      rcases ih (a + 1) ⟨t.calls ++ [(seg : Int)], t.bounds ++ [(a * seg : Int)]⟩ (by simp [ht]) (by omega) with
        ⟨s, b, h1, h2, h3, h4, h5, h6⟩ | ⟨h1, b, h2, h3⟩
      · refine .inl ⟨s, b, by omega, by omega, h3, fun j hj1 hj2 => ?_, h5, ?_⟩
        · rcases Nat.eq_or_lt_of_le hj1 with rfl | hj
          · exact hc'
          · exact h4 j hj hj2
        · rw [h6]
          have : s + 1 - a = (s + 1 - (a + 1)) + 1 := by omega
          rw [this, List.replicate_succ]
          simp
      · refine .inr ⟨fun j hj1 hj2 => ?_, b, by omega, ?_⟩
        · rcases Nat.eq_or_lt_of_le hj1 with rfl | hj
          · exact hc'
          · exact h1 j hj (by omega)
        · rw [h3, List.replicate_succ]
          simp

/-- **C65** (variational Bayes, single precision): training ends with the first segment but the last after which it has converged; it has then done
exactly the iterations of the segments up to that one.  If there is no such segment, it does exactly the iterations asked for. -/
theorem vb_early (conv : Nat → Bool) (iterations lf : Nat) (h : Suits iterations lf) :
    ∃ t, vbTrain .f32 conv iterations lf = .ok t ∧
      ((∃ s, s + 1 < (if lf = 0 then 1 else iterations / lf) ∧ conv s = true ∧ (∀ j, j < s → conv j = false) ∧ performed t = (s + 1) * lf ∧
          t.bounds.length = s + 1 ∧ t.bounds.getLast? = some ((s * lf : Nat) : Int)) ∨
       ((∀ j, j + 1 < (if lf = 0 then 1 else iterations / lf) → conv j = false) ∧ performed t = iterations)) := by
  have hp := logPoints_pos h
  have hr := remainder_eq h
  have hlp : logPoints iterations lf = if lf = 0 then 1 else iterations / lf := rfl
  rw [← hlp]
  unfold vbTrain vbTrainWith
  simp only
  rw [List.range_eq_range']
  rcases vbLoop_first .f32 11 rfl conv lf (logPoints iterations lf) (logPoints iterations lf - 1) 0 ⟨[], []⟩ rfl (by omega) with
    ⟨s, b, h1, h2, h3, h4, h5, h6⟩ | ⟨h1, b, h2, h3⟩
  · rw [h6]
    refine ⟨_, rfl, .inl ⟨s, by omega, h3, fun j hj => h4 j (Nat.zero_le j) hj, ?_, ?_, ?_⟩⟩
    · unfold performed
      simp
    · simp [h5]
    · simp
  · rw [h3]
    simp only [bind, Except.bind, Bool.false_eq_true, if_false, call, iterateParams, if_true, store]
    rw [if_pos (by omega)]
    refine ⟨_, rfl, .inr ⟨fun j hj => h1 j (Nat.zero_le j) (by omega), ?_⟩⟩
    unfold performed
    simp
    omega

/-- A larger log frequency makes variational Bayes fail, after all the work has been done. -/
theorem vb_large_lf (iterations lf : Nat) (conv : Nat → Bool) (h : iterations < lf) :
    vbTrain .f32 conv iterations lf = .error .indexError := by
  have h0 := logPoints_zero (show ¬ Suits iterations lf by unfold Suits; omega)
  unfold vbTrain vbTrainWith
  simp only [h0, Nat.zero_sub, List.range_zero, vbLoop, bind, Except.bind, Bool.false_eq_true, if_false, call, iterateParams,
    if_true, store, List.length_nil, lt_self_iff_false]

theorem vbLoop_typeError (dt : DType) (args : Nat) (conv : Nat → Bool) (seg : Int) (size : Nat) (s : Nat) (ss : List Nat)
    (t : Trace) (ha : args ≠ iterateParams dt) : vbLoop dt args conv seg size (s :: ss) t = .error .typeError := by
  rw [vbLoop]
  simp [call, ha, bind, Except.bind]

/-- **C65**, **C96**: variational Bayes in double precision cannot be trained at all. -/
theorem vb_f64_fails (conv : Nat → Bool) (iterations lf : Nat) : vbTrain .f64 conv iterations lf = .error .typeError := by
  unfold vbTrain vbTrainWith
  simp only
  rcases hl : List.range (logPoints iterations lf - 1) with _ | ⟨s, ss⟩
  · simp [vbLoop, bind, Except.bind, call, iterateParams]
  · rw [vbLoop_typeError .f64 11 conv lf _ s ss _ (by decide)]
    rfl

/-- The stochastic variant in double precision: a training that does not converge in an early segment fails. -/
theorem svb_f64_fails (iterations lf : Nat) : svbTrain .f64 (fun _ => false) iterations lf = .error .typeError := by
  unfold svbTrain vbTrainWith
  simp only
  rw [vbLoop_noStop .f64 15 lf (logPoints iterations lf) rfl _ _ (by simp)]
  simp [bind, Except.bind, call, iterateParams]

/-- The stochastic variant in single precision: fails if there is more than one log point. -/
theorem svb_f32_fails (conv : Nat → Bool) (iterations lf : Nat) (h : 2 ≤ logPoints iterations lf) :
    svbTrain .f32 conv iterations lf = .error .typeError := by
  unfold svbTrain vbTrainWith
  simp only
  rcases hl : List.range (logPoints iterations lf - 1) with _ | ⟨s, ss⟩
  · have := congrArg List.length hl
    simp at this; omega
  · rw [vbLoop_typeError .f32 15 conv lf _ s ss _ (by decide)]
    rfl

/-- The stochastic variant in single precision with a single log point runs the requested iterations (of plain, not
stochastic, variational Bayes: the batch parameters are not passed on). -/
theorem svb_f32_single_partial (conv : Nat → Bool) (iterations lf : Nat) (h : logPoints iterations lf = 1) :
    ∃ t, svbTrain .f32 conv iterations lf = .ok t ∧ performed t = iterations := by
  refine ⟨⟨[iterations], [(iterations : Int) - 1]⟩, ?_, by simp [performed]⟩
  unfold svbTrain vbTrainWith remainder
  simp [h, vbLoop, bind, Except.bind, call, iterateParams, store]

/-! ## C96 -/

/-- **C96** is violated: there is no precision in which a variational Bayes model can be both trained and queried. -/
theorem vb_no_precision (dt : DType) (conv : Nat → Bool) (iterations lf queryIterations : Nat) (hq : 0 < queryIterations)
    (t : Trace) (ht : vbTrain dt conv iterations lf = .ok t) : vbQuery dt queryIterations = .error .valueError := by
  cases dt with
  | f32 => simp [vbQuery, queryKernel]; omega
  | f64 => rw [vb_f64_fails] at ht; exact absurd ht (by simp)

/-- What remains of **C96**: single precision models can be trained, double precision models queried. -/
theorem vb_precision_partial (iterations lf queryIterations : Nat) (h : Suits iterations lf) :
    (∃ t, vbTrain .f32 (fun _ => false) iterations lf = .ok t) ∧ vbQuery .f64 queryIterations = .ok queryIterations := by
  obtain ⟨t, ht, -⟩ := vb_exact iterations lf h
  refine ⟨⟨t, ht⟩, ?_⟩
  unfold vbQuery
  split
  · simp_all
  · simp [queryKernel]

/-! ## Examples -/

example : cvb0Train (fun _ => false) 25 10 = ⟨[10, 15], [0, 24]⟩ := by decide +kernel

example : ∃ s ∈ List.range 10, 3 ≤ (cvbLoop 50 (fun _ => true) 10 (List.range 10) ⟨[], []⟩).1.bounds.length ∧ (50 : Int) < s * 10 := by
  obtain ⟨s, h1, -, h2, h3, -⟩ := cvb_stop_reason 50 (fun _ => true) 10 (List.range 10) ⟨[], []⟩ (by decide +kernel)
  exact ⟨s, h1, h2, h3⟩

/-- Early stopping needs more than two measurements and more than fifty iterations. -/
example : cvb0Train (fun _ => true) 100 10 = ⟨[10, 10, 10, 10, 10, 10, 10], [0, 10, 20, 30, 40, 50, 60]⟩ := by decide +kernel

example : Suits 25 10 ∧ performed (cvb0Train (fun _ => false) 25 10) = 25 :=
  ⟨Or.inr (by decide), (cvb_exact 50 25 10 (Or.inr (by decide))).1⟩

example : performed (cvb2Train (fun _ => false) 5 10) = 15 := cvb_too_many 30 _ 5 10 (by decide)

example : ∃ t, vbTrain .f32 (fun _ => false) 25 10 = .ok t ∧ performed t = 25 := by
  obtain ⟨t, h1, h2, -⟩ := vb_exact 25 10 (Or.inr (by decide))
  exact ⟨t, h1, h2⟩

/-- Converged after the third of ten segments -/
example : vbTrain .f32 (fun s => decide (s = 2)) 100 10 = .ok ⟨[10, 10, 10], [0, 10, 20]⟩ := by decide +kernel

example : vbTrain .f32 (fun _ => false) 5 10 = .error .indexError := vb_large_lf 5 10 _ (by decide)

example : vbTrain .f64 (fun _ => false) 100 10 = .error .typeError := vb_f64_fails _ 100 10

example : 2 ≤ logPoints 100 10 ∧ svbTrain .f32 (fun _ => false) 100 10 = .error .typeError :=
  ⟨by decide, svb_f32_fails _ 100 10 (by decide)⟩

example : ∃ t, vbTrain .f32 (fun _ => false) 25 10 = .ok t ∧ vbQuery .f32 3 = .error .valueError := by
  obtain ⟨t, h1, -⟩ := vb_exact 25 10 (Or.inr (by decide))
  exact ⟨t, h1, vb_no_precision .f32 _ 25 10 3 (by decide) t h1⟩

end Verif.Props.Segments
