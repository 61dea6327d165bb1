import Mathlib.Analysis.SpecialFunctions.Log.Basic
import Mathlib.Analysis.SpecialFunctions.Log.Deriv
import Mathlib.Analysis.Complex.ExponentialBounds
import Mathlib.Analysis.SpecialFunctions.Trigonometric.Arctan
import Mathlib.Algebra.Order.BigOperators.Group.Finset
import Mathlib.Algebra.BigOperators.Field
import Mathlib.Tactic.Ring
import Mathlib.Tactic.Linarith
import Mathlib.Tactic.FieldSimp
import Mathlib.Tactic.Positivity
import Verif.Model.Numerics

/-!
# Numerical helpers (C47, C48, C49, C50, C79, C86–C90)
-/

namespace Verif.Props.Numerics

open Verif Verif.Numerics

/-! ## The maximum of a row -/

theorem foldl_max (l : List Nat) (r : Nat → ℝ) : ∀ a,
    (a ≤ l.foldl (fun m k => if m < r k then r k else m) a) ∧
    (∀ k ∈ l, r k ≤ l.foldl (fun m k => if m < r k then r k else m) a) ∧
    (l.foldl (fun m k => if m < r k then r k else m) a = a ∨
      ∃ k ∈ l, l.foldl (fun m k => if m < r k then r k else m) a = r k) := by
  induction l with
  | nil => intro a; exact ⟨le_rfl, fun k hk => absurd hk (by simp), .inl rfl⟩
  | cons x l ih =>
    intro a
    rw [List.foldl_cons]
    obtain ⟨h1, h2, h3⟩ := ih (if a < r x then r x else a)
    have ha : a ≤ (if a < r x then r x else a) := by split <;> linarith
    have hx : r x ≤ (if a < r x then r x else a) := by split <;> linarith
    refine ⟨ha.trans h1, ?_, ?_⟩
    · intro k hk
      rcases List.mem_cons.mp hk with rfl | hk
      · exact hx.trans h1
      · exact h2 k hk
    · rcases h3 with h | ⟨k, hk, h⟩
      · rw [h]
        split
        · exact .inr ⟨x, by simp, rfl⟩
        · exact .inl rfl
      · exact .inr ⟨k, List.mem_cons_of_mem _ hk, h⟩

/-- The maximum is an upper bound and attained. -/
theorem rowMax_spec (K : Nat) (r : Nat → ℝ) (hK : 0 < K) :
    (∀ k, k < K → r k ≤ rowMax K r) ∧ ∃ k, k < K ∧ rowMax K r = r k := by
  obtain ⟨_, h2, h3⟩ := foldl_max (List.range K) r (r 0)
  refine ⟨fun k hk => h2 k (List.mem_range.mpr hk), ?_⟩
  rcases h3 with h | ⟨k, hk, h⟩
  · exact ⟨0, hK, h⟩
  · exact ⟨k, List.mem_range.mp hk, h⟩

/-! ## Softmax (C47) -/

/-- The softmax of a row, as one writes it. -/
noncomputable def softmax (K : Nat) (r : Nat → ℝ) (k : Nat) : ℝ :=
  Real.exp (r k) / ∑ j ∈ Finset.range K, Real.exp (r j)

theorem sum_exp_pos (K : Nat) (r : Nat → ℝ) (hK : 0 < K) : 0 < ∑ j ∈ Finset.range K, Real.exp (r j) :=
  Finset.sum_pos (fun _ _ => Real.exp_pos _) ⟨0, Finset.mem_range.mpr hK⟩

theorem shifted (K : Nat) (r : Nat → ℝ) (c : ℝ) (k : Nat) :
    Real.exp (r k - c) / ∑ j ∈ Finset.range K, Real.exp (r j - c) = softmax K r k := by
  unfold softmax
  have : ∀ j, Real.exp (r j - c) = Real.exp (r j) * Real.exp (-c) := by
    intro j; rw [← Real.exp_add]; congr 1
  simp only [this]
  rw [← Finset.sum_mul, mul_div_mul_right _ _ (Real.exp_pos _).ne']

/-- C47: the row-wise softmax fails only without columns; otherwise every entry is the exponential divided by the
sum of the exponentials of its row. -/
theorem rowwise_is_softmax (K : Nat) (m : Nat → Nat → ℝ) :
    (K = 0 → rowwiseSoftmax K m = .error .valueError) ∧
    (0 < K → rowwiseSoftmax K m = .ok (fun d k => softmax K (m d) k)) := by
  unfold rowwiseSoftmax
  refine ⟨fun h => if_pos h, fun h => ?_⟩
  rw [if_neg (by omega)]
  simp only [shifted]

/-- C47: the same for columns. -/
theorem colwise_is_softmax (D : Nat) (m : Nat → Nat → ℝ) :
    (D = 0 → colwiseSoftmax D m = .error .valueError) ∧
    (0 < D → colwiseSoftmax D m = .ok (fun d k => softmax D (fun i => m i k) d)) := by
  unfold colwiseSoftmax
  refine ⟨fun h => if_pos h, fun h => ?_⟩
  rw [if_neg (by omega)]
  simp only
  congr 1
  funext d k
  exact shifted D (fun i => m i k) _ d

/-- what makes a row of numbers the softmax of scores -/
structure IsSoftmax (K : Nat) (r p : Nat → ℝ) : Prop where
  pos : ∀ k, 0 < p k
  sum : ∑ k ∈ Finset.range K, p k = 1
  mono : ∀ i j, r i < r j ↔ p i < p j
  ratio : ∀ i j, p i / p j = Real.exp (r i - r j)

theorem softmax_spec (K : Nat) (r : Nat → ℝ) (hK : 0 < K) : IsSoftmax K r (softmax K r) := by
  have hs := sum_exp_pos K r hK
  refine ⟨fun k => div_pos (Real.exp_pos _) hs, ?_, ?_, ?_⟩
  · unfold softmax
    rw [← Finset.sum_div, div_self hs.ne']
  · intro i j
    unfold softmax
    rw [div_lt_div_iff_of_pos_right hs, Real.exp_lt_exp]
  · intro i j
    unfold softmax
    rw [Real.exp_sub]
    field_simp

/-- C47: every row of the row-wise softmax is a distribution with positive entries in the order of the
scores. -/
theorem rowwise_distribution (K : Nat) (m p : Nat → Nat → ℝ) (h : rowwiseSoftmax K m = .ok p) (d : Nat) :
    IsSoftmax K (m d) (p d) := by
  rcases Nat.eq_zero_or_pos K with h0 | h0
  · rw [(rowwise_is_softmax K m).1 h0] at h; cases h
  · rw [(rowwise_is_softmax K m).2 h0] at h; cases h; exact softmax_spec K (m d) h0

/-- C47: every column of the column-wise softmax likewise. -/
theorem colwise_distribution (D : Nat) (m p : Nat → Nat → ℝ) (h : colwiseSoftmax D m = .ok p) (k : Nat) :
    IsSoftmax D (fun d => m d k) (fun d => p d k) := by
  rcases Nat.eq_zero_or_pos D with h0 | h0
  · rw [(colwise_is_softmax D m).1 h0] at h; cases h
  · rw [(colwise_is_softmax D m).2 h0] at h; cases h; exact softmax_spec D (fun d => m d k) h0

/-- C47: adding a constant to each row changes nothing. -/
theorem rowwise_shift (K : Nat) (m : Nat → Nat → ℝ) (c : Nat → ℝ) :
    rowwiseSoftmax K (fun d k => m d k + c d) = rowwiseSoftmax K m := by
  rcases Nat.eq_zero_or_pos K with h0 | h0
  · rw [(rowwise_is_softmax K _).1 h0, (rowwise_is_softmax K _).1 h0]
  · rw [(rowwise_is_softmax K _).2 h0, (rowwise_is_softmax K _).2 h0]
    congr 1
    funext d k
    rw [← shifted K (m d) (-c d) k]
    unfold softmax
    simp only [sub_neg_eq_add]

theorem colwise_shift (D : Nat) (m : Nat → Nat → ℝ) (c : Nat → ℝ) :
    colwiseSoftmax D (fun d k => m d k + c k) = colwiseSoftmax D m := by
  rcases Nat.eq_zero_or_pos D with h0 | h0
  · rw [(colwise_is_softmax D _).1 h0, (colwise_is_softmax D _).1 h0]
  · rw [(colwise_is_softmax D _).2 h0, (colwise_is_softmax D _).2 h0]
    congr 1
    funext d k
    rw [← shifted D (fun i => m i k) (-c k) d]
    unfold softmax
    simp only [sub_neg_eq_add]

/-- a row of equal scores: the uniform distribution -/
example : rowwiseSoftmax 2 (fun _ _ => 7) = .ok (fun _ _ => 1 / 2) := by
  rw [(rowwise_is_softmax 2 _).2 (by norm_num)]
  congr 1
  funext d k
  unfold softmax
  rw [Finset.sum_const, Finset.card_range, nsmul_eq_mul]
  have := Real.exp_pos 7
  field_simp
  norm_num

/-! ## The log-sum-exp (C89) -/

/-- C89: the log-sum-exp lies between the maximum and the maximum plus `log K`, and the softmax is the exponential
of the difference. -/
theorem lse_spec (K : Nat) (r : Nat → ℝ) (hK : 0 < K) :
    (∀ k, k < K → r k ≤ lse K r) ∧ lse K r ≤ rowMax K r + Real.log K ∧
    ∀ k, softmax K r k = Real.exp (r k - lse K r) := by
  have hs := sum_exp_pos K r hK
  obtain ⟨hmax, _⟩ := rowMax_spec K r hK
  refine ⟨?_, ?_, ?_⟩
  · intro k hk
    unfold lse
    rw [Real.le_log_iff_exp_le hs]
    exact Finset.single_le_sum (f := fun j => Real.exp (r j)) (fun j _ => (Real.exp_pos _).le)
      (Finset.mem_range.mpr hk)
  · unfold lse
    rw [Real.log_le_iff_le_exp hs, Real.exp_add, Real.exp_log (by exact_mod_cast hK)]
    calc ∑ j ∈ Finset.range K, Real.exp (r j) ≤ ∑ _j ∈ Finset.range K, Real.exp (rowMax K r) :=
          Finset.sum_le_sum (fun j hj => Real.exp_le_exp.mpr (hmax j (Finset.mem_range.mp hj)))
      _ = Real.exp (rowMax K r) * K := by
          rw [Finset.sum_const, Finset.card_range, nsmul_eq_mul]; ring
  · intro k
    unfold lse
    rw [Real.exp_sub, Real.exp_log hs]; rfl

example : lse 3 (fun _ => 2) = 2 + Real.log 3 := by
  unfold lse
  rw [Finset.sum_const, Finset.card_range, nsmul_eq_mul, Real.log_mul (by norm_num) (Real.exp_pos _).ne',
    Real.log_exp]
  push_cast
  ring

/-! ## Soft dot products (C49) -/

/-- the dot product of a row with its softmax -/
noncomputable def softDot (K : Nat) (r : Nat → ℝ) : ℝ := ∑ k ∈ Finset.range K, softmax K r k * r k

theorem selfSoftDot_eq (D K : Nat) (m : Nat → Nat → ℝ) :
    selfSoftDot D K m = ∑ d ∈ Finset.range D, softDot K (m d) := by
  unfold selfSoftDot softDot
  apply Finset.sum_congr rfl
  intro d _
  apply Finset.sum_congr rfl
  intro k _
  rw [mul_div_right_comm, shifted]

/-- C49: the scale has no influence: the result is the unscaled sum. -/
theorem scale_ignored (D K : Nat) (m : Nat → Nat → ℝ) (scale : Nat → ℝ) :
    scaledSelfSoftDot D K m scale = ∑ d ∈ Finset.range D, softDot K (m d) := by
  rw [← selfSoftDot_eq]; rfl

/-- C49: it is the weighted sum exactly when the weights' deviations from one cancel out; in particular for
weights one. -/
theorem scaled_right_iff_partial (D K : Nat) (m : Nat → Nat → ℝ) (scale : Nat → ℝ) :
    scaledSelfSoftDot D K m scale = ∑ d ∈ Finset.range D, scale d * softDot K (m d) ↔
      ∑ d ∈ Finset.range D, (scale d - 1) * softDot K (m d) = 0 := by
  rw [scale_ignored]
  have : ∑ d ∈ Finset.range D, (scale d - 1) * softDot K (m d) =
      ∑ d ∈ Finset.range D, scale d * softDot K (m d) - ∑ d ∈ Finset.range D, softDot K (m d) := by
    rw [← Finset.sum_sub_distrib]
    apply Finset.sum_congr rfl
    intro d _; ring
  rw [this]
  constructor
  · intro h; rw [h]; ring
  · intro h; linarith

/-- C49 is violated: one row, one column, scale two. -/
theorem scaled_violation :
    scaledSelfSoftDot 1 1 (fun _ _ => 3) (fun _ => 2) ≠
      ∑ _d ∈ Finset.range 1, (2 : ℝ) * softDot 1 (fun _ => 3) := by
  rw [scale_ignored]
  unfold softDot softmax
  simp only [Finset.sum_range_one]
  rw [div_self (Real.exp_pos _).ne']
  norm_num

/-! ## `log (1 + exp x)` (C48, C86) -/

/-- the function meant -/
noncomputable def log1pExp (x : ℝ) : ℝ := Real.log (1 + Real.exp x)

theorem log1p_upper (u : ℝ) (hu : 0 < u) : Real.log (1 + u) < u := by
  have := Real.log_lt_sub_one_of_pos (show (0 : ℝ) < 1 + u by linarith) (by linarith)
  linarith

/-- `u - u² / 2 ≤ log (1 + u)` -/
theorem log1p_lower (u : ℝ) (hu : 0 < u) : u - u ^ 2 / 2 ≤ Real.log (1 + u) := by
  have h := Real.le_log_one_add_of_nonneg hu.le
  have : u - u ^ 2 / 2 ≤ 2 * u / (u + 2) := by
    rw [le_div_iff₀ (by linarith)]
    nlinarith [pow_pos hu 3]
  linarith

theorem log1pExp_neg (x : ℝ) : log1pExp x = x + Real.log (1 + Real.exp (-x)) := by
  unfold log1pExp
  have : 1 + Real.exp x = Real.exp x * (1 + Real.exp (-x)) := by
    rw [mul_add, ← Real.exp_add]; simp [add_comm]
  rw [this, Real.log_mul (Real.exp_pos _).ne' (by positivity), Real.log_exp]

theorem exp_neg_nat (n : Nat) : Real.exp (-(n : ℝ)) ≤ (1 / 2.7182818283) ^ n := by
  have h1 : Real.exp (-(n : ℝ)) = (Real.exp 1)⁻¹ ^ n := by
    rw [Real.exp_neg, ← Real.exp_one_pow, inv_pow]
  rw [h1, one_div]
  have h2 := Real.exp_one_gt_d9
  gcongr

theorem exp17 : Real.exp (-17) ≤ 4.2e-8 := by
  have := exp_neg_nat 17
  norm_num at this ⊢
  linarith

theorem exp33 : Real.exp (-33) ≤ 4.7e-15 := by
  have := exp_neg_nat 33
  norm_num at this ⊢
  linarith

theorem exp11 : Real.exp (-11) ≤ 1.7e-5 := by
  have := exp_neg_nat 11
  norm_num at this ⊢
  linarith

theorem exp138 : Real.exp (-13.8) ≤ 1.1e-6 := by
  have h1 : Real.exp (-13.8) ^ 5 = Real.exp (-69) := by
    rw [← Real.exp_nat_mul]; norm_num
  have h2 : Real.exp (-69) ≤ (1.1e-6 : ℝ) ^ 5 := by
    have := exp_neg_nat 69
    norm_num at this ⊢
    linarith
  rw [← h1] at h2
  exact le_of_pow_le_pow_left₀ (by norm_num) (by norm_num) h2

/-- the two approximations: below `-a` by `exp x`, above `a` by `x + exp (-x)` -/
theorem tail_low (x c : ℝ) (hx : Real.exp x ≤ c) : log1pExp x < Real.exp x ∧ Real.exp x - log1pExp x ≤ c ^ 2 / 2 := by
  have hp := Real.exp_pos x
  refine ⟨log1p_upper _ hp, ?_⟩
  have h1 := log1p_lower _ hp
  have h2 : Real.exp x ^ 2 ≤ c ^ 2 := by gcongr
  unfold log1pExp
  linarith

theorem tail_high (x c : ℝ) (hx : Real.exp (-x) ≤ c) :
    log1pExp x < x + Real.exp (-x) ∧ x + Real.exp (-x) - log1pExp x ≤ c ^ 2 / 2 := by
  obtain ⟨h1, h2⟩ := tail_low (-x) c hx
  rw [log1pExp_neg]
  unfold log1pExp at h1 h2
  exact ⟨by linarith, by linarith⟩

theorem tail_x (x c : ℝ) (hx : Real.exp (-x) ≤ c) : x < log1pExp x ∧ log1pExp x - x ≤ c := by
  rw [log1pExp_neg]
  have hp := Real.exp_pos (-x)
  have h1 := log1p_upper _ hp
  have h2 : 0 < Real.log (1 + Real.exp (-x)) := Real.log_pos (by linarith)
  exact ⟨by linarith, by linarith⟩

theorem above (x : ℝ) : max 0 x < log1pExp x := by
  have h := (tail_x x (Real.exp (-x)) le_rfl).1
  have h0 : 0 < log1pExp x := Real.log_pos (by have := Real.exp_pos x; linarith)
  exact max_lt h0 h

/-- C48: double precision. -/
theorem log1pexp_f8 (x : ℝ) : |safeLog1pExpF8 x - log1pExp x| ≤ 4.7e-15 ∧
    (-17 < x → x ≤ 17 → safeLog1pExpF8 x = log1pExp x) ∧ max 0 x ≤ safeLog1pExpF8 x := by
  unfold safeLog1pExpF8
  by_cases h1 : x ≤ -17
  · rw [if_pos h1]
    obtain ⟨e1, e2⟩ := tail_low x 4.2e-8 ((Real.exp_le_exp.mpr h1).trans exp17)
    refine ⟨?_, fun h => absurd h1 (by linarith), ((above x).trans e1).le⟩
    rw [abs_of_pos (by linarith)]
    refine e2.trans ?_
    norm_num
  rw [if_neg h1]
  by_cases h2 : x ≤ 17
  · rw [if_pos h2]
    exact ⟨by rw [show Real.log (1 + Real.exp x) = log1pExp x from rfl, sub_self, abs_zero]; norm_num,
      fun _ _ => rfl, (above x).le⟩
  rw [if_neg h2]
  by_cases h3 : x ≤ 33
  · rw [if_pos h3]
    obtain ⟨e1, e2⟩ := tail_high x 4.2e-8 ((Real.exp_le_exp.mpr (by linarith)).trans exp17)
    refine ⟨?_, fun _ h => absurd h h2, ((above x).trans e1).le⟩
    rw [abs_of_pos (by linarith)]
    refine e2.trans ?_
    norm_num
  rw [if_neg h3]
  obtain ⟨e1, e2⟩ := tail_x x 4.7e-15 ((Real.exp_le_exp.mpr (by linarith)).trans exp33)
  refine ⟨?_, fun _ h => absurd h h2, max_le (by linarith) le_rfl⟩
  rw [abs_sub_comm, abs_of_pos (by linarith)]
  exact e2

/-- C48: single precision; the error is largest just above 13.8. -/
theorem log1pexp_f4 (x : ℝ) : |safeLog1pExpF4 x - log1pExp x| ≤ 1.1e-6 ∧
    (-11 < x → x ≤ 11 → safeLog1pExpF4 x = log1pExp x) ∧
    (x ≤ 13.8 → |safeLog1pExpF4 x - log1pExp x| ≤ 1.5e-10) ∧ max 0 x ≤ safeLog1pExpF4 x := by
  unfold safeLog1pExpF4
  by_cases h1 : x ≤ -11
  · rw [if_pos h1]
    obtain ⟨e1, e2⟩ := tail_low x 1.7e-5 ((Real.exp_le_exp.mpr h1).trans exp11)
    have e3 : Real.exp x - log1pExp x ≤ 1.5e-10 := e2.trans (by norm_num)
    refine ⟨?_, fun h => absurd h1 (by linarith), fun _ => ?_, ((above x).trans e1).le⟩
    · rw [abs_of_pos (by linarith)]; exact e3.trans (by norm_num)
    · rw [abs_of_pos (by linarith)]; exact e3
  rw [if_neg h1]
  by_cases h2 : x ≤ 11
  · rw [if_pos h2, show Real.log (1 + Real.exp x) = log1pExp x from rfl, sub_self, abs_zero]
    exact ⟨by norm_num, fun _ _ => rfl, fun _ => by norm_num, (above x).le⟩
  rw [if_neg h2]
  by_cases h3 : x ≤ 13.8
  · rw [if_pos h3]
    obtain ⟨e1, e2⟩ := tail_high x 1.7e-5 ((Real.exp_le_exp.mpr (by linarith)).trans exp11)
    have e3 : x + Real.exp (-x) - log1pExp x ≤ 1.5e-10 := e2.trans (by norm_num)
    refine ⟨?_, fun _ h => absurd h h2, fun _ => ?_, ((above x).trans e1).le⟩
    · rw [abs_of_pos (by linarith)]; exact e3.trans (by norm_num)
    · rw [abs_of_pos (by linarith)]; exact e3
  rw [if_neg h3]
  obtain ⟨e1, e2⟩ := tail_x x 1.1e-6 ((Real.exp_le_exp.mpr (by linarith)).trans exp138)
  refine ⟨?_, fun _ h => absurd h h2, fun h => absurd h h3, max_le (by linarith) le_rfl⟩
  rw [abs_sub_comm, abs_of_pos (by linarith)]
  exact e2

/-- C48: the array version. -/
theorem log1pexp_np (x : ℝ) : |safeLog1pExpNp x - log1pExp x| ≤ 4.7e-15 ∧
    (-17 < x → x ≤ 33 → safeLog1pExpNp x = log1pExp x) ∧ max 0 x ≤ safeLog1pExpNp x := by
  unfold safeLog1pExpNp
  by_cases h1 : x ≤ -17
  · rw [if_pos h1]
    obtain ⟨e1, e2⟩ := tail_low x 4.2e-8 ((Real.exp_le_exp.mpr h1).trans exp17)
    refine ⟨?_, fun h => absurd h1 (by linarith), ((above x).trans e1).le⟩
    rw [abs_of_pos (by linarith)]
    refine e2.trans ?_
    norm_num
  rw [if_neg h1]
  by_cases h2 : x ≤ 0
  · rw [if_pos h2, show Real.log (1 + Real.exp x) = log1pExp x from rfl, sub_self, abs_zero]
    exact ⟨by norm_num, fun _ _ => rfl, (above x).le⟩
  rw [if_neg h2]
  by_cases h3 : x ≤ 33
  · rw [if_pos h3, ← log1pExp_neg, sub_self, abs_zero]
    exact ⟨by norm_num, fun _ _ => rfl, (above x).le⟩
  rw [if_neg h3]
  obtain ⟨e1, e2⟩ := tail_x x 4.7e-15 ((Real.exp_le_exp.mpr (by linarith)).trans exp33)
  refine ⟨?_, fun _ h => absurd h h3, max_le (by linarith) le_rfl⟩
  rw [abs_sub_comm, abs_of_pos (by linarith)]
  exact e2

/-- C48: the weighted sum over a matrix is off by at most the error times the weights' absolute sum and the
number of columns. -/
theorem scaled_sum_error (D K : Nat) (w : Nat → ℝ) (m : Nat → Nat → ℝ) :
    |scaledSumOfLnOnePlusExp D K w m -
      ∑ d ∈ Finset.range D, ∑ k ∈ Finset.range K, w d * log1pExp (m d k)| ≤
      4.7e-15 * (K * ∑ d ∈ Finset.range D, |w d|) := by
  unfold scaledSumOfLnOnePlusExp
  rw [← Finset.sum_sub_distrib]
  refine (Finset.abs_sum_le_sum_abs _ _).trans ?_
  rw [Finset.mul_sum, Finset.mul_sum]
  apply Finset.sum_le_sum
  intro d _
  rw [← Finset.sum_sub_distrib]
  refine (Finset.abs_sum_le_sum_abs _ _).trans ?_
  have : ∀ k ∈ Finset.range K, |w d * safeLog1pExpF8 (m d k) - w d * log1pExp (m d k)| ≤ |w d| * 4.7e-15 := by
    intro k _
    rw [← mul_sub, abs_mul]
    exact mul_le_mul_of_nonneg_left (log1pexp_f8 _).1 (abs_nonneg _)
  refine (Finset.sum_le_sum this).trans ?_
  rw [Finset.sum_const, Finset.card_range, nsmul_eq_mul]
  exact le_of_eq (by ring)

/-- an argument in each region -/
example : safeLog1pExpF8 (-20) = Real.exp (-20) ∧ safeLog1pExpF8 0 = Real.log 2 ∧
    safeLog1pExpF8 20 = 20 + Real.exp (-20) ∧ safeLog1pExpF8 40 = 40 := by
  unfold safeLog1pExpF8
  norm_num

/-- C86 is violated: `log (1 + exp x)` increases, the implementation drops at the lower seam. -/
theorem log1pexp_not_monotone : ∃ x y : ℝ, x < y ∧ safeLog1pExpF8 y < safeLog1pExpF8 x := by
  have hlt : log1pExp (-17) < Real.exp (-17) := log1p_upper _ (Real.exp_pos _)
  have hc : ContinuousAt log1pExp (-17) := by
    unfold log1pExp
    apply ContinuousAt.log
    · fun_prop
    · have := Real.exp_pos (-17); linarith
  have hev := hc.eventually_lt (continuousAt_const (y := Real.exp (-17))) hlt
  obtain ⟨δ, hδ, hball⟩ := Metric.eventually_nhds_iff.mp hev
  have hy : -17 + min (δ / 2) 1 > (-17 : ℝ) := by
    have : 0 < min (δ / 2) 1 := lt_min (by linarith) one_pos
    linarith
  refine ⟨-17, -17 + min (δ / 2) 1, hy, ?_⟩
  have h1 : safeLog1pExpF8 (-17) = Real.exp (-17) := by unfold safeLog1pExpF8; rw [if_pos le_rfl]
  have h2 : safeLog1pExpF8 (-17 + min (δ / 2) 1) = log1pExp (-17 + min (δ / 2) 1) :=
    (log1pexp_f8 _).2.1 hy (by have := min_le_right (δ / 2) (1 : ℝ); linarith)
  rw [h1, h2]
  apply hball
  rw [Real.dist_eq, add_sub_cancel_left, abs_of_pos (lt_min (by linarith) one_pos)]
  exact lt_of_le_of_lt (min_le_left _ _) (by linarith)

theorem log1pExp_strictMono : StrictMono log1pExp := by
  intro x y h
  unfold log1pExp
  apply Real.log_lt_log
  · have := Real.exp_pos x; linarith
  · have := Real.exp_lt_exp.mpr h; linarith

/-- C86: a drop is never larger than twice the error bound, and there is none within the middle region or
between arguments further apart than the error can bridge. -/
theorem log1pexp_monotone_partial (x y : ℝ) (h : x ≤ y) :
    safeLog1pExpF8 x - safeLog1pExpF8 y ≤ 9.4e-15 ∧
    (-17 < x → y ≤ 17 → safeLog1pExpF8 x ≤ safeLog1pExpF8 y) ∧
    (y ≤ -17 → safeLog1pExpF8 x ≤ safeLog1pExpF8 y) := by
  have hx := (abs_le.mp (log1pexp_f8 x).1)
  have hy := (abs_le.mp (log1pexp_f8 y).1)
  have hm := log1pExp_strictMono.monotone h
  refine ⟨by linarith [hx.2, hy.1], ?_, ?_⟩
  · intro h1 h2
    rw [(log1pexp_f8 x).2.1 h1 (by linarith), (log1pexp_f8 y).2.1 (by linarith) h2]
    exact hm
  · intro h2
    unfold safeLog1pExpF8
    rw [if_pos (h.trans h2), if_pos h2]
    exact Real.exp_le_exp.mpr h

/-! ## Safe logarithms and determinants (C87, C88, C90) -/

theorem almostZero_pos (single : Bool) : 0 < almostZero single ∧ almostZero single < 1 := by
  unfold almostZero
  rcases single with _ | _
  · rw [if_neg (by simp)]
    exact ⟨pow_pos (by norm_num) _, pow_lt_one₀ (by norm_num) (by norm_num) (by norm_num)⟩
  · rw [if_pos rfl]
    exact ⟨pow_pos (by norm_num) _, pow_lt_one₀ (by norm_num) (by norm_num) (by norm_num)⟩

theorem almostZero_le_half (single : Bool) : almostZero single ≤ 1 / 2 := by
  unfold almostZero
  rcases single with _ | _
  · rw [if_neg (by simp)]
    calc ((1 : ℝ) / 10) ^ 300 ≤ (1 / 10) ^ 1 := pow_le_pow_of_le_one (by norm_num) (by norm_num) (by norm_num)
      _ ≤ 1 / 2 := by norm_num
  · rw [if_pos rfl]; norm_num

/-- C87: with and without a separate buffer the result is the logarithm of the value clipped from below. -/
theorem safe_log_clips (single : Bool) (x : ℝ) :
    safeLogOut single x = Real.log (max x (almostZero single)) ∧
    safeLogInPlace single x = Real.log (max x (almostZero single)) := by
  unfold safeLogOut safeLogInPlace
  constructor
  · by_cases h : almostZero single ≤ x
    · rw [if_pos h, max_eq_left h]
    · rw [if_neg h, max_eq_right (by linarith)]
  · by_cases h : x < almostZero single
    · rw [if_pos h, max_eq_right h.le]
    · rw [if_neg h, max_eq_left (by linarith)]

/-- C87: so it is the logarithm where the value is large enough, is bounded below and never decreases. -/
theorem safe_log_spec (single : Bool) (x y : ℝ) :
    (almostZero single ≤ x → safeLogOut single x = Real.log x) ∧
    Real.log (almostZero single) ≤ safeLogOut single x ∧
    (x ≤ y → safeLogOut single x ≤ safeLogOut single y) := by
  rw [(safe_log_clips single x).1, (safe_log_clips single y).1]
  have hp := (almostZero_pos single).1
  refine ⟨fun h => by rw [max_eq_left h], Real.log_le_log hp (le_max_right _ _), ?_⟩
  intro h
  exact Real.log_le_log (lt_of_lt_of_le hp (le_max_right _ _)) (max_le_max h le_rfl)

example : safeLogOut true 0 = Real.log ((1 / 10) ^ 35) ∧ safeLogInPlace true (-3) = Real.log ((1 / 10) ^ 35) ∧ safeLogOut false 1 = 0 := by
  refine ⟨?_, ?_, ?_⟩
  · rw [(safe_log_clips _ _).1]; unfold almostZero
    rw [if_pos rfl, max_eq_right (by norm_num)]
  · rw [(safe_log_clips _ _).2]; unfold almostZero
    rw [if_pos rfl, max_eq_right (by norm_num)]
  · rw [(safe_log_spec false 1 1).1 (almostZero_pos false).2.le, Real.log_one]

/-- C88: for values that are not negative, `x log x` with value 0 at 0; between 0 and 1 it is not positive, and at
least `-exp (-1)`. -/
theorem safe_x_log_x_spec (single : Bool) (x : ℝ) (hx : 0 ≤ x) :
    (0 < x → safeXLogX single x = x * Real.log x) ∧ (x = 0 → safeXLogX single x = 0) ∧
    (x ≤ 1 → safeXLogX single x ≤ 0) ∧ -Real.exp (-1) ≤ safeXLogX single x := by
  unfold safeXLogX
  refine ⟨fun h => by rw [if_pos h], fun h => by rw [h, zero_mul], ?_, ?_⟩
  · intro h1
    rcases hx.eq_or_lt with h | h
    · rw [← h, zero_mul]
    · rw [if_pos h]
      exact mul_nonpos_of_nonneg_of_nonpos hx (Real.log_nonpos hx h1)
  · rcases hx.eq_or_lt with h | h
    · rw [← h, zero_mul]
      have := Real.exp_pos (-1); linarith
    · rw [if_pos h]
      -- with `x = exp (-1) * z`: `z log z ≥ z - 1`
      have hz : 0 < x * Real.exp 1 := mul_pos h (Real.exp_pos _)
      have h1 := Real.one_sub_inv_le_log_of_pos hz
      rw [Real.log_mul h.ne' (Real.exp_pos _).ne', Real.log_exp] at h1
      have h2 : x * (1 - (x * Real.exp 1)⁻¹) ≤ x * (Real.log x + 1) := mul_le_mul_of_nonneg_left h1 hx
      rw [mul_sub, mul_add, mul_one, mul_inv, ← mul_assoc, mul_inv_cancel₀ h.ne', one_mul, ← Real.exp_neg] at h2
      linarith

example : safeXLogX false 1 = 0 := by unfold safeXLogX; norm_num

/-- C90: the safe determinant is the larger of the determinant and the smallest positive value. -/
theorem safe_det_spec (single : Bool) (det : ℝ) :
    safeDet single det = max det (almostZero single) ∧ 0 < safeDet single det := by
  have hp := (almostZero_pos single).1
  have h : safeDet single det = max det (almostZero single) := by
    unfold safeDet
    simp only
    by_cases h1 : -almostZero single < det ∧ det < almostZero single
    · rw [if_pos h1, if_neg (by linarith), max_eq_right h1.2.le]
    · rw [if_neg h1]
      by_cases h2 : det ≤ -almostZero single
      · rw [if_pos h2, max_eq_right (by linarith)]
      · rw [if_neg h2, max_eq_left]
        by_contra h3
        exact h1 ⟨by linarith, by linarith⟩
  exact ⟨h, by rw [h]; exact lt_of_lt_of_le hp (le_max_right _ _)⟩

example : safeDet true (-5) = (1 / 10) ^ 35 ∧ safeDet true 5 = 5 := by
  rw [(safe_det_spec _ _).1, (safe_det_spec _ _).1]
  unfold almostZero
  rw [if_pos rfl, max_eq_right (by norm_num), max_eq_left (by norm_num)]
  exact ⟨rfl, rfl⟩

/-! ## Convergence (C50) -/

/-- C50: the check does not fire before the second measurement or before the minimum number of iterations. -/
theorem no_early_convergence (iters : Nat → Int) (vals : Nat → ℝ) (i : Nat) (ε : ℝ) (minIters : Int)
    (h : converged iters vals i ε minIters) : 2 ≤ i ∧ minIters ≤ iters (i - 1) := by
  unfold converged at h
  split at h
  · exact h.elim
  · rename_i hc
    push Not at hc
    exact hc

/-- C50: exactly when it fires, for angles between 0 and 90 degrees and measurements taken at increasing
iterations: the slope is below the tangent of the angle. -/
theorem converged_iff (iters : Nat → Int) (vals : Nat → ℝ) (i : Nat) (ε : ℝ) (minIters : Int)
    (hinc : iters (i - 2) < iters (i - 1)) (hε : 0 < ε) (hε' : ε < 90) :
    converged iters vals i ε minIters ↔
      2 ≤ i ∧ minIters ≤ iters (i - 1) ∧
      vals (i - 1) - vals (i - 2) <
        Real.tan (ε * (Real.pi / 180)) * ((iters (i - 1) : ℝ) - (iters (i - 2) : ℝ)) := by
  have hadj : (0 : ℝ) < (iters (i - 1) : ℝ) - (iters (i - 2) : ℝ) := by
    have : (iters (i - 2) : ℝ) < (iters (i - 1) : ℝ) := by exact_mod_cast hinc
    linarith
  have hpi := Real.pi_pos
  have hslope : angleBelow (vals (i - 1) - vals (i - 2)) (((iters (i - 1) - iters (i - 2) : Int)) : ℝ) ε ↔
      vals (i - 1) - vals (i - 2) <
        Real.tan (ε * (Real.pi / 180)) * ((iters (i - 1) : ℝ) - (iters (i - 2) : ℝ)) := by
    unfold angleBelow
    rw [Int.cast_sub, if_neg hadj.ne', ← div_lt_iff₀ hadj]
    have hlo : -(Real.pi / 2) < ε * (Real.pi / 180) := by
      have : 0 < ε * (Real.pi / 180) := by positivity
      linarith
    have hhi : ε * (Real.pi / 180) < Real.pi / 2 := by
      have : ε * Real.pi < 90 * Real.pi := mul_lt_mul_of_pos_right hε' hpi
      linarith
    have h1 : (Real.arctan ((vals (i - 1) - vals (i - 2)) / ((iters (i - 1) : ℝ) - (iters (i - 2) : ℝ))) *
        (180 / Real.pi) < ε) ↔
        Real.arctan ((vals (i - 1) - vals (i - 2)) / ((iters (i - 1) : ℝ) - (iters (i - 2) : ℝ))) <
          ε * (Real.pi / 180) := by
      generalize Real.arctan _ = a
      rw [mul_div_assoc', div_lt_iff₀ hpi, mul_div_assoc', lt_div_iff₀ (by norm_num : (0:ℝ) < 180)]
    rw [h1]
    constructor
    · intro h
      have := Real.strictMonoOn_tan ⟨Real.neg_pi_div_two_lt_arctan _, Real.arctan_lt_pi_div_two _⟩
        ⟨hlo, hhi⟩ h
      rwa [Real.tan_arctan] at this
    · intro h
      have := Real.arctan_strictMono h
      rwa [Real.arctan_tan hlo hhi] at this
  unfold converged
  by_cases hc : i < 2 ∨ iters (i - 1) < minIters
  · rw [if_pos hc]
    constructor
    · exact False.elim
    · rintro ⟨h1, h2, _⟩; rcases hc with h | h <;> omega
  · rw [if_neg hc, hslope]
    push Not at hc
    exact ⟨fun h => ⟨hc.1, hc.2, h⟩, fun h => h.2.2⟩

/-- C50 is violated: the check fires after every decrease of the bound, however large. -/
theorem decreasing_bound_converges (iters : Nat → Int) (vals : Nat → ℝ) (i : Nat) (ε : ℝ) (minIters : Int)
    (hinc : iters (i - 2) < iters (i - 1)) (hε : 0 < ε) (hε' : ε < 90) (hi : 2 ≤ i)
    (hmin : minIters ≤ iters (i - 1)) (hdec : vals (i - 1) < vals (i - 2)) :
    converged iters vals i ε minIters := by
  rw [converged_iff iters vals i ε minIters hinc hε hε']
  refine ⟨hi, hmin, ?_⟩
  have hadj : (0 : ℝ) < (iters (i - 1) : ℝ) - (iters (i - 2) : ℝ) := by
    have : (iters (i - 2) : ℝ) < (iters (i - 1) : ℝ) := by exact_mod_cast hinc
    linarith
  have hpi := Real.pi_pos
  have ht : 0 < Real.tan (ε * (Real.pi / 180)) := by
    apply Real.tan_pos_of_pos_of_lt_pi_div_two
    · positivity
    · have : ε * Real.pi < 90 * Real.pi := mul_lt_mul_of_pos_right hε' hpi
      linarith
  have := mul_pos ht hadj
  linarith

/-- C50: for a bound that has not decreased, the check fires only if it has changed by less than the tangent of the
angle per iteration. -/
theorem converged_flat_partial (iters : Nat → Int) (vals : Nat → ℝ) (i : Nat) (ε : ℝ) (minIters : Int)
    (hinc : iters (i - 2) < iters (i - 1)) (hε : 0 < ε) (hε' : ε < 90)
    (hmono : vals (i - 2) ≤ vals (i - 1)) (h : converged iters vals i ε minIters) :
    |vals (i - 1) - vals (i - 2)| <
      Real.tan (ε * (Real.pi / 180)) * ((iters (i - 1) : ℝ) - (iters (i - 2) : ℝ)) := by
  rw [abs_of_nonneg (by linarith)]
  exact ((converged_iff iters vals i ε minIters hinc hε hε').mp h).2.2

/-- A bound that falls by a million between iterations 100 and 110 counts as converged. -/
example : converged (fun j => 100 + 10 * j) (fun j => -1000000 * j) 2 10 100 :=
  decreasing_bound_converges _ _ 2 10 100 (by norm_num) (by norm_num) (by norm_num) le_rfl (by norm_num)
    (by norm_num)

/-! ## Scores of mixture models (C79) -/

/-- the likelihood of a document under a mixture -/
noncomputable def mixtureLikelihood (K T : Nat) (x : Nat → Nat) (θ : Nat → ℝ) (φ : Nat → Nat → ℝ) : ℝ :=
  ∑ k ∈ Finset.range K, θ k * ∏ t ∈ Finset.range T, φ k t ^ x t

theorem exp_log_likelihood (T : Nat) (x : Nat → Nat) (θ : ℝ) (φ : Nat → ℝ)
    (hθ : almostZero false ≤ θ) (hφ : ∀ t, t < T → almostZero false ≤ φ t) :
    Real.exp ((∑ t ∈ Finset.range T, (x t : ℝ) * safeLogOut false (φ t)) + safeLogOut false θ) =
      θ * ∏ t ∈ Finset.range T, φ t ^ x t := by
  have hp := (almostZero_pos false).1
  rw [(safe_log_spec false θ θ).1 hθ, add_comm, Real.exp_add, Real.exp_log (by linarith), Real.exp_sum]
  congr 1
  apply Finset.prod_congr rfl
  intro t ht
  have h := hφ t (Finset.mem_range.mp ht)
  rw [(safe_log_spec false (φ t) (φ t)).1 h, mul_comm, Real.exp_mul, Real.exp_log (by linarith),
    Real.rpow_natCast]

theorem score_gap (K : Nat) (hK : 0 < K) (ll : Nat → ℝ) :
    1 ≤ ((∑ k ∈ Finset.range K, Real.exp (ll k - rowMax K ll)) + rowMax K ll) -
        Real.log (∑ k ∈ Finset.range K, Real.exp (ll k)) ∧
    ((∑ k ∈ Finset.range K, Real.exp (ll k - rowMax K ll)) + rowMax K ll) -
        Real.log (∑ k ∈ Finset.range K, Real.exp (ll k)) ≤ K := by
  set M := rowMax K ll with hM
  obtain ⟨hmax, k0, hk0, hat⟩ := rowMax_spec K ll hK
  set S := ∑ k ∈ Finset.range K, Real.exp (ll k - M) with hS
  have hSpos : 0 < S := sum_exp_pos K (fun k => ll k - M) hK
  have hlog : Real.log (∑ k ∈ Finset.range K, Real.exp (ll k)) = Real.log S + M := by
    have : ∑ k ∈ Finset.range K, Real.exp (ll k) = S * Real.exp M := by
      rw [hS, Finset.sum_mul]
      apply Finset.sum_congr rfl
      intro k _
      rw [← Real.exp_add]; congr 1; ring
    rw [this, Real.log_mul hSpos.ne' (Real.exp_pos _).ne', Real.log_exp]
  have hS1 : 1 ≤ S := by
    have := Finset.single_le_sum (f := fun k => Real.exp (ll k - M)) (fun k _ => (Real.exp_pos _).le)
      (Finset.mem_range.mpr hk0)
    rw [← hat, ← hM, sub_self, Real.exp_zero] at this
    exact this
  have hSK : S ≤ K := by
    calc S ≤ ∑ _k ∈ Finset.range K, (1 : ℝ) := by
          apply Finset.sum_le_sum
          intro k hk
          rw [← Real.exp_zero]
          exact Real.exp_le_exp.mpr (by have := hmax k (Finset.mem_range.mp hk); linarith)
      _ = K := by rw [Finset.sum_const, Finset.card_range, nsmul_eq_mul, mul_one]
  rw [hlog]
  have h1 := Real.log_le_sub_one_of_pos hSpos
  have h2 := Real.log_nonneg hS1
  exact ⟨by linarith, by linarith⟩

theorem doc_gap (K T : Nat) (hK : 0 < K) (x : Nat → Nat) (θ : Nat → ℝ) (φ : Nat → Nat → ℝ)
    (hθ : ∀ k, k < K → almostZero false ≤ θ k)
    (hφ : ∀ k, k < K → ∀ t, t < T → almostZero false ≤ φ k t) :
    Real.log (mixtureLikelihood K T x θ φ) + 1 ≤
      (∑ k ∈ Finset.range K, Real.exp (((∑ t ∈ Finset.range T, (x t : ℝ) * safeLogOut false (φ k t)) +
          safeLogOut false (θ k)) - rowMax K (fun k => (∑ t ∈ Finset.range T, (x t : ℝ) *
          safeLogOut false (φ k t)) + safeLogOut false (θ k)))) +
        rowMax K (fun k => (∑ t ∈ Finset.range T, (x t : ℝ) * safeLogOut false (φ k t)) +
          safeLogOut false (θ k)) ∧
    (∑ k ∈ Finset.range K, Real.exp (((∑ t ∈ Finset.range T, (x t : ℝ) * safeLogOut false (φ k t)) +
          safeLogOut false (θ k)) - rowMax K (fun k => (∑ t ∈ Finset.range T, (x t : ℝ) *
          safeLogOut false (φ k t)) + safeLogOut false (θ k)))) +
        rowMax K (fun k => (∑ t ∈ Finset.range T, (x t : ℝ) * safeLogOut false (φ k t)) +
          safeLogOut false (θ k)) ≤ Real.log (mixtureLikelihood K T x θ φ) + K := by
  have hg := score_gap K hK (fun k => (∑ t ∈ Finset.range T, (x t : ℝ) * safeLogOut false (φ k t)) +
    safeLogOut false (θ k))
  have hlike : ∑ k ∈ Finset.range K, Real.exp ((∑ t ∈ Finset.range T, (x t : ℝ) * safeLogOut false (φ k t)) +
      safeLogOut false (θ k)) = mixtureLikelihood K T x θ φ := by
    unfold mixtureLikelihood
    apply Finset.sum_congr rfl
    intro k hk
    exact exp_log_likelihood T x (θ k) (φ k) (hθ k (Finset.mem_range.mp hk)) (hφ k (Finset.mem_range.mp hk))
  rw [hlike] at hg
  exact ⟨by linarith [hg.1], by linarith [hg.2]⟩

/-- C79 is violated for every document: with one weighting for all documents the score exceeds the logarithm of the
likelihood by at least 1 (and by at most the number of components). -/
theorem mixture_score_gap (D K T : Nat) (x : Nat → Nat → Nat) (θ : Nat → ℝ) (φ : Nat → Nat → ℝ)
    (s : Nat → ℝ) (h : mixtureScore D K T (fun d t => (x d t : ℝ)) (.vec θ) φ = .ok s)
    (hθ : ∀ k, k < K → almostZero false ≤ θ k)
    (hφ : ∀ k, k < K → ∀ t, t < T → almostZero false ≤ φ k t) (d : Nat) :
    Real.log (mixtureLikelihood K T (x d) θ φ) + 1 ≤ s d ∧
    s d ≤ Real.log (mixtureLikelihood K T (x d) θ φ) + K := by
  rcases Nat.eq_zero_or_pos K with h0 | h0
  · subst h0
    have : mixtureScore D 0 T (fun d t => (x d t : ℝ)) (.vec θ) φ = .error .valueError := rfl
    rw [this] at h; cases h
  · unfold mixtureScore at h
    simp only at h
    rw [if_neg (by omega)] at h
    cases h
    exact doc_gap K T h0 (x d) θ φ hθ hφ

/-- C79: nothing is wrong with the ranking of documents when there is a single component: the gap is exactly 1. -/
theorem single_component_partial (D T : Nat) (x : Nat → Nat → Nat) (θ : Nat → ℝ) (φ : Nat → Nat → ℝ)
    (s : Nat → ℝ) (h : mixtureScore D 1 T (fun d t => (x d t : ℝ)) (.vec θ) φ = .ok s)
    (hθ : almostZero false ≤ θ 0) (hφ : ∀ t, t < T → almostZero false ≤ φ 0 t) (d : Nat) :
    s d = Real.log (mixtureLikelihood 1 T (x d) θ φ) + 1 := by
  obtain ⟨h1, h2⟩ := mixture_score_gap D 1 T x θ φ s h (fun k hk => by
    have : k = 0 := by omega
    subst this; exact hθ) (fun k hk t ht => by
    have : k = 0 := by omega
    subst this; exact hφ t ht) d
  rw [Nat.cast_one] at h2
  linarith

/-- C79: the same with one weighting per document. -/
theorem mixture_score_gap_rows (D K T : Nat) (x : Nat → Nat → Nat) (rows : Nat) (θ : Nat → Nat → ℝ)
    (φ : Nat → Nat → ℝ) (s : Nat → ℝ)
    (h : mixtureScore D K T (fun d t => (x d t : ℝ)) (.mat rows θ) φ = .ok s) (d : Nat)
    (hθ : ∀ k, k < K → almostZero false ≤ θ d k)
    (hφ : ∀ k, k < K → ∀ t, t < T → almostZero false ≤ φ k t) :
    rows = D ∧ Real.log (mixtureLikelihood K T (x d) (θ d) φ) + 1 ≤ s d ∧
    s d ≤ Real.log (mixtureLikelihood K T (x d) (θ d) φ) + K := by
  unfold mixtureScore at h
  simp only at h
  by_cases h1 : rows = 1 ∧ 1 < D
  · rw [if_pos h1] at h; cases h
  rw [if_neg h1] at h
  by_cases h2 : rows = D
  · rw [if_pos h2] at h
    by_cases h3 : K = 0
    · rw [if_pos h3] at h; cases h
    refine ⟨h2, ?_⟩
    rw [if_neg h3] at h
    cases h
    exact doc_gap K T (Nat.pos_of_ne_zero h3) (x d) (θ d) φ hθ hφ
  · rw [if_neg h2] at h; cases h

/-- C79: a single row of weights for several documents is an error. -/
theorem single_row_fails (D K T : Nat) (hD : 1 < D) (x : Nat → Nat → ℝ) (θ φ : Nat → Nat → ℝ) :
    mixtureScore D K T x (.mat 1 θ) φ = .error .valueError := by
  unfold mixtureScore
  simp only
  rw [if_pos ⟨trivial, hD⟩]

/-- Two components with weights a half, two words: the score is not a log-likelihood, it is positive for the
empty document, whose likelihood is one. -/
example : ∃ s, mixtureScore 1 2 2 (fun _ _ => ((0 : Nat) : ℝ)) (.vec (fun _ => 1 / 2)) (fun _ _ => 1 / 2) = .ok s ∧
    1 ≤ s 0 := by
  refine ⟨_, rfl, ?_⟩
  have := (mixture_score_gap 1 2 2 (fun _ _ => 0) (fun _ => 1 / 2) (fun _ _ => 1 / 2) _ rfl
    (fun _ _ => almostZero_le_half false) (fun _ _ _ _ => almostZero_le_half false) 0).1
  have h1 : mixtureLikelihood 2 2 (fun _ => 0) (fun _ => 1 / 2) (fun _ _ => 1 / 2) = 1 := by
    unfold mixtureLikelihood
    norm_num
  rw [h1, Real.log_one, zero_add] at this
  exact this

end Verif.Props.Numerics
