import Mathlib.Tactic.NormNum
import Mathlib.MeasureTheory.Integral.Bochner.SumMeasure
import Mathlib.MeasureTheory.Measure.Dirac
import Mathlib.Data.List.Basic
import Verif.Props.Ctm
import Verif.Props.Bouchard

/-!
# Training correlated topic models (C127, C132, C134, C135, C136, C137)
-/

namespace Verif.Props.CtmTrain

open Verif Verif.Ctm
open Verif.Mom (Data)
open Verif.Props.Ctm
open Verif.Props.MomEm (IsDist)

/-! ## Proper states -/

/-- What training needs: topics are distributions, variances are not negative, coefficients are positive. -/
structure Start (x : Data) (K : Nat) (st : State) : Prop where
  vocab : Topics K x.T st.vocab
  varcs : ∀ d k, d < x.D → k < K → 0 ≤ st.varcs d k
  lxi : ∀ d k, d < x.D → k < K → 0 < st.lxi d k

/-- What training delivers: topics are distributions; the covariance is diagonal and positive; every document has positive
variances, none above that of the prior; the weights are relative to the first topic; the coefficients are positive and at most a
quarter; `expMeans` lies between 0 and 1. -/
structure Proper (x : Data) (K : Nat) (st : State) : Prop where
  vocab : Topics K x.T st.vocab
  diag : ∀ k j, k ≠ j → st.sig k j = 0
  sig : ∀ k, k < K → 0 < st.sig k k
  varcs : ∀ d k, d < x.D → k < K → 0 < st.varcs d k ∧ st.varcs d k ≤ st.sig k k
  first : ∀ d, st.means d 0 = 0
  lxi : ∀ d k, d < x.D → k < K → 0 < st.lxi d k ∧ st.lxi d k ≤ 1 / 4
  exp : ∀ d k, k < K → 0 < st.expMeans d k ∧ st.expMeans d k ≤ 1

theorem Proper.start {x : Data} {K : Nat} {st : State} (h : Proper x K st) : Start x K st :=
  ⟨h.vocab, fun d k hd hk => (h.varcs d k hd hk).1.le, fun d k hd hk => (h.lxi d k hd hk).1⟩

theorem deriveXi_pos (m v s : ℝ) (hv : 0 < v) : 0 < deriveXi m v s := by
  unfold deriveXi
  refine Real.sqrt_pos.mpr ?_
  nlinarith [sq_nonneg (m - s), sq_pos_of_pos hv]

/-- A covariance estimate has no negative variances. -/
def IsCov (K : Nat) (oas : (Nat → Nat → ℝ) → Nat → Nat → ℝ) : Prop := ∀ means k, k < K → 0 ≤ oas means k k

theorem step_proper (oas : (Nat → Nat → ℝ) → Nat → Nat → ℝ) (x : Data) (K : Nat) (ho : IsCov K oas) (prior : ℝ) (hp : 0 < prior)
    (hK : 0 < K) (hT : 0 < x.T) (st : State) (h : Start x K st) : Proper x K (trainStep oas x K prior st) := by
  have hdiag : ∀ k, k < K → 0 < (trainStep oas x K prior st).sig k k := by
    intro k hk
    have h1 := ho st.means k hk
    have h2 : 0 ≤ (∑ d ∈ Finset.range x.D, st.varcs d k) / (x.D : ℝ) :=
      div_nonneg (Finset.sum_nonneg fun d hd => h.varcs d k (Finset.mem_range.mp hd) hk) (Nat.cast_nonneg _)
    show 0 < (if k = k then _ else (0 : ℝ))
    rw [if_pos rfl]
    have h3 : ∀ a : ℝ, 0 ≤ ((K : ℝ) + 2) * (x.D : ℝ) / ((K : ℝ) + 2 + (x.D : ℝ)) * (a * a) := fun a =>
      mul_nonneg (by positivity) (mul_self_nonneg a)
    have := h3 ((∑ d ∈ Finset.range x.D, st.means d k) / ((x.D : ℝ) + ((K : ℝ) + 2)))
    linarith
  have hdv : ∀ k, (trainStep oas x K prior st).sig k k = _ := fun k => if_pos rfl
  have hv : ∀ d k, d < x.D → k < K → 0 < (trainStep oas x K prior st).varcs d k ∧
      (trainStep oas x K prior st).varcs d k ≤ (trainStep oas x K prior st).sig k k := by
    intro d k hd hk
    have hs := hdiag k hk
    have he : (trainStep oas x K prior st).varcs d k
        = 1 / ((x.len d : ℝ) * st.lxi d k + 1 / (trainStep oas x K prior st).sig k k) := by
      rw [hdv]; rfl
    have hl : 0 ≤ (x.len d : ℝ) * st.lxi d k := mul_nonneg (Nat.cast_nonneg _) (h.lxi d k hd hk).le
    have hi : 0 < 1 / (trainStep oas x K prior st).sig k k := by positivity
    rw [he]
    refine ⟨by positivity, ?_⟩
    rw [one_div_le (by positivity) hs]
    linarith
  refine ⟨vocab_dist x K prior hp st.means st.vocab hK hT h.vocab, fun k j hkj => if_neg hkj, hdiag, hv, fun d => sub_self _,
    fun d k hd hk => ?_, fun d k hk => ⟨Real.exp_pos _, ?_⟩⟩
  · have hx := deriveXi_pos ((trainStep oas x K prior st).means d k) _ (st.s d) (hv d k hd hk).1
    have hc := Props.Bouchard.coefficient_spec _ hx.ne'
    show 0 < 2 * negJakkola (deriveXi ((trainStep oas x K prior st).means d k) ((trainStep oas x K prior st).varcs d k) (st.s d)) ∧
      2 * negJakkola (deriveXi ((trainStep oas x K prior st).means d k) ((trainStep oas x K prior st).varcs d k) (st.s d)) ≤ 1 / 4
    constructor <;> linarith [hc.1, hc.2.1]
  · show Real.exp _ ≤ 1
    rw [Real.exp_le_one_iff, sub_nonpos]
    exact (Props.Numerics.rowMax_spec K (st.means d) hK).1 k hk

theorem iterate_proper (oas : (Nat → Nat → ℝ) → Nat → Nat → ℝ) (x : Data) (K : Nat) (ho : IsCov K oas) (prior : ℝ) (hp : 0 < prior)
    (hK : 0 < K) (hT : 0 < x.T) (n : Nat) : ∀ st, Start x K st → Proper x K ((trainStep oas x K prior)^[n + 1] st) := by
  induction n with
  | zero => exact fun st h => step_proper oas x K ho prior hp hK hT st h
  | succ n ih => exact fun st h => ih _ (step_proper oas x K ho prior hp hK hT st h).start

/-! ## The log -/

/-- The number of multiples of `L` below `itr` -/
def multiples (L itr : Nat) : Nat := (itr + L - 1) / L

theorem multiples_succ (L itr : Nat) (hL : 0 < L) :
    multiples L (itr + 1) = if itr % L = 0 then multiples L itr + 1 else multiples L itr := by
  unfold multiples
  have hd := Nat.div_add_mod itr L
  have hm := Nat.mod_lt itr hL
  set q := itr / L
  set r := itr % L
  have e1 : (itr + 1 + L - 1) / L = q + (r + L) / L := by
    rw [show itr + 1 + L - 1 = r + L + L * q by omega, Nat.add_mul_div_left _ _ hL, Nat.add_comm]
  have e2 : (itr + L - 1) / L = q + (r + L - 1) / L := by
    rw [show itr + L - 1 = r + L - 1 + L * q by omega, Nat.add_mul_div_left _ _ hL, Nat.add_comm]
  rw [e1, e2, Nat.add_div_right r hL, Nat.div_eq_of_lt hm]
  split
  · rename_i h0
    rw [h0, Nat.div_eq_of_lt (by omega : 0 + L - 1 < L)]
  · rename_i h0
    rw [show r + L - 1 = (r - 1) + L by omega, Nat.add_div_right _ hL, Nat.div_eq_of_lt (by omega : r - 1 < L)]

theorem multiples_mul (L q : Nat) (hL : 0 < L) : multiples L (q * L) = q := by
  unfold multiples
  rw [show q * L + L - 1 = (L - 1) + L * q by rw [Nat.mul_comm]; omega, Nat.add_mul_div_left _ _ hL,
    Nat.div_eq_of_lt (by omega)]
  omega

/-- The log at the start of an iteration: all the measurements so far are in place, in arrays of size `n`. -/
structure LogInv (L n itr : Nat) (l : Log) : Prop where
  idx : l.idx = multiples L itr
  le : l.idx ≤ n
  iters : l.iters.length = n
  values : l.values.length = n
  likes : l.likes.length = n
  times : l.iters.take l.idx = (List.range l.idx).map (· * L)

/-- The early stop at iteration `j * L`: the arrays end with the measurement before the last one. -/
structure Early (c : Clamp) (L n minIter j : Nat) (l : Log) : Prop where
  two : 1 < j
  min : minIter ≤ j * L
  lt : j < n
  iters : l.iters = (List.range j).map (· * L)
  values : l.values.length = j
  likes : l.likes.length = match c with
    | .all => j
    | .firstTwo => n

theorem take_set_succ {α : Type} (l : List α) (i : Nat) (a : α) (h : i < l.length) : (l.set i a).take (i + 1) = l.take i ++ [a] := by
  rw [List.take_add_one, List.take_set_of_le (Nat.le_refl i)]
  simp [h]

theorem loop_spec {σ : Type} (step : σ → σ) (bound like : σ → ℝ) (perp : ℝ → ℝ) (p : LogPlan) (L n : Nat) (hL : 0 < L)
    (hp : p.logFrequency = L) (fuel : Nat) : ∀ itr st l, LogInv L n itr l →
    (∃ l', loop step bound like perp p fuel itr st l = .ok (step^[fuel] st, l') ∧ LogInv L n (itr + fuel) l') ∨
    (∃ j l', itr ≤ j * L ∧ j * L < itr + fuel ∧
      loop step bound like perp p fuel itr st l = .ok (step^[j * L + 1 - itr] st, l') ∧ Early p.clamp L n p.minIter j l') ∨
    (loop step bound like perp p fuel itr st l = .error .indexError ∧ n * L < itr + fuel) := by
  induction fuel with
  | zero => exact fun itr st l h => Or.inl ⟨l, rfl, h⟩
  | succ fuel ih =>
    intro itr st l h
    have hcond : (p.logFrequency > 0 ∧ (itr : Int) % p.logFrequency = 0) ↔ itr % L = 0 := by
      rw [hp]
      constructor
      · rintro ⟨-, h0⟩
        exact_mod_cast h0
      · intro h0
        exact ⟨by exact_mod_cast hL, by exact_mod_cast h0⟩
    have hnext : ∀ l1, loop step bound like perp p (fuel + 1) itr st l = loop step bound like perp p fuel (itr + 1) (step st) l1 →
        LogInv L n (itr + 1) l1 →
        (∃ l', loop step bound like perp p (fuel + 1) itr st l = .ok (step^[fuel + 1] st, l') ∧ LogInv L n (itr + (fuel + 1)) l') ∨
        (∃ j l', itr ≤ j * L ∧ j * L < itr + (fuel + 1) ∧
          loop step bound like perp p (fuel + 1) itr st l = .ok (step^[j * L + 1 - itr] st, l') ∧ Early p.clamp L n p.minIter j l') ∨
        (loop step bound like perp p (fuel + 1) itr st l = .error .indexError ∧ n * L < itr + (fuel + 1)) := by
      intro l1 he hinv
      rw [he]
      rcases ih (itr + 1) (step st) l1 hinv with ⟨l', h1, h2⟩ | ⟨j, l', h1, h2, h3, h4⟩ | ⟨h1, h2⟩
      · exact Or.inl ⟨l', h1, by rw [show itr + (fuel + 1) = itr + 1 + fuel by omega]; exact h2⟩
      · refine Or.inr (Or.inl ⟨j, l', by omega, by omega, ?_, h4⟩)
        rw [h3, show j * L + 1 - itr = (j * L + 1 - (itr + 1)) + 1 by omega]
        rfl
      · exact Or.inr (Or.inr ⟨h1, by omega⟩)
    by_cases h0 : itr % L = 0
    · obtain ⟨q, hq⟩ : ∃ q, itr = q * L := ⟨itr / L, (Nat.div_mul_cancel (Nat.dvd_of_mod_eq_zero h0)).symm⟩
      have hidx : l.idx = q := by rw [h.idx, hq, multiples_mul L q hL]
      by_cases hlt : l.idx < l.values.length
      · have hlen : l.idx < l.iters.length := by rw [h.iters, ← h.values]; exact hlt
        have htake : (l.iters.set l.idx itr).take (l.idx + 1) = (List.range (l.idx + 1)).map (· * L) := by
          rw [take_set_succ _ _ _ hlen, h.times, List.range_succ, List.map_append, hidx, hq]
          rfl
        by_cases hstop : 1 < l.idx ∧ p.minIter ≤ itr ∧
            perp ((l.likes.set l.idx (like (step st))).getD (l.idx - 1) 0) - perp (like (step st)) < 1
        · refine Or.inr (Or.inl ⟨q, (⟨l.iters.set l.idx itr, l.values.set l.idx (bound (step st)),
            l.likes.set l.idx (like (step st)), l.idx⟩ : Log).clamp p.clamp l.idx, hq.le, by omega, ?_, ?_⟩)
          · show (if p.logFrequency > 0 ∧ (itr : Int) % p.logFrequency = 0 then _ else _) = _
            rw [if_pos (hcond.mpr h0), if_pos hlt]
            show (if 1 < l.idx ∧ p.minIter ≤ itr ∧
              perp ((l.likes.set l.idx (like (step st))).getD (l.idx - 1) 0) - perp (like (step st)) < 1 then _ else _) = _
            rw [if_pos hstop, show q * L + 1 - itr = 1 by omega]
            rfl
          · have hit : (l.iters.set l.idx itr).take l.idx = (List.range q).map (· * L) := by
              rw [List.take_set_of_le (Nat.le_refl _), h.times, hidx]
            have hql : q < n := by rw [← hidx, ← h.values]; exact hlt
            cases hc : p.clamp with
            | all =>
              refine ⟨hidx ▸ hstop.1, hq ▸ hstop.2.1, hql, hit, ?_, ?_⟩
              · show ((l.values.set l.idx _).take l.idx).length = q
                rw [List.length_take, List.length_set, h.values, hidx]; omega
              · show ((l.likes.set l.idx _).take l.idx).length = q
                rw [List.length_take, List.length_set, h.likes, hidx]; omega
            | firstTwo =>
              refine ⟨hidx ▸ hstop.1, hq ▸ hstop.2.1, hql, hit, ?_, ?_⟩
              · show ((l.values.set l.idx _).take l.idx).length = q
                rw [List.length_take, List.length_set, h.values, hidx]; omega
              · show (l.likes.set l.idx _).length = n
                rw [List.length_set, h.likes]
        · refine hnext ⟨l.iters.set l.idx itr, l.values.set l.idx (bound (step st)),
            l.likes.set l.idx (like (step st)), l.idx + 1⟩ ?_ ?_
          · show (if p.logFrequency > 0 ∧ (itr : Int) % p.logFrequency = 0 then _ else _) = _
            rw [if_pos (hcond.mpr h0), if_pos hlt]
            show (if 1 < l.idx ∧ p.minIter ≤ itr ∧
              perp ((l.likes.set l.idx (like (step st))).getD (l.idx - 1) 0) - perp (like (step st)) < 1 then _ else _) = _
            rw [if_neg hstop]
          · refine ⟨?_, ?_, ?_, ?_, ?_, htake⟩
            · rw [multiples_succ L itr hL, if_pos h0, h.idx]
            · rw [← h.values]; exact hlt
            · show (l.iters.set _ _).length = n
              rw [List.length_set, h.iters]
            · show (l.values.set _ _).length = n
              rw [List.length_set, h.values]
            · show (l.likes.set _ _).length = n
              rw [List.length_set, h.likes]
      · refine Or.inr (Or.inr ⟨?_, ?_⟩)
        · show (if p.logFrequency > 0 ∧ (itr : Int) % p.logFrequency = 0 then _ else _) = _
          rw [if_pos (hcond.mpr h0), if_neg hlt]
        · have : n = q := by
            have h1 := h.le
            rw [h.values] at hlt
            omega
          rw [this, ← hq]
          omega
    · refine hnext l ?_ ?_
      · show (if p.logFrequency > 0 ∧ (itr : Int) % p.logFrequency = 0 then _ else _) = _
        rw [if_neg (fun hc => h0 (hcond.mp hc))]
      · exact ⟨by rw [multiples_succ L itr hL, if_neg h0, h.idx], h.le, h.iters, h.values, h.likes, h.times⟩

theorem train_eq {σ : Type} (step : σ → σ) (bound like : σ → ℝ) (perp : ℝ → ℝ) (p : LogPlan) (L : Nat) (hL : 0 < L)
    (hp : p.logFrequency = L) (st : σ) :
    train step bound like perp p st = loop step bound like perp p p.iterations 0 st
      ⟨List.replicate (p.iterations / L) 0, List.replicate (p.iterations / L) 0, List.replicate (p.iterations / L) 0, 0⟩ := by
  have h1 : Int.fdiv (p.iterations : Int) p.logFrequency = ((p.iterations / L : Nat) : Int) := by
    rw [hp, Int.fdiv_eq_ediv_of_nonneg _ (by exact_mod_cast hL.le)]
    rfl
  unfold train
  rw [if_neg (by rw [hp]; exact_mod_cast hL.ne')]
  simp only [h1]
  rw [if_neg (not_lt.mpr (Int.natCast_nonneg _))]
  simp only [Int.toNat_natCast]

theorem start_inv (L n : Nat) (hL : 0 < L) : LogInv L n 0 ⟨List.replicate n 0, List.replicate n 0, List.replicate n 0, 0⟩ := by
  refine ⟨?_, Nat.zero_le _, by simp, by simp, by simp, by simp⟩
  show 0 = multiples L 0
  unfold multiples
  rw [Nat.div_eq_of_lt (by omega)]

theorem multiples_le_iff (L n : Nat) (hL : 0 < L) : multiples L n ≤ n / L ↔ L ∣ n := by
  have hd := Nat.div_add_mod n L
  have hm := Nat.mod_lt n hL
  have : multiples L n = n / L + (n % L + L - 1) / L := by
    unfold multiples
    conv_lhs => rw [show n + L - 1 = n % L + L - 1 + L * (n / L) by omega, Nat.add_mul_div_left _ _ hL]
    omega
  rw [this, Nat.dvd_iff_mod_eq_zero]
  constructor
  · intro h
    have h2 : (n % L + L - 1) / L = 0 := Nat.le_zero.mp (Nat.le_of_add_le_add_left (by rw [Nat.add_zero]; exact h))
    have := Nat.lt_of_div_eq_zero hL h2
    omega
  · intro h
    rw [h, Nat.div_eq_of_lt (by omega : 0 + L - 1 < L), Nat.add_zero]

/-- C136: with a log frequency that divides the number of iterations training always succeeds, and unless it stops early every
measurement is in the log. -/
theorem log_divides_partial {σ : Type} (step : σ → σ) (bound like : σ → ℝ) (perp : ℝ → ℝ) (p : LogPlan) (L : Nat) (hL : 0 < L)
    (hp : p.logFrequency = L) (hd : L ∣ p.iterations) (st : σ) :
    (∃ l, train step bound like perp p st = .ok (step^[p.iterations] st, l) ∧
      l.iters = (List.range (p.iterations / L)).map (· * L) ∧ l.values.length = p.iterations / L ∧
      l.likes.length = p.iterations / L) ∨
    (∃ j l, j * L < p.iterations ∧ train step bound like perp p st = .ok (step^[j * L + 1] st, l) ∧
      Early p.clamp L (p.iterations / L) p.minIter j l) := by
  rw [train_eq step bound like perp p L hL hp st]
  rcases loop_spec step bound like perp p L (p.iterations / L) hL hp p.iterations 0 st _ (start_inv L _ hL) with
    ⟨l, h1, h2⟩ | ⟨j, l, -, h2, h3, h4⟩ | ⟨-, h2⟩
  · refine Or.inl ⟨l, h1, ?_, h2.values, h2.likes⟩
    have hidx : l.idx = p.iterations / L := by
      obtain ⟨q, hq⟩ := hd
      rw [h2.idx, Nat.zero_add, hq, Nat.mul_comm, multiples_mul L q hL, Nat.mul_div_cancel _ hL]
    rw [← hidx, ← h2.times, List.take_of_length_le (by rw [h2.iters, hidx])]
  · exact Or.inr ⟨j, l, by omega, h3, h4⟩
  · rw [Nat.div_mul_cancel hd] at h2
    omega

/-- C136: with any other positive log frequency, training ends in an `IndexError` unless it stops early. -/
theorem log_overflows {σ : Type} (step : σ → σ) (bound like : σ → ℝ) (perp : ℝ → ℝ) (p : LogPlan) (L : Nat) (hL : 0 < L)
    (hp : p.logFrequency = L) (hd : ¬ L ∣ p.iterations) (st : σ) :
    train step bound like perp p st = .error .indexError ∨
    (∃ j l, j * L < p.iterations ∧ train step bound like perp p st = .ok (step^[j * L + 1] st, l) ∧
      Early p.clamp L (p.iterations / L) p.minIter j l) := by
  rw [train_eq step bound like perp p L hL hp st]
  rcases loop_spec step bound like perp p L (p.iterations / L) hL hp p.iterations 0 st _ (start_inv L _ hL) with
    ⟨l, h1, h2⟩ | ⟨j, l, -, h2, h3, h4⟩ | ⟨h1, -⟩
  · exfalso
    apply hd
    rw [← multiples_le_iff L _ hL]
    have := h2.le
    rw [h2.idx, Nat.zero_add] at this
    exact this
  · exact Or.inr ⟨j, l, by omega, h3, h4⟩
  · exact Or.inl h1

/-- C136: runs that are too short to stop early always end in an `IndexError`. -/
theorem log_short_violation {σ : Type} (step : σ → σ) (bound like : σ → ℝ) (perp : ℝ → ℝ) (p : LogPlan) (L : Nat) (hL : 0 < L)
    (hp : p.logFrequency = L) (hd : ¬ L ∣ p.iterations) (hs : p.iterations < 3 * L ∨ p.iterations ≤ p.minIter) (st : σ) :
    train step bound like perp p st = .error .indexError := by
  rcases log_overflows step bound like perp p L hL hp hd st with h | ⟨j, l, h1, -, h2⟩
  · exact h
  · exfalso
    rcases hs with hs | hs
    · have h3 : p.iterations / L < 3 := Nat.div_lt_of_lt_mul (by rw [Nat.mul_comm]; exact hs)
      have := h2.two
      have := h2.lt
      omega
    · have := h2.min
      omega

/-- C136: switching the log off by a log frequency of zero is a `ZeroDivisionError`, a negative one a `ValueError`. -/
theorem log_off_violation {σ : Type} (step : σ → σ) (bound like : σ → ℝ) (perp : ℝ → ℝ) (p : LogPlan) (st : σ) :
    (p.logFrequency = 0 → train step bound like perp p st = .error .zeroDivisionError) ∧
    (p.logFrequency < 0 → 0 < p.iterations → train step bound like perp p st = .error .valueError) := by
  constructor
  · intro h
    unfold train
    rw [if_pos h]
  · intro h hi
    unfold train
    rw [if_neg h.ne]
    have : Int.fdiv (p.iterations : Int) p.logFrequency < 0 := by
      obtain ⟨m, hm⟩ : ∃ m : Int, p.logFrequency = -m := ⟨-p.logFrequency, by omega⟩
      have hm0 : 0 < m := by omega
      rw [hm, ← Int.neg_fdiv_neg, Int.neg_neg, Int.fdiv_eq_ediv_of_nonneg _ hm0.le]
      exact Int.ediv_neg_of_neg_of_pos (by omega) hm0
    simp only
    rw [if_pos this]

/-- C137: every early stop of a `firstTwo` run returns arrays of different lengths. -/
theorem early_lengths_differ (L n minIter j : Nat) (l : Log) (h : Early .firstTwo L n minIter j l) :
    l.values.length < l.likes.length := by
  rw [h.values, h.likes]
  exact h.lt

/-- C137: an early stop never returns the measurement of the state it returns. -/
theorem early_last_missing (c : Clamp) (L n minIter j : Nat) (hL : 0 < L) (l : Log) (h : Early c L n minIter j l) :
    j * L ∉ l.iters := by
  rw [h.iters, List.mem_map]
  rintro ⟨i, hi, he⟩
  have := Nat.eq_of_mul_eq_mul_right hL he
  have := List.mem_range.mp hi
  omega

/-- C127: whatever the plan, when training succeeds it delivers a proper state. -/
theorem train_proper (oas : (Nat → Nat → ℝ) → Nat → Nat → ℝ) (x : Data) (K : Nat) (ho : IsCov K oas) (prior : ℝ) (hp : 0 < prior)
    (hK : 0 < K) (hT : 0 < x.T) (bound like : State → ℝ) (perp : ℝ → ℝ) (p : LogPlan) (hi : 0 < p.iterations) (st st' : State)
    (h : Start x K st) (l : Log) (hr : train (trainStep oas x K prior) bound like perp p st = .ok (st', l)) : Proper x K st' := by
  rcases lt_trichotomy p.logFrequency 0 with hn | hz | hpos
  · rw [(log_off_violation _ bound like perp p st).2 hn hi] at hr
    cases hr
  · rw [(log_off_violation _ bound like perp p st).1 hz] at hr
    cases hr
  · obtain ⟨L, hL⟩ := Int.eq_ofNat_of_zero_le hpos.le
    have hL0 : 0 < L := by rw [hL] at hpos; exact_mod_cast hpos
    have hn : ∃ n, st' = (trainStep oas x K prior)^[n + 1] st := by
      by_cases hd : L ∣ p.iterations
      · rcases log_divides_partial (trainStep oas x K prior) bound like perp p L hL0 hL hd st with ⟨l', h1, -⟩ | ⟨j, l', -, h1, -⟩
        · rw [h1] at hr
          cases hr
          exact ⟨p.iterations - 1, by rw [Nat.sub_add_cancel hi]⟩
        · rw [h1] at hr
          cases hr
          exact ⟨_, rfl⟩
      · rcases log_overflows (trainStep oas x K prior) bound like perp p L hL0 hL hd st with h1 | ⟨j, l', -, h1, -⟩
        · rw [h1] at hr
          cases hr
        · rw [h1] at hr
          cases hr
          exact ⟨_, rfl⟩
    obtain ⟨n, rfl⟩ := hn
    exact iterate_proper oas x K ho prior hp hK hT n st h

/-- C127: a document without words is left with the prior: its variances and (relative to the first topic) its means. -/
theorem empty_document (oas : (Nat → Nat → ℝ) → Nat → Nat → ℝ) (x : Data) (K : Nat) (ho : IsCov K oas) (prior : ℝ) (hp : 0 < prior)
    (hK : 0 < K) (hT : 0 < x.T) (st : State) (h : Start x K st) (d : Nat) (hd : x.len d = 0) (k : Nat) (hk : k < K) :
    (trainStep oas x K prior st).varcs d k = (trainStep oas x K prior st).sig k k ∧
    (trainStep oas x K prior st).means d k
      = (trainStep oas x K prior st).topicMean k - (trainStep oas x K prior st).topicMean 0 := by
  have hpr := step_proper oas x K ho prior hp hK hT st h
  have hdv : ∀ k, (trainStep oas x K prior st).sig k k = _ := fun k => if_pos rfl
  have hv : ∀ k, (trainStep oas x K prior st).varcs d k = (trainStep oas x K prior st).sig k k := by
    intro k
    have he : (trainStep oas x K prior st).varcs d k
        = 1 / ((x.len d : ℝ) * st.lxi d k + 1 / (trainStep oas x K prior st).sig k k) := by
      rw [hdv]; rfl
    rw [he, hd, Nat.cast_zero, zero_mul, zero_add, one_div_one_div]
  refine ⟨hv k, ?_⟩
  have hw : ∀ t, t < x.T → x.words d t = 0 := fun t ht => by
    have h0 : ∑ t ∈ Finset.range x.T, x.words d t = 0 := hd
    exact Finset.sum_eq_zero_iff.mp h0 t (Finset.mem_range.mpr ht)
  have hS : ∀ e v k, topicCounts x K e v d k = 0 := by
    intro e v k
    unfold topicCounts
    rw [Finset.sum_eq_zero, mul_zero]
    intro t ht
    unfold quotient
    rw [hw t (Finset.mem_range.mp ht), Nat.cast_zero, zero_div, zero_mul]
  have hterm : ∀ k, k < K → (trainStep oas x K prior st).varcs d k * ((st.s d * st.lxi d k - 0.5) * (x.len d : ℝ)
      + topicCounts x K (expRows K st.means) (trainStep oas x K prior st).vocab d k
      + 1 / (trainStep oas x K prior st).sig k k * (trainStep oas x K prior st).topicMean k)
      = (trainStep oas x K prior st).topicMean k := by
    intro k hk
    have hs := hpr.sig k hk
    rw [hv, hS, hd, Nat.cast_zero, mul_zero, zero_add, zero_add, ← mul_assoc, mul_one_div_cancel hs.ne', one_mul]
  have he : (trainStep oas x K prior st).means d k
      = (trainStep oas x K prior st).varcs d k * ((st.s d * st.lxi d k - 0.5) * (x.len d : ℝ)
        + topicCounts x K (expRows K st.means) (trainStep oas x K prior st).vocab d k
        + 1 / (trainStep oas x K prior st).sig k k * (trainStep oas x K prior st).topicMean k)
      - (trainStep oas x K prior st).varcs d 0 * ((st.s d * st.lxi d 0 - 0.5) * (x.len d : ℝ)
        + topicCounts x K (expRows K st.means) (trainStep oas x K prior st).vocab d 0
        + 1 / (trainStep oas x K prior st).sig 0 0 * (trainStep oas x K prior st).topicMean 0) := by
    rw [hdv, hdv]; rfl
  rw [he, hterm k hk, hterm 0 hK]

/-! ## Random initial vocabularies -/

theorem sampleDocs_ge (x : Data) (draws : Nat → Nat) (fuel : Nat) : ∀ i sum v w, sampleDocs x draws fuel i sum v = some w →
    ∀ t, v t ≤ w t := by
  induction fuel with
  | zero =>
    intro i sum v w h t
    unfold sampleDocs at h
    split at h
    · cases h
    · cases h; exact le_rfl
  | succ fuel ih =>
    intro i sum v w h t
    unfold sampleDocs at h
    split at h
    · have := ih _ _ _ _ h t
      have h0 : (0 : ℝ) ≤ (x.words (draws i) t : ℝ) := Nat.cast_nonneg _
      linarith
    · cases h; exact le_rfl

/-- C132: a random row of the initial vocabulary is a distribution without zeros. -/
theorem random_row_dist (x : Data) (hT : 0 < x.T) (draws : Nat → Nat) (fuel : Nat) (v : Nat → ℝ)
    (h : randomRow x draws fuel = some v) : IsDist x.T v := by
  unfold randomRow at h
  rw [Option.map_eq_some_iff] at h
  obtain ⟨w, hw, rfl⟩ := h
  have h1 : ∀ t, 1 ≤ w t := sampleDocs_ge x draws fuel 0 0 _ w hw
  have hs : 0 < ∑ t ∈ Finset.range x.T, w t :=
    Finset.sum_pos (fun t _ => by linarith [h1 t]) (Finset.nonempty_range_iff.mpr hT.ne')
  refine ⟨fun t _ => div_pos (by linarith [h1 t]) hs, ?_⟩
  rw [← Finset.sum_div, div_self hs.ne']

theorem sampleDocs_ends (x : Data) (draws : Nat → Nat) (hd : ∀ i, 0 < x.len (draws i)) (fuel : Nat) : ∀ i sum v,
    1000 ≤ sum + fuel → (sampleDocs x draws fuel i sum v).isSome := by
  induction fuel with
  | zero =>
    intro i sum v h
    unfold sampleDocs
    rw [if_neg (by omega)]
    rfl
  | succ fuel ih =>
    intro i sum v h
    unfold sampleDocs
    split
    · exact ih _ _ _ (by have := hd i; omega)
    · rfl

/-- C132: when no document is empty, the sampling ends after at most a thousand documents, whichever are drawn. -/
theorem sampling_ends_partial (x : Data) (draws : Nat → Nat) (hd : ∀ i, 0 < x.len (draws i)) :
    (randomRow x draws 1000).isSome := by
  unfold randomRow
  rw [Option.isSome_map]
  exact sampleDocs_ends x draws hd 1000 0 0 _ (by omega)

/-- C132: when all the documents are empty, the sampling never ends. -/
theorem sampling_hangs_violation (x : Data) (draws : Nat → Nat) (hd : ∀ i, x.len (draws i) = 0) (fuel : Nat) :
    randomRow x draws fuel = none := by
  have h : ∀ fuel i sum v, sum < 1000 → sampleDocs x draws fuel i sum v = none := by
    intro fuel
    induction fuel with
    | zero =>
      intro i sum v h
      unfold sampleDocs
      rw [if_pos h]
    | succ fuel ih =>
      intro i sum v h
      unfold sampleDocs
      rw [if_pos h]
      exact ih _ _ _ (by rw [hd]; omega)
  unfold randomRow
  rw [h fuel 0 0 _ (by omega)]
  rfl

/-- C132: the stop-word row of `ctm_bohning` is the distribution of the words in the corpus: it is zero precisely for the words that
occur in no document, and not a distribution at all when the corpus is empty. -/
theorem stop_row_spec (x : Data) :
    (∀ t, 0 ≤ stopWordRow x t) ∧
    (0 < ∑ t ∈ Finset.range x.T, ∑ d ∈ Finset.range x.D, x.words d t →
      ∑ t ∈ Finset.range x.T, stopWordRow x t = 1 ∧
      ∀ t, stopWordRow x t = 0 ↔ ∀ d, d < x.D → x.words d t = 0) ∧
    (∑ t ∈ Finset.range x.T, ∑ d ∈ Finset.range x.D, x.words d t = 0 → ∑ t ∈ Finset.range x.T, stopWordRow x t = 0) := by
  have hc : ∑ t ∈ Finset.range x.T, ∑ d ∈ Finset.range x.D, (x.words d t : ℝ)
      = ((∑ t ∈ Finset.range x.T, ∑ d ∈ Finset.range x.D, x.words d t : Nat) : ℝ) := by push_cast; rfl
  refine ⟨fun t => ?_, fun h => ⟨?_, fun t => ?_⟩, fun h => ?_⟩
  · unfold stopWordRow
    positivity
  · unfold stopWordRow
    rw [← Finset.sum_div, hc, div_self]
    exact_mod_cast h.ne'
  · unfold stopWordRow
    rw [hc, div_eq_zero_iff, or_iff_left (by exact_mod_cast h.ne')]
    constructor
    · intro h0 d hd
      have := (Finset.sum_eq_zero_iff_of_nonneg (fun d _ => Nat.cast_nonneg _)).mp h0 d (Finset.mem_range.mpr hd)
      exact_mod_cast this
    · intro h0
      exact Finset.sum_eq_zero fun d hd => by rw [h0 d (Finset.mem_range.mp hd), Nat.cast_zero]
  · unfold stopWordRow
    rw [hc, h, Nat.cast_zero]
    simp

/-! ## The reported bound -/

open MeasureTheory

/-- The weights of two topics: 3 and -3, or -3 and 3 -/
noncomputable def wX (k : Nat) (b : Bool) : ℝ := if (k = 0) = (b = true) then 3 else -3

/-- A fair coin -/
noncomputable def coin : Measure Bool := (2⁻¹ : ENNReal) • (Measure.dirac true + Measure.dirac false)

instance : IsProbabilityMeasure coin := ⟨by
  unfold coin
  rw [Measure.smul_apply, Measure.add_apply, measure_univ, measure_univ, smul_eq_mul, one_add_one_eq_two,
    ENNReal.inv_mul_cancel (by norm_num) (by norm_num)]⟩

theorem coin_integrable (f : Bool → ℝ) : Integrable f coin := Integrable.of_finite

theorem coin_integral (f : Bool → ℝ) : ∫ b, f b ∂coin = (f true + f false) / 2 := by
  unfold coin
  rw [integral_smul_measure, integral_add_measure Integrable.of_finite Integrable.of_finite, integral_dirac, integral_dirac]
  rw [ENNReal.toReal_inv, ENNReal.toReal_ofNat, smul_eq_mul]
  ring

theorem w_moments : Props.Bouchard.Moments coin 2 wX (fun _ => 0) (fun _ => 9) := by
  refine ⟨fun k _ => coin_integrable _, fun k _ => coin_integrable _, fun k hk => ?_, fun k hk => ?_⟩
  · rw [coin_integral]
    rcases Nat.lt_succ_iff_lt_or_eq.mp hk with h | rfl
    · rw [Nat.lt_one_iff.mp h]; norm_num [wX]
    · norm_num [wX]
  · rw [coin_integral]
    rcases Nat.lt_succ_iff_lt_or_eq.mp hk with h | rfl
    · rw [Nat.lt_one_iff.mp h]; norm_num [wX]
    · norm_num [wX]

/-- One document with one word -/
def wData : Data := ⟨1, 1, fun _ _ => 1⟩

noncomputable def wOas : (Nat → Nat → ℝ) → Nat → Nat → ℝ := fun _ _ _ => 16.9

noncomputable def wState : State :=
  ⟨fun _ => 0, fun _ _ => 0, fun _ _ => 1, fun _ _ => 0, fun _ _ => 1, fun _ _ => 1, fun _ _ => 1 / 18, fun _ => 0⟩

theorem wState_start : Start wData 2 wState :=
  ⟨fun k _ => ⟨fun t _ => one_pos, by simp [wData, wState]⟩, fun _ _ _ _ => zero_le_one, fun _ _ _ _ => by norm_num [wState]⟩

theorem wOas_cov : IsCov 2 wOas := fun _ _ _ => by norm_num [wOas]

theorem w_sig (k : Nat) : (trainStep wOas wData 2 1 wState).sig k k = 18 := by
  show (if k = k then _ else _) = _
  rw [if_pos rfl]
  norm_num [wOas, wData, wState]

theorem w_varcs (k : Nat) : (trainStep wOas wData 2 1 wState).varcs 0 k = 9 := by
  have he : (trainStep wOas wData 2 1 wState).varcs 0 k
      = 1 / ((wData.len 0 : ℝ) * wState.lxi 0 k + 1 / (trainStep wOas wData 2 1 wState).sig k k) := by
    rw [show (trainStep wOas wData 2 1 wState).sig k k = _ from if_pos rfl]; rfl
  rw [he, w_sig]
  norm_num [wData, wState, Data.len]

theorem w_means (k : Nat) (hk : k < 2) : (trainStep wOas wData 2 1 wState).means 0 k = 0 := by
  have hpr := step_proper wOas wData 2 wOas_cov 1 one_pos two_pos (by decide) wState wState_start
  have hv : ∀ k, k < 2 → (trainStep wOas wData 2 1 wState).vocab k 0 = 1 := by
    intro k hk
    have h := (hpr.vocab k hk).2
    rwa [show wData.T = 1 from rfl, Finset.sum_range_one] at h
  have hmax : Numerics.rowMax 2 (wState.means 0) = 0 := by
    obtain ⟨j, -, hj⟩ := (Props.Numerics.rowMax_spec 2 (wState.means 0) two_pos).2
    rw [hj]; rfl
  have he : ∀ k, expRows 2 wState.means 0 k = 1 := by
    intro k
    unfold expRows
    rw [hmax, show wState.means 0 k = 0 from rfl, sub_zero, Real.exp_zero]
  have hS : ∀ k, k < 2 → topicCounts wData 2 (expRows 2 wState.means) (trainStep wOas wData 2 1 wState).vocab 0 k = 1 / 2 := by
    intro k hk
    unfold topicCounts quotient
    rw [show wData.T = 1 from rfl, Finset.sum_range_one, Finset.sum_range_succ, Finset.sum_range_one, he, he, he, hv 0 (by decide),
      hv 1 (by decide), hv k hk]
    norm_num [wData]
  have hr : ∀ k, k < 2 → (wState.s 0 * wState.lxi 0 k - 0.5) * (wData.len 0 : ℝ)
      + topicCounts wData 2 (expRows 2 wState.means) (trainStep wOas wData 2 1 wState).vocab 0 k
      + 1 / (trainStep wOas wData 2 1 wState).sig k k * (trainStep wOas wData 2 1 wState).topicMean k = 0 := by
    intro k hk
    have ht : (trainStep wOas wData 2 1 wState).topicMean k = 0 := by
      show (∑ d ∈ Finset.range wData.D, wState.means d k) / _ = 0
      rw [show wData.D = 1 from rfl, Finset.sum_range_one]
      exact zero_div _
    rw [hS k hk, ht]
    norm_num [wState, wData, Data.len]
  have heq : (trainStep wOas wData 2 1 wState).means 0 k
      = (trainStep wOas wData 2 1 wState).varcs 0 k * ((wState.s 0 * wState.lxi 0 k - 0.5) * (wData.len 0 : ℝ)
        + topicCounts wData 2 (expRows 2 wState.means) (trainStep wOas wData 2 1 wState).vocab 0 k
        + 1 / (trainStep wOas wData 2 1 wState).sig k k * (trainStep wOas wData 2 1 wState).topicMean k)
      - (trainStep wOas wData 2 1 wState).varcs 0 0 * ((wState.s 0 * wState.lxi 0 0 - 0.5) * (wData.len 0 : ℝ)
        + topicCounts wData 2 (expRows 2 wState.means) (trainStep wOas wData 2 1 wState).vocab 0 0
        + 1 / (trainStep wOas wData 2 1 wState).sig 0 0 * (trainStep wOas wData 2 1 wState).topicMean 0) := by
    have hdv : ∀ k, (trainStep wOas wData 2 1 wState).sig k k = _ := fun k => if_pos rfl
    rw [hdv, hdv]
    rfl
  rw [heq, hr k hk, hr 0 two_pos]
  ring

theorem w_xi : deriveXi 0 9 0 = 9 := by
  unfold deriveXi
  rw [show ((0 : ℝ) ^ 2 - 2 * 0 * 0 + 0 ^ 2 + 9 ^ 2) = 9 ^ 2 by norm_num]
  exact Real.sqrt_sq (by norm_num)

theorem w_lxi (k : Nat) (hk : k < 2) : (trainStep wOas wData 2 1 wState).lxi 0 k = 2 * negJakkola 9 := by
  show 2 * negJakkola (deriveXi ((trainStep wOas wData 2 1 wState).means 0 k) ((trainStep wOas wData 2 1 wState).varcs 0 k) 0) = _
  rw [w_means k hk, w_varcs, w_xi]

theorem exp_neg_nine : Real.exp (-9) ≤ 1 / 512 := by
  have h1 : (2 : ℝ) ≤ Real.exp 1 := by linarith [Real.add_one_le_exp (1 : ℝ)]
  have h2 : (512 : ℝ) ≤ Real.exp 9 := by
    rw [show (9 : ℝ) = ((9 : ℕ) : ℝ) * 1 by norm_num, Real.exp_nat_mul]
    calc (512 : ℝ) = 2 ^ 9 := by norm_num
      _ ≤ Real.exp 1 ^ 9 := pow_le_pow_left₀ (by norm_num) h1 9
  rw [Real.exp_neg, inv_eq_one_div]
  exact one_div_le_one_div_of_le (by norm_num) h2

/-- C134: what `train` measures is not a bound: after one iteration on a single one-word document, with the coefficients doubled as
`train` leaves them, the terms exceed what they should bound from below. -/
theorem bound_doubled_violation :
    let st := trainStep wOas wData 2 1 wState
    Props.Bouchard.Moments coin 2 wX (fun k => if k < 2 then st.means 0 k else 0) (st.varcs 0) ∧
    -(wData.len 0 : ℝ) * ∫ b, Real.log (∑ k ∈ Finset.range 2, Real.exp (wX k b)) ∂coin
      < boundTerms 2 (wData.len 0) (st.means 0) (st.varcs 0) (st.lxi 0) (fun k => deriveXi (st.means 0 k) (st.varcs 0 k) (st.s 0))
        (st.s 0) := by
  refine ⟨?_, ?_⟩
  · have h1 : (fun k => if k < 2 then (trainStep wOas wData 2 1 wState).means 0 k else 0) = fun _ => 0 := by
      funext k
      split
      · rename_i hk; exact w_means k hk
      · rfl
    have h2 : (trainStep wOas wData 2 1 wState).varcs 0 = fun _ => 9 := funext w_varcs
    rw [h1, h2]
    exact w_moments
  · have hlen : (wData.len 0 : ℝ) = 1 := by norm_num [wData, Data.len]
    have hs : (trainStep wOas wData 2 1 wState).s 0 = 0 := rfl
    rw [Props.Bouchard.boundTerms_eq, hlen, hs, coin_integral]
    simp only [Finset.sum_range_succ, Finset.sum_range_zero, zero_add]
    rw [w_means 0 (by decide), w_means 1 (by decide), w_varcs, w_varcs, w_lxi 0 (by decide), w_lxi 1 (by decide), w_xi]
    have hE := exp_neg_nine
    have hE0 := Real.exp_pos (-9)
    have hlog : Real.log (1 + Real.exp 9) ≤ 9 + 1 / 512 := by
      rw [show 1 + Real.exp 9 = Real.exp 9 * (1 + Real.exp (-9)) by rw [mul_add, ← Real.exp_add]; norm_num; ring,
        Real.log_mul (Real.exp_pos _).ne' (by positivity), Real.log_exp]
      have := Real.log_le_sub_one_of_pos (show 0 < 1 + Real.exp (-9) by positivity)
      linarith
    have hnj : 2 * negJakkola 9 * 72 ≥ 3.9 := by
      unfold negJakkola
      have : 1 / (1 + Real.exp (-9)) ≥ 512 / 513 := by
        rw [ge_iff_le, le_div_iff₀ (by positivity)]
        linarith
      norm_num at this ⊢
      linarith
    have hl : ∀ b, 3 ≤ Real.log (Real.exp (wX 0 b) + Real.exp (wX 1 b)) := by
      intro b
      rw [Real.le_log_iff_exp_le (by positivity)]
      cases b
      · have : wX 1 false = 3 := by norm_num [wX]
        rw [this]; linarith [Real.exp_pos (wX 0 false)]
      · have : wX 0 true = 3 := by norm_num [wX]
        rw [this]; linarith [Real.exp_pos (wX 1 true)]
    have h1 := hl true
    have h2 := hl false
    norm_num at *
    linarith

/-- C135: `negJakkolaOfDerivedXi` gives the same coefficient with and without a document index; `jakkolaOfDerivedXi` gives one of the
opposite sign. -/
theorem jakkola_sign_violation (means varcs : Nat → Nat → ℝ) (s : Nat → ℝ) (d k : Nat) (hv : varcs d k ≠ 0) :
    jakkolaOfDerivedXi means varcs s d k = -negJakkolaOfDerivedXi means varcs s d k ∧
    jakkolaOfDerivedXiAt means varcs s d k = negJakkolaOfDerivedXi means varcs s d k ∧
    jakkolaOfDerivedXi means varcs s d k < 0 ∧ 0 < jakkolaOfDerivedXiAt means varcs s d k := by
  have hx : deriveXi (means d k) (varcs d k) (s d) ≠ 0 := by
    unfold deriveXi
    refine (Real.sqrt_pos.mpr ?_).ne'
    nlinarith [sq_nonneg (means d k - s d), sq_pos_of_ne_zero hv]
  have hpos := (Props.Bouchard.coefficient_spec _ hx).1
  have h1 : jakkolaOfDerivedXi means varcs s d k = -negJakkolaOfDerivedXi means varcs s d k := by
    unfold jakkolaOfDerivedXi negJakkolaOfDerivedXi negJakkola
    ring
  have h2 : jakkolaOfDerivedXiAt means varcs s d k = negJakkolaOfDerivedXi means varcs s d k := rfl
  refine ⟨h1, h2, ?_, ?_⟩
  · rw [h1]; exact neg_neg_of_pos hpos
  · rw [h2]; exact hpos

/-- C135: the negated variant does not depend on how it is called. -/
theorem neg_jakkola_consistent_partial (means varcs : Nat → Nat → ℝ) (s : Nat → ℝ) (d k : Nat) :
    negJakkolaOfDerivedXiAt means varcs s d k = negJakkolaOfDerivedXi means varcs s d k := rfl

/-! ## Examples -/

noncomputable def exState : State :=
  ⟨fun _ => 0, fun _ _ => 0, exV, fun d k => d * k, fun _ _ => 1, fun _ _ => 1, fun _ _ => 1 / 8, fun _ => 0⟩

theorem exState_start : Start exX 2 exState :=
  ⟨exV_topics, fun _ _ _ _ => zero_le_one, fun _ _ _ _ => by norm_num [exState]⟩

/-- A run of 100 iterations with the default log frequency trains a proper model. -/
example (bound like : State → ℝ) (perp : ℝ → ℝ) : ∃ st l,
    train (trainStep wOas exX 2 1) bound like perp ⟨100, 10, 30, .all⟩ exState = .ok (st, l) ∧ Proper exX 2 st := by
  rcases log_divides_partial (trainStep wOas exX 2 1) bound like perp ⟨100, 10, 30, .all⟩ 10 (by decide) rfl (by decide) exState with
    ⟨l, h, -⟩ | ⟨j, l, -, h, -⟩
  · exact ⟨_, l, h, train_proper wOas exX 2 wOas_cov 1 one_pos two_pos (by decide) bound like perp _ (by decide) _ _ exState_start l h⟩
  · exact ⟨_, l, h, train_proper wOas exX 2 wOas_cov 1 one_pos two_pos (by decide) bound like perp _ (by decide) _ _ exState_start l h⟩

/-- A run of 25 iterations never completes. -/
example (bound like : State → ℝ) (perp : ℝ → ℝ) :
    train (trainStep wOas exX 2 1) bound like perp ⟨25, 10, 30, .all⟩ exState = .error .indexError :=
  log_short_violation _ bound like perp _ 10 (by decide) rfl (by decide) (Or.inl (by decide)) exState

/-- A run of 105 iterations whose perplexity never improves stops early, at iteration 30. -/
example : ∃ j l, train (fun n : Nat => n + 1) (fun _ => 0) (fun _ => 0) id ⟨105, 10, 30, .all⟩ 0 = .ok (j * 10 + 1, l) ∧
    Early .all 10 10 30 j l := by
  rcases log_overflows (fun n : Nat => n + 1) (fun _ => 0) (fun _ => 0) id ⟨105, 10, 30, .all⟩ 10 (by decide) rfl (by decide) 0 with
    h | ⟨j, l, -, h1, h2⟩
  · exfalso
    revert h
    rw [train_eq _ _ _ _ _ 10 (by decide) rfl]
    simp [loop, List.replicate, List.set]
  · refine ⟨j, l, ?_, h2⟩
    rw [h1, Function.iterate_succ_apply']
    simp

example (bound like : State → ℝ) (perp : ℝ → ℝ) :
    train (trainStep wOas exX 2 1) bound like perp ⟨100, 0, 30, .all⟩ exState = .error .zeroDivisionError :=
  (log_off_violation _ bound like perp _ exState).1 rfl

/-- An early stop at iteration 30 in arrays of ten places -/
example : Early .firstTwo 10 10 21 3 ⟨[0, 10, 20], [1, 2, 3], List.replicate 10 0, 3⟩ :=
  ⟨by decide, by decide, by decide, rfl, rfl, rfl⟩

/-- A corpus with an empty document -/
def exEmpty : Data := ⟨2, 2, fun d _ => d⟩

theorem exEmpty_start : Start exEmpty 2 exState :=
  ⟨exV_topics, fun _ _ _ _ => zero_le_one, fun _ _ _ _ => by norm_num [exState]⟩

example : (trainStep wOas exEmpty 2 1 exState).varcs 0 1 = (trainStep wOas exEmpty 2 1 exState).sig 1 1 :=
  (empty_document wOas exEmpty 2 wOas_cov 1 one_pos two_pos (by decide) exState exEmpty_start 0 (by decide) 1 (by decide)).1

example : (randomRow exX (fun i => i % 2) 1000).isSome :=
  sampling_ends_partial exX _ fun i => by
    rcases Nat.mod_two_eq_zero_or_one i with h | h <;> rw [h] <;> decide

example : randomRow ⟨3, 2, fun _ _ => 0⟩ (fun i => i % 3) 1000000 = none := sampling_hangs_violation _ _ (fun _ => rfl) _

/-- Word 1 does not occur. -/
example : stopWordRow ⟨1, 2, fun _ t => if t = 0 then 5 else 0⟩ 1 = 0 :=
  (((stop_row_spec ⟨1, 2, fun _ t => if t = 0 then 5 else 0⟩).2.1 (by decide)).2 1).mpr fun _ _ => rfl

example : jakkolaOfDerivedXi (fun _ _ => 0) (fun _ _ => 9) (fun _ => 0) 0 0 < 0 :=
  (jakkola_sign_violation (fun _ _ => 0) (fun _ _ => 9) (fun _ => 0) 0 0 (by norm_num)).2.2.1

end Verif.Props.CtmTrain
