import Verif.Model.CtmFast
import Verif.Props.Bohning

/-!
# The "fast" correlated topic model against the ordinary one
-/

namespace Verif.Props.CtmFast

open Verif
open Verif.Ctm hiding train
open Verif.Mom (Data)
open Verif.CtmFast
open Verif.Props.Bohning

/-- Two ways of training agree: whatever the corpus and the starting state, the first ends with the state the second ends with. -/
def Agrees (f : BState → Py BState) (g : BState → BState) : Prop := ∀ st, f st = .ok (g st)

/-- C193: with the diagonal approximation both modules end in the same state. -/
theorem diagonal_same_partial (inv : (Nat → Nat → ℝ) → Nat → Nat → ℝ) (cov : (Nat → Nat → ℝ) → (Nat → Nat → ℝ) → Nat → Nat → ℝ)
    (x : Data) (K : Nat) (prior : ℝ) (H : Nat → Nat → ℝ) (n : Nat) :
    Agrees (fastTrain inv cov x K prior H true n) (bohningTrain inv cov x K prior H true n) := by
  induction n with
  | zero => exact fun st => rfl
  | succ n ih =>
    intro st
    show fastTrain inv cov x K prior H true n _ = _
    rw [ih]
    rfl

/-- C193: so they do when there are as many documents as topics. -/
theorem square_same_partial (inv : (Nat → Nat → ℝ) → Nat → Nat → ℝ) (cov : (Nat → Nat → ℝ) → (Nat → Nat → ℝ) → Nat → Nat → ℝ)
    (x : Data) (prior : ℝ) (H : Nat → Nat → ℝ) (n : Nat) :
    Agrees (fastTrain inv cov x x.D prior H false n) (bohningTrain inv cov x x.D prior H false n) := by
  have hstep : ∀ st, fastStep inv cov x x.D prior H false st = .ok (bohningStep inv cov x x.D prior H false st) := by
    intro st
    simp [fastStep, shapesAgree, bind, Except.bind]
  induction n with
  | zero => exact fun st => rfl
  | succ n ih =>
    intro st
    show (do let st' ← fastStep inv cov x x.D prior H false st
             fastTrain inv cov x x.D prior H false n st') = _
    rw [hstep]
    show fastTrain inv cov x x.D prior H false n _ = _
    rw [ih]
    rfl

/-- C193: otherwise every request of at least one iteration fails, for every corpus, model and state. -/
theorem accurate_fails (inv : (Nat → Nat → ℝ) → Nat → Nat → ℝ) (cov : (Nat → Nat → ℝ) → (Nat → Nat → ℝ) → Nat → Nat → ℝ)
    (x : Data) (K : Nat) (hK : K ≠ x.D) (prior : ℝ) (H : Nat → Nat → ℝ) (n : Nat) (hn : 0 < n) (st : BState) :
    fastTrain inv cov x K prior H false n st = .error .valueError := by
  obtain ⟨n, rfl⟩ := Nat.exists_eq_add_of_le' hn
  show (do let st' ← fastStep inv cov x K prior H false st
           fastTrain inv cov x K prior H false n st') = _
  have : fastStep inv cov x K prior H false st = .error .valueError := by
    simp [fastStep, shapesAgree, hK, bind, Except.bind]
  rw [this]
  rfl

/-- C193: the two modules agree on a setting exactly when nothing is asked for, the approximation is used or there are as many
documents as topics. -/
theorem agrees_iff (inv : (Nat → Nat → ℝ) → Nat → Nat → ℝ) (cov : (Nat → Nat → ℝ) → (Nat → Nat → ℝ) → Nat → Nat → ℝ)
    (x : Data) (K : Nat) (prior : ℝ) (H : Nat → Nat → ℝ) (fast : Bool) (n : Nat) :
    Agrees (fastTrain inv cov x K prior H fast n) (bohningTrain inv cov x K prior H fast n) ↔ n = 0 ∨ fast = true ∨ K = x.D := by
  constructor
  · intro h
    by_cases hn : n = 0
    · exact .inl hn
    · cases fast with
      | true => exact .inr (.inl rfl)
      | false =>
        by_cases hK : K = x.D
        · exact .inr (.inr hK)
        · have h1 := h ⟨fun _ => 0, fun _ _ => 0, fun _ _ => 0, fun _ _ => 0, fun _ _ => 0, fun _ _ => 0⟩
          rw [accurate_fails inv cov x K hK prior H n (Nat.pos_of_ne_zero hn)] at h1
          cases h1
  · rintro (rfl | rfl | rfl)
    · exact fun st => rfl
    · exact diagonal_same_partial inv cov x K prior H n
    · cases fast with
      | true => exact diagonal_same_partial inv cov x _ prior H n
      | false => exact square_same_partial inv cov x prior H n

/-- C193: even a call that fails has replaced the means the caller handed over by their softmax: positive numbers that sum to one
in every document. -/
theorem caller_means_overwritten (K : Nat) (hK : 0 < K) (means : Nat → Nat → ℝ) (n : Nat) (hn : 0 < n) (d : Nat) :
    (∀ k, 0 < callerMeans K means n d k) ∧ ∑ k ∈ Finset.range K, callerMeans K means n d k = 1 := by
  obtain ⟨n, rfl⟩ := Nat.exists_eq_add_of_le' hn
  have hpos : 0 < ∑ j ∈ Finset.range K, Real.exp (means d j - Numerics.rowMax K (means d)) :=
    Finset.sum_pos (fun j _ => Real.exp_pos _) ⟨0, Finset.mem_range.2 hK⟩
  refine ⟨fun k => div_pos (Real.exp_pos _) hpos, ?_⟩
  show ∑ k ∈ Finset.range K, Real.exp (means d k - Numerics.rowMax K (means d)) /
    ∑ j ∈ Finset.range K, Real.exp (means d j - Numerics.rowMax K (means d)) = 1
  rw [← Finset.sum_div]
  exact div_self hpos.ne'

/-- C193: where the modules agree, the accurate variant never lowers the penalised likelihood. -/
theorem square_monotone_partial (inv : (Nat → Nat → ℝ) → Nat → Nat → ℝ)
    (cov : (Nat → Nat → ℝ) → (Nat → Nat → ℝ) → Nat → Nat → ℝ) (x : Data) (hD : 0 < x.D) (hT : 0 < x.T)
    (hi : Inverts inv x x.D) (prior : ℝ) (hp : 0 < prior) (n : Nat) (st : BState) (hv : Verif.Props.Ctm.Topics x.D x.T st.vocab) :
    ∃ st', fastTrain inv cov x x.D prior (bohningA x.D) false n st = .ok st' ∧
      objective x x.D prior st.topicMean st.means st.vocab ≤ objective x x.D prior st'.topicMean st'.means st'.vocab :=
  ⟨_, square_same_partial inv cov x prior (bohningA x.D) n st, (train_monotone inv cov x x.D hD hD hT hi prior hp n st hv).2⟩

/-! ## Examples -/

/-- Two topics, two documents: fine.  Three documents: a ValueError. -/
example (inv : (Nat → Nat → ℝ) → Nat → Nat → ℝ) (cov : (Nat → Nat → ℝ) → (Nat → Nat → ℝ) → Nat → Nat → ℝ) (w : Nat → Nat → Nat) :
    fastTrain inv cov ⟨3, 4, w⟩ 2 1 (bohningA 2) false 10 exB = .error .valueError :=
  accurate_fails inv cov ⟨3, 4, w⟩ 2 (by show 2 ≠ 3; decide) 1 _ 10 (by decide) exB

example (inv : (Nat → Nat → ℝ) → Nat → Nat → ℝ) (cov : (Nat → Nat → ℝ) → (Nat → Nat → ℝ) → Nat → Nat → ℝ) (w : Nat → Nat → Nat) :
    fastTrain inv cov ⟨2, 4, w⟩ 2 1 (bohningA 2) false 10 exB = .ok (bohningTrain inv cov ⟨2, 4, w⟩ 2 1 (bohningA 2) false 10 exB) :=
  square_same_partial inv cov ⟨2, 4, w⟩ 1 _ 10 exB

example : callerMeans 2 (fun _ k => k) 3 0 0 + callerMeans 2 (fun _ k => k) 3 0 1 = 1 := by
  have := (caller_means_overwritten 2 two_pos (fun _ k => k) 3 (by decide) 0).2
  simpa [Finset.sum_range_succ] using this

end Verif.Props.CtmFast
