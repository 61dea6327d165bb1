import Mathlib.Algebra.BigOperators.Field
import Mathlib.Algebra.Order.BigOperators.Group.Finset
import Mathlib.Algebra.Order.Field.Basic
import Mathlib.Data.Fintype.BigOperators
import Mathlib.Data.Fintype.Pi
import Mathlib.Tactic.FieldSimp
import Mathlib.Tactic.Linarith
import Mathlib.Tactic.Ring
import Mathlib.Tactic.Positivity

/-!
# Gibbs sampling from a weight function on finitely many assignments

`J` is a weight function on the assignments of `K` values to `N` positions.  One step draws the value at one position with
chances proportional to the weights of the assignments that result.
-/

set_option linter.unusedSectionVars false

namespace Verif.GibbsChain

variable {N K : Nat} {𝕜 : Type*} [Field 𝕜] [LinearOrder 𝕜] [IsStrictOrderedRing 𝕜]

/-- The chance of value `k` at position `i` given the other positions -/
def cond (J : (Fin N → Fin K) → 𝕜) (z : Fin N → Fin K) (i : Fin N) (k : Fin K) : 𝕜 :=
  J (Function.update z i k) / ∑ j, J (Function.update z i j)

/-- The expected value of `f` after a step at position `i` -/
def step (J : (Fin N → Fin K) → 𝕜) (i : Fin N) (f : (Fin N → Fin K) → 𝕜) (z : Fin N → Fin K) : 𝕜 :=
  ∑ k, cond J z i k * f (Function.update z i k)

/-- The expected value of `f` after steps at the positions given, the first one first -/
def run (J : (Fin N → Fin K) → 𝕜) : List (Fin N) → ((Fin N → Fin K) → 𝕜) → (Fin N → Fin K) → 𝕜
  | [], f => f
  | i :: is, f => step J i (run J is f)

theorem run_append (J : (Fin N → Fin K) → 𝕜) (l m : List (Fin N)) (f : (Fin N → Fin K) → 𝕜) :
    run J (l ++ m) f = run J l (run J m f) := by
  induction l with
  | nil => rfl
  | cons i l ih => show step J i (run J (l ++ m) f) = _; rw [ih]; rfl

/-- Exchanging an assignment and a value -/
def swap (i : Fin N) : (Fin N → Fin K) × Fin K ≃ (Fin N → Fin K) × Fin K where
  toFun x := (Function.update x.1 i x.2, x.1 i)
  invFun x := (Function.update x.1 i x.2, x.1 i)
  left_inv x := by ext <;> simp
  right_inv x := by ext <;> simp

/-- A step leaves expected values under `J` as they are. -/
theorem step_invariant (J : (Fin N → Fin K) → 𝕜) (hJ : ∀ z, 0 ≤ J z) (i : Fin N) (f : (Fin N → Fin K) → 𝕜) :
    ∑ z, J z * step J i f z = ∑ z, J z * f z := by
  have h1 : ∑ z, J z * step J i f z = ∑ x : (Fin N → Fin K) × Fin K, J x.1 * (cond J x.1 i x.2 * f (Function.update x.1 i x.2)) := by
    rw [Fintype.sum_prod_type]
    refine Finset.sum_congr rfl fun z _ => ?_
    unfold step
    rw [Finset.mul_sum]
  rw [h1, ← Equiv.sum_comp (swap i), Fintype.sum_prod_type]
  refine Finset.sum_congr rfl fun z _ => ?_
  have h2 : ∀ k, J (swap i (z, k)).1 * (cond J (swap i (z, k)).1 i (swap i (z, k)).2
      * f (Function.update (swap i (z, k)).1 i (swap i (z, k)).2))
      = J (Function.update z i k) * (J z / ∑ j, J (Function.update z i j)) * f z := by
    intro k
    simp only [swap, Equiv.coe_fn_mk, cond, Function.update_idem, Function.update_eq_self]
    ring
  rw [Finset.sum_congr rfl fun k _ => h2 k, ← Finset.sum_mul, ← Finset.sum_mul]
  have hle : J z ≤ ∑ j, J (Function.update z i j) := by
    have := Finset.single_le_sum (f := fun j => J (Function.update z i j)) (fun j _ => hJ _) (Finset.mem_univ (z i))
    simpa using this
  by_cases hS : ∑ j, J (Function.update z i j) = 0
  · have h0 : J z = 0 := le_antisymm (hS ▸ hle) (hJ z)
    rw [hS, h0]
    ring
  · field_simp

theorem run_invariant (J : (Fin N → Fin K) → 𝕜) (hJ : ∀ z, 0 ≤ J z) (l : List (Fin N)) (f : (Fin N → Fin K) → 𝕜) :
    ∑ z, J z * run J l f z = ∑ z, J z * f z := by
  induction l with
  | nil => rfl
  | cons i l ih => exact (step_invariant J hJ i _).trans ih

theorem total_pos (J : (Fin N → Fin K) → 𝕜) (hJ : ∀ z, 0 < J z) (z : Fin N → Fin K) (i : Fin N) :
    0 < ∑ j, J (Function.update z i j) :=
  Finset.sum_pos (fun _ _ => hJ _) ⟨z i, Finset.mem_univ _⟩

theorem cond_pos (J : (Fin N → Fin K) → 𝕜) (hJ : ∀ z, 0 < J z) (z : Fin N → Fin K) (i : Fin N) (k : Fin K) : 0 < cond J z i k :=
  div_pos (hJ _) (total_pos J hJ z i)

theorem cond_sum (J : (Fin N → Fin K) → 𝕜) (hJ : ∀ z, 0 < J z) (z : Fin N → Fin K) (i : Fin N) : ∑ k, cond J z i k = 1 := by
  unfold cond
  rw [← Finset.sum_div]
  exact div_self (total_pos J hJ z i).ne'

/-- The chance to get from `z` to `y` -/
def chanceTo (J : (Fin N → Fin K) → 𝕜) (l : List (Fin N)) (z y : Fin N → Fin K) : 𝕜 :=
  run J l (fun x => if x = y then 1 else 0) z

theorem run_linear (J : (Fin N → Fin K) → 𝕜) (l : List (Fin N)) (f : (Fin N → Fin K) → 𝕜) (z : Fin N → Fin K) :
    run J l f z = ∑ y, chanceTo J l z y * f y := by
  unfold chanceTo
  induction l generalizing z with
  | nil => simp [run]
  | cons i l ih =>
    show ∑ k, cond J z i k * run J l f (Function.update z i k)
      = ∑ y, (∑ k, cond J z i k * run J l (fun x => if x = y then 1 else 0) (Function.update z i k)) * f y
    rw [Finset.sum_congr rfl fun k _ => by rw [ih]]
    simp only [Finset.mul_sum, Finset.sum_mul]
    rw [Finset.sum_comm]
    refine Finset.sum_congr rfl fun y _ => Finset.sum_congr rfl fun k _ => ?_
    ring

theorem run_nonneg (J : (Fin N → Fin K) → 𝕜) (hJ : ∀ z, 0 < J z) (l : List (Fin N)) (f : (Fin N → Fin K) → 𝕜)
    (hf : ∀ z, 0 ≤ f z) : ∀ z, 0 ≤ run J l f z := by
  induction l with
  | nil => exact hf
  | cons i l ih =>
    intro z
    show 0 ≤ ∑ k, cond J z i k * run J l f (Function.update z i k)
    exact Finset.sum_nonneg fun k _ => mul_nonneg (cond_pos J hJ z i k).le (ih _)

theorem run_const (J : (Fin N → Fin K) → 𝕜) (hJ : ∀ z, 0 < J z) (l : List (Fin N)) (c : 𝕜) : ∀ z, run J l (fun _ => c) z = c := by
  induction l with
  | nil => exact fun _ => rfl
  | cons i l ih =>
    intro z
    show ∑ k, cond J z i k * run J l (fun _ => c) (Function.update z i k) = c
    rw [Finset.sum_congr rfl fun k _ => by rw [ih], ← Finset.sum_mul, cond_sum J hJ, one_mul]

theorem chanceTo_sum (J : (Fin N → Fin K) → 𝕜) (hJ : ∀ z, 0 < J z) (l : List (Fin N)) (z : Fin N → Fin K) :
    ∑ y, chanceTo J l z y = 1 := by
  have := run_linear J l (fun _ => 1) z
  rw [run_const J hJ] at this
  simpa using this.symm

/-- All single chances are at least some positive number. -/
theorem cond_bounded (J : (Fin N → Fin K) → 𝕜) (hJ : ∀ z, 0 < J z) : ∃ c : 𝕜, 0 < c ∧ c ≤ 1 ∧ ∀ z i k, c ≤ cond J z i k := by
  have : ∀ s : Finset ((Fin N → Fin K) × Fin N × Fin K), ∃ c : 𝕜, 0 < c ∧ c ≤ 1 ∧ ∀ x ∈ s, c ≤ cond J x.1 x.2.1 x.2.2 := by
    intro s
    induction s using Finset.induction_on with
    | empty => exact ⟨1, one_pos, le_rfl, fun x hx => absurd hx (Finset.notMem_empty _)⟩
    | insert x s _ ih =>
      obtain ⟨c, h0, h1, h2⟩ := ih
      refine ⟨min c (cond J x.1 x.2.1 x.2.2), lt_min h0 (cond_pos J hJ _ _ _), (min_le_left _ _).trans h1, ?_⟩
      intro y hy
      rcases Finset.mem_insert.1 hy with rfl | hy
      · exact min_le_right _ _
      · exact (min_le_left _ _).trans (h2 y hy)
  obtain ⟨c, h0, h1, h2⟩ := this Finset.univ
  exact ⟨c, h0, h1, fun z i k => h2 (z, i, k) (Finset.mem_univ _)⟩

/-- Steps at positions among which are all those where `z` and `y` differ lead from `z` to `y` with positive chance. -/
theorem chanceTo_ge (J : (Fin N → Fin K) → 𝕜) (hJ : ∀ z, 0 < J z) (c : 𝕜) (hc : 0 < c) (hb : ∀ z i k, c ≤ cond J z i k)
    (l : List (Fin N)) (y : Fin N → Fin K) : ∀ z, (∀ i, i ∉ l → z i = y i) → c ^ l.length ≤ chanceTo J l z y := by
  unfold chanceTo
  induction l with
  | nil =>
    intro z hz
    have : z = y := funext fun i => hz i List.not_mem_nil
    simp [run, this]
  | cons i l ih =>
    intro z hz
    have h1 : c ^ l.length ≤ run J l (fun x => if x = y then 1 else 0) (Function.update z i (y i)) := by
      refine ih _ fun j hj => ?_
      by_cases hji : j = i
      · subst hji; simp
      · rw [Function.update_of_ne hji]
        exact hz j (by simp [hji, hj])
    show _ ≤ ∑ k, cond J z i k * run J l (fun x => if x = y then 1 else 0) (Function.update z i k)
    refine le_trans ?_ (Finset.single_le_sum (f := fun k => cond J z i k * run J l (fun x => if x = y then 1 else 0)
      (Function.update z i k)) (fun k _ => mul_nonneg (cond_pos J hJ z i k).le
        (run_nonneg J hJ l _ (fun x => by split_ifs <;> norm_num) _)) (Finset.mem_univ (y i)))
    rw [List.length_cons, pow_succ, mul_comm]
    exact mul_le_mul (hb z i (y i)) h1 (pow_nonneg hc.le _) (cond_pos J hJ _ _ _).le

/-- One sweep brings the values of a quantity closer together. -/
theorem sweep_contracts (J : (Fin N → Fin K) → 𝕜) (hJ : ∀ z, 0 < J z) (l : List (Fin N)) (ε : 𝕜) (hε : ∀ z y, ε ≤ chanceTo J l z y)
    (f : (Fin N → Fin K) → 𝕜) (lo hi : 𝕜) (hf : ∀ z, lo ≤ f z ∧ f z ≤ hi) :
    ∃ lo' hi' : 𝕜, (∀ z, lo' ≤ run J l f z ∧ run J l f z ≤ hi') ∧
      hi' - lo' = (1 - Fintype.card (Fin N → Fin K) * ε) * (hi - lo) := by
  obtain ⟨c, hc⟩ : ∃ c : 𝕜, c = Fintype.card (Fin N → Fin K) * ε := ⟨_, rfl⟩
  refine ⟨(1 - c) * lo + ε * ∑ y, f y, (1 - c) * hi + ε * ∑ y, f y, ?_, by rw [← hc]; ring⟩
  intro z
  have hsum : ∑ y, (chanceTo J l z y - ε) = 1 - c := by
    rw [Finset.sum_sub_distrib, chanceTo_sum J hJ, hc]
    simp
  have hrun : run J l f z = ∑ y, (chanceTo J l z y - ε) * f y + ε * ∑ y, f y := by
    rw [run_linear, Finset.mul_sum, ← Finset.sum_add_distrib]
    exact Finset.sum_congr rfl fun y _ => by ring
  rw [hrun, ← hsum, Finset.sum_mul, Finset.sum_mul]
  constructor
  · exact add_le_add_left (Finset.sum_le_sum fun y _ => mul_le_mul_of_nonneg_left (hf y).1 (sub_nonneg.2 (hε z y))) _
  · exact add_le_add_left (Finset.sum_le_sum fun y _ => mul_le_mul_of_nonneg_left (hf y).2 (sub_nonneg.2 (hε z y))) _

/-- Every sweep that leaves out no position brings the values of a quantity closer together, all by the same factor. -/
theorem contracts (J : (Fin N → Fin K) → 𝕜) (hJ : ∀ z, 0 < J z) (L : Nat) :
    ∃ ρ : 𝕜, 0 ≤ ρ ∧ ρ < 1 ∧ ∀ (l : List (Fin N)), l.length = L → (∀ i, i ∈ l) →
      ∀ (f : (Fin N → Fin K) → 𝕜) (lo hi : 𝕜), (∀ z, lo ≤ f z ∧ f z ≤ hi) →
        ∃ lo' hi' : 𝕜, (∀ z, lo' ≤ run J l f z ∧ run J l f z ≤ hi') ∧ hi' - lo' = ρ * (hi - lo) := by
  obtain ⟨c, hc0, hc1, hc⟩ := cond_bounded J hJ
  by_cases hne : IsEmpty (Fin N → Fin K)
  · exact ⟨0, le_rfl, one_pos, fun _ _ _ _ _ _ _ => ⟨0, 0, fun z => (hne.false z).elim, by simp⟩⟩
  rw [not_isEmpty_iff] at hne
  obtain ⟨z0⟩ := hne
  have hcard : 0 < (Fintype.card (Fin N → Fin K) : 𝕜) := by
    exact_mod_cast Fintype.card_pos_iff.2 ⟨z0⟩
  obtain ⟨ε, hεdef⟩ : ∃ ε : 𝕜, ε = c ^ L / Fintype.card (Fin N → Fin K) := ⟨_, rfl⟩
  have hprod : Fintype.card (Fin N → Fin K) * ε = c ^ L := by
    rw [hεdef]; field_simp
  have hcL : c ^ L ≤ 1 := pow_le_one₀ hc0.le hc1
  refine ⟨1 - c ^ L, by linarith, by linarith [pow_pos hc0 L], ?_⟩
  intro l h1 h2 f lo hi hf
  have hε : ∀ z y, ε ≤ chanceTo J l z y := by
    intro z y
    have := chanceTo_ge J hJ c hc0 hc l y z (fun i hi => absurd (h2 i) hi)
    rw [h1] at this
    refine le_trans ?_ this
    rw [hεdef]
    have hone : (1 : 𝕜) ≤ Fintype.card (Fin N → Fin K) := by
      exact_mod_cast Fintype.card_pos_iff.2 ⟨z0⟩
    exact div_le_self (pow_nonneg hc0.le _) hone
  obtain ⟨lo', hi', h3, h4⟩ := sweep_contracts J hJ l ε hε f lo hi hf
  exact ⟨lo', hi', h3, by rw [h4, hprod]⟩

/-- An expected value lies between the bounds of the quantity. -/
theorem mean_between (J : (Fin N → Fin K) → 𝕜) (hJ : ∀ z, 0 < J z) (z : Fin N → Fin K) (f : (Fin N → Fin K) → 𝕜) (lo hi : 𝕜)
    (hf : ∀ z, lo ≤ f z ∧ f z ≤ hi) : lo ≤ (∑ y, J y * f y) / ∑ y, J y ∧ (∑ y, J y * f y) / ∑ y, J y ≤ hi := by
  have hJsum : 0 < ∑ y, J y := Finset.sum_pos (fun y _ => hJ y) ⟨z, Finset.mem_univ _⟩
  constructor
  · rw [le_div_iff₀ hJsum, Finset.mul_sum]
    exact Finset.sum_le_sum fun y _ => by
      rw [mul_comm]; exact mul_le_mul_of_nonneg_left (hf y).1 (hJ y).le
  · rw [div_le_iff₀ hJsum, Finset.mul_sum]
    exact Finset.sum_le_sum fun y _ => by
      rw [mul_comm hi]; exact mul_le_mul_of_nonneg_left (hf y).2 (hJ y).le

/-! ## Steps with chances that are only nearly right -/

/-- The expected value of `f` after steps at the positions given, the first one first, with the chances `c` -/
def runBy (c : (Fin N → Fin K) → Fin N → Fin K → 𝕜) : List (Fin N) → ((Fin N → Fin K) → 𝕜) → (Fin N → Fin K) → 𝕜
  | [], f => f
  | i :: is, f => fun z => ∑ k, c z i k * runBy c is f (Function.update z i k)

/-- The chances are those of distributions. -/
structure Kernel (c : (Fin N → Fin K) → Fin N → Fin K → 𝕜) : Prop where
  nonneg : ∀ z i k, 0 ≤ c z i k
  sum_one : ∀ z i, ∑ k, c z i k = 1

theorem run_eq_runBy (J : (Fin N → Fin K) → 𝕜) (l : List (Fin N)) (f : (Fin N → Fin K) → 𝕜) : run J l f = runBy (cond J) l f := by
  induction l with
  | nil => rfl
  | cons i l ih => show step J i (run J l f) = _; rw [ih]; rfl

theorem cond_kernel (J : (Fin N → Fin K) → 𝕜) (hJ : ∀ z, 0 < J z) : Kernel (cond J) :=
  ⟨fun z i k => (cond_pos J hJ z i k).le, fun z i => cond_sum J hJ z i⟩

theorem runBy_append (c : (Fin N → Fin K) → Fin N → Fin K → 𝕜) (l m : List (Fin N)) (f : (Fin N → Fin K) → 𝕜) :
    runBy c (l ++ m) f = runBy c l (runBy c m f) := by
  induction l with
  | nil => rfl
  | cons i l ih => simp only [List.cons_append, runBy, ih]

theorem runBy_add (c : (Fin N → Fin K) → Fin N → Fin K → 𝕜) (l : List (Fin N)) (f g : (Fin N → Fin K) → 𝕜) :
    ∀ z, runBy c l (fun y => f y + g y) z = runBy c l f z + runBy c l g z := by
  induction l with
  | nil => exact fun _ => rfl
  | cons i l ih =>
    intro z
    simp only [runBy, ih, mul_add, Finset.sum_add_distrib]

theorem runBy_mul (c : (Fin N → Fin K) → Fin N → Fin K → 𝕜) (l : List (Fin N)) (a : 𝕜) (f : (Fin N → Fin K) → 𝕜) :
    ∀ z, runBy c l (fun y => a * f y) z = a * runBy c l f z := by
  induction l with
  | nil => exact fun _ => rfl
  | cons i l ih =>
    intro z
    simp only [runBy, ih, Finset.mul_sum]
    exact Finset.sum_congr rfl fun k _ => by ring

theorem runBy_const (c : (Fin N → Fin K) → Fin N → Fin K → 𝕜) (hc : Kernel c) (l : List (Fin N)) (a : 𝕜) :
    ∀ z, runBy c l (fun _ => a) z = a := by
  induction l with
  | nil => exact fun _ => rfl
  | cons i l ih =>
    intro z
    simp only [runBy, ih, ← Finset.sum_mul, hc.sum_one, one_mul]

theorem runBy_const_add (c : (Fin N → Fin K) → Fin N → Fin K → 𝕜) (hc : Kernel c) (l : List (Fin N)) (a : 𝕜)
    (f : (Fin N → Fin K) → 𝕜) (z : Fin N → Fin K) : runBy c l (fun y => a + f y) z = a + runBy c l f z := by
  rw [runBy_add, runBy_const c hc]

theorem runBy_sum {ι : Type} (c : (Fin N → Fin K) → Fin N → Fin K → 𝕜) (l : List (Fin N)) (s : Finset ι)
    (f : ι → (Fin N → Fin K) → 𝕜) : ∀ z, runBy c l (fun y => ∑ i ∈ s, f i y) z = ∑ i ∈ s, runBy c l (f i) z := by
  induction l with
  | nil => exact fun _ => rfl
  | cons i l ih =>
    intro z
    simp only [runBy, ih, Finset.mul_sum]
    exact Finset.sum_comm

theorem average_between (w : Fin K → 𝕜) (h0 : ∀ k, 0 ≤ w k) (h1 : ∑ k, w k = 1) (x : Fin K → 𝕜) (lo hi : 𝕜)
    (hx : ∀ k, lo ≤ x k ∧ x k ≤ hi) : lo ≤ ∑ k, w k * x k ∧ ∑ k, w k * x k ≤ hi := by
  constructor
  · calc lo = ∑ k, w k * lo := by rw [← Finset.sum_mul, h1, one_mul]
      _ ≤ _ := Finset.sum_le_sum fun k _ => mul_le_mul_of_nonneg_left (hx k).1 (h0 k)
  · calc _ ≤ ∑ k, w k * hi := Finset.sum_le_sum fun k _ => mul_le_mul_of_nonneg_left (hx k).2 (h0 k)
      _ = hi := by rw [← Finset.sum_mul, h1, one_mul]

theorem runBy_between (c : (Fin N → Fin K) → Fin N → Fin K → 𝕜) (hc : Kernel c) (l : List (Fin N)) (f : (Fin N → Fin K) → 𝕜)
    (lo hi : 𝕜) (hf : ∀ z, lo ≤ f z ∧ f z ≤ hi) : ∀ z, lo ≤ runBy c l f z ∧ runBy c l f z ≤ hi := by
  induction l with
  | nil => exact hf
  | cons i l ih => exact fun z => average_between _ (hc.nonneg z i) (hc.sum_one z i) _ lo hi fun k => ih _

/-- Chances that are off by at most `η` change the expected value in proportion to the number of steps. -/
theorem runBy_close (c q : (Fin N → Fin K) → Fin N → Fin K → 𝕜) (hc : Kernel c) (hq : Kernel q) (η : 𝕜)
    (hη : ∀ z i k, |q z i k - c z i k| ≤ η) (l : List (Fin N)) (f : (Fin N → Fin K) → 𝕜)
    (lo hi : 𝕜) (hf : ∀ z, lo ≤ f z ∧ f z ≤ hi) : ∀ z, |runBy q l f z - runBy c l f z| ≤ l.length * (K * η) * (hi - lo) := by
  induction l with
  | nil => intro z; simp [runBy]
  | cons i l ih =>
    intro z
    have hb := runBy_between c hc l f lo hi hf
    have hsplit : runBy q (i :: l) f z - runBy c (i :: l) f z
        = ∑ k, q z i k * (runBy q l f (Function.update z i k) - runBy c l f (Function.update z i k))
          + ∑ k, (q z i k - c z i k) * (runBy c l f (Function.update z i k) - lo) := by
      have h1 : ∑ k, (q z i k - c z i k) * (runBy c l f (Function.update z i k) - lo)
          = ∑ k, (q z i k - c z i k) * runBy c l f (Function.update z i k) := by
        simp only [mul_sub, Finset.sum_sub_distrib]
        rw [← Finset.sum_mul, Finset.sum_sub_distrib, hq.sum_one, hc.sum_one]
        ring
      rw [h1, ← Finset.sum_add_distrib]
      show ∑ k, q z i k * runBy q l f (Function.update z i k) - ∑ k, c z i k * runBy c l f (Function.update z i k) = _
      rw [← Finset.sum_sub_distrib]
      exact Finset.sum_congr rfl fun k _ => by ring
    have h1 : |∑ k, q z i k * (runBy q l f (Function.update z i k) - runBy c l f (Function.update z i k))|
        ≤ l.length * (K * η) * (hi - lo) := by
      rw [abs_le]
      exact average_between _ (hq.nonneg z i) (hq.sum_one z i) _ _ _ fun k => abs_le.1 (ih _)
    have h2 : |∑ k, (q z i k - c z i k) * (runBy c l f (Function.update z i k) - lo)| ≤ K * η * (hi - lo) := by
      calc _ ≤ ∑ k, |(q z i k - c z i k) * (runBy c l f (Function.update z i k) - lo)| := Finset.abs_sum_le_sum_abs _ _
        _ ≤ ∑ _k : Fin K, η * (hi - lo) := by
            refine Finset.sum_le_sum fun k _ => ?_
            rw [abs_mul]
            have h3 := hb (Function.update z i k)
            have h4 : |runBy c l f (Function.update z i k) - lo| ≤ hi - lo := by
              rw [abs_le]; constructor <;> linarith
            exact mul_le_mul (hη z i k) h4 (abs_nonneg _) ((abs_nonneg _).trans (hη z i k))
        _ = K * η * (hi - lo) := by simp; ring
    rw [hsplit]
    refine (abs_add_le _ _).trans ?_
    rw [List.length_cons]
    push_cast
    linarith

/-- With chances that are off by at most `η`, any number of sweeps leads close to the expected value under `J`. -/
theorem noisy_converges (J : (Fin N → Fin K) → 𝕜) (hJ : ∀ z, 0 < J z) (L : Nat) :
    ∃ ρ : 𝕜, 0 ≤ ρ ∧ ρ < 1 ∧ ∀ (q : (Fin N → Fin K) → Fin N → Fin K → 𝕜), Kernel q → ∀ η : 𝕜, 0 ≤ η →
      (∀ z i k, |q z i k - cond J z i k| ≤ η) →
      ∀ (sweeps : List (List (Fin N))), (∀ l ∈ sweeps, l.length = L ∧ ∀ i, i ∈ l) →
      ∀ (f : (Fin N → Fin K) → 𝕜) (lo hi : 𝕜), (∀ z, lo ≤ f z ∧ f z ≤ hi) → ∀ z,
        |runBy q sweeps.flatten f z - (∑ y, J y * f y) / ∑ y, J y|
          ≤ (ρ ^ sweeps.length + L * (K * η) / (1 - ρ)) * (hi - lo) := by
  obtain ⟨ρ, h0, h1, hc⟩ := contracts J hJ L
  refine ⟨ρ, h0, h1, ?_⟩
  intro q hq η hη0 hη sweeps
  have hρ : 0 < 1 - ρ := by linarith
  have hn : 0 ≤ L * (K * η) / (1 - ρ) := by positivity
  induction sweeps using List.reverseRecOn with
  | nil =>
    intro _ f lo hi hf z
    obtain ⟨h2, h3⟩ := mean_between J hJ z f lo hi hf
    obtain ⟨h4, h5⟩ := hf z
    have h6 : 0 ≤ hi - lo := by linarith
    have h7 : |runBy q [].flatten f z - (∑ y, J y * f y) / ∑ y, J y| ≤ hi - lo := by
      show |f z - _| ≤ _
      rw [abs_le]; constructor <;> linarith
    refine h7.trans ?_
    rw [List.length_nil, pow_zero]
    nlinarith [mul_nonneg hn h6]
  | append_singleton ls l ih =>
    intro hs f lo hi hf z
    obtain ⟨hl1, hl2⟩ := hs l (by simp)
    obtain ⟨lo', hi', hb, hw⟩ := hc l hl1 hl2 f lo hi hf
    have hclose := runBy_close (cond J) q (cond_kernel J hJ) hq η hη l f lo hi hf
    rw [hl1] at hclose
    have hih := ih (fun l' hl' => hs l' (by simp [hl'])) (run J l f) lo' hi' hb z
    have hflat : (ls ++ [l]).flatten = ls.flatten ++ l := by simp
    have hsplit : runBy q (ls ++ [l]).flatten f z
        = runBy q ls.flatten (run J l f) z + runBy q ls.flatten (fun y => runBy q l f y - run J l f y) z := by
      rw [hflat, runBy_append, ← runBy_add]
      congr 1
      funext y
      ring
    have h2 := runBy_between q hq ls.flatten (fun y => runBy q l f y - run J l f y) (-(L * (K * η) * (hi - lo))) (L * (K * η) * (hi - lo))
      (fun y => by
        have := hclose y
        rw [← run_eq_runBy] at this
        exact abs_le.1 this) z
    rw [run_invariant J (fun z => (hJ z).le)] at hih
    rw [hw] at hih
    rw [hsplit, List.length_append, List.length_singleton, pow_succ]
    have h3 : (ρ ^ ls.length * ρ + L * (K * η) / (1 - ρ)) * (hi - lo)
        = (ρ ^ ls.length + L * (K * η) / (1 - ρ)) * (ρ * (hi - lo)) + L * (K * η) * (hi - lo) := by
      field_simp
      ring
    rw [h3, abs_le]
    rw [abs_le] at hih
    constructor <;> linarith [hih.1, hih.2, h2.1, h2.2]

/-- Any number of sweeps, each in an order of its own that leaves out no position, leads to the expected value under `J`: the
distance shrinks by a constant factor in every sweep. -/
theorem converges (J : (Fin N → Fin K) → 𝕜) (hJ : ∀ z, 0 < J z) (L : Nat) :
    ∃ ρ : 𝕜, 0 ≤ ρ ∧ ρ < 1 ∧ ∀ (sweeps : List (List (Fin N))), (∀ l ∈ sweeps, l.length = L ∧ ∀ i, i ∈ l) →
      ∀ (f : (Fin N → Fin K) → 𝕜) (lo hi : 𝕜), (∀ z, lo ≤ f z ∧ f z ≤ hi) → ∀ z,
        |run J sweeps.flatten f z - (∑ y, J y * f y) / ∑ y, J y| ≤ ρ ^ sweeps.length * (hi - lo) := by
  obtain ⟨ρ, h0, h1, h⟩ := noisy_converges J hJ L
  refine ⟨ρ, h0, h1, ?_⟩
  intro sweeps hs f lo hi hf z
  have := h (cond J) (cond_kernel J hJ) 0 le_rfl (fun z i k => by simp) sweeps hs f lo hi hf z
  rw [← run_eq_runBy] at this
  simpa using this

end Verif.GibbsChain
