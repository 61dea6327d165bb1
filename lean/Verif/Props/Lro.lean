import Mathlib.Data.Matrix.Mul
import Mathlib.Algebra.BigOperators.Field
import Mathlib.Algebra.BigOperators.Ring.Finset
import Mathlib.Algebra.Order.BigOperators.Ring.Finset
import Mathlib.Tactic.Linarith
import Mathlib.Tactic.FieldSimp
import Mathlib.Tactic.Ring
import Mathlib.Tactic.NormNum
import Mathlib.Tactic.FinCases
import Mathlib.LinearAlgebra.Matrix.Determinant.Basic
import Verif.Model.Lro

/-!
# Properties of latent random offsets (C182 to C186)

The specification is the model of the paper, stated without the helpers of the code: the weighted squared error of the predicted
links, in which linked pairs weigh `tau1` and other pairs of different documents `tau0`.
-/

namespace Verif.Props.Lro

open Verif Verif.Lro

/-! ## Specification -/

/-- The product of a document's topics and another one's offsets, which times the scale is the predicted link -/
noncomputable def affinity (K : Nat) (tops offs : Nat → Nat → ℝ) (d q : Nat) : ℝ := ∑ k ∈ Finset.range K, tops d k * offs q k

/-- The weight of a pair -/
noncomputable def weight (p : Params) (d q : Nat) : ℝ := if d ∈ p.inlinks q then p.tau1 else p.tau0

/-- The link observed -/
noncomputable def observed (p : Params) (d q : Nat) : ℝ := if d ∈ p.inlinks q then 1 else 0

/-- The other documents -/
def others (p : Params) (q : Nat) : Finset Nat := (Finset.range p.D).erase q

/-- The weighted squared error of all predicted links -/
noncomputable def linkError (p : Params) (tops offs : Nat → Nat → ℝ) (s : ℝ) : ℝ :=
  ∑ q ∈ Finset.range p.D, ∑ d ∈ others p q, weight p d q * (observed p d q - s * affinity p.K tops offs d q) ^ 2

/-- The penalised error for the offsets `o` of one document -/
noncomputable def offsetError (p : Params) (tops : Nat → Nat → ℝ) (s : ℝ) (q : Nat) (o : Nat → ℝ) : ℝ :=
  ∑ d ∈ others p q, weight p d q * (observed p d q - s * ∑ k ∈ Finset.range p.K, tops d k * o k) ^ 2
    + p.noise * ∑ k ∈ Finset.range p.K, (o k - tops q k) ^ 2

/-- Links are stored once, lead to documents of the corpus and never from a document to itself -/
def Clean (p : Params) : Prop := ∀ q, q < p.D → (p.inlinks q).Nodup ∧ ∀ d ∈ p.inlinks q, d < p.D ∧ d ≠ q

/-! ## Sums over links -/

theorem list_sum (l : List Nat) (hn : l.Nodup) (s : Finset Nat) (hs : ∀ d ∈ l, d ∈ s) (f : Nat → ℝ) :
    (l.map f).sum = ∑ d ∈ s, if d ∈ l then f d else 0 := by
  rw [← Finset.sum_filter]
  have h : s.filter (fun d => d ∈ l) = l.toFinset := by
    ext d
    simp only [Finset.mem_filter, List.mem_toFinset]
    exact ⟨fun h => h.2, fun h => ⟨hs d h, h⟩⟩
  rw [h, List.sum_toFinset _ hn]

theorem dot_eq (K : Nat) (tops offs : Nat → Nat → ℝ) (d q : Nat) : dot K (tops d) (offs q) = affinity K tops offs d q := rfl

theorem quad_outer (K : Nat) (t v : Nat → ℝ) :
    quadForm K (fun i j => t i * t j) v = (∑ k ∈ Finset.range K, t k * v k) ^ 2 := by
  unfold quadForm dot
  rw [sq, Finset.mul_sum]
  refine Finset.sum_congr rfl fun j _ => ?_
  rw [Finset.sum_mul, Finset.sum_mul]
  refine Finset.sum_congr rfl fun i _ => ?_
  ring

theorem quad_sum (p : Params) (tops : Nat → Nat → ℝ) (v : Nat → ℝ) :
    quadForm p.K (topsSum p tops) v = ∑ d ∈ Finset.range p.D, (∑ k ∈ Finset.range p.K, tops d k * v k) ^ 2 := by
  simp_rw [← quad_outer]
  unfold quadForm dot topsSum
  rw [Finset.sum_comm]
  refine Finset.sum_congr rfl fun j _ => ?_
  rw [← Finset.sum_mul]
  congr 1
  rw [Finset.sum_comm]
  refine Finset.sum_congr rfl fun i _ => ?_
  rw [Finset.mul_sum]

section
variable (p : Params) (tops offs : Nat → Nat → ℝ)

theorem mem_others {q d : Nat} (hc : Clean p) (hq : q < p.D) (hd : d ∈ p.inlinks q) : d ∈ others p q := by
  obtain ⟨h1, h2⟩ := (hc q hq).2 d hd
  exact Finset.mem_erase.mpr ⟨h2, Finset.mem_range.mpr h1⟩

theorem lhs_at (hc : Clean p) (q : Nat) (hq : q < p.D) :
    scaleLhsAt p tops offs q = ∑ d ∈ others p q, weight p d q * affinity p.K tops offs d q ^ 2 := by
  have e1 : quadForm p.K (topsSum p tops) (offs q) - quadForm p.K (fun i j => tops q i * tops q j) (offs q)
      = ∑ d ∈ others p q, affinity p.K tops offs d q ^ 2 := by
    rw [quad_sum, quad_outer]
    have := Finset.sum_erase_add (Finset.range p.D) (fun d => affinity p.K tops offs d q ^ 2) (Finset.mem_range.mpr hq)
    unfold others
    unfold affinity at this ⊢
    linarith
  unfold scaleLhsAt
  rw [e1, list_sum _ (hc q hq).1 (others p q) (fun d hd => mem_others p hc hq hd), Finset.mul_sum, Finset.mul_sum, ← Finset.sum_add_distrib]
  refine Finset.sum_congr rfl fun d _ => ?_
  unfold weight
  rw [dot_eq]
  split_ifs <;> ring

theorem rhs_at (hc : Clean p) (q : Nat) (hq : q < p.D) :
    scaleRhsAt p tops offs q = ∑ d ∈ others p q, weight p d q * observed p d q * affinity p.K tops offs d q := by
  unfold scaleRhsAt
  rw [list_sum _ (hc q hq).1 (others p q) (fun d hd => mem_others p hc hq hd), Finset.mul_sum]
  refine Finset.sum_congr rfl fun d _ => ?_
  unfold weight observed
  rw [dot_eq]
  split_ifs <;> ring

theorem linkError_quadratic (hc : Clean p) (s : ℝ) :
    linkError p tops offs s = linkError p tops offs 0 - 2 * s * scaleRhs p tops offs + s ^ 2 * scaleLhs p tops offs := by
  unfold linkError scaleRhs scaleLhs
  rw [Finset.mul_sum, Finset.mul_sum, ← Finset.sum_sub_distrib, ← Finset.sum_add_distrib]
  refine Finset.sum_congr rfl fun q hq => ?_
  have hq' := Finset.mem_range.mp hq
  rw [lhs_at p tops offs hc q hq', rhs_at p tops offs hc q hq', Finset.mul_sum, Finset.mul_sum, ← Finset.sum_sub_distrib,
    ← Finset.sum_add_distrib]
  refine Finset.sum_congr rfl fun d _ => ?_
  ring

theorem lhs_nonneg (hc : Clean p) (h0 : 0 ≤ p.tau0) (h1 : 0 ≤ p.tau1) : 0 ≤ scaleLhs p tops offs := by
  unfold scaleLhs
  refine Finset.sum_nonneg fun q hq => ?_
  rw [lhs_at p tops offs hc q (Finset.mem_range.mp hq)]
  refine Finset.sum_nonneg fun d _ => mul_nonneg ?_ (sq_nonneg _)
  unfold weight
  split_ifs <;> assumption

end

/-! ## What an iteration returns -/

theorem step_ok {p : Params} {tops : Nat → Nat → ℝ} {st : State} {r : State × ℝ × ℝ} (h : step p tops st = .ok r) :
    scaleLhs p tops st.offs ≠ 0 ∧ r.1.scale = scaleRhs p tops st.offs / scaleLhs p tops st.offs ∧ r.1.scale ≠ 0
      ∧ r.1.offs = newOffset p tops r.1.scale ∧ ∀ q, q < p.D → (offsetMat p tops r.1.scale q).det ≠ 0 := by
  unfold step at h
  split_ifs at h with h1 h2 h3
  dsimp only at h
  split_ifs at h with h4 h5
  simp only [Except.ok.injEq] at h
  subst h
  refine ⟨h3, rfl, h5, rfl, fun q hq hd => h4 ⟨q, hq, hd⟩⟩

/-- C182: in a corpus without self links the new scale is the one and only minimiser of the weighted squared error of the predicted
links, for the offsets the iteration starts with. -/
theorem scale_optimal_partial (p : Params) (tops : Nat → Nat → ℝ) (st : State) (r : State × ℝ × ℝ) (hc : Clean p)
    (h0 : 0 ≤ p.tau0) (h1 : 0 ≤ p.tau1) (h : step p tops st = .ok r) (s : ℝ) :
    linkError p tops st.offs r.1.scale ≤ linkError p tops st.offs s
      ∧ (linkError p tops st.offs s ≤ linkError p tops st.offs r.1.scale → s = r.1.scale) := by
  obtain ⟨hl, hs, -, -, -⟩ := step_ok h
  have hpos : 0 < scaleLhs p tops st.offs := lt_of_le_of_ne (lhs_nonneg p tops st.offs hc h0 h1) (Ne.symm hl)
  have key : linkError p tops st.offs s - linkError p tops st.offs r.1.scale
      = scaleLhs p tops st.offs * (s - r.1.scale) ^ 2 := by
    rw [linkError_quadratic p tops st.offs hc s, linkError_quadratic p tops st.offs hc r.1.scale]
    have hr : scaleRhs p tops st.offs = r.1.scale * scaleLhs p tops st.offs := by
      rw [hs]
      field_simp
    rw [hr]
    ring
  constructor
  · have := mul_nonneg hpos.le (sq_nonneg (s - r.1.scale))
    linarith
  · intro hle
    have h2 : scaleLhs p tops st.offs * (s - r.1.scale) ^ 2 ≤ 0 := by linarith
    have h3 : (s - r.1.scale) ^ 2 ≤ 0 := by
      by_contra hn
      have := mul_pos hpos (not_le.mp hn)
      linarith
    have h4 : s - r.1.scale = 0 := by
      have := le_antisymm h3 (sq_nonneg _)
      exact pow_eq_zero_iff (two_ne_zero) |>.mp this
    linarith

/-! ## The offsets -/

section
variable (p : Params) (tops : Nat → Nat → ℝ) (s : ℝ) (q : Nat)

/-- The weighted sum of the topics of the other documents -/
noncomputable def pull (j : Nat) : ℝ :=
  (p.tau1 - p.tau0) * ((p.inlinks q).map fun d => tops d j).sum + p.tau0 * ((∑ d ∈ Finset.range p.D, tops d j) - tops q j)

/-- The number the system of the offsets is divided by -/
noncomputable def pivot : ℝ := p.noise + s * s * ∑ k ∈ Finset.range p.K, tops q k * pull p tops q k

theorem lhs_eq (j k : Nat) : offsetLhs p tops s q j k = s * s * pull p tops q j * tops q k + (if j = k then p.noise else 0) := by
  unfold offsetLhs pull
  ring

/-- The inverse of the matrix -/
noncomputable def invMat : Matrix (Fin p.K) (Fin p.K) ℝ :=
  Matrix.of fun j k => ((if j = k then 1 else 0) - s * s * pull p tops q j * tops q k / pivot p tops s q) / p.noise

theorem mat_mul (hn : p.noise ≠ 0) (hp : pivot p tops s q ≠ 0) : offsetMat p tops s q * invMat p tops s q = 1 := by
  ext i k
  rw [Matrix.mul_apply, Matrix.one_apply]
  have h1 : ∀ j : Fin p.K, offsetMat p tops s q i j * invMat p tops s q j k
      = (if i = j then (if j = k then (1 : ℝ) else 0) else 0)
        - (if i = j then s * s * pull p tops q j * tops q k / pivot p tops s q else 0)
        + s * s * pull p tops q i / p.noise * ((if j = k then tops q j else 0)
        - (tops q j * pull p tops q j) * (s * s * tops q k / pivot p tops s q)) := by
    intro j
    show offsetLhs p tops s q i j * (((if j = k then 1 else 0) - s * s * pull p tops q j * tops q k / pivot p tops s q) / p.noise) = _
    rw [lhs_eq]
    have hij : ((i : Nat) = (j : Nat)) ↔ i = j := Fin.ext_iff.symm
    simp only [hij]
    by_cases h : i = j
    · by_cases h' : j = k
      · simp only [h, h', if_true]; field_simp; ring
      · simp only [h, h', if_true, if_false]; field_simp; ring
    · by_cases h' : j = k
      · subst h'
        simp only [h, if_true, if_false]; field_simp; ring
      · simp only [h, h', if_false]; field_simp; ring
  rw [Finset.sum_congr rfl fun j _ => h1 j, Finset.sum_add_distrib, Finset.sum_sub_distrib, ← Finset.mul_sum, Finset.sum_sub_distrib,
    ← Finset.sum_mul]
  simp only [Finset.sum_ite_eq, Finset.sum_ite_eq', Finset.mem_univ, if_true]
  have h2 : ∑ j : Fin p.K, tops q j * pull p tops q j = ∑ k ∈ Finset.range p.K, tops q k * pull p tops q k :=
    (Finset.sum_range fun k => tops q k * pull p tops q k).symm
  rw [h2]
  have h3 : pivot p tops s q = p.noise + s * s * ∑ k ∈ Finset.range p.K, tops q k * pull p tops q k := rfl
  generalize (∑ k ∈ Finset.range p.K, tops q k * pull p tops q k) = v at h3
  generalize pivot p tops s q = g at h3 hp ⊢
  have hz : g - p.noise - s * s * v = 0 := by linarith
  have e : ∀ a t P : ℝ, a - s * s * P * t / g + s * s * P / p.noise * (t - v * (s * s * t / g))
      = a + s * s * P * t * (g - p.noise - s * s * v) / (p.noise * g) := by
    intro a t P
    field_simp
    ring
  rw [e, hz, mul_zero, zero_div, add_zero]

theorem det_ne (hn : p.noise ≠ 0) (hp : pivot p tops s q ≠ 0) : (offsetMat p tops s q).det ≠ 0 := by
  have := Matrix.isUnit_det_of_right_inverse (mat_mul p tops s q hn hp)
  exact this.ne_zero

/-- C183: what the code computes for the offsets of a document: a multiple of its own topics and those of the documents linking to it,
less a multiple of the weighted sum of the topics of the other documents, all divided by the noise. -/
theorem offset_closed_form (hn : p.noise ≠ 0) (hp : pivot p tops s q ≠ 0) (k : Nat) (hk : k < p.K) :
    newOffset p tops s q k
      = (offsetRhs p tops s q k
          - s * s * pull p tops q k * (∑ j ∈ Finset.range p.K, tops q j * offsetRhs p tops s q j) / pivot p tops s q) / p.noise := by
  unfold newOffset
  rw [dif_pos hk, Matrix.inv_eq_right_inv (mat_mul p tops s q hn hp)]
  have h1 : ∀ j : Fin p.K, invMat p tops s q ⟨k, hk⟩ j * offsetRhs p tops s q j
      = (if (⟨k, hk⟩ : Fin p.K) = j then offsetRhs p tops s q j / p.noise else 0)
        - (tops q j * offsetRhs p tops s q j) * (s * s * pull p tops q k / pivot p tops s q / p.noise) := by
    intro j
    show (((if (⟨k, hk⟩ : Fin p.K) = j then 1 else 0) - s * s * pull p tops q k * tops q j / pivot p tops s q) / p.noise)
      * offsetRhs p tops s q j = _
    by_cases h : (⟨k, hk⟩ : Fin p.K) = j
    · simp only [h, if_true]; field_simp
    · simp only [h, if_false]; field_simp; ring
  rw [Finset.sum_congr rfl fun j _ => h1 j, Finset.sum_sub_distrib, ← Finset.sum_mul]
  simp only [Finset.sum_ite_eq, Finset.mem_univ, if_true]
  rw [Finset.sum_range fun j => tops q j * offsetRhs p tops s q j]
  field_simp

/-- C183: a document that is not linked to, with unlinked pairs weighing nothing, has its topics divided by the noise as offsets (the best
offsets are the topics themselves). -/
theorem offset_unlinked (hn : p.noise ≠ 0) (h0 : p.tau0 = 0) (hl : p.inlinks q = []) (k : Nat) (hk : k < p.K) :
    newOffset p tops s q k = tops q k / p.noise := by
  have hpull : ∀ j, pull p tops q j = 0 := by
    intro j
    unfold pull
    rw [hl, h0]
    simp
  have hp : pivot p tops s q = p.noise := by
    unfold pivot
    simp [hpull]
  rw [offset_closed_form p tops s q hn (by rw [hp]; exact hn) k hk]
  unfold offsetRhs
  rw [hpull, hl]
  simp

theorem pull_nonneg (h0 : 0 ≤ p.tau0) (h1 : p.tau0 ≤ p.tau1) (hq : q < p.D) (hl : ∀ d ∈ p.inlinks q, d < p.D)
    (ht : ∀ d k, d < p.D → k < p.K → 0 ≤ tops d k) (k : Nat) (hk : k < p.K) : 0 ≤ pull p tops q k := by
  unfold pull
  have e : (∑ d ∈ Finset.range p.D, tops d k) - tops q k = ∑ d ∈ others p q, tops d k := by
    have := Finset.sum_erase_add (Finset.range p.D) (fun d => tops d k) (Finset.mem_range.mpr hq)
    unfold others
    linarith
  rw [e]
  refine add_nonneg (mul_nonneg (by linarith) ?_) (mul_nonneg h0 ?_)
  · refine List.sum_nonneg fun a ha => ?_
    obtain ⟨d, hd, rfl⟩ := List.mem_map.mp ha
    exact ht d k (hl d hd) hk
  · refine Finset.sum_nonneg fun d hd => ht d k ?_ hk
    exact Finset.mem_range.mp (Finset.mem_of_mem_erase hd)

theorem pivot_pos (h0 : 0 ≤ p.tau0) (h1 : p.tau0 ≤ p.tau1) (hn : 0 < p.noise) (hq : q < p.D) (hl : ∀ d ∈ p.inlinks q, d < p.D)
    (ht : ∀ d k, d < p.D → k < p.K → 0 ≤ tops d k) : 0 < pivot p tops s q := by
  unfold pivot
  have : 0 ≤ ∑ k ∈ Finset.range p.K, tops q k * pull p tops q k :=
    Finset.sum_nonneg fun k hk => mul_nonneg (ht q k hq (Finset.mem_range.mp hk))
      (pull_nonneg p tops q h0 h1 hq hl ht k (Finset.mem_range.mp hk))
  have := mul_nonneg (mul_self_nonneg s) this
  linarith

/-- C184: with a positive noise and linked pairs weighing at least as much as others, the systems solved for the offsets are never
singular, whatever the scale. -/
theorem offsets_solvable (h0 : 0 ≤ p.tau0) (h1 : p.tau0 ≤ p.tau1) (hn : 0 < p.noise) (hq : q < p.D) (hl : ∀ d ∈ p.inlinks q, d < p.D)
    (ht : ∀ d k, d < p.D → k < p.K → 0 ≤ tops d k) : (offsetMat p tops s q).det ≠ 0 :=
  det_ne p tops s q hn.ne' (pivot_pos p tops s q h0 h1 hn hq hl ht).ne'

/-- C183: the offsets are the best ones when the noise is one and all documents have the same topics. -/
theorem offset_optimal_partial (hc : Clean p) (hq : q < p.D) (h0 : 0 ≤ p.tau0) (h1 : 0 ≤ p.tau1) (hn : p.noise = 1)
    (hsame : ∀ d, d < p.D → tops d = tops q) (hp : pivot p tops s q ≠ 0) (o : Nat → ℝ) :
    offsetError p tops s q (newOffset p tops s q) ≤ offsetError p tops s q o := by
  set x : Nat → ℝ := newOffset p tops s q with hx
  set t := tops q with htq
  set W : ℝ := ∑ d ∈ others p q, weight p d q with hW
  set L : ℝ := ∑ d ∈ others p q, weight p d q * observed p d q with hL
  have hsd : ∀ d ∈ others p q, tops d = t := fun d hd => hsame d (Finset.mem_range.mp (Finset.mem_of_mem_erase hd))
  have hcount : ∀ j, ((p.inlinks q).map fun d => tops d j).sum = (∑ d ∈ others p q, observed p d q) * t j := by
    intro j
    rw [list_sum _ (hc q hq).1 (others p q) (fun d hd => mem_others p hc hq hd), Finset.sum_mul]
    refine Finset.sum_congr rfl fun d hd => ?_
    unfold observed
    rw [hsd d hd]
    split_ifs <;> ring
  have hLobs : L = p.tau1 * ∑ d ∈ others p q, observed p d q := by
    rw [hL, Finset.mul_sum]
    refine Finset.sum_congr rfl fun d _ => ?_
    unfold weight observed
    split_ifs <;> ring
  have hpull : ∀ j, pull p tops q j = W * t j := by
    intro j
    have e : (∑ d ∈ Finset.range p.D, tops d j) - tops q j = (∑ d ∈ others p q, (1 : ℝ)) * t j := by
      have := Finset.sum_erase_add (Finset.range p.D) (fun d => tops d j) (Finset.mem_range.mpr hq)
      rw [Finset.sum_mul]
      have h2 : ∑ d ∈ others p q, (1 : ℝ) * t j = ∑ d ∈ others p q, tops d j :=
        Finset.sum_congr rfl fun d hd => by rw [hsd d hd, one_mul]
      rw [h2]
      unfold others
      linarith
    unfold pull
    rw [hcount, e, ← mul_assoc, ← mul_assoc, ← add_mul]
    congr 1
    rw [hW, Finset.mul_sum, Finset.mul_sum, ← Finset.sum_add_distrib]
    refine Finset.sum_congr rfl fun d _ => ?_
    unfold weight observed
    split_ifs <;> ring
  have hrhs : ∀ j, offsetRhs p tops s q j = t j * (1 + s * L) := by
    intro j
    unfold offsetRhs
    rw [hcount, hLobs]
    ring
  set N : ℝ := ∑ k ∈ Finset.range p.K, t k * t k with hN
  have hpiv : pivot p tops s q = 1 + s * s * (W * N) := by
    unfold pivot
    have h2 : ∑ k ∈ Finset.range p.K, tops q k * pull p tops q k = W * N := by
      rw [hN, Finset.mul_sum]
      refine Finset.sum_congr rfl fun k _ => ?_
      rw [hpull]
      ring
    rw [hn, h2]
  have hxk : ∀ k, k < p.K → x k = t k * ((1 + s * L) / (1 + s * s * (W * N))) := by
    intro k hk
    rw [hx, offset_closed_form p tops s q (by rw [hn]; exact one_ne_zero) hp k hk, hn, hrhs, hpull]
    have : ∑ j ∈ Finset.range p.K, tops q j * offsetRhs p tops s q j = N * (1 + s * L) := by
      rw [hN, Finset.sum_mul]
      refine Finset.sum_congr rfl fun j _ => ?_
      rw [hrhs]
      ring
    rw [this, hpiv]
    rw [hpiv] at hp
    rw [div_one, mul_div_assoc', eq_div_iff hp, sub_mul, div_mul_cancel₀ _ hp]
    ring
  -- the error in terms of one product
  have herr : ∀ y : Nat → ℝ, offsetError p tops s q y
      = (∑ d ∈ others p q, weight p d q * observed p d q ^ 2) - 2 * s * L * (∑ k ∈ Finset.range p.K, t k * y k)
        + s ^ 2 * W * (∑ k ∈ Finset.range p.K, t k * y k) ^ 2 + ∑ k ∈ Finset.range p.K, (y k - t k) ^ 2 := by
    intro y
    unfold offsetError
    rw [hn, one_mul]
    congr 1
    have h2 : ∀ d ∈ others p q, weight p d q * (observed p d q - s * ∑ k ∈ Finset.range p.K, tops d k * y k) ^ 2
        = weight p d q * (observed p d q - s * ∑ k ∈ Finset.range p.K, t k * y k) ^ 2 := fun d hd => by rw [hsd d hd]
    rw [Finset.sum_congr rfl h2]
    generalize (∑ k ∈ Finset.range p.K, t k * y k) = P
    rw [hL, hW, Finset.mul_sum, Finset.sum_mul, Finset.mul_sum, Finset.sum_mul, ← Finset.sum_sub_distrib, ← Finset.sum_add_distrib]
    refine Finset.sum_congr rfl fun d hd => ?_
    ring
  have hWn : 0 ≤ W := Finset.sum_nonneg fun d _ => by unfold weight; split_ifs <;> assumption
  have hNn : 0 ≤ N := Finset.sum_nonneg fun k _ => mul_self_nonneg _
  set c : ℝ := (1 + s * L) / (1 + s * s * (W * N)) with hc'
  have hden : 0 < 1 + s * s * (W * N) := by
    have := mul_nonneg (mul_self_nonneg s) (mul_nonneg hWn hNn)
    linarith
  have hcEq : c * (1 + s * s * (W * N)) = 1 + s * L := by
    rw [hc']
    field_simp
  have e1 : ∑ k ∈ Finset.range p.K, t k * x k = N * c := by
    rw [hN, Finset.sum_mul]
    refine Finset.sum_congr rfl fun k hk => ?_
    rw [hxk k (Finset.mem_range.mp hk)]
    ring
  have e2 : ∑ k ∈ Finset.range p.K, (o k - t k) ^ 2
      = ∑ k ∈ Finset.range p.K, (o k - x k) ^ 2 + 2 * (c - 1) * ((∑ k ∈ Finset.range p.K, t k * o k) - N * c)
        + ∑ k ∈ Finset.range p.K, (x k - t k) ^ 2 := by
    rw [← e1, ← Finset.sum_sub_distrib, Finset.mul_sum, ← Finset.sum_add_distrib, ← Finset.sum_add_distrib]
    refine Finset.sum_congr rfl fun k hk => ?_
    rw [hxk k (Finset.mem_range.mp hk)]
    ring
  rw [herr, herr, e1, e2]
  generalize (∑ k ∈ Finset.range p.K, t k * o k) = P
  have h3 : 0 ≤ ∑ k ∈ Finset.range p.K, (o k - x k) ^ 2 := Finset.sum_nonneg fun k _ => sq_nonneg _
  have h4 : 0 ≤ s ^ 2 * W * (P - N * c) ^ 2 := mul_nonneg (mul_nonneg (sq_nonneg _) hWn) (sq_nonneg _)
  have h5 : 2 * (P - N * c) * (s * s * W * N * c + c - 1 - s * L) = 0 := by
    have : s * s * W * N * c + c - 1 - s * L = 0 := by linarith
    rw [this, mul_zero]
  nlinarith [h3, h4, h5]

end

/-! ## Training without links -/

/-- C185: if no document is linked to, training with at least one iteration raises `ValueError`. -/
theorem no_links_error (p : Params) (hD : 0 < p.D) (hl : ∀ q, q < p.D → p.inlinks q = []) (tops : Nat → Nat → ℝ) (scale : ℝ)
    (epsilon : Option ℝ) (iterations : Nat) (hi : 0 < iterations) :
    train p tops scale epsilon iterations = .error .valueError := by
  obtain ⟨n, rfl⟩ := Nat.exists_eq_succ_of_ne_zero hi.ne'
  have hr : ∀ offs, scaleRhs p tops offs = 0 := by
    intro offs
    unfold scaleRhs
    refine Finset.sum_eq_zero fun q hq => ?_
    unfold scaleRhsAt
    rw [hl q (Finset.mem_range.mp hq)]
    simp
  have hs : step p tops ⟨scale, tops⟩ = .error .valueError := by
    unfold step
    rw [if_neg hD.ne']
    simp only [hr, zero_div, if_true, ite_self]
  show loop p tops (tolerance p epsilon) (n + 1) ⟨scale, tops⟩ = _
  unfold loop
  rw [hs]
  rfl

section
variable (p : Params) (tops : Nat → Nat → ℝ)

/-- C185: from positive topics, with one link or more and none from a document to itself, the first iteration succeeds. -/
theorem first_step_partial (hK : 0 < p.K) (hc : Clean p) (h0 : 0 ≤ p.tau0) (h01 : p.tau0 ≤ p.tau1) (h1 : 0 < p.tau1) (hn : 0 < p.noise)
    (ht : ∀ d k, d < p.D → k < p.K → 0 < tops d k) (scale : ℝ) (hs : scale ≠ 0) (q d : Nat) (hq : q < p.D) (hd : d ∈ p.inlinks q) :
    ∃ r, step p tops ⟨scale, tops⟩ = .ok r ∧ 0 < r.1.scale := by
  have haff : ∀ d q, d < p.D → q < p.D → 0 < affinity p.K tops tops d q := by
    intro d q hd hq
    unfold affinity
    exact Finset.sum_pos (fun k hk => mul_pos (ht d k hd (Finset.mem_range.mp hk)) (ht q k hq (Finset.mem_range.mp hk)))
      ⟨0, Finset.mem_range.mpr hK⟩
  have hw : ∀ d q, 0 ≤ weight p d q := by
    intro d q
    unfold weight
    split_ifs
    · exact h1.le
    · exact h0
  have hoth : ∀ q d, d ∈ others p q → d < p.D := fun q d h => Finset.mem_range.mp (Finset.mem_of_mem_erase h)
  have hl : 0 < scaleLhs p tops tops := by
    unfold scaleLhs
    refine Finset.sum_pos' (fun q' hq' => ?_) ⟨q, Finset.mem_range.mpr hq, ?_⟩
    · rw [lhs_at p tops tops hc q' (Finset.mem_range.mp hq')]
      exact Finset.sum_nonneg fun d' _ => mul_nonneg (hw _ _) (sq_nonneg _)
    · rw [lhs_at p tops tops hc q hq]
      refine Finset.sum_pos' (fun d' _ => mul_nonneg (hw _ _) (sq_nonneg _)) ⟨d, mem_others p hc hq hd, ?_⟩
      unfold weight
      rw [if_pos hd]
      exact mul_pos h1 (pow_pos (haff d q ((hc q hq).2 d hd).1 hq) 2)
  have hr : 0 < scaleRhs p tops tops := by
    unfold scaleRhs
    have hnn : ∀ q' d', q' < p.D → d' ∈ others p q' → 0 ≤ weight p d' q' * observed p d' q' * affinity p.K tops tops d' q' := by
      intro q' d' hq' hd'
      refine mul_nonneg (mul_nonneg (hw _ _) ?_) (haff _ _ (hoth _ _ hd') hq').le
      unfold observed
      split_ifs <;> norm_num
    refine Finset.sum_pos' (fun q' hq' => ?_) ⟨q, Finset.mem_range.mpr hq, ?_⟩
    · rw [rhs_at p tops tops hc q' (Finset.mem_range.mp hq')]
      exact Finset.sum_nonneg fun d' hd' => hnn q' d' (Finset.mem_range.mp hq') hd'
    · rw [rhs_at p tops tops hc q hq]
      refine Finset.sum_pos' (fun d' hd' => hnn q d' hq hd') ⟨d, mem_others p hc hq hd, ?_⟩
      unfold weight observed
      rw [if_pos hd, if_pos hd, mul_one]
      exact mul_pos h1 (haff d q ((hc q hq).2 d hd).1 hq)
  have hsc := div_pos hr hl
  unfold step
  rw [if_neg (by omega), if_neg hs, if_neg hl.ne']
  show ∃ r, (if ∃ q, q < p.D ∧ (offsetMat p tops (scaleRhs p tops tops / scaleLhs p tops tops) q).det = 0 then _ else _) = _ ∧ _
  rw [if_neg (by
    rintro ⟨q', hq', hdet⟩
    exact offsets_solvable p tops _ q' h0 h01 hn hq' (fun d' hd' => ((hc q' hq').2 d' hd').1) (fun d' k hd' hk => (ht d' k hd' hk).le) hdet),
    if_neg hsc.ne']
  exact ⟨_, rfl, hsc⟩

end

/-! ## Examples and counterexamples -/

/-- Two documents, the first links to the second -/
noncomputable def exP : Params := ⟨2, 2, fun q => if q = 1 then [0] else [], 1, 1, 1⟩

/-- Their topics -/
noncomputable def exTops : Nat → Nat → ℝ := fun d k => if d = 0 then 1 / 2 else if k = 0 then 1 else 0

theorem exP_clean : Clean exP := by
  intro q hq
  have : q = 0 ∨ q = 1 := by
    have : q < 2 := hq
    omega
  rcases this with rfl | rfl
  · exact ⟨List.nodup_nil, by simp [exP]⟩
  · exact ⟨by simp [exP], by simp [exP]⟩

theorem ex_lhs : scaleLhs exP exTops exTops = 1 / 2 := by
  simp [scaleLhs, scaleLhsAt, quadForm, dot, topsSum, exP, exTops, Finset.sum_range_succ]
  norm_num

theorem ex_rhs : scaleRhs exP exTops exTops = 1 / 2 := by
  simp [scaleRhs, scaleRhsAt, dot, exP, exTops, Finset.sum_range_succ]

theorem ex_step : ∃ r, step exP exTops ⟨1, exTops⟩ = .ok r ∧ r.1.scale = 1 := by
  unfold step
  rw [if_neg (by show ¬ (2 : Nat) = 0; decide), if_neg one_ne_zero]
  show ∃ r, (if scaleLhs exP exTops exTops = 0 then _ else _) = _ ∧ _
  rw [if_neg (by rw [ex_lhs]; norm_num)]
  show ∃ r, (if ∃ q, q < exP.D ∧ (offsetMat exP exTops (scaleRhs exP exTops exTops / scaleLhs exP exTops exTops) q).det = 0 then _ else _)
    = _ ∧ _
  have hs : scaleRhs exP exTops exTops / scaleLhs exP exTops exTops = 1 := by
    rw [ex_lhs, ex_rhs]
    norm_num
  rw [hs, if_neg, if_neg one_ne_zero]
  · exact ⟨_, rfl, rfl⟩
  · rintro ⟨q, hq, hdet⟩
    refine offsets_solvable exP exTops 1 q (by simp [exP]) (by simp [exP]) (by simp [exP]) hq (fun d hd => ((exP_clean q hq).2 d hd).1) ?_ hdet
    intro d k _ _
    unfold exTops
    split_ifs <;> norm_num

/-- C183: training returns offsets that are not the best ones: in a corpus of two documents others have a smaller error. -/
theorem offset_not_optimal : ∃ r, step exP exTops ⟨1, exTops⟩ = .ok r ∧ Clean exP
    ∧ ∃ o, offsetError exP exTops r.1.scale 1 o < offsetError exP exTops r.1.scale 1 (r.1.offs 1) := by
  obtain ⟨r, hr, hs⟩ := ex_step
  refine ⟨r, hr, exP_clean, fun k => if k = 0 then 7 / 6 else 1 / 6, ?_⟩
  obtain ⟨-, -, -, ho, -⟩ := step_ok hr
  rw [ho, hs]
  have hpiv : pivot exP exTops 1 1 = 3 / 2 := by
    simp [pivot, pull, exP, exTops, Finset.sum_range_succ]
    norm_num
  have c0 : newOffset exP exTops 1 1 0 = 1 := by
    rw [offset_closed_form exP exTops 1 1 (by simp [exP]) (by rw [hpiv]; norm_num) 0 (by simp [exP]), hpiv]
    simp [offsetRhs, pull, exP, exTops, Finset.sum_range_succ]
    norm_num
  have c1 : newOffset exP exTops 1 1 1 = 0 := by
    rw [offset_closed_form exP exTops 1 1 (by simp [exP]) (by rw [hpiv]; norm_num) 1 (by simp [exP]), hpiv]
    simp [offsetRhs, pull, exP, exTops]
    norm_num
  have hoth : others exP 1 = {0} := by
    unfold others
    have : exP.D = 2 := rfl
    rw [this]
    decide
  unfold offsetError
  rw [hoth]
  have hK : exP.K = 2 := rfl
  simp only [Finset.sum_singleton, hK, Finset.sum_range_succ, Finset.sum_range_zero, c0, c1]
  simp [weight, observed, exP, exTops]
  norm_num

/-- Two documents, the first links to itself and to the second -/
noncomputable def exSelf : Params := ⟨2, 2, fun _ => [0], 1 / 2, 1, 1⟩

/-- Topics that are alike -/
noncomputable def exEven : Nat → Nat → ℝ := fun _ _ => 1 / 2

/-- C182: with a link from a document to itself the scale is not the best one. -/
theorem self_link_not_optimal : ∃ r s, step exSelf exEven ⟨1, exEven⟩ = .ok r
    ∧ linkError exSelf exEven exEven s < linkError exSelf exEven exEven r.1.scale := by
  have hl : scaleLhs exSelf exEven exEven = 1 / 2 := by
    simp [scaleLhs, scaleLhsAt, quadForm, dot, topsSum, exSelf, exEven]
    norm_num
  have hr : scaleRhs exSelf exEven exEven = 1 := by
    simp [scaleRhs, scaleRhsAt, dot, exSelf, exEven]
  have hs : scaleRhs exSelf exEven exEven / scaleLhs exSelf exEven exEven = 2 := by
    rw [hl, hr]
    norm_num
  have hstep : ∃ r, step exSelf exEven ⟨1, exEven⟩ = .ok r ∧ r.1.scale = 2 := by
    unfold step
    rw [if_neg (by show ¬ (2 : Nat) = 0; decide), if_neg one_ne_zero]
    show ∃ r, (if scaleLhs exSelf exEven exEven = 0 then _ else _) = _ ∧ _
    rw [if_neg (by rw [hl]; norm_num)]
    show ∃ r, (if ∃ q, q < exSelf.D ∧ (offsetMat exSelf exEven (scaleRhs exSelf exEven exEven / scaleLhs exSelf exEven exEven) q).det = 0
      then _ else _) = _ ∧ _
    rw [hs, if_neg, if_neg two_ne_zero]
    · exact ⟨_, rfl, rfl⟩
    · rintro ⟨q, hq, hdet⟩
      refine offsets_solvable exSelf exEven 2 q ?_ ?_ ?_ hq ?_ ?_ hdet
      · simp [exSelf]
      · norm_num [exSelf]
      · simp [exSelf]
      · simp [exSelf]
      · intro d k _ _
        norm_num [exEven]
  obtain ⟨r, h1, h2⟩ := hstep
  refine ⟨r, 4 / 3, h1, ?_⟩
  rw [h2]
  have o0 : others exSelf 0 = {1} := by
    unfold others
    have : exSelf.D = 2 := rfl
    rw [this]
    decide
  have o1 : others exSelf 1 = {0} := by
    unfold others
    have : exSelf.D = 2 := rfl
    rw [this]
    decide
  have hD : exSelf.D = 2 := rfl
  unfold linkError
  rw [hD]
  simp only [Finset.sum_range_succ, Finset.sum_range_zero, o0, o1, Finset.sum_singleton]
  simp [weight, observed, affinity, exSelf, exEven]
  norm_num

/-- The hypotheses of `scale_optimal_partial` hold for the two documents. -/
example : Clean exP ∧ (0 : ℝ) ≤ exP.tau0 ∧ 0 ≤ exP.tau1 ∧ ∃ r, step exP exTops ⟨1, exTops⟩ = .ok r := by
  obtain ⟨r, hr, -⟩ := ex_step
  exact ⟨exP_clean, by simp [exP], by simp [exP], r, hr⟩

/-- The hypotheses of `offset_optimal_partial` hold for documents with the same topics. -/
example : Clean exP ∧ exP.noise = 1 ∧ (∀ d, d < exP.D → exEven d = exEven 1) ∧ pivot exP exEven 1 1 ≠ 0 := by
  refine ⟨exP_clean, rfl, fun _ _ => rfl, ?_⟩
  simp [pivot, pull, exP, exEven]
  norm_num

/-- The hypotheses of `first_step_partial` hold for them, too. -/
example : ∃ r, step exP exEven ⟨1, exEven⟩ = .ok r ∧ 0 < r.1.scale :=
  first_step_partial exP exEven (by simp [exP]) exP_clean (by simp [exP]) (by simp [exP]) (by simp [exP]) (by simp [exP])
    (by intro d k _ _; norm_num [exEven]) 1 one_ne_zero 1 0 (by simp [exP]) (by simp [exP])

/-! ## Queries and settings -/

/-- C185: the link structure decides whether a query succeeds: without links it raises `ValueError`, with a link it may succeed. -/
theorem query_needs_links : (∃ r, query exP exTops 1 none 1 = .ok r)
    ∧ query { exP with inlinks := fun _ => [] } exTops 1 none 1 = .error .valueError := by
  constructor
  · obtain ⟨r, hr, -⟩ := ex_step
    unfold query train loop
    rw [hr]
    simp only [bind, Except.bind]
    split_ifs
    · exact ⟨_, rfl⟩
    · unfold loop
      exact ⟨_, rfl⟩
  · unfold query
    rw [no_links_error _ (by show 0 < 2; decide) (fun _ _ => rfl) _ _ _ _ one_pos]
    rfl

/-- C185: a query returns the model's scale as it was, whatever scale the offsets returned were made for. -/
theorem query_scale (p : Params) (tops : Nat → Nat → ℝ) (scale : ℝ) (epsilon : Option ℝ) (iterations : Nat) (r : State)
    (h : query p tops scale epsilon iterations = .ok r) : r.scale = scale := by
  unfold query at h
  cases ht : train p tops scale epsilon iterations with
  | error e => rw [ht] at h; cases h
  | ok a =>
    rw [ht] at h
    simp only [bind, Except.bind, Except.ok.injEq] at h
    rw [← h]

/-- C182: when training ends: with the first iteration that changes the norm of the offsets divided by the scale by less than the tolerance, which is by
default a hundredth of the number of offsets. -/
theorem stop_rule (p : Params) (tops : Nat → Nat → ℝ) (st : State) (r : State × ℝ × ℝ) (h : step p tops st = .ok r) (n : Nat) :
    (∀ e, |Real.sqrt (∑ q ∈ Finset.range p.D, ∑ k ∈ Finset.range p.K, (st.offs q k / st.scale) ^ 2)
        - Real.sqrt (∑ q ∈ Finset.range p.D, ∑ k ∈ Finset.range p.K, (r.1.offs q k / r.1.scale) ^ 2)| < e → loop p tops e (n + 1) st = .ok r.1) ∧
    (∀ e, e ≤ |Real.sqrt (∑ q ∈ Finset.range p.D, ∑ k ∈ Finset.range p.K, (st.offs q k / st.scale) ^ 2)
        - Real.sqrt (∑ q ∈ Finset.range p.D, ∑ k ∈ Finset.range p.K, (r.1.offs q k / r.1.scale) ^ 2)| →
      loop p tops e (n + 1) st = loop p tops e n r.1) ∧
    (∀ scale e, train p tops scale (some e) n = loop p tops e n ⟨scale, tops⟩) ∧
    ∀ scale, train p tops scale none n = loop p tops ((p.D * p.K : ℝ) / 100) n ⟨scale, tops⟩ := by
  have hr : r.2.1 = Real.sqrt (∑ q ∈ Finset.range p.D, ∑ k ∈ Finset.range p.K, (st.offs q k / st.scale) ^ 2) ∧
      r.2.2 = Real.sqrt (∑ q ∈ Finset.range p.D, ∑ k ∈ Finset.range p.K, (r.1.offs q k / r.1.scale) ^ 2) := by
    unfold step at h
    split_ifs at h
    simp only at h
    split_ifs at h
    obtain rfl := Except.ok.inj h
    exact ⟨rfl, rfl⟩
  refine ⟨fun e he => ?_, fun e he => ?_, fun _ _ => rfl, fun scale => ?_⟩
  · rw [loop, h]
    simp only [bind, Except.bind]
    rw [hr.1, hr.2, if_pos he]
  · rw [loop, h]
    simp only [bind, Except.bind]
    rw [hr.1, hr.2, if_neg (not_lt.2 he)]
  · unfold train tolerance
    congr 1
    ring

/-- C182: every iteration starts from the scale and offsets of the iteration before: what a run of one iteration or more returns is the
result of one update of what a shorter run returns. -/
theorem last_step (p : Params) (tops : Nat → Nat → ℝ) (scale : ℝ) (epsilon : Option ℝ) (n : Nat) (st : State)
    (h : train p tops scale epsilon (n + 1) = .ok st) :
    ∃ m prev r, m ≤ n ∧ train p tops scale epsilon m = .ok prev ∧ step p tops prev = .ok r ∧ st = r.1 := by
  unfold train at h ⊢
  generalize tolerance p epsilon = e at h ⊢
  generalize (⟨scale, tops⟩ : State) = s0 at h ⊢
  induction n generalizing s0 with
  | zero =>
    rw [loop] at h
    cases hs : step p tops s0 with
    | error e => rw [hs] at h; cases h
    | ok r =>
      rw [hs] at h
      simp only [bind, Except.bind, loop, ite_self, Except.ok.injEq] at h
      exact ⟨0, s0, r, le_rfl, rfl, hs, h.symm⟩
  | succ n ih =>
    rw [loop] at h
    cases hs : step p tops s0 with
    | error e => rw [hs] at h; cases h
    | ok r =>
      rw [hs] at h
      simp only [bind, Except.bind] at h
      split_ifs at h with hc
      · exact ⟨0, s0, r, Nat.zero_le _, rfl, hs, (Except.ok.inj h).symm⟩
      · obtain ⟨m, prev, r', hm, h1, h2, h3⟩ := ih r.1 h
        refine ⟨m + 1, prev, r', by omega, ?_, h2, h3⟩
        rw [loop, hs]
        simp only [bind, Except.bind]
        rw [if_neg hc, h1]

/-- C186: training a new model with the default element type always raises: `ValueError` if a document is empty, `AssertionError`
otherwise; querying does so even if the topics have been found before. -/
theorem default_dtype_error (p : Params) (someEmpty : Bool) (given tops : Nat → Nat → ℝ) (scale : ℝ) (epsilon : Option ℝ)
    (iterations : Nat) (processed : Bool) :
    trainAll p false someEmpty .float32 given tops scale epsilon iterations
        = .error (if someEmpty then .valueError else .assertionError)
      ∧ queryAll p processed someEmpty .float32 given tops scale epsilon iterations
        = .error (if someEmpty then .valueError else .assertionError) := by
  cases someEmpty <;> exact ⟨rfl, rfl⟩

/-- C186: with the element type `float64` and no empty document, training continues with the topics found, or with those of the query state
given if the topics have been found before. -/
theorem float64_trains_partial (p : Params) (given tops : Nat → Nat → ℝ) (scale : ℝ) (epsilon : Option ℝ)
    (iterations : Nat) (processed : Bool) :
    trainAll p processed false .float64 given tops scale epsilon iterations
        = train p (if processed then given else tops) scale epsilon iterations := by
  cases processed <;> rfl

/-- A run with one iteration -/
example : ∃ r, trainAll exP false false .float64 exEven exTops 1 none 1 = .ok r := by
  rw [float64_trains_partial]
  obtain ⟨r, hr, -⟩ := ex_step
  show ∃ r, loop exP exTops _ 1 ⟨1, exTops⟩ = .ok r
  unfold loop
  rw [hr]
  simp only [bind, Except.bind]
  split_ifs
  · exact ⟨_, rfl⟩
  · exact ⟨_, rfl⟩

end Verif.Props.Lro
