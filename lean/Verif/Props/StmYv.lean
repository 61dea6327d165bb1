import Mathlib.Tactic.NormNum
import Verif.Model.StmYv
import Verif.Props.CtmQuery
import Verif.Props.Bouchard

/-!
# Training and queries of the topic model with features and Bouchard's bound (C269, C270, C271, C272)
-/

namespace Verif.Props.StmYv

open Verif Verif.Ctm Verif.Stm Verif.StmYv
open Verif.Mom (Data)
open Verif.CtmQuery (QState queryLoop)
open Verif.Props.Ctm (Topics vocab_dist)
open Verif.Props.MomEm (IsDist)
open Verif.Props.CtmTrain (deriveXi_pos)
open Verif.Props.CtmQuery (objective objective_means objective_varcs counts_empty loop_runs)
open Verif.Props.StmCov (exactInv mat)

/-! ## Training -/

/-- What training needs: topics are distributions, variances are not negative, coefficients are positive. -/
structure Start (x : Data) (K : Nat) (st : StmYv.State) : Prop where
  vocab : Topics K x.T st.vocab
  varcs : ∀ d k, d < x.D → k < K → 0 ≤ st.varcs d k
  lxi : ∀ d k, d < x.D → k < K → 0 < st.lxi d k

/-- What training delivers: topics are distributions; the covariance is diagonal with variances of at least a thousandth; every document has
positive variances, none above that of the prior; the coefficients are positive and at most a quarter; `expMeans` lies between 0 and 1; a document
without words has exactly the weights its features predict, with the variances of the prior. -/
structure Proper (p : Params) (x : Data) (X : Nat → Nat → ℝ) (st : StmYv.State) : Prop where
  vocab : Topics p.K x.T st.vocab
  diag : ∀ k j, k ≠ j → st.sig k j = 0
  sig : ∀ k, k < p.K → 1 / 1000 ≤ st.sig k k
  varcs : ∀ d k, d < x.D → k < p.K → 0 < st.varcs d k ∧ st.varcs d k ≤ st.sig k k
  lxi : ∀ d k, d < x.D → k < p.K → 0 < st.lxi d k ∧ st.lxi d k ≤ 1 / 4
  exp : ∀ d k, k < p.K → 0 < st.expMeans d k ∧ st.expMeans d k ≤ 1
  empty : ∀ d k, k < p.K → x.len d = 0 → st.means d k = ∑ f ∈ Finset.range p.F, X d f * st.A k f ∧ st.varcs d k = st.sig k k

theorem Proper.start {p : Params} {x : Data} {X : Nat → Nat → ℝ} {st : StmYv.State} (h : Proper p x X st) : Start x p.K st :=
  ⟨h.vocab, fun d k hd hk => (h.varcs d k hd hk).1.le, fun d k hd hk => (h.lxi d k hd hk).1⟩

theorem dot_diagonal (K : Nat) (M : Nat → Nat → ℝ) (v : Nat → ℝ) (d k : Nat) (hk : k < K) : dot K M (diagonal v) d k = M d k * v k := by
  unfold dot diagonal
  rw [Finset.sum_eq_single k]
  · rw [if_pos rfl]
  · intro j _ hj
    rw [if_neg hj, mul_zero]
  · intro h
    exact absurd (Finset.mem_range.2 hk) h

theorem variance_ge (p : Params) (hf : 0 < p.fv) (hl : 0 < p.lfv) (x : Data) (X : Nat → Nat → ℝ) (st : StmYv.State) (k : Nat)
    (hv : ∀ d, d < x.D → 0 ≤ st.varcs d k) : 1 / 1000 ≤ variance p x X st k := by
  have hc : 0 ≤ covariance p x X st.A st.Y st.V st.means st.varcs k k := by
    unfold covariance dotT tDot
    rw [if_pos rfl]
    refine add_nonneg (add_nonneg (add_nonneg (mul_nonneg (by positivity) (Finset.sum_nonneg fun _ _ => mul_self_nonneg _))
      (mul_nonneg (by positivity) (Finset.sum_nonneg fun _ _ => mul_self_nonneg _))) (Finset.sum_nonneg fun _ _ => mul_self_nonneg _))
      (Finset.sum_nonneg fun d hd => hv d (Finset.mem_range.1 hd))
  unfold variance
  have : 0 ≤ covariance p x X st.A st.Y st.V st.means st.varcs k k / ((p.P : ℝ) + p.F + x.D) := div_nonneg hc (by positivity)
  norm_num
  linarith

section Step

variable (inv : Nat → (Nat → Nat → ℝ) → Nat → Nat → ℝ) (p : Params) (x : Data) (X : Nat → Nat → ℝ) (st : StmYv.State)

theorem step_sig (k : Nat) : (trainStep inv p x X st).sig k k = variance p x X st k := if_pos rfl

theorem step_varcs (d k : Nat) :
    (trainStep inv p x X st).varcs d k = 1 / ((x.len d : ℝ) * st.lxi d k + 1 / (trainStep inv p x X st).sig k k) := by
  rw [step_sig]
  show 1 / ((x.len d : ℝ) * st.lxi d k + diagonal (fun k => 1 / variance p x X st k) k k) = _
  rw [diagonal, if_pos rfl]

theorem step_means (d k : Nat) (hk : k < p.K) :
    (trainStep inv p x X st).means d k = (trainStep inv p x X st).varcs d k * ((st.s d * st.lxi d k - 0.5) * (x.len d : ℝ)
      + topicCounts x p.K (expRows p.K st.means) st.vocab d k
      + (∑ f ∈ Finset.range p.F, X d f * (trainStep inv p x X st).A k f) * (1 / (trainStep inv p x X st).sig k k)) := by
  rw [step_varcs, step_sig]
  show 1 / (diagonal (fun k => 1 / variance p x X st k) k k + (x.len d : ℝ) * st.lxi d k) * ((st.s d * st.lxi d k - 0.5) * (x.len d : ℝ)
    + topicCounts x p.K (expRows p.K st.means) st.vocab d k
    + dot p.K (dotT p.F X (trainStep inv p x X st).A) (diagonal fun k => 1 / variance p x X st k) d k) = _
  rw [dot_diagonal _ _ _ _ _ hk, diagonal, if_pos rfl, add_comm (1 / variance p x X st k)]
  rfl

end Step

theorem step_proper (inv : Nat → (Nat → Nat → ℝ) → Nat → Nat → ℝ) (p : Params) (hf : 0 < p.fv) (hl : 0 < p.lfv) (hp : 0 < p.prior) (hK : 0 < p.K)
    (x : Data) (hT : 0 < x.T) (X : Nat → Nat → ℝ) (st : StmYv.State) (h : Start x p.K st) : Proper p x X (trainStep inv p x X st) := by
  have hdiag : ∀ k, k < p.K → 1 / 1000 ≤ (trainStep inv p x X st).sig k k := by
    intro k hk
    rw [step_sig]
    exact variance_ge p hf hl x X st k fun d hd => h.varcs d k hd hk
  have hpos : ∀ k, k < p.K → 0 < (trainStep inv p x X st).sig k k := fun k hk => lt_of_lt_of_le (by norm_num) (hdiag k hk)
  have hv : ∀ d k, d < x.D → k < p.K → 0 < (trainStep inv p x X st).varcs d k ∧
      (trainStep inv p x X st).varcs d k ≤ (trainStep inv p x X st).sig k k := by
    intro d k hd hk
    have hs := hpos k hk
    have hl : 0 ≤ (x.len d : ℝ) * st.lxi d k := mul_nonneg (Nat.cast_nonneg _) (h.lxi d k hd hk).le
    have hi : 0 < 1 / (trainStep inv p x X st).sig k k := by positivity
    rw [step_varcs]
    refine ⟨by positivity, ?_⟩
    rw [one_div_le (by positivity) hs]
    linarith
  refine ⟨vocab_dist x p.K p.prior hp st.means st.vocab hK hT h.vocab, fun k j hkj => if_neg hkj, hdiag, hv, fun d k hd hk => ?_,
    fun d k hk => ⟨Real.exp_pos _, ?_⟩, fun d k hk h0 => ?_⟩
  · have hx := deriveXi_pos ((trainStep inv p x X st).means d k) _ (st.s d) (hv d k hd hk).1
    have hc := Props.Bouchard.coefficient_spec _ hx.ne'
    show 0 < 2 * negJakkola (deriveXi ((trainStep inv p x X st).means d k) ((trainStep inv p x X st).varcs d k) (st.s d)) ∧
      2 * negJakkola (deriveXi ((trainStep inv p x X st).means d k) ((trainStep inv p x X st).varcs d k) (st.s d)) ≤ 1 / 4
    constructor <;> linarith [hc.1, hc.2.1]
  · show Real.exp _ ≤ 1
    rw [Real.exp_le_one_iff, sub_nonpos]
    exact (Props.Numerics.rowMax_spec p.K (st.means d) hK).1 k hk
  · have hve : (trainStep inv p x X st).varcs d k = (trainStep inv p x X st).sig k k := by
      rw [step_varcs, h0, Nat.cast_zero, zero_mul, zero_add, one_div_one_div]
    refine ⟨?_, hve⟩
    rw [step_means _ _ _ _ _ _ _ hk, hve, counts_empty _ _ _ _ _ _ h0, h0, Nat.cast_zero, mul_zero, zero_add, zero_add, mul_comm, mul_assoc,
      one_div_mul_cancel (hpos k hk).ne', mul_one]

theorem step_s (inv : Nat → (Nat → Nat → ℝ) → Nat → Nat → ℝ) (p : Params) (x : Data) (X : Nat → Nat → ℝ) (n : Nat) : ∀ st,
    ((trainStep inv p x X)^[n] st).s = st.s := by
  induction n with
  | zero => exact fun st => rfl
  | succ n ih => exact fun st => ih _

/-- C269: training with any positive number of iterations delivers proper parameters; the split points of Bouchard's bound are zero. -/
theorem train_proper (inv : Nat → (Nat → Nat → ℝ) → Nat → Nat → ℝ) (p : Params) (hf : 0 < p.fv) (hl : 0 < p.lfv) (hp : 0 < p.prior) (hK : 0 < p.K)
    (x : Data) (hT : 0 < x.T) (X : Nat → Nat → ℝ) (n : Nat) (hn : 0 < n) (st : StmYv.State) (h : Start x p.K st) :
    Proper p x X (StmYv.train inv p x X n st) ∧ ∀ d, (StmYv.train inv p x X n st).s d = 0 := by
  obtain ⟨n, rfl⟩ : ∃ m, n = m + 1 := ⟨n - 1, by omega⟩
  refine ⟨?_, fun d => by unfold StmYv.train; rw [step_s]⟩
  unfold StmYv.train
  have hs : Start x p.K { st with s := fun _ => 0 } := ⟨h.vocab, h.varcs, h.lxi⟩
  generalize { st with s := fun _ => (0 : ℝ) } = st' at hs
  clear h hn st
  induction n generalizing st' with
  | zero => exact step_proper inv p hf hl hp hK x hT X st' hs
  | succ n ih => exact ih _ (step_proper inv p hf hl hp hK x hT X st' hs).start

/-! ## Queries -/

/-- What a query delivers for a model with the variances `v`: positive variances that do not exceed those of the prior, coefficients between 0 and an
eighth, and for documents without words exactly what the features predict -/
structure QProper (p : Params) (x : Data) (X A : Nat → Nat → ℝ) (v : Nat → ℝ) (q : QState) : Prop where
  varcs : ∀ d k, k < p.K → 0 < q.varcs d k ∧ q.varcs d k ≤ v k
  lxi : ∀ d k, k < p.K → 0 < q.lxi d k ∧ q.lxi d k ≤ 1 / 8
  empty : ∀ d k, k < p.K → x.len d = 0 → q.means d k = ∑ f ∈ Finset.range p.F, X d f * A k f ∧ q.varcs d k = v k

theorem exactInv_diagonal (K : Nat) (v : Nat → ℝ) (hv : ∀ k, k < K → 0 < v k) (i j : Nat) (hi : i < K) (hj : j < K) :
    exactInv K (diagonal v) i j = diagonal (fun k => 1 / v k) i j := by
  have hm : mat K (diagonal v) = Matrix.diagonal fun i : Fin K => v i := by
    ext a b
    unfold mat diagonal
    by_cases hab : a = b
    · subst hab
      simp
    · rw [Matrix.diagonal_apply_ne _ hab]
      simp only [Matrix.of_apply]
      rw [if_neg fun h => hab (Fin.ext h)]
  have hinv : (mat K (diagonal v))⁻¹ = Matrix.diagonal fun i : Fin K => 1 / v i := by
    rw [hm]
    refine Matrix.inv_eq_right_inv ?_
    rw [Matrix.diagonal_mul_diagonal, ← Matrix.diagonal_one]
    congr 1
    funext a
    exact mul_one_div_cancel (hv a a.2).ne'
  have he : exactInv K (diagonal v) i j = mat K (exactInv K (diagonal v)) ⟨i, hi⟩ ⟨j, hj⟩ := rfl
  rw [he, StmCov.mat_exactInv, hinv]
  unfold diagonal
  by_cases hab : i = j
  · subst hab
    simp
  · rw [Matrix.diagonal_apply_ne _ fun h => hab (by injection h), if_neg hab]

section QueryStep

variable (p : Params) (x : Data) (X A isig vocab : Nat → Nat → ℝ) (v : Nat → ℝ)
  (hi : ∀ i j, i < p.K → j < p.K → isig i j = diagonal (fun k => 1 / v k) i j) (q : QState)

include hi

theorem query_varcs (d k : Nat) (hk : k < p.K) : (StmYv.queryStep p x X A isig vocab q).varcs d k = 1 / ((x.len d : ℝ) * (2 * q.lxi d k) + 1 / v k) := by
  show 1 / (2 * (x.len d : ℝ) * q.lxi d k + isig k k) = _
  rw [hi k k hk hk, diagonal, if_pos rfl]
  congr 2
  ring

theorem query_means (d k : Nat) (hk : k < p.K) : (StmYv.queryStep p x X A isig vocab q).means d k
    = (StmYv.queryStep p x X A isig vocab q).varcs d k * ((q.s d * (2 * q.lxi d k) - 0.5) * (x.len d : ℝ)
      + topicCounts x p.K (expRows p.K q.means) vocab d k + (∑ f ∈ Finset.range p.F, X d f * A k f) * (1 / v k)) := by
  rw [query_varcs p x X A isig vocab v hi q d k hk]
  show 1 / (isig k k + (x.len d : ℝ) * 2 * q.lxi d k) * ((2 * q.s d * q.lxi d k - 0.5) * (x.len d : ℝ)
    + topicCounts x p.K (expRows p.K q.means) vocab d k + dot p.K (dotT p.F X A) isig d k) = _
  have hd : dot p.K (dotT p.F X A) isig d k = (∑ f ∈ Finset.range p.F, X d f * A k f) * (1 / v k) := by
    refine Eq.trans ?_ (dot_diagonal p.K (dotT p.F X A) (fun k => 1 / v k) d k hk)
    exact Finset.sum_congr rfl fun j hj => by rw [hi j k (Finset.mem_range.1 hj) hk]
  rw [hd, hi k k hk hk, diagonal, if_pos rfl]
  congr 1
  · congr 1
    ring
  · ring

theorem query_step_proper (hv : ∀ k, k < p.K → 0 < v k) (hl : ∀ d k, k < p.K → 0 < q.lxi d k) :
    QProper p x X A v (StmYv.queryStep p x X A isig vocab q) := by
  have hvar : ∀ d k, k < p.K → 0 < (StmYv.queryStep p x X A isig vocab q).varcs d k ∧ (StmYv.queryStep p x X A isig vocab q).varcs d k ≤ v k := by
    intro d k hk
    have h1 := hv k hk
    have h2 : 0 ≤ (x.len d : ℝ) * (2 * q.lxi d k) := mul_nonneg (Nat.cast_nonneg _) (by linarith [hl d k hk])
    have h3 : 0 < 1 / v k := by positivity
    rw [query_varcs p x X A isig vocab v hi q d k hk]
    refine ⟨by positivity, ?_⟩
    rw [one_div_le (by positivity) h1]
    linarith
  refine ⟨hvar, fun d k hk => ?_, fun d k hk h0 => ?_⟩
  · have hc := Props.Bouchard.coefficient_spec _ (deriveXi_pos ((StmYv.queryStep p x X A isig vocab q).means d k) _ (q.s d) (hvar d k hk).1).ne'
    exact ⟨hc.1, hc.2.1⟩
  · have hve : (StmYv.queryStep p x X A isig vocab q).varcs d k = v k := by
      rw [query_varcs p x X A isig vocab v hi q d k hk, h0, Nat.cast_zero, zero_mul, zero_add, one_div_one_div]
    refine ⟨?_, hve⟩
    rw [query_means p x X A isig vocab v hi q d k hk, hve, counts_empty _ _ _ _ _ _ h0, h0, Nat.cast_zero, mul_zero, zero_add, zero_add, mul_comm,
      mul_assoc, one_div_mul_cancel (hv k hk).ne', mul_one]

end QueryStep

/-- C270: a query of any positive number of iterations returns proper weights, whatever weights it starts from. -/
theorem query_proper (tiny : ℝ) (perplexity : ℝ → ℝ → ℝ) (big : ℝ) (p : Params) (x : Data) (X A sig vocab : Nat → Nat → ℝ)
    (hdiag : ∀ k j, k < p.K → j < p.K → k ≠ j → sig k j = 0) (hpos : ∀ k, k < p.K → 0 < sig k k) (iterations : Nat) (hit : 0 < iterations) (q : QState)
    (hl : ∀ d k, k < p.K → 0 < q.lxi d k) :
    QProper p x X A (fun k => sig k k) (StmYv.query exactInv tiny perplexity big p x X A sig vocab iterations q) := by
  obtain ⟨n, rfl⟩ : ∃ n, iterations = n + 1 := ⟨iterations - 1, by omega⟩
  unfold StmYv.query
  dsimp only
  obtain ⟨j, _, he⟩ := loop_runs (StmYv.queryStep p x X A (exactInv p.K sig) vocab)
    (fun means => perplexity (logLikelihood x p.K tiny means vocab) (∑ d ∈ Finset.range x.D, (x.len d : ℝ))) n 0 big q
  rw [he]
  have hi : ∀ i j, i < p.K → j < p.K → exactInv p.K sig i j = diagonal (fun k => 1 / sig k k) i j := by
    intro i j hi hj
    rw [← exactInv_diagonal p.K (fun k => sig k k) hpos i j hi hj]
    refine CtmQuery.exactInv_congr p.K _ _ (fun a b ha hb => ?_) i j
    unfold diagonal
    by_cases hab : a = b
    · rw [if_pos hab, hab]
    · rw [if_neg hab, hdiag a b ha hb hab]
  clear he
  induction j with
  | zero => exact query_step_proper p x X A _ vocab _ hi q hpos hl
  | succ j ih =>
    rw [Function.iterate_succ_apply']
    exact query_step_proper p x X A _ vocab _ hi _ hpos fun d k hk => ((ih (by omega)).lxi d k hk).1

/-- C270: the coefficients of a fresh query state are positive, so it can be given to a query. -/
theorem new_query (means : Nat → Nat → ℝ) (d k : Nat) : 0 < (newQuery means).lxi d k ∧ (newQuery means).lxi d k ≤ 1 / 8 := by
  have hc := Props.Bouchard.coefficient_spec _ (deriveXi_pos (means d k) 1 0 one_pos).ne'
  exact ⟨hc.1, hc.2.1⟩

/-! ## What a step maximises -/

theorem diagonal_prec (K : Nat) (w : Nat → ℝ) (hw : ∀ k, k < K → 0 ≤ w k) : Bohning.IsPrec K (diagonal w) := by
  refine ⟨fun i j => ?_, fun y => Finset.sum_nonneg fun i hi => ?_⟩
  · unfold diagonal
    by_cases h : i = j
    · rw [h]
    · rw [if_neg h, if_neg (Ne.symm h)]
  · have : ∑ j ∈ Finset.range K, diagonal w i j * y j = w i * y i := by
      unfold diagonal
      simp only [ite_mul, zero_mul]
      rw [Finset.sum_ite_eq (Finset.range K) i, if_pos hi]
    rw [this]
    nlinarith [mul_nonneg (hw i (Finset.mem_range.1 hi)) (mul_self_nonneg (y i))]

theorem best (K : Nat) (n : ℝ) (hn : 0 ≤ n) (v : Nat → ℝ) (hv : ∀ k, k < K → 0 < v k) (mu S l xi : Nat → ℝ) (hl : ∀ k, k < K → 0 ≤ l k) (s : ℝ)
    (m u : Nat → ℝ) (hu : ∀ k, k < K → u k = 1 / (n * (2 * l k) + 1 / v k))
    (hm : ∀ k, k < K → m k = u k * ((s * (2 * l k) - 0.5) * n + S k + mu k * (1 / v k))) (m' u' : Nat → ℝ) (hu' : ∀ k, k < K → 0 < u' k) :
    objective K n (diagonal fun k => 1 / v k) mu S l xi s m' u' ≤ objective K n (diagonal fun k => 1 / v k) mu S l xi s m u := by
  have hw : ∀ k, k < K → 0 < 1 / v k := fun k hk => by have := hv k hk; positivity
  have hp : ∀ k, k < K → 0 < n * (2 * l k) + 1 / v k := fun k hk =>
    add_pos_of_nonneg_of_pos (mul_nonneg hn (by linarith [hl k hk])) (hw k hk)
  have hd : ∀ k, diagonal (fun k => 1 / v k) k k = 1 / v k := fun k => if_pos rfl
  have hsum : ∀ (k : Nat) (y : Nat → ℝ), k < K → ∑ j ∈ Finset.range K, diagonal (fun k => 1 / v k) k j * y j = 1 / v k * y k := by
    intro k y hk
    unfold diagonal
    simp only [ite_mul, zero_mul]
    rw [Finset.sum_ite_eq (Finset.range K) k, if_pos (Finset.mem_range.2 hk)]
  refine (objective_means K n hn _ (diagonal_prec K _ fun k hk => (hw k hk).le) mu S l xi hl s m u' m' fun k hk => ?_).trans
    (objective_varcs K n _ mu S l xi s m u u' (fun k hk => by rw [hd]; exact hp k hk) (fun k hk => by rw [hd]; exact hu k hk) hu')
  rw [hsum k _ hk, hsum k _ hk, hm k hk, hu k hk]
  have h3 := (hp k hk).ne'
  generalize 1 / v k = w at h3 ⊢
  have h4 := mul_one_div_cancel h3
  generalize 1 / (n * (2 * l k) + w) = z at h4 ⊢
  linear_combination ((s * (2 * l k) - 0.5) * n + S k + mu k * w) * h4

/-- C271: a step of a query, which finds the coefficients of Jaakkola's bound, replaces weights and variances by the best ones for the bound. -/
theorem query_best_partial (p : Params) (x : Data) (X A isig vocab : Nat → Nat → ℝ) (v : Nat → ℝ) (hv : ∀ k, k < p.K → 0 < v k)
    (hi : ∀ i j, i < p.K → j < p.K → isig i j = diagonal (fun k => 1 / v k) i j) (q : QState) (hl : ∀ d k, k < p.K → 0 < q.lxi d k) (xi : Nat → ℝ)
    (d : Nat) (m u : Nat → ℝ) (hu : ∀ k, k < p.K → 0 < u k) :
    objective p.K (x.len d) (diagonal fun k => 1 / v k) (fun k => ∑ f ∈ Finset.range p.F, X d f * A k f)
        (topicCounts x p.K (expRows p.K q.means) vocab d) (q.lxi d) xi (q.s d) m u
      ≤ objective p.K (x.len d) (diagonal fun k => 1 / v k) (fun k => ∑ f ∈ Finset.range p.F, X d f * A k f)
        (topicCounts x p.K (expRows p.K q.means) vocab d) (q.lxi d) xi (q.s d) ((StmYv.queryStep p x X A isig vocab q).means d)
        ((StmYv.queryStep p x X A isig vocab q).varcs d) :=
  best p.K (x.len d) (Nat.cast_nonneg _) v hv _ _ _ xi (fun k hk => (hl d k hk).le) (q.s d) _ _
    (fun k hk => query_varcs p x X A isig vocab v hi q d k hk) (fun k hk => query_means p x X A isig vocab v hi q d k hk) m u hu

/-- C272: a training step that finds twice the coefficients of Jaakkola's bound, as the previous step has left them, replaces weights and variances of
each document by the best ones for the bound. -/
theorem train_best_partial (inv : Nat → (Nat → Nat → ℝ) → Nat → Nat → ℝ) (p : Params) (hf : 0 < p.fv) (hlf : 0 < p.lfv) (x : Data)
    (X : Nat → Nat → ℝ) (st : StmYv.State) (h : Start x p.K st) (d : Nat) (hd : d < x.D) (l : Nat → ℝ) (hl : ∀ k, k < p.K → st.lxi d k = 2 * l k)
    (xi m u : Nat → ℝ) (hu : ∀ k, k < p.K → 0 < u k) :
    let st' := trainStep inv p x X st
    objective p.K (x.len d) (diagonal fun k => 1 / st'.sig k k) (fun k => ∑ f ∈ Finset.range p.F, X d f * st'.A k f)
        (topicCounts x p.K (expRows p.K st.means) st.vocab d) l xi (st.s d) m u
      ≤ objective p.K (x.len d) (diagonal fun k => 1 / st'.sig k k) (fun k => ∑ f ∈ Finset.range p.F, X d f * st'.A k f)
        (topicCounts x p.K (expRows p.K st.means) st.vocab d) l xi (st.s d) (st'.means d) (st'.varcs d) := by
  have hv : ∀ k, k < p.K → 0 < (trainStep inv p x X st).sig k k := fun k hk => by
    rw [step_sig]
    exact lt_of_lt_of_le (by norm_num) (variance_ge p hf hlf x X st k fun d hd => h.varcs d k hd hk)
  refine best p.K (x.len d) (Nat.cast_nonneg _) _ hv _ _ l xi (fun k hk => ?_) (st.s d) _ _ (fun k hk => ?_) (fun k hk => ?_) m u hu
  · linarith [h.lxi d k hd hk, hl k hk]
  · rw [step_varcs, hl k hk]
  · rw [step_means _ _ _ _ _ _ _ hk, hl k hk]

/-- The variances of a step with half the right coefficients can be improved. -/
theorem varcs_strict (K : Nat) (n : ℝ) (hn : 0 < n) (hK : 0 < K) (v : Nat → ℝ) (hv : ∀ k, k < K → 0 < v k) (mu S l xi : Nat → ℝ)
    (hl : ∀ k, k < K → 0 < l k) (s : ℝ) (m u : Nat → ℝ) (hu : ∀ k, k < K → u k = 1 / (n * l k + 1 / v k)) :
    objective K n (diagonal fun k => 1 / v k) mu S l xi s m u
      < objective K n (diagonal fun k => 1 / v k) mu S l xi s m (fun k => 1 / (n * (2 * l k) + 1 / v k)) := by
  have hd : ∀ k, diagonal (fun k => 1 / v k) k k = 1 / v k := fun k => if_pos rfl
  have hb : ∀ u : Nat → ℝ, boundTerms K n m u l xi s = boundTerms K n m (fun _ => 0) l xi s - ∑ k ∈ Finset.range K, n * l k * u k := by
    intro u
    rw [Bouchard.boundTerms_eq, Bouchard.boundTerms_eq]
    have : ∑ k ∈ Finset.range K, n * l k * u k = n * ∑ k ∈ Finset.range K, l k * u k := by
      rw [Finset.mul_sum]
      exact Finset.sum_congr rfl fun k _ => mul_assoc _ _ _
    rw [this, neg_mul, neg_mul, sub_eq_add_neg, ← neg_add, ← mul_add, add_assoc, ← Finset.sum_add_distrib]
    congr 3
    exact Finset.sum_congr rfl fun k _ => by ring
  have hterm : ∑ k ∈ Finset.range K, (Real.log (u k) / 2 - u k * (1 / v k) / 2 - n * l k * u k)
      < ∑ k ∈ Finset.range K, (Real.log (1 / (n * (2 * l k) + 1 / v k)) / 2 - 1 / (n * (2 * l k) + 1 / v k) * (1 / v k) / 2
        - n * l k * (1 / (n * (2 * l k) + 1 / v k))) := by
    refine Finset.sum_lt_sum_of_nonempty ⟨0, Finset.mem_range.2 hK⟩ fun k hk => ?_
    have hk := Finset.mem_range.1 hk
    have h1 : 0 < 1 / v k := by have := hv k hk; positivity
    have h2 : 0 < n * l k := mul_pos hn (hl k hk)
    rw [hu k hk]
    generalize 1 / v k = w at h1 ⊢
    have e : n * (2 * l k) = 2 * (n * l k) := by ring
    rw [e]
    generalize n * l k = a at h2 ⊢
    have h3 : 0 < a + w := by positivity
    have h4 : 0 < 2 * a + w := by positivity
    have hne : (2 * a + w) / (a + w) ≠ 1 := by rw [ne_eq, div_eq_one_iff_eq h3.ne']; linarith
    have hlog := Real.log_lt_sub_one_of_pos (div_pos h4 h3) hne
    rw [Real.log_div h4.ne' h3.ne'] at hlog
    rw [one_div, Real.log_inv, one_div, Real.log_inv]
    have e1 : (2 * a + w)⁻¹ * w / 2 + a * (2 * a + w)⁻¹ = 1 / 2 := by field_simp; ring
    have e2 : (a + w)⁻¹ * w / 2 + a * (a + w)⁻¹ = (2 * a + w) / (a + w) / 2 := by field_simp; ring
    linarith
  unfold objective
  rw [hb u, hb fun k => 1 / (n * (2 * l k) + 1 / v k)]
  simp only [Finset.sum_sub_distrib, ← Finset.sum_div, hd] at hterm ⊢
  linarith

/-- C272: the first training step does not: the coefficients that a fresh query state holds are those of Jaakkola's bound, but the step takes them
for twice that, so in every document with words better variances exist. -/
theorem train_first_violation (inv : Nat → (Nat → Nat → ℝ) → Nat → Nat → ℝ) (p : Params) (hf : 0 < p.fv) (hlf : 0 < p.lfv) (hK : 0 < p.K) (x : Data)
    (X : Nat → Nat → ℝ) (st : StmYv.State) (means : Nat → Nat → ℝ) (hm : st.means = (newQuery means).means) (hvq : st.varcs = (newQuery means).varcs)
    (hlq : st.lxi = (newQuery means).lxi) (hs : st.s = (newQuery means).s) (d : Nat) (hd : 0 < x.len d) (xi : Nat → ℝ) :
    let st' := trainStep inv p x X st
    ∃ u : Nat → ℝ, (∀ k, k < p.K → 0 < u k) ∧
      objective p.K (x.len d) (diagonal fun k => 1 / st'.sig k k) (fun k => ∑ f ∈ Finset.range p.F, X d f * st'.A k f)
        (topicCounts x p.K (expRows p.K st.means) st.vocab d) (fun k => negJakkola (deriveXi (st.means d k) (st.varcs d k) (st.s d))) xi (st.s d)
        (st'.means d) (st'.varcs d)
      < objective p.K (x.len d) (diagonal fun k => 1 / st'.sig k k) (fun k => ∑ f ∈ Finset.range p.F, X d f * st'.A k f)
        (topicCounts x p.K (expRows p.K st.means) st.vocab d) (fun k => negJakkola (deriveXi (st.means d k) (st.varcs d k) (st.s d))) xi (st.s d)
        (st'.means d) u := by
  have hlx : (fun k => negJakkola (deriveXi (st.means d k) (st.varcs d k) (st.s d))) = st.lxi d := by
    funext k
    rw [hlq, hm, hvq, hs]
    rfl
  have hv : ∀ k, k < p.K → 0 < (trainStep inv p x X st).sig k k := fun k hk => by
    rw [step_sig]
    exact lt_of_lt_of_le (by norm_num) (variance_ge p hf hlf x X st k fun d hd => by rw [hvq]; exact zero_le_one)
  have hl : ∀ k, k < p.K → 0 < st.lxi d k := fun k _ => by rw [hlq]; exact (new_query means d k).1
  intro st'
  rw [hlx]
  refine ⟨fun k => 1 / ((x.len d : ℝ) * (2 * st.lxi d k) + 1 / st'.sig k k), fun k hk => ?_,
    varcs_strict p.K (x.len d) (by exact_mod_cast hd) hK _ hv _ _ _ xi hl (st.s d) _ _ fun k _ => step_varcs inv p x X st d k⟩
  have h1 := hl k hk
  have h2 : 0 < st'.sig k k := hv k hk
  positivity

/-! ## The coefficients -/

theorem negJakkola_strictAnti : StrictAntiOn negJakkola (Set.Ioi 0) := by
  have hd : ∀ x, 0 < x → HasDerivAt (fun x => Bouchard.h x / (4 * x))
      ((2 * Real.exp x / (1 + Real.exp x) ^ 2 * (4 * x) - Bouchard.h x * (4 * 1)) / (4 * x) ^ 2) x := fun x hx =>
    (Bouchard.h_deriv x).div ((hasDerivAt_id x).const_mul 4) (by positivity)
  have key : StrictAntiOn (fun x => Bouchard.h x / (4 * x)) (Set.Ioi 0) := by
    refine strictAntiOn_of_deriv_neg (convex_Ioi 0) (fun x hx => (hd x hx).continuousAt.continuousWithinAt) fun x hx => ?_
    have hx' : 0 < x := by simpa using hx
    rw [(hd x hx').deriv]
    refine div_neg_of_neg_of_pos ?_ (by positivity)
    have he := Bouchard.one_add_exp_pos x
    have h2 : Bouchard.h x = (Real.exp x - 1) / (1 + Real.exp x) := by unfold Bouchard.h; field_simp; ring
    have hs : x < Real.sinh x := Real.self_lt_sinh_iff.mpr hx'
    rw [Real.sinh_eq] at hs
    have h1 : Real.exp (-x) * Real.exp x = 1 := by rw [← Real.exp_add]; simp
    have h3 := mul_lt_mul_of_pos_right hs (Real.exp_pos x)
    rw [h2, sub_neg, mul_one, div_mul_eq_mul_div, div_mul_eq_mul_div, div_lt_div_iff₀ (by positivity) he]
    have h4 : 2 * x * Real.exp x < Real.exp x ^ 2 - 1 := by nlinarith
    nlinarith
  intro a ha b hb hab
  rw [Bouchard.negJakkola_eq, Bouchard.negJakkola_eq]
  exact key ha hb hab

theorem f_lt (x ξ : ℝ) (hx : 0 < x) (hξ : 0 < ξ) (hne : x ≠ ξ) :
    Bouchard.f x - negJakkola ξ * x ^ 2 < Bouchard.f ξ - negJakkola ξ * ξ ^ 2 := by
  set l := negJakkola ξ with hl
  have hd : ∀ y, HasDerivAt (fun y => Bouchard.f y - l * y ^ 2) (Bouchard.h y / 2 - l * (2 * y)) y := fun y => by
    have := (Bouchard.f_deriv y).sub (((hasDerivAt_id y).pow 2).const_mul l)
    refine this.congr_deriv ?_
    simp
  have hsl : ∀ y, 0 < y → Bouchard.h y / 2 - l * (2 * y) = 2 * y * (negJakkola y - l) := fun y hy => by
    rw [Bouchard.negJakkola_eq]; field_simp; ring
  rcases lt_or_gt_of_ne hne with hlt | hlt
  · have hm : StrictMonoOn (fun y => Bouchard.f y - l * y ^ 2) (Set.Icc 0 ξ) := by
      refine strictMonoOn_of_deriv_pos (convex_Icc 0 ξ) (fun y _ => (hd y).continuousAt.continuousWithinAt) fun y hy => ?_
      rw [interior_Icc] at hy
      rw [(hd y).deriv, hsl y hy.1]
      exact mul_pos (by linarith [hy.1]) (sub_pos.mpr (negJakkola_strictAnti hy.1 hξ hy.2))
    exact hm ⟨hx.le, hlt.le⟩ ⟨hξ.le, le_rfl⟩ hlt
  · have hm : StrictAntiOn (fun y => Bouchard.f y - l * y ^ 2) (Set.Ici ξ) := by
      refine strictAntiOn_of_deriv_neg (convex_Ici ξ) (fun y _ => (hd y).continuousAt.continuousWithinAt) fun y hy => ?_
      rw [interior_Ici] at hy
      have hy' : ξ < y := hy
      have hy0 : 0 < y := hξ.trans hy'
      rw [(hd y).deriv, hsl y hy0]
      exact mul_neg_of_pos_of_neg (by linarith) (sub_neg.mpr (negJakkola_strictAnti hξ hy0 hy'))
    exact hm (Set.mem_Ici.mpr le_rfl) (Set.mem_Ici.mpr hlt.le) hlt

/-- The objective with the coefficients of Jaakkola's bound at `xi` -/
noncomputable def atXi (K : Nat) (n : ℝ) (isig : Nat → Nat → ℝ) (mu S : Nat → ℝ) (s : ℝ) (m u xi : Nat → ℝ) : ℝ :=
  objective K n isig mu S (fun k => negJakkola (xi k)) xi s m u

theorem atXi_eq (K : Nat) (n : ℝ) (isig : Nat → Nat → ℝ) (mu S : Nat → ℝ) (s : ℝ) (m u : Nat → ℝ) : ∃ c, ∀ xi,
    atXi K n isig mu S s m u xi = c - n * ∑ k ∈ Finset.range K, (Bouchard.f (xi k) + negJakkola (xi k) * ((m k - s) ^ 2 + u k - xi k ^ 2)) := by
  refine ⟨-(Bohning.quad K isig fun k => m k - mu k) / 2 - (∑ k ∈ Finset.range K, u k * isig k k) / 2 + (∑ k ∈ Finset.range K, Real.log (u k)) / 2
    + ∑ k ∈ Finset.range K, S k * m k - n * (s + ∑ k ∈ Finset.range K, (m k - s) / 2), fun xi => ?_⟩
  unfold atXi objective
  rw [Bouchard.boundTerms_eq]
  have : ∀ k, negJakkola (xi k) * (m k ^ 2 + u k - 2 * s * m k + s ^ 2 - xi k ^ 2) + (m k - s - xi k) / 2 + Real.log (1 + Real.exp (xi k))
      = (m k - s) / 2 + (Bouchard.f (xi k) + negJakkola (xi k) * ((m k - s) ^ 2 + u k - xi k ^ 2)) := fun k => by unfold Bouchard.f; ring
  simp only [this]
  rw [Finset.sum_add_distrib]
  ring

/-- The parameters `xi` are the best ones exactly when they are the roots of `(m - s)² + u`. -/
theorem xi_iff (K : Nat) (n : ℝ) (hn : 0 < n) (isig : Nat → Nat → ℝ) (mu S : Nat → ℝ) (s : ℝ) (m u xi : Nat → ℝ) (hu : ∀ k, k < K → 0 < u k)
    (hxi : ∀ k, k < K → 0 < xi k) :
    (∀ xi', (∀ k, k < K → 0 < xi' k) → atXi K n isig mu S s m u xi' ≤ atXi K n isig mu S s m u xi)
      ↔ ∀ k, k < K → xi k = Real.sqrt ((m k - s) ^ 2 + u k) := by
  obtain ⟨c, hc⟩ := atXi_eq K n isig mu S s m u
  have hpos : ∀ k, k < K → 0 < Real.sqrt ((m k - s) ^ 2 + u k) := fun k hk =>
    Real.sqrt_pos.2 (add_pos_of_nonneg_of_pos (sq_nonneg _) (hu k hk))
  have hsq : ∀ k, k < K → Real.sqrt ((m k - s) ^ 2 + u k) ^ 2 = (m k - s) ^ 2 + u k := fun k hk =>
    Real.sq_sqrt (add_pos_of_nonneg_of_pos (sq_nonneg _) (hu k hk)).le
  constructor
  · intro h k hk
    by_contra hne
    have h1 := h (fun k => Real.sqrt ((m k - s) ^ 2 + u k)) hpos
    rw [hc, hc] at h1
    have h2 : ∑ k ∈ Finset.range K, (Bouchard.f (Real.sqrt ((m k - s) ^ 2 + u k)) + negJakkola (Real.sqrt ((m k - s) ^ 2 + u k))
          * ((m k - s) ^ 2 + u k - Real.sqrt ((m k - s) ^ 2 + u k) ^ 2))
        < ∑ k ∈ Finset.range K, (Bouchard.f (xi k) + negJakkola (xi k) * ((m k - s) ^ 2 + u k - xi k ^ 2)) := by
      refine Finset.sum_lt_sum (fun j hj => ?_) ⟨k, Finset.mem_range.2 hk, ?_⟩
      · have hj := Finset.mem_range.1 hj
        have := Bouchard.f_le_pos _ (xi j) (hpos j hj).le (hxi j hj)
        rw [hsq j hj] at this ⊢
        linarith
      · have := f_lt _ (xi k) (hpos k hk) (hxi k hk) (Ne.symm hne)
        rw [hsq k hk] at this ⊢
        linarith
    nlinarith
  · intro h xi' hxi'
    rw [hc, hc]
    refine sub_le_sub_left (mul_le_mul_of_nonneg_left (Finset.sum_le_sum fun k hk => ?_) hn.le) c
    have hk := Finset.mem_range.1 hk
    have := Bouchard.f_le_pos _ (xi' k) (hpos k hk).le (hxi' k hk)
    rw [hsq k hk] at this
    rw [h k hk, hsq k hk]
    linarith

theorem deriveXi_iff (m u s : ℝ) (hu : 0 < u) : deriveXi m u s = Real.sqrt ((m - s) ^ 2 + u) ↔ u = 1 := by
  unfold deriveXi
  rw [Real.sqrt_inj (by nlinarith [sq_nonneg (m - s), sq_nonneg u]) (by positivity)]
  constructor
  · intro h
    have : u * (u - 1) = 0 := by nlinarith
    rcases mul_eq_zero.1 this with h | h
    · exact absurd h hu.ne'
    · linarith
  · intro h
    rw [h]
    ring

/-- C271: the coefficients that a step leaves in a document with words are the best ones for its weights and variances exactly when all its
variances are one: `_deriveXi` adds the square of the variance where the variance belongs. -/
theorem query_coefficients_violation (p : Params) (x : Data) (X A isig vocab : Nat → Nat → ℝ) (v : Nat → ℝ) (hv : ∀ k, k < p.K → 0 < v k)
    (hi : ∀ i j, i < p.K → j < p.K → isig i j = diagonal (fun k => 1 / v k) i j) (q : QState) (hl : ∀ d k, k < p.K → 0 < q.lxi d k)
    (d : Nat) (hd : 0 < x.len d) (mu S : Nat → ℝ) :
    let q' := StmYv.queryStep p x X A isig vocab q
    ∃ xi : Nat → ℝ, (∀ k, k < p.K → 0 < xi k ∧ q'.lxi d k = negJakkola (xi k)) ∧
      ((∀ xi', (∀ k, k < p.K → 0 < xi' k) → atXi p.K (x.len d) isig mu S (q'.s d) (q'.means d) (q'.varcs d) xi'
          ≤ atXi p.K (x.len d) isig mu S (q'.s d) (q'.means d) (q'.varcs d) xi)
        ↔ ∀ k, k < p.K → q'.varcs d k = 1) := by
  intro q'
  have hq := query_step_proper p x X A isig vocab v hi q hv hl
  have hx : ∀ k, k < p.K → 0 < deriveXi (q'.means d k) (q'.varcs d k) (q'.s d) := fun k hk => deriveXi_pos _ _ _ (hq.varcs d k hk).1
  refine ⟨fun k => deriveXi (q'.means d k) (q'.varcs d k) (q'.s d), fun k hk => ⟨hx k hk, rfl⟩, ?_⟩
  rw [xi_iff p.K (x.len d) (by exact_mod_cast hd) isig mu S (q'.s d) (q'.means d) (q'.varcs d) _ (fun k hk => (hq.varcs d k hk).1) hx]
  exact forall₂_congr fun k hk => deriveXi_iff _ _ _ (hq.varcs d k hk).1

/-- C272: neither are the coefficients that a training step leaves. -/
theorem train_coefficients_violation (inv : Nat → (Nat → Nat → ℝ) → Nat → Nat → ℝ) (p : Params) (hf : 0 < p.fv) (hlf : 0 < p.lfv) (hp : 0 < p.prior)
    (hK : 0 < p.K) (x : Data) (hT : 0 < x.T) (X : Nat → Nat → ℝ) (st : StmYv.State) (h : Start x p.K st) (d : Nat) (hdD : d < x.D)
    (hd : 0 < x.len d) (isig : Nat → Nat → ℝ) (mu S : Nat → ℝ) :
    let st' := trainStep inv p x X st
    ∃ xi : Nat → ℝ, (∀ k, k < p.K → 0 < xi k ∧ st'.lxi d k = 2 * negJakkola (xi k)) ∧
      ((∀ xi', (∀ k, k < p.K → 0 < xi' k) → atXi p.K (x.len d) isig mu S (st'.s d) (st'.means d) (st'.varcs d) xi'
          ≤ atXi p.K (x.len d) isig mu S (st'.s d) (st'.means d) (st'.varcs d) xi)
        ↔ ∀ k, k < p.K → st'.varcs d k = 1) := by
  intro st'
  have hq := step_proper inv p hf hlf hp hK x hT X st h
  have hx : ∀ k, k < p.K → 0 < deriveXi (st'.means d k) (st'.varcs d k) (st'.s d) := fun k hk => deriveXi_pos _ _ _ (hq.varcs d k hdD hk).1
  refine ⟨fun k => deriveXi (st'.means d k) (st'.varcs d k) (st'.s d), fun k hk => ⟨hx k hk, rfl⟩, ?_⟩
  rw [xi_iff p.K (x.len d) (by exact_mod_cast hd) isig mu S (st'.s d) (st'.means d) (st'.varcs d) _ (fun k hk => (hq.varcs d k hdD hk).1) hx]
  exact forall₂_congr fun k hk => deriveXi_iff _ _ _ (hq.varcs d k hdD hk).1

/-! ## Examples -/

/-- A model with one feature and one hidden factor -/
noncomputable def exP : Params := ⟨1, 1, 2, 1, 1, 1, fun _ _ => 0⟩

/-- A state with the weights, variances and coefficients of a fresh query state -/
noncomputable def exSt : StmYv.State :=
  let q := newQuery fun d k => (d : ℝ) - k
  ⟨fun _ _ => 1, fun _ _ => 1, fun _ _ => 1, fun _ _ => 1, diagonal fun _ => 1, Ctm.exV, q.means, fun _ _ => 1, q.varcs, q.lxi, q.s⟩

theorem exSt_start : Start Ctm.exX exP.K exSt :=
  ⟨Ctm.exV_topics, fun _ _ _ _ => zero_le_one, fun d k _ _ => (new_query (fun d k => (d : ℝ) - k) d k).1⟩

example : Proper exP Ctm.exX (fun d _ => d) (StmYv.train exactInv exP Ctm.exX (fun d _ => d) 50 exSt) :=
  (train_proper exactInv exP one_pos one_pos one_pos two_pos Ctm.exX (by decide) _ 50 (by decide) exSt exSt_start).1

/-- The corpus has an empty document: its weights are what the features predict. -/
example : (StmYv.train exactInv exP ⟨2, 2, fun d _ => d⟩ (fun _ _ => 3) 50 exSt).means 0 1
    = 3 * (StmYv.train exactInv exP ⟨2, 2, fun d _ => d⟩ (fun _ _ => 3) 50 exSt).A 1 0 := by
  have h := ((train_proper exactInv exP one_pos one_pos one_pos two_pos ⟨2, 2, fun d _ => d⟩ (by decide) (fun _ _ => 3) 50 (by decide) exSt
    ⟨Ctm.exV_topics, fun _ _ _ _ => zero_le_one, fun d k _ _ => (new_query (fun d k => (d : ℝ) - k) d k).1⟩).1.empty 0 1 (by decide) (by decide)).1
  rw [h]
  exact Finset.sum_range_one _

example : QProper exP Ctm.exX (fun d _ => d) (fun _ _ => 1) (fun _ => 1 + 1)
    (StmYv.query exactInv 0 (fun _ _ => 0) 1000 exP Ctm.exX (fun d _ => d) (fun _ _ => 1) (diagonal fun _ => 1 + 1) Ctm.exV 10
      (newQuery fun d k => (d : ℝ) - k)) := by
  have h := query_proper 0 (fun _ _ => 0) 1000 exP Ctm.exX (fun d _ => d) (fun _ _ => 1) (diagonal fun _ => 1 + 1) Ctm.exV
    (fun k j _ _ hkj => if_neg hkj) (fun k _ => by unfold diagonal; rw [if_pos rfl]; norm_num) 10 (by decide) (newQuery fun d k => (d : ℝ) - k)
    fun d k _ => (new_query _ d k).1
  have e : (fun k => diagonal (fun _ => (1 : ℝ) + 1) k k) = fun _ => 1 + 1 := funext fun k => if_pos rfl
  rwa [e] at h

/-- After one query step in a document of three words the coefficients are not the best ones: no variance is one. -/
example : ¬ ∀ k, k < exP.K →
    (StmYv.queryStep exP Ctm.exX (fun d _ => d) (fun _ _ => 1) (diagonal fun _ => 1 / 1) Ctm.exV (newQuery fun d k => (d : ℝ) - k)).varcs 0 k = 1 := by
  intro h
  have h1 := h 0 (by decide)
  rw [query_varcs exP Ctm.exX _ _ _ Ctm.exV (fun _ => 1) (fun _ _ _ _ => rfl) _ 0 0 (by decide)] at h1
  have h2 := (new_query (fun d k => (d : ℝ) - k) 0 0).1
  have h3 : (Ctm.exX.len 0 : ℝ) = 3 := by exact_mod_cast (by decide : Ctm.exX.len 0 = 3)
  rw [h3, div_one, div_eq_one_iff_eq (by linarith)] at h1
  linarith

end Verif.Props.StmYv
