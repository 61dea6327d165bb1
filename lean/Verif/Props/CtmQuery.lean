import Verif.Model.CtmQuery
import Verif.Props.CtmTrain
import Verif.Props.StmCov

/-!
# Queries of the correlated topic model (C212, C213, C214)
-/

namespace Verif.Props.CtmQuery

open Verif Verif.Ctm Verif.CtmQuery
open Verif.Mom (Data)
open Verif.Props.CtmTrain (deriveXi_pos)
open Verif.Props.StmCov (exactInv mat exactInv_two exactInv_posDef exactInv_symm exactInv_prec)

/-! ## The loop -/

/-- The loop runs at least once and at most as often as asked. -/
theorem loop_runs (step : QState → QState) (perp : (Nat → Nat → ℝ) → ℝ) (fuel : Nat) : ∀ itr last q,
    ∃ j, j ≤ fuel ∧ queryLoop step perp (fuel + 1) itr last q = step^[j + 1] q := by
  induction fuel with
  | zero =>
    intro itr last q
    refine ⟨0, le_rfl, ?_⟩
    unfold queryLoop
    dsimp only
    split
    · rfl
    · rfl
  | succ fuel ih =>
    intro itr last q
    unfold queryLoop
    dsimp only
    split
    · exact ⟨0, Nat.zero_le _, rfl⟩
    · obtain ⟨j, hj, he⟩ := ih (itr + 1) (perp (step q).means) (step q)
      exact ⟨j + 1, by omega, he⟩

/-- It never stops before its 22nd iteration. -/
theorem loop_early (step : QState → QState) (perp : (Nat → Nat → ℝ) → ℝ) (fuel : Nat) : ∀ itr last q, itr + fuel ≤ 22 →
    queryLoop step perp fuel itr last q = step^[fuel] q := by
  induction fuel with
  | zero => exact fun _ _ _ _ => rfl
  | succ fuel ih =>
    intro itr last q h
    unfold queryLoop
    dsimp only
    split
    · rename_i hc
      have : fuel = 0 := by omega
      subst this
      rfl
    · exact ih _ _ _ (by omega)

/-! ## One step -/

/-- The precision of the weights of a document of `n` words -/
def prec (n : ℝ) (isig : Nat → Nat → ℝ) (lxi : Nat → ℝ) (a b : Nat) : ℝ := isig a b + if a = b then n * lxi a else 0

theorem prec_posDef (K : Nat) (n : ℝ) (hn : 0 ≤ n) (isig : Nat → Nat → ℝ) (hi : (mat K isig).PosDef) (lxi : Nat → ℝ) (hl : ∀ k, k < K → 0 < lxi k) :
    (mat K (prec n isig lxi)).PosDef := by
  have : mat K (prec n isig lxi) = mat K isig + Matrix.diagonal (fun k : Fin K => n * lxi k) := by
    ext a b
    rw [Matrix.add_apply]
    show isig a b + (if (a : Nat) = b then n * lxi a else 0) = isig a b + _
    congr 1
    by_cases h : a = b
    · subst h
      rw [if_pos rfl, Matrix.diagonal_apply_eq]
    · rw [if_neg fun e => h (Fin.ext e), Matrix.diagonal_apply_ne _ h]
  rw [this]
  exact hi.add_posSemidef (Matrix.PosSemidef.diagonal fun k => mul_nonneg hn (hl k k.2).le)

/-- The right hand side of the equation of the weights -/
noncomputable def rhs (x : Data) (K : Nat) (isig : Nat → Nat → ℝ) (topicMean : Nat → ℝ) (S : Nat → Nat → ℝ) (q : QState) (d k : Nat) : ℝ :=
  (q.s d * q.lxi d k - 0.5) * (x.len d : ℝ) + S d k + ∑ j ∈ Finset.range K, isig k j * topicMean j

/-- The new weights solve their linear equation. -/
theorem step_solves (x : Data) (K : Nat) (isig : Nat → Nat → ℝ) (hi : (mat K isig).PosDef) (topicMean : Nat → ℝ) (S : Nat → Nat → ℝ) (q : QState)
    (d : Nat) (hl : ∀ k, k < K → 0 < q.lxi d k) (k : Nat) (hk : k < K) :
    ∑ j ∈ Finset.range K, isig k j * (queryStep (exactInv K) x K isig topicMean S q).means d j
      + (x.len d : ℝ) * q.lxi d k * (queryStep (exactInv K) x K isig topicMean S q).means d k = rhs x K isig topicMean S q d k := by
  have hp := prec_posDef K (x.len d) (Nat.cast_nonneg _) isig hi (q.lxi d) hl
  have htwo := (exactInv_two K _ hp).1
  have hm : ∀ j, (queryStep (exactInv K) x K isig topicMean S q).means d j
      = ∑ l ∈ Finset.range K, exactInv K (prec (x.len d) isig (q.lxi d)) j l * rhs x K isig topicMean S q d l := fun j => rfl
  have h1 : ∑ j ∈ Finset.range K, prec (x.len d) isig (q.lxi d) k j * (queryStep (exactInv K) x K isig topicMean S q).means d j
      = rhs x K isig topicMean S q d k := by
    simp only [hm, Finset.mul_sum]
    rw [Finset.sum_comm]
    have : ∀ l ∈ Finset.range K, ∑ j ∈ Finset.range K, prec (x.len d) isig (q.lxi d) k j
        * (exactInv K (prec (x.len d) isig (q.lxi d)) j l * rhs x K isig topicMean S q d l) = (if k = l then 1 else 0) * rhs x K isig topicMean S q d l := by
      intro l hl
      rw [← htwo k l hk (Finset.mem_range.1 hl), Finset.sum_mul]
      exact Finset.sum_congr rfl fun j _ => (mul_assoc _ _ _).symm
    rw [Finset.sum_congr rfl this]
    simp only [ite_mul, one_mul, zero_mul]
    rw [Finset.sum_ite_eq (Finset.range K) k, if_pos (Finset.mem_range.2 hk)]
  rw [← h1]
  unfold prec
  simp only [add_mul, ite_mul, zero_mul, Finset.sum_add_distrib]
  rw [Finset.sum_ite_eq (Finset.range K) k, if_pos (Finset.mem_range.2 hk)]

/-- What a step delivers: positive variances, none above that of the prior given the other topics, and positive coefficients of at most a quarter;
documents without words have the weights of the prior. -/
structure Proper (x : Data) (K : Nat) (isig : Nat → Nat → ℝ) (topicMean : Nat → ℝ) (q : QState) : Prop where
  varcs : ∀ d k, k < K → 0 < q.varcs d k ∧ q.varcs d k ≤ 1 / isig k k
  lxi : ∀ d k, k < K → 0 < q.lxi d k ∧ q.lxi d k ≤ 1 / 4
  empty : ∀ d k, k < K → x.len d = 0 → q.means d k = topicMean k ∧ q.varcs d k = 1 / isig k k

/-- Documents without words have no topic counts. -/
theorem counts_empty (x : Data) (K : Nat) (e vocab : Nat → Nat → ℝ) (d k : Nat) (h : x.len d = 0) : topicCounts x K e vocab d k = 0 := by
  unfold topicCounts quotient
  have hw : ∀ t ∈ Finset.range x.T, x.words d t = 0 := Finset.sum_eq_zero_iff.1 h
  rw [Finset.sum_eq_zero fun t ht => by rw [hw t ht]; simp, mul_zero]

theorem step_proper (x : Data) (K : Nat) (isig : Nat → Nat → ℝ) (hi : (mat K isig).PosDef) (topicMean : Nat → ℝ) (S : Nat → Nat → ℝ)
    (hS : ∀ d k, x.len d = 0 → S d k = 0) (q : QState) (hl : ∀ d k, k < K → 0 < q.lxi d k) :
    Proper x K isig topicMean (queryStep (exactInv K) x K isig topicMean S q) := by
  have hdiag : ∀ k, k < K → 0 < isig k k := fun k hk => hi.diag_pos (i := ⟨k, hk⟩)
  have hv : ∀ d k, k < K → 0 < (queryStep (exactInv K) x K isig topicMean S q).varcs d k := by
    intro d k hk
    have := hdiag k hk
    have := mul_nonneg (Nat.cast_nonneg (α := ℝ) (x.len d)) (hl d k hk).le
    show 0 < 1 / ((x.len d : ℝ) * q.lxi d k + isig k k)
    positivity
  refine ⟨fun d k hk => ⟨hv d k hk, ?_⟩, fun d k hk => ?_, fun d k hk h0 => ⟨?_, ?_⟩⟩
  · show 1 / ((x.len d : ℝ) * q.lxi d k + isig k k) ≤ 1 / isig k k
    have := mul_nonneg (Nat.cast_nonneg (α := ℝ) (x.len d)) (hl d k hk).le
    exact one_div_le_one_div_of_le (hdiag k hk) (by linarith)
  · have hc := Bouchard.coefficient_spec _ (deriveXi_pos ((queryStep (exactInv K) x K isig topicMean S q).means d k) _ (q.s d) (hv d k hk)).ne'
    show 0 < 2 * negJakkola (deriveXi ((queryStep (exactInv K) x K isig topicMean S q).means d k)
        ((queryStep (exactInv K) x K isig topicMean S q).varcs d k) (q.s d)) ∧ 2 * negJakkola (deriveXi
        ((queryStep (exactInv K) x K isig topicMean S q).means d k) ((queryStep (exactInv K) x K isig topicMean S q).varcs d k) (q.s d)) ≤ 1 / 4
    constructor <;> linarith [hc.1, hc.2.1]
  · have hp := prec_posDef K (x.len d) (Nat.cast_nonneg _) isig hi (q.lxi d) (hl d)
    have htwo := (exactInv_two K _ hp).2
    have hr : ∀ l, rhs x K isig topicMean S q d l = ∑ j ∈ Finset.range K, prec (x.len d) isig (q.lxi d) l j * topicMean j := by
      intro l
      unfold rhs prec
      rw [h0, hS d l h0]
      simp
    show ∑ l ∈ Finset.range K, exactInv K (prec (x.len d) isig (q.lxi d)) k l * rhs x K isig topicMean S q d l = topicMean k
    simp only [hr, Finset.mul_sum]
    rw [Finset.sum_comm]
    have : ∀ j ∈ Finset.range K, ∑ l ∈ Finset.range K, exactInv K (prec (x.len d) isig (q.lxi d)) k l
        * (prec (x.len d) isig (q.lxi d) l j * topicMean j) = (if k = j then 1 else 0) * topicMean j := by
      intro j hj
      rw [← htwo k j hk (Finset.mem_range.1 hj), Finset.sum_mul]
      exact Finset.sum_congr rfl fun l _ => (mul_assoc _ _ _).symm
    rw [Finset.sum_congr rfl this]
    simp only [ite_mul, one_mul, zero_mul]
    rw [Finset.sum_ite_eq (Finset.range K) k, if_pos (Finset.mem_range.2 hk)]
  · show 1 / ((x.len d : ℝ) * q.lxi d k + isig k k) = 1 / isig k k
    rw [h0]
    simp

/-- C212: a query of any positive number of iterations returns proper weights, whatever weights it starts from. -/
theorem query_proper (tiny : ℝ) (perplexity : ℝ → ℝ → ℝ) (big : ℝ) (x : Data) (K : Nat) (topicMean : Nat → ℝ) (sig vocab : Nat → Nat → ℝ)
    (hsig : (mat K sig).PosDef) (iterations : Nat) (hit : 0 < iterations) (q : QState) (hl : ∀ d k, k < K → 0 < q.lxi d k) :
    Proper x K (exactInv K sig) topicMean (query (exactInv K) tiny perplexity big x K topicMean sig vocab iterations q) := by
  obtain ⟨n, rfl⟩ : ∃ n, iterations = n + 1 := ⟨iterations - 1, by omega⟩
  unfold query
  dsimp only
  obtain ⟨j, _, he⟩ := loop_runs (queryStep (exactInv K) x K (exactInv K sig) topicMean (topicCounts x K (expRows K q.means) vocab))
    (fun means => perplexity (logLikelihood x K tiny means vocab) (∑ d ∈ Finset.range x.D, (x.len d : ℝ))) n 0 big q
  rw [he]
  have hi := exactInv_posDef K sig hsig
  have hS : ∀ d k, x.len d = 0 → topicCounts x K (expRows K q.means) vocab d k = 0 := fun d k h => counts_empty x K _ _ d k h
  clear he
  induction j with
  | zero => exact step_proper x K _ hi topicMean _ hS q hl
  | succ j ih =>
    rw [Function.iterate_succ_apply']
    exact step_proper x K _ hi topicMean _ hS _ fun d k hk => ((ih (by omega)).lxi d k hk).1

/-! ## What a step maximises -/

/-- The bound of the evidence of one document as a function of the weights `m` and variances `v`, up to a constant: the words are replaced by the
tangent with slopes `S`, the log-sum-exp by Bouchard's bound with the coefficients `l`. -/
noncomputable def objective (K : Nat) (n : ℝ) (isig : Nat → Nat → ℝ) (topicMean S l xi : Nat → ℝ) (s : ℝ) (m v : Nat → ℝ) : ℝ :=
  -(Bohning.quad K isig fun k => m k - topicMean k) / 2 - (∑ k ∈ Finset.range K, v k * isig k k) / 2 + (∑ k ∈ Finset.range K, Real.log (v k)) / 2
    + ∑ k ∈ Finset.range K, S k * m k + boundTerms K n m v l xi s

theorem objective_means (K : Nat) (n : ℝ) (hn : 0 ≤ n) (isig : Nat → Nat → ℝ) (hi : Bohning.IsPrec K isig) (topicMean S l xi : Nat → ℝ)
    (hl : ∀ k, k < K → 0 ≤ l k) (s : ℝ) (m v m' : Nat → ℝ)
    (hm : ∀ k, k < K → ∑ j ∈ Finset.range K, isig k j * m j + n * (2 * l k) * m k
      = (s * (2 * l k) - 0.5) * n + S k + ∑ j ∈ Finset.range K, isig k j * topicMean j) :
    objective K n isig topicMean S l xi s m' v ≤ objective K n isig topicMean S l xi s m v := by
  obtain ⟨δ, hδ⟩ : ∃ δ : Nat → ℝ, δ = fun k => m' k - m k := ⟨_, rfl⟩
  have hm' : m' = fun k => m k + δ k := by rw [hδ]; funext k; ring
  have hq : Bohning.quad K isig (fun k => m' k - topicMean k) = Bohning.quad K isig (fun k => m k - topicMean k)
      + 2 * ∑ i ∈ Finset.range K, δ i * ∑ j ∈ Finset.range K, isig i j * (m j - topicMean j) + Bohning.quad K isig δ := by
    rw [← Bohning.quad_shift K isig hi.symm]
    congr 1
    funext k
    rw [hm']
    ring
  have hlin : ∑ i ∈ Finset.range K, δ i * ∑ j ∈ Finset.range K, isig i j * (m j - topicMean j)
      = ∑ k ∈ Finset.range K, δ k * ((s * (2 * l k) - 0.5) * n + S k - n * (2 * l k) * m k) := by
    refine Finset.sum_congr rfl fun k hk => ?_
    congr 1
    simp only [mul_sub, Finset.sum_sub_distrib]
    linarith [hm k (Finset.mem_range.1 hk)]
  have hS : ∑ k ∈ Finset.range K, S k * m' k = ∑ k ∈ Finset.range K, S k * m k + ∑ k ∈ Finset.range K, S k * δ k := by
    rw [← Finset.sum_add_distrib]
    exact Finset.sum_congr rfl fun k _ => by rw [hm']; ring
  have hb : boundTerms K n m' v l xi s = boundTerms K n m v l xi s
      - ∑ k ∈ Finset.range K, (n * (l k * (2 * m k * δ k + δ k ^ 2 - 2 * s * δ k) + δ k / 2)) := by
    rw [Bouchard.boundTerms_eq, Bouchard.boundTerms_eq, ← Finset.mul_sum, neg_mul, neg_mul, sub_eq_add_neg, ← neg_add, ← mul_add, add_assoc,
      ← Finset.sum_add_distrib]
    congr 3
    exact Finset.sum_congr rfl fun k _ => by rw [hm']; ring
  have hsq : 0 ≤ ∑ k ∈ Finset.range K, n * (l k * δ k ^ 2) :=
    Finset.sum_nonneg fun k hk => mul_nonneg hn (mul_nonneg (hl k (Finset.mem_range.1 hk)) (sq_nonneg _))
  have hqn := hi.nonneg δ
  have hcomb : -(∑ k ∈ Finset.range K, δ k * ((s * (2 * l k) - 0.5) * n + S k - n * (2 * l k) * m k)) + ∑ k ∈ Finset.range K, S k * δ k
      - ∑ k ∈ Finset.range K, (n * (l k * (2 * m k * δ k + δ k ^ 2 - 2 * s * δ k) + δ k / 2)) = -∑ k ∈ Finset.range K, n * (l k * δ k ^ 2) := by
    rw [← Finset.sum_neg_distrib, ← Finset.sum_add_distrib, ← Finset.sum_sub_distrib, ← Finset.sum_neg_distrib]
    exact Finset.sum_congr rfl fun k _ => by ring
  unfold objective
  rw [hq, hlin, hS, hb]
  linarith

theorem objective_varcs (K : Nat) (n : ℝ) (isig : Nat → Nat → ℝ) (topicMean S l xi : Nat → ℝ) (s : ℝ) (m v v' : Nat → ℝ)
    (hp : ∀ k, k < K → 0 < n * (2 * l k) + isig k k) (hv : ∀ k, k < K → v k = 1 / (n * (2 * l k) + isig k k)) (hv' : ∀ k, k < K → 0 < v' k) :
    objective K n isig topicMean S l xi s m v' ≤ objective K n isig topicMean S l xi s m v := by
  have hb : ∀ u : Nat → ℝ, boundTerms K n m u l xi s = boundTerms K n m (fun _ => 0) l xi s - ∑ k ∈ Finset.range K, n * l k * u k := by
    intro u
    rw [Bouchard.boundTerms_eq, Bouchard.boundTerms_eq]
    have : ∑ k ∈ Finset.range K, n * l k * u k = n * ∑ k ∈ Finset.range K, l k * u k := by
      rw [Finset.mul_sum]
      exact Finset.sum_congr rfl fun k _ => mul_assoc _ _ _
    rw [this, neg_mul, neg_mul, sub_eq_add_neg, ← neg_add, ← mul_add, add_assoc, ← Finset.sum_add_distrib]
    congr 3
    exact Finset.sum_congr rfl fun k _ => by ring
  have hterm : ∑ k ∈ Finset.range K, (Real.log (v' k) / 2 - v' k * isig k k / 2 - n * l k * v' k)
      ≤ ∑ k ∈ Finset.range K, (Real.log (v k) / 2 - v k * isig k k / 2 - n * l k * v k) := by
    refine Finset.sum_le_sum fun k hk => ?_
    have hk := Finset.mem_range.1 hk
    have h1 := hp k hk
    have h2 := Real.log_le_sub_one_of_pos (mul_pos (hv' k hk) h1)
    rw [Real.log_mul (hv' k hk).ne' h1.ne'] at h2
    have h3 : Real.log (v k) = -Real.log (n * (2 * l k) + isig k k) := by rw [hv k hk, one_div, Real.log_inv]
    have h4 : v k * (n * (2 * l k) + isig k k) = 1 := by rw [hv k hk]; exact one_div_mul_cancel h1.ne'
    rw [h3]
    nlinarith
  unfold objective
  rw [hb v, hb v']
  simp only [Finset.sum_sub_distrib, ← Finset.sum_div] at hterm
  linarith

/-- C213: a step that finds the coefficients as the previous step has left them, twice those of Jaakkola's bound, replaces weights and variances by the
best ones for the bound. -/
theorem step_best_partial (x : Data) (K : Nat) (isig : Nat → Nat → ℝ) (hi : (mat K isig).PosDef) (hsym : ∀ i j, isig i j = isig j i)
    (topicMean : Nat → ℝ) (S : Nat → Nat → ℝ) (q : QState) (l : Nat → Nat → ℝ) (hl : ∀ d k, k < K → 0 < l d k ∧ q.lxi d k = 2 * l d k)
    (xi : Nat → ℝ) (d : Nat) (m v : Nat → ℝ) (hv : ∀ k, k < K → 0 < v k) :
    objective K (x.len d) isig topicMean (S d) (l d) xi (q.s d) m v
      ≤ objective K (x.len d) isig topicMean (S d) (l d) xi (q.s d) ((queryStep (exactInv K) x K isig topicMean S q).means d)
          ((queryStep (exactInv K) x K isig topicMean S q).varcs d) := by
  have hprec : Bohning.IsPrec K isig := by
    refine ⟨hsym, fun y => ?_⟩
    rw [StmCov.quad_eq]
    exact hi.posSemidef.dotProduct_mulVec_nonneg _
  have hpos : ∀ k, k < K → 0 < (x.len d : ℝ) * (2 * l d k) + isig k k := by
    intro k hk
    have h1 : 0 < isig k k := hi.diag_pos (i := ⟨k, hk⟩)
    have h2 : 0 ≤ (x.len d : ℝ) * (2 * l d k) := mul_nonneg (Nat.cast_nonneg _) (by linarith [(hl d k hk).1])
    linarith
  refine (objective_means K (x.len d) (Nat.cast_nonneg _) isig hprec topicMean (S d) (l d) xi (fun k hk => (hl d k hk).1.le) (q.s d)
    ((queryStep (exactInv K) x K isig topicMean S q).means d) v m fun k hk => ?_).trans
    (objective_varcs K (x.len d) isig topicMean (S d) (l d) xi (q.s d) _ _ v hpos (fun k hk => ?_) hv)
  · have h := step_solves x K isig hi topicMean S q d (fun k hk => by rw [(hl d k hk).2]; linarith [(hl d k hk).1]) k hk
    unfold rhs at h
    rw [(hl d k hk).2] at h
    exact h
  · show 1 / ((x.len d : ℝ) * q.lxi d k + isig k k) = _
    rw [(hl d k hk).2]

/-- The best value of the parameter `s` of Bouchard's bound -/
noncomputable def bestS (K : Nat) (l m : Nat → ℝ) : ℝ := (∑ k ∈ Finset.range K, l k * m k + K / 4 - 1 / 2) / ∑ k ∈ Finset.range K, l k

/-- C213: the bound falls with the square of the distance of `s` from its best value. -/
theorem s_exact (K : Nat) (n : ℝ) (m v l xi : Nat → ℝ) (hl : 0 < ∑ k ∈ Finset.range K, l k) (s : ℝ) :
    boundTerms K n m v l xi s = boundTerms K n m v l xi (bestS K l m) - n * (∑ k ∈ Finset.range K, l k) * (s - bestS K l m) ^ 2 := by
  have key : ∀ s, boundTerms K n m v l xi s = -n * ((∑ k ∈ Finset.range K, l k) * s ^ 2
      - 2 * s * (∑ k ∈ Finset.range K, l k * m k + K / 4 - 1 / 2)
      + ∑ k ∈ Finset.range K, (l k * (m k ^ 2 + v k - xi k ^ 2) + (m k - xi k) / 2 + Real.log (1 + Real.exp (xi k)))) := by
    intro s
    rw [Bouchard.boundTerms_eq]
    congr 1
    have : ∑ k ∈ Finset.range K, (l k * (m k ^ 2 + v k - 2 * s * m k + s ^ 2 - xi k ^ 2) + (m k - s - xi k) / 2 + Real.log (1 + Real.exp (xi k)))
        = ∑ k ∈ Finset.range K, (l k * (m k ^ 2 + v k - xi k ^ 2) + (m k - xi k) / 2 + Real.log (1 + Real.exp (xi k)))
          + (s ^ 2 * ∑ k ∈ Finset.range K, l k - 2 * s * ∑ k ∈ Finset.range K, l k * m k - ∑ _k ∈ Finset.range K, s / 2) := by
      rw [Finset.mul_sum, Finset.mul_sum, ← Finset.sum_sub_distrib, ← Finset.sum_sub_distrib, ← Finset.sum_add_distrib]
      exact Finset.sum_congr rfl fun k _ => by ring
    rw [this, Finset.sum_const, Finset.card_range, nsmul_eq_mul]
    ring
  have hb : (∑ k ∈ Finset.range K, l k) * bestS K l m = ∑ k ∈ Finset.range K, l k * m k + K / 4 - 1 / 2 := by
    unfold bestS
    field_simp
  rw [key s, key (bestS K l m), ← hb]
  ring

/-- C213: the step uses the formula for the coefficients of Jaakkola's bound with their doubles, and misses the best value of `s`. -/
theorem step_s (x : Data) (K : Nat) (isig : Nat → Nat → ℝ) (topicMean : Nat → ℝ) (S : Nat → Nat → ℝ) (q : QState) (inv : (Nat → Nat → ℝ) → Nat → Nat → ℝ)
    (new : QState) (hnew : new = queryStep inv x K isig topicMean S q) (d : Nat) (l : Nat → ℝ)
    (hld : l = fun k => negJakkola (deriveXi (new.means d k) (new.varcs d k) (q.s d))) (hl : 0 < ∑ k ∈ Finset.range K, l k) :
    new.s d = bestS K l (new.means d) - ((K : ℝ) - 2) / 8 / ∑ k ∈ Finset.range K, l k := by
  have hlxi : new.lxi d = fun k => 2 * l k := by rw [hld, hnew]; rfl
  have hs : new.s d = ((∑ k ∈ Finset.range K, new.lxi d k * new.means d k) + 0.25 * K - 0.5) / ∑ k ∈ Finset.range K, new.lxi d k := by rw [hnew]; rfl
  rw [hs, hlxi]
  unfold bestS
  have h1 : ∑ k ∈ Finset.range K, 2 * l k * new.means d k = 2 * ∑ k ∈ Finset.range K, l k * new.means d k := by
    rw [Finset.mul_sum]
    exact Finset.sum_congr rfl fun k _ => mul_assoc _ _ _
  rw [h1, ← Finset.mul_sum]
  field_simp
  ring

/-- C213: unless there are exactly two topics, every step sets `s` of every document with words to a value that is not the best. -/
theorem step_s_violation (x : Data) (K : Nat) (hK : 0 < K) (hK2 : K ≠ 2) (isig : Nat → Nat → ℝ) (hi : (mat K isig).PosDef) (topicMean : Nat → ℝ)
    (S : Nat → Nat → ℝ) (hS : ∀ d k, x.len d = 0 → S d k = 0) (q : QState) (hq : ∀ d k, k < K → 0 < q.lxi d k) (new : QState)
    (hnew : new = queryStep (exactInv K) x K isig topicMean S q) (d : Nat) (hd : 0 < x.len d) (xi : Nat → ℝ) :
    ∃ s, boundTerms K (x.len d) (new.means d) (new.varcs d) (fun k => negJakkola (deriveXi (new.means d k) (new.varcs d k) (q.s d))) xi (new.s d)
      < boundTerms K (x.len d) (new.means d) (new.varcs d) (fun k => negJakkola (deriveXi (new.means d k) (new.varcs d k) (q.s d))) xi s := by
  have hpr : Proper x K isig topicMean new := by rw [hnew]; exact step_proper x K isig hi topicMean S hS q hq
  obtain ⟨l, hld⟩ : ∃ l : Nat → ℝ, l = fun k => negJakkola (deriveXi (new.means d k) (new.varcs d k) (q.s d)) := ⟨_, rfl⟩
  have hl : 0 < ∑ k ∈ Finset.range K, l k := by
    refine Finset.sum_pos (fun k hk => ?_) ⟨0, Finset.mem_range.2 hK⟩
    rw [hld]
    exact (Bouchard.coefficient_spec _ (deriveXi_pos _ _ _ (hpr.varcs d k (Finset.mem_range.1 hk)).1).ne').1
  rw [← hld]
  refine ⟨bestS K l (new.means d), ?_⟩
  rw [s_exact K _ _ _ l xi hl (new.s d), step_s x K isig topicMean S q (exactInv K) new hnew d l hld hl]
  have hne : ((K : ℝ) - 2) / 8 / ∑ k ∈ Finset.range K, l k ≠ 0 := by
    have h2 : (K : ℝ) ≠ 2 := by exact_mod_cast hK2
    exact div_ne_zero (div_ne_zero (sub_ne_zero.2 h2) (by norm_num)) hl.ne'
  have hsq := sq_pos_of_ne_zero (neg_ne_zero.2 hne)
  have hn : (0 : ℝ) < x.len d := by exact_mod_cast hd
  have := mul_pos (mul_pos hn hl) hsq
  have he : bestS K l (new.means d) - ((K : ℝ) - 2) / 8 / (∑ k ∈ Finset.range K, l k) - bestS K l (new.means d)
      = -(((K : ℝ) - 2) / 8 / ∑ k ∈ Finset.range K, l k) := by ring
  rw [he]
  linarith

/-! ## Documents do not influence each other -/

/-- Rows `d` of one query and `d'` of another agree. -/
structure SameRow (K : Nat) (q q' : QState) (d d' : Nat) : Prop where
  means : ∀ k, k < K → q.means d k = q'.means d' k
  varcs : ∀ k, k < K → q.varcs d k = q'.varcs d' k
  lxi : ∀ k, k < K → q.lxi d k = q'.lxi d' k
  s : q.s d = q'.s d'

theorem exactInv_congr (K : Nat) (M N : Nat → Nat → ℝ) (h : ∀ i j, i < K → j < K → M i j = N i j) (i j : Nat) : exactInv K M i j = exactInv K N i j := by
  unfold exactInv
  have : (Matrix.of fun a b : Fin K => M a b) = Matrix.of fun a b : Fin K => N a b := by
    ext a b
    exact h a b a.2 b.2
  rw [this]

theorem step_row (x x' : Data) (K : Nat) (isig : Nat → Nat → ℝ) (topicMean : Nat → ℝ) (S S' : Nat → Nat → ℝ) (q q' : QState) (d d' : Nat)
    (hlen : x.len d = x'.len d') (hS : ∀ k, k < K → S d k = S' d' k) (h : SameRow K q q' d d') :
    SameRow K (queryStep (exactInv K) x K isig topicMean S q) (queryStep (exactInv K) x' K isig topicMean S' q') d d' := by
  have hm : ∀ k, (queryStep (exactInv K) x K isig topicMean S q).means d k = (queryStep (exactInv K) x' K isig topicMean S' q').means d' k := by
    intro k
    show ∑ j ∈ Finset.range K, exactInv K (fun a b => isig a b + if a = b then (x.len d : ℝ) * q.lxi d a else 0) k j
        * ((q.s d * q.lxi d j - 0.5) * (x.len d : ℝ) + S d j + ∑ i ∈ Finset.range K, isig j i * topicMean i)
      = ∑ j ∈ Finset.range K, exactInv K (fun a b => isig a b + if a = b then (x'.len d' : ℝ) * q'.lxi d' a else 0) k j
        * ((q'.s d' * q'.lxi d' j - 0.5) * (x'.len d' : ℝ) + S' d' j + ∑ i ∈ Finset.range K, isig j i * topicMean i)
    refine Finset.sum_congr rfl fun j hj => ?_
    have hj := Finset.mem_range.1 hj
    rw [hlen, h.s, h.lxi j hj, hS j hj, exactInv_congr K _ (fun a b => isig a b + if a = b then (x'.len d' : ℝ) * q'.lxi d' a else 0)
      (fun a b ha _ => by rw [h.lxi a ha])]
  have hv : ∀ k, k < K → (queryStep (exactInv K) x K isig topicMean S q).varcs d k = (queryStep (exactInv K) x' K isig topicMean S' q').varcs d' k := by
    intro k hk
    show 1 / ((x.len d : ℝ) * q.lxi d k + isig k k) = 1 / ((x'.len d' : ℝ) * q'.lxi d' k + isig k k)
    rw [hlen, h.lxi k hk]
  have hl : ∀ k, k < K → (queryStep (exactInv K) x K isig topicMean S q).lxi d k = (queryStep (exactInv K) x' K isig topicMean S' q').lxi d' k := by
    intro k hk
    show 2 * negJakkola (deriveXi ((queryStep (exactInv K) x K isig topicMean S q).means d k)
        ((queryStep (exactInv K) x K isig topicMean S q).varcs d k) (q.s d))
      = 2 * negJakkola (deriveXi ((queryStep (exactInv K) x' K isig topicMean S' q').means d' k)
        ((queryStep (exactInv K) x' K isig topicMean S' q').varcs d' k) (q'.s d'))
    rw [hm k, hv k hk, h.s]
  refine ⟨fun k _ => hm k, hv, hl, ?_⟩
  show ((∑ k ∈ Finset.range K, (queryStep (exactInv K) x K isig topicMean S q).lxi d k
      * (queryStep (exactInv K) x K isig topicMean S q).means d k) + 0.25 * K - 0.5)
      / ∑ k ∈ Finset.range K, (queryStep (exactInv K) x K isig topicMean S q).lxi d k
    = ((∑ k ∈ Finset.range K, (queryStep (exactInv K) x' K isig topicMean S' q').lxi d' k
      * (queryStep (exactInv K) x' K isig topicMean S' q').means d' k) + 0.25 * K - 0.5)
      / ∑ k ∈ Finset.range K, (queryStep (exactInv K) x' K isig topicMean S' q').lxi d' k
  rw [Finset.sum_congr rfl fun k hk => by rw [hl k (Finset.mem_range.1 hk), hm k], Finset.sum_congr rfl fun k hk => hl k (Finset.mem_range.1 hk)]

theorem rowMax_congr (K : Nat) (hK : 0 < K) (r r' : Nat → ℝ) (h : ∀ k, k < K → r k = r' k) : Numerics.rowMax K r = Numerics.rowMax K r' := by
  obtain ⟨h1, k, hk, he⟩ := Props.Numerics.rowMax_spec K r hK
  obtain ⟨h1', k', hk', he'⟩ := Props.Numerics.rowMax_spec K r' hK
  apply le_antisymm
  · rw [he, h k hk]
    exact h1' k hk
  · rw [he', ← h k' hk']
    exact h1 k' hk'

/-- After any number of steps, a document has the same weights in both corpora. -/
theorem iter_row (x x' : Data) (hT : x.T = x'.T) (K : Nat) (hK : 0 < K) (topicMean : Nat → ℝ)
    (isig vocab : Nat → Nat → ℝ) (q q' : QState) (d d' : Nat) (hw : ∀ t, t < x.T → x.words d t = x'.words d' t)
    (h : SameRow K q q' d d') (n : Nat) :
    SameRow K ((queryStep (exactInv K) x K isig topicMean (topicCounts x K (expRows K q.means) vocab))^[n] q)
      ((queryStep (exactInv K) x' K isig topicMean (topicCounts x' K (expRows K q'.means) vocab))^[n] q') d d' := by
  have hlen : x.len d = x'.len d' := by
    unfold Data.len
    rw [← hT]
    exact Finset.sum_congr rfl fun t ht => hw t (Finset.mem_range.1 ht)
  have he : ∀ k, k < K → expRows K q.means d k = expRows K q'.means d' k := by
    intro k hk
    unfold expRows
    rw [h.means k hk, rowMax_congr K hK (q.means d) (q'.means d') h.means]
  have hS : ∀ k, k < K → topicCounts x K (expRows K q.means) vocab d k = topicCounts x' K (expRows K q'.means) vocab d' k := by
    intro k hk
    unfold topicCounts quotient
    rw [he k hk, ← hT]
    congr 1
    refine Finset.sum_congr rfl fun t ht => ?_
    rw [hw t (Finset.mem_range.1 ht), Finset.sum_congr rfl fun j hj => by rw [he j (Finset.mem_range.1 hj)]]
  induction n with
  | zero => exact h
  | succ n ih =>
    rw [Function.iterate_succ_apply', Function.iterate_succ_apply']
    exact step_row x x' K _ topicMean _ _ _ _ d d' hlen hS ih

/-- C214: up to the 22nd iteration, the weights that a query infers for a document depend on no other document of the query. -/
theorem query_row_partial (tiny : ℝ) (perplexity : ℝ → ℝ → ℝ) (big : ℝ) (x x' : Data) (hT : x.T = x'.T) (K : Nat) (hK : 0 < K) (topicMean : Nat → ℝ)
    (sig vocab : Nat → Nat → ℝ) (iterations : Nat) (hit : iterations ≤ 22) (q q' : QState) (d d' : Nat) (hw : ∀ t, t < x.T → x.words d t = x'.words d' t)
    (h : SameRow K q q' d d') :
    SameRow K (query (exactInv K) tiny perplexity big x K topicMean sig vocab iterations q)
      (query (exactInv K) tiny perplexity big x' K topicMean sig vocab iterations q') d d' := by
  unfold query
  dsimp only
  rw [loop_early _ _ iterations 0 big q (by omega), loop_early _ _ iterations 0 big q' (by omega)]
  exact iter_row x x' hT K hK topicMean _ vocab q q' d d' hw h iterations

/-- The number of iterations that are carried out: at least the smaller of 22 and the number asked for. -/
theorem loop_count (step : QState → QState) (perp : (Nat → Nat → ℝ) → ℝ) (fuel : Nat) : ∀ itr last q,
    ∃ n, n ≤ fuel ∧ (fuel ≤ n ∨ 22 ≤ itr + n) ∧ queryLoop step perp fuel itr last q = step^[n] q := by
  induction fuel with
  | zero => exact fun _ _ _ => ⟨0, le_rfl, .inl le_rfl, rfl⟩
  | succ fuel ih =>
    intro itr last q
    unfold queryLoop
    dsimp only
    split
    · rename_i hc
      exact ⟨1, by omega, .inr (by omega), rfl⟩
    · obtain ⟨n, h1, h2, h3⟩ := ih (itr + 1) (perp (step q).means) (step q)
      exact ⟨n + 1, by omega, by omega, h3⟩

/-- C214: the other documents matter only through the number of iterations that are carried out (the same for all the documents of a query): the
weights of a document after `n` steps are a function `row n` that is the same for all the corpora with this document, and a query delivers `row n` for
some `n` that is at most the number of iterations asked for, and at least that or 22. -/
theorem query_row_steps (K : Nat) (hK : 0 < K) (topicMean : Nat → ℝ) (sig vocab : Nat → Nat → ℝ) (x : Data) (q : QState) (d : Nat) :
    ∃ row : Nat → QState, ∀ (tiny : ℝ) (perplexity : ℝ → ℝ → ℝ) (big : ℝ) (iterations : Nat) (x' : Data), x.T = x'.T → ∀ (q' : QState) (d' : Nat),
      (∀ t, t < x.T → x.words d t = x'.words d' t) → SameRow K q q' d d' →
      ∃ n, n ≤ iterations ∧ (iterations ≤ n ∨ 22 ≤ n) ∧
        SameRow K (row n) (query (exactInv K) tiny perplexity big x' K topicMean sig vocab iterations q') d d' := by
  refine ⟨fun n => (queryStep (exactInv K) x K (exactInv K sig) topicMean (topicCounts x K (expRows K q.means) vocab))^[n] q, ?_⟩
  intro tiny perplexity big iterations x' hT q' d' hw h
  unfold query
  dsimp only
  obtain ⟨n, h1, h2, h3⟩ := loop_count (queryStep (exactInv K) x' K (exactInv K sig) topicMean (topicCounts x' K (expRows K q'.means) vocab))
    (fun means => perplexity (logLikelihood x' K tiny means vocab) (∑ d ∈ Finset.range x'.D, (x'.len d : ℝ))) iterations 0 big q'
  refine ⟨n, h1, by omega, ?_⟩
  rw [h3]
  exact iter_row x x' hT K hK topicMean _ vocab q q' d d' hw h n

/-! ## Examples -/

/-- Three topics with a standard Gaussian prior, and the start of `newQueryState` -/
noncomputable def exQ : QState := ⟨fun _ k => 1 / (k + 2), fun _ _ => 1, fun _ _ => 1 / 10, fun _ => 0⟩

theorem exEye : (mat 3 Bohning.eye).PosDef := by
  have : mat 3 Bohning.eye = 1 := by
    ext i j
    show Bohning.eye i j = _
    unfold Bohning.eye
    rw [Matrix.one_apply]
    simp only [Fin.ext_iff]
  rw [this]
  exact Matrix.PosDef.one

example (tiny big : ℝ) (perplexity : ℝ → ℝ → ℝ) (vocab : Nat → Nat → ℝ) :
    Proper Ctm.exX 3 (exactInv 3 Bohning.eye) (fun _ => 0) (query (exactInv 3) tiny perplexity big Ctm.exX 3 (fun _ => 0) Bohning.eye vocab 30 exQ) :=
  query_proper tiny perplexity big Ctm.exX 3 (fun _ => 0) Bohning.eye vocab exEye 30 (by norm_num) exQ fun _ _ _ => by norm_num [exQ]

example : ∃ S : Nat → Nat → ℝ, (∀ d k, Ctm.exX.len d = 0 → S d k = 0) ∧ 0 < Ctm.exX.len 0 ∧ ∀ d k, k < 3 → 0 < exQ.lxi d k :=
  ⟨fun _ _ => 0, fun _ _ _ => rfl, by decide, fun _ _ _ => by norm_num [exQ]⟩

example : SameRow 3 exQ exQ 0 1 := ⟨fun _ _ => rfl, fun _ _ => rfl, fun _ _ => rfl, rfl⟩

end Verif.Props.CtmQuery
