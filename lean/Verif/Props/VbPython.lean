import Mathlib.Tactic.Ring
import Mathlib.Tactic.Linarith
import Mathlib.Tactic.FieldSimp
import Mathlib.Tactic.Positivity
import Mathlib.Algebra.Order.BigOperators.Group.Finset
import Mathlib.Algebra.BigOperators.Field
import Verif.Model.VbPython
import Verif.Props.Numerics

/-!
# Variational Bayes for LDA in Python (C72–C75, C108–C112)
-/

namespace Verif.Props.VbPython

open Verif Verif.VbPython
open Verif.Mom (Data)
open Verif.Props.Numerics (softmax shifted softmax_spec)

/-! ## Means and Dirichlet parameters (C72) -/

/-- **C72**: from parameters to means and back. -/
theorem dirichlet_of_means (p : Params) (x : Data) (topics : Nat → Nat → ℝ) (d k : Nat) (hd : 0 < x.len d) :
    toDirichlet p x (toMeans p x topics) d k = topics d k := by
  have : (x.len d : ℝ) ≠ 0 := by exact_mod_cast hd.ne'
  unfold toDirichlet toMeans
  field_simp
  ring

/-- **C72**: from means to parameters and back. -/
theorem means_of_dirichlet (p : Params) (x : Data) (means : Nat → Nat → ℝ) (d k : Nat) (hd : 0 < x.len d) :
    toMeans p x (toDirichlet p x means) d k = means d k := by
  have : (x.len d : ℝ) ≠ 0 := by exact_mod_cast hd.ne'
  unfold toDirichlet toMeans
  field_simp
  ring

/-- **C72**: measuring the bound or likelihood through the internal functions leaves the means, predicting links leaves the
parameters of all non-empty documents. -/
theorem measurement_undisturbing (p : Params) (x : Data) (d k : Nat) (hd : 0 < x.len d) (tab : Nat → Nat → ℝ)
    (f : (Nat → Nat → ℝ) → ℝ) :
    (measureInternal p x f tab).2 d k = tab d k ∧ (predictFromMeans p x f tab).2 d k = tab d k :=
  ⟨means_of_dirichlet p x tab d k hd, dirichlet_of_means p x tab d k hd⟩

/-! ## One visit -/

theorem inferTopics_eq (psi : ℝ → ℝ) (p : Params) (x : Data) (word means : Nat → Nat → ℝ) (d t k : Nat) :
    inferTopics psi p x word means d t k = softmax p.K (score psi p x word means d t) k := by
  unfold inferTopics
  exact shifted p.K _ _ k

theorem infer_pos (psi : ℝ → ℝ) (p : Params) (x : Data) (word means : Nat → Nat → ℝ) (d t k : Nat) (hk : k < p.K) :
    0 < inferTopics psi p x word means d t k := by
  rw [inferTopics_eq]
  exact (softmax_spec p.K _ (by omega)).pos k

theorem infer_sum (psi : ℝ → ℝ) (p : Params) (x : Data) (word means : Nat → Nat → ℝ) (d t : Nat) (hK : 0 < p.K) :
    ∑ k ∈ Finset.range p.K, inferTopics psi p x word means d t k = 1 := by
  simp only [inferTopics_eq]
  exact (softmax_spec p.K _ hK).sum

/-- A distribution over the topics, all of them possible. -/
def Proper (p : Params) (r : Nat → ℝ) : Prop := (∀ k, k < p.K → 0 < r k) ∧ ∑ k ∈ Finset.range p.K, r k = 1

theorem visited_proper (psi : ℝ → ℝ) (p : Params) (hK : 0 < p.K) (x : Data) (word means : Nat → Nat → ℝ) (d : Nat)
    (hd : 0 < x.len d) :
    Proper p (fun k => (∑ t ∈ Finset.range x.T, inferTopics psi p x word means d t k * (x.words d t : ℝ)) / (x.len d : ℝ)) := by
  have hl : (0 : ℝ) < x.len d := by exact_mod_cast hd
  constructor
  · intro k hk
    refine div_pos ?_ hl
    have hex : ∃ t ∈ Finset.range x.T, 0 < x.words d t := by
      by_contra h
      push Not at h
      have : x.len d = 0 := Finset.sum_eq_zero (fun t ht => Nat.le_zero.mp (h t ht))
      omega
    obtain ⟨t, ht, hw⟩ := hex
    refine Finset.sum_pos' (fun t _ => ?_) ⟨t, ht, ?_⟩
    · exact mul_nonneg (infer_pos psi p x word means d t k hk).le (Nat.cast_nonneg _)
    · exact mul_pos (infer_pos psi p x word means d t k hk) (by exact_mod_cast hw)
  · rw [← Finset.sum_div, Finset.sum_comm]
    simp only [← Finset.sum_mul, infer_sum psi p x word means d _ hK, one_mul]
    rw [div_eq_one_iff_eq hl.ne']
    unfold Data.len
    push_cast
    rfl

/-! ## The order of the visits (C73) -/

/-- The value of `d` before visit number `n`. -/
def pos (D n : Nat) : Int := if n = 0 then -1 else (((n - 1) % D : Nat) : Int)

theorem nextDoc_pos (D n : Nat) (hD : 0 < D) : nextDoc D (pos D n) = ((n % D : Nat) : Int) := by
  unfold nextDoc pos
  by_cases hn : n = 0
  · subst hn
    simp only [if_true]
    rw [if_pos (by omega), Nat.zero_mod]
    rfl
  · rw [if_neg hn]
    have h1 : (n - 1) % D < D := Nat.mod_lt _ hD
    obtain ⟨m, rfl⟩ : ∃ m, n = m + 1 := ⟨n - 1, by omega⟩
    rw [Nat.add_sub_cancel] at *
    rw [Nat.add_mod_eq_ite]
    by_cases hD1 : D = 1
    · subst hD1
      simp [Nat.mod_one]
    · rw [Nat.mod_eq_of_lt (a := 1) (by omega)]
      split <;> split <;> push_cast <;> omega

/-- What a number of visits, starting with visit number `n`, does. -/
structure Visited (p : Params) (x : Data) (n m : Nat) (s s' : Batch) : Prop where
  d : s'.d = pos x.D (n + m)
  visits : s'.visits = s.visits ++ (List.range' n m).map (· % x.D)
  grad : ∀ t, ∑ k ∈ Finset.range p.K, s'.grad k t
    = ∑ k ∈ Finset.range p.K, s.grad k t + ∑ i ∈ Finset.range m, (x.words ((n + i) % x.D) t : ℝ)
  mono : ∀ k, k < p.K → ∀ t, s.grad k t ≤ s'.grad k t
  proper : ∀ i, i < m → Proper p (s'.means ((n + i) % x.D))
  other : ∀ d, (∀ i, i < m → d ≠ (n + i) % x.D) → s'.means d = s.means d

theorem visits_spec (psi : ℝ → ℝ) (p : Params) (hK : 0 < p.K) (x : Data) (hD : 0 < x.D) (hx : ∀ d, d < x.D → 0 < x.len d)
    (word : Nat → Nat → ℝ) (n m : Nat) (s : Batch) (hs : s.d = pos x.D n) :
    ∃ s', (List.range m).foldlM (fun s _ => visit psi p x word s) s = .ok s' ∧ Visited p x n m s s' := by
  induction m with
  | zero =>
    refine ⟨s, rfl, hs, by simp, by simp, fun _ _ _ => le_rfl, fun i hi => absurd hi (by omega), fun _ _ => rfl⟩
  | succ m ih =>
    obtain ⟨s1, h1, h2⟩ := ih
    have hmod : (n + m) % x.D < x.D := Nat.mod_lt _ hD
    have hnext : nextDoc x.D s1.d = (((n + m) % x.D : Nat) : Int) := by rw [h2.d]; exact nextDoc_pos _ _ hD
    have hv : visit psi p x word s1 = .ok
        { means := fun d' k => if d' = (n + m) % x.D then
            (∑ t ∈ Finset.range x.T, inferTopics psi p x word s1.means ((n + m) % x.D) t k * (x.words ((n + m) % x.D) t : ℝ))
              / (x.len ((n + m) % x.D) : ℝ) else s1.means d' k
          d := (((n + m) % x.D : Nat) : Int)
          grad := fun k t => s1.grad k t
            + (x.words ((n + m) % x.D) t : ℝ) * inferTopics psi p x word s1.means ((n + m) % x.D) t k
          visits := s1.visits ++ [(n + m) % x.D] } := by
      unfold visit
      simp only [hnext, Int.toNat_natCast]
      rw [if_pos hmod]
    have hfold : (List.range (m + 1)).foldlM (fun s _ => visit psi p x word s) s = visit psi p x word s1 := by
      rw [List.range_succ, List.foldlM_append, h1]
      simp only [bind, Except.bind, List.foldlM_cons, List.foldlM_nil, pure, Except.pure]
      split <;> simp_all
    refine ⟨_, hfold.trans hv, ?_⟩
    · constructor
      · show (((n + m) % x.D : Nat) : Int) = pos x.D (n + (m + 1))
        unfold pos
        rw [if_neg (by omega)]
        rfl
      · show s1.visits ++ [(n + m) % x.D] = _
        rw [h2.visits, List.range'_1_concat, List.map_append, List.append_assoc]
        rfl
      · intro t
        show ∑ k ∈ Finset.range p.K, (s1.grad k t
          + (x.words ((n + m) % x.D) t : ℝ) * inferTopics psi p x word s1.means ((n + m) % x.D) t k) = _
        rw [Finset.sum_add_distrib, h2.grad t, ← Finset.mul_sum, infer_sum _ _ _ _ _ _ _ hK, mul_one,
          Finset.sum_range_succ]
        ring
      · intro k hk t
        refine (h2.mono k hk t).trans ?_
        show s1.grad k t ≤ s1.grad k t + (x.words ((n + m) % x.D) t : ℝ) * _
        have h1 := infer_pos psi p x word s1.means ((n + m) % x.D) t k hk
        have h2 : (0 : ℝ) ≤ (x.words ((n + m) % x.D) t : ℝ) := Nat.cast_nonneg _
        nlinarith
      · intro i hi
        by_cases he : (n + i) % x.D = (n + m) % x.D
        · simp only [he, if_true]
          exact visited_proper psi p hK x word s1.means _ (hx _ hmod)
        · simp only [he, if_false]
          exact h2.proper i (by
            have : i ≠ m := fun h => he (by rw [h])
            omega)
      · intro d hd
        have h3 : d ≠ (n + m) % x.D := hd m (by omega)
        simp only [h3, if_false]
        exact h2.other d (fun i hi => hd i (by omega))

/-! ## The outer loop -/

/-- What one batch does. -/
theorem step_spec (psi : ℝ → ℝ) (bound : (Nat → Nat → ℝ) → (Nat → Nat → ℝ) → ℝ) (p : Params) (hK : 0 < p.K) (x : Data)
    (hD : 0 < x.D) (hx : ∀ d, d < x.D → 0 < x.len d) (plan : Plan) (hk : Known plan.rateAlgor) (size : Nat) (r : Run) (n b : Nat)
    (hd : r.d = pos x.D n) :
    ∃ g r', Visited p x n size ⟨r.means, r.d, fun _ _ => p.v, r.visits⟩ g
      ∧ trainStep psi bound p x plan size r b = .ok r'
      ∧ r'.d = g.d ∧ r'.visits = g.visits
      ∧ (plan.rateAlgor = "batch" → r'.word = g.grad ∧ r'.means = g.means)
      ∧ (plan.rateAlgor = "kappa" →
          r'.word = mix (fun _ => ((b : ℝ) + plan.rateDelay) ^ (-plan.forgettingRate)) r.word g.grad ∧ r'.means = g.means)
      ∧ (plan.rateAlgor = "amari" → r'.means = toDirichlet p x (toDirichlet p x g.means)) := by
  obtain ⟨g, h1, h2⟩ := visits_spec psi p hK x hD hx r.word n size ⟨r.means, r.d, fun _ _ => p.v, r.visits⟩ hd
  refine ⟨g, ?_⟩
  have hb : batch psi p x size r = .ok g := h1
  unfold trainStep
  rw [hb]
  simp only
  rcases hk with h | h | h | h
  · simp only [h, if_true]
    exact ⟨_, h2, rfl, rfl, rfl, fun _ => ⟨rfl, rfl⟩, fun h => absurd h (by decide), fun h => absurd h (by decide)⟩
  · simp only [h, if_true]
    rw [if_neg (by decide)]
    exact ⟨_, h2, rfl, rfl, rfl, fun h => absurd h (by decide), fun _ => ⟨rfl, rfl⟩, fun h => absurd h (by decide)⟩
  · simp only [h, if_true]
    rw [if_neg (by decide), if_neg (by decide), if_neg (by decide)]
    exact ⟨_, h2, rfl, rfl, rfl, fun h => absurd h (by decide), fun h => absurd h (by decide), fun _ => rfl⟩
  · simp only [h, if_true]
    rw [if_neg (by decide), if_neg (by decide)]
    exact ⟨_, h2, rfl, rfl, rfl, fun h => absurd h (by decide), fun h => absurd h (by decide), fun h => absurd h (by decide)⟩

theorem loop_visits (psi : ℝ → ℝ) (bound : (Nat → Nat → ℝ) → (Nat → Nat → ℝ) → ℝ) (p : Params) (hK : 0 < p.K) (x : Data)
    (hD : 0 < x.D) (hx : ∀ d, d < x.D → 0 < x.len d) (plan : Plan) (hk : Known plan.rateAlgor) (size : Nat) (r : Run)
    (hd : r.d = -1) (hv : r.visits = []) (B : Nat) :
    ∃ r', (List.range B).foldlM (trainStep psi bound p x plan size) r = .ok r'
      ∧ r'.d = pos x.D (B * size) ∧ r'.visits = (List.range (B * size)).map (· % x.D) := by
  induction B with
  | zero => exact ⟨r, rfl, by rw [hd, Nat.zero_mul]; rfl, by rw [hv, Nat.zero_mul]; rfl⟩
  | succ B ih =>
    obtain ⟨r1, h1, h2, h3⟩ := ih
    obtain ⟨g, r2, h4, h5, h6, h7, -⟩ := step_spec psi bound p hK x hD hx plan hk size r1 (B * size) B h2
    refine ⟨r2, ?_, ?_, ?_⟩
    · rw [List.range_succ, List.foldlM_append, h1]
      simp only [bind, Except.bind, List.foldlM_cons, List.foldlM_nil, pure, Except.pure]
      rw [h5]
    · rw [h6, h4.d, Nat.succ_mul]
    · rw [h7, h4.visits, Nat.succ_mul]
      show r1.visits ++ _ = _
      rw [h3, List.range_eq_range', List.range_eq_range', ← List.map_append, ← List.range'_append_1]
      simp

/-- Documents of a non-empty corpus without empty documents. -/
structure Corpus (x : Data) : Prop where
  some : 0 < x.D
  words : ∀ d, d < x.D → 0 < x.len d

theorem Corpus.check {x : Data} (h : Corpus x) : ¬ ((List.range x.D).any (fun d => decide (x.len d < 1))) = true := by
  simp only [List.any_eq_true, List.mem_range, decide_eq_true_eq, not_exists, not_and]
  intro d hd
  have := h.words d hd
  omega

/-- **C73**: training visits the documents in cyclic order, `batchCount * iterations * batchSize` visits in all. -/
theorem visits_cyclic (psi : ℝ → ℝ) (bound : (Nat → Nat → ℝ) → (Nat → Nat → ℝ) → ℝ) (p : Params) (hK : 0 < p.K) (x : Data)
    (hx : Corpus x) (plan : Plan) (hk : Known plan.rateAlgor) (hs : 0 < usedBatchSize x plan) (word topics : Nat → Nat → ℝ) :
    ∃ r, train psi bound p x plan word topics = .ok r
      ∧ r.visits = (List.range (batchCount x plan * plan.iterations * usedBatchSize x plan)).map (· % x.D) := by
  obtain ⟨r, h1, -, h3⟩ := loop_visits psi bound p hK x hx.some hx.words plan hk (usedBatchSize x plan)
    { word := word, means := toMeans p x topics, d := -1, step := fun _ => 1
      gradStep := fun _ => 1 / (usedBatchSize x plan : ℝ), exGrad := fun _ _ => 0, expGtg := fun _ => 0, visits := [] }
    rfl rfl (batchCount x plan * plan.iterations)
  refine ⟨{ r with means := toDirichlet p x r.means }, ?_, h3⟩
  unfold train
  rw [if_neg hx.check, if_neg (by omega), if_neg (not_not.mpr hk), h1]

/-- How often a document is visited in `M` visits in cyclic order. -/
theorem count_cyclic (D M d : Nat) (hd : d < D) :
    ((List.range M).map (· % D)).count d = (M + (D - 1 - d)) / D := by
  induction M with
  | zero => simp [Nat.div_eq_of_lt (show D - 1 - d < D by omega)]
  | succ M ih =>
    rw [List.range_succ, List.map_append, List.count_append, ih]
    have hD : 0 < D := by omega
    have hm := Nat.div_add_mod M D
    have hml := Nat.mod_lt M hD
    generalize M / D = q at *
    generalize hr : M % D = r at *
    have e1 : M + (D - 1 - d) = D * q + (r + (D - 1 - d)) := by omega
    have e2 : M + 1 + (D - 1 - d) = D * q + (r + 1 + (D - 1 - d)) := by omega
    rw [e1, e2, Nat.mul_add_div hD, Nat.mul_add_div hD]
    simp only [List.map_cons, List.map_nil, hr]
    by_cases hrd : r = d
    · subst hrd
      rw [Nat.div_eq_of_lt (by omega), show r + 1 + (D - 1 - r) = D by omega, Nat.div_self hD]
      simp
    · have hc : List.count d [r] = 0 := by simp [hrd]
      rw [hc]
      by_cases hlt : r < d
      · rw [Nat.div_eq_of_lt (by omega), Nat.div_eq_of_lt (by omega)]
      · have a1 : (r + (D - 1 - d)) / D = 1 := by
          rw [Nat.div_eq_iff hD]; omega
        have a2 : (r + 1 + (D - 1 - d)) / D = 1 := by
          rw [Nat.div_eq_iff hD]; omega
        rw [a1, a2]

/-- **C73**: the numbers of visits of two documents differ by at most one. -/
theorem visits_fair (D M d e : Nat) (hd : d < D) (he : e < D) :
    ((List.range M).map (· % D)).count d ≤ ((List.range M).map (· % D)).count e + 1 := by
  rw [count_cyclic D M d hd, count_cyclic D M e he]
  have hD : 0 < D := by omega
  calc (M + (D - 1 - d)) / D ≤ (M + (D - 1 - e) + D) / D := Nat.div_le_div_right (by omega)
    _ = (M + (D - 1 - e)) / D + 1 := Nat.add_div_right _ hD

/-- **C73**: one pass, that is `batchCount` batches, visits every document. -/
theorem pass_complete (x : Data) (plan : Plan) (hs : 0 < usedBatchSize x plan) (d : Nat) (hd : d < x.D) :
    0 < ((List.range (batchCount x plan * usedBatchSize x plan)).map (· % x.D)).count d := by
  rw [count_cyclic _ _ d hd]
  refine Nat.div_pos ?_ (by omega)
  have : x.D ≤ batchCount x plan * usedBatchSize x plan := by
    unfold batchCount usedBatchSize at *
    split
    · omega
    · next h =>
      rw [if_neg h] at hs
      have h1 := Nat.div_add_mod x.D plan.batchSize
      have h2 := Nat.mod_lt x.D hs
      rw [Nat.add_mul, Nat.one_mul, Nat.mul_comm]
      omega
  omega

/-- **C112** is violated: with batches one iteration makes more visits than there are documents, up to a whole batch more. -/
theorem too_many_visits (x : Data) (plan : Plan) (h : plan.rateAlgor ≠ "batch") (hs : 0 < plan.batchSize) :
    batchCount x plan * usedBatchSize x plan = x.D + (plan.batchSize - x.D % plan.batchSize)
      ∧ x.D < batchCount x plan * usedBatchSize x plan := by
  unfold batchCount usedBatchSize
  rw [if_neg h, if_neg h]
  have h1 := Nat.div_add_mod x.D plan.batchSize
  have h2 := Nat.mod_lt x.D hs
  rw [Nat.add_mul, Nat.one_mul, Nat.mul_comm]
  omega

/-- What remains of **C112**: without batches every iteration visits each document exactly once. -/
theorem batch_visits_partial (psi : ℝ → ℝ) (bound : (Nat → Nat → ℝ) → (Nat → Nat → ℝ) → ℝ) (p : Params) (hK : 0 < p.K) (x : Data)
    (hx : Corpus x) (plan : Plan) (hb : plan.rateAlgor = "batch") (word topics : Nat → Nat → ℝ) :
    ∃ r, train psi bound p x plan word topics = .ok r ∧ ∀ d, d < x.D → r.visits.count d = plan.iterations := by
  have hu : usedBatchSize x plan = x.D := if_pos hb
  have hc : batchCount x plan = 1 := if_pos hb
  obtain ⟨r, h1, h2⟩ := visits_cyclic psi bound p hK x hx plan (Or.inl hb) (by rw [hu]; exact hx.some) word topics
  refine ⟨r, h1, fun d hd => ?_⟩
  rw [h2, count_cyclic _ _ d hd, hu, hc, Nat.one_mul, Nat.mul_comm, Nat.mul_add_div hx.some,
    Nat.div_eq_of_lt (by omega), Nat.add_zero]

/-! ## Batch training: mass (C109) and queries (C74) -/

theorem sum_mod_range (D : Nat) (f : Nat → ℝ) (q : Nat) :
    ∑ i ∈ Finset.range D, f ((q * D + i) % D) = ∑ i ∈ Finset.range D, f i := by
  refine Finset.sum_congr rfl (fun i hi => ?_)
  rw [Nat.mul_comm, Nat.mul_add_mod, Nat.mod_eq_of_lt (Finset.mem_range.mp hi)]

/-- **C109**: after batch training for at least one iteration the word parameters of all topics sum to the priors plus the
word counts, for every word, every one at least the prior; the topic parameters of every document exceed the priors and sum to
the priors plus the document's length. -/
theorem batch_mass (psi : ℝ → ℝ) (bound : (Nat → Nat → ℝ) → (Nat → Nat → ℝ) → ℝ) (p : Params) (hK : 0 < p.K) (x : Data)
    (hx : Corpus x) (plan : Plan) (hb : plan.rateAlgor = "batch") (hi : 0 < plan.iterations) (word topics : Nat → Nat → ℝ) :
    ∃ r, train psi bound p x plan word topics = .ok r
      ∧ (∀ t, ∑ k ∈ Finset.range p.K, r.word k t = p.K * p.v + ∑ d ∈ Finset.range x.D, (x.words d t : ℝ))
      ∧ (∀ k, k < p.K → ∀ t, p.v ≤ r.word k t)
      ∧ (∀ d, d < x.D → (∀ k, k < p.K → p.a k < r.means d k)
          ∧ ∑ k ∈ Finset.range p.K, r.means d k = ∑ k ∈ Finset.range p.K, p.a k + x.len d) := by
  have hu : usedBatchSize x plan = x.D := if_pos hb
  have hc : batchCount x plan = 1 := if_pos hb
  unfold train
  rw [if_neg hx.check, if_neg (by rw [hu]; exact hx.some.ne'), if_neg (not_not.mpr (show Known plan.rateAlgor from Or.inl hb)), hc, Nat.one_mul, hu]
  generalize hr0 : ({ word := word, means := toMeans p x topics, d := -1, step := fun _ => 1
                      gradStep := fun _ => 1 / (x.D : ℝ), exGrad := fun _ _ => 0, expGtg := fun _ => 0, visits := [] } : Run)
    = r0
  obtain ⟨m, hm⟩ : ∃ m, plan.iterations = m + 1 := ⟨plan.iterations - 1, by omega⟩
  obtain ⟨r1, h1, h2, -⟩ := loop_visits psi bound p hK x hx.some hx.words plan (Or.inl hb) x.D r0 (by rw [← hr0])
    (by rw [← hr0]) m
  obtain ⟨g, r2, h4, h5, -, -, h8, -⟩ := step_spec psi bound p hK x hx.some hx.words plan (Or.inl hb) x.D r1 (m * x.D) m h2
  obtain ⟨h8, h9⟩ := h8 hb
  have hrun : (List.range plan.iterations).foldlM (trainStep psi bound p x plan x.D) r0 = .ok r2 := by
    rw [hm, List.range_succ, List.foldlM_append, h1]
    simp only [bind, Except.bind, List.foldlM_cons, List.foldlM_nil, pure, Except.pure]
    rw [h5]
  rw [hrun]
  refine ⟨_, rfl, ?_, ?_, ?_⟩
  · intro t
    show ∑ k ∈ Finset.range p.K, r2.word k t = _
    rw [h8, h4.grad t, sum_mod_range x.D (fun d => (x.words d t : ℝ))]
    simp
  · intro k hk t
    show p.v ≤ r2.word k t
    rw [h8]
    exact h4.mono k hk t
  · intro d hd
    have hp : Proper p (r2.means d) := by
      rw [h9]
      have := h4.proper d hd
      rwa [Nat.mul_comm, Nat.mul_add_mod, Nat.mod_eq_of_lt hd] at this
    have hl : (0 : ℝ) < x.len d := by exact_mod_cast hx.words d hd
    constructor
    · intro k hk
      show p.a k < r2.means d k * (x.len d : ℝ) + p.a k
      have := mul_pos (hp.1 k hk) hl
      linarith
    · show ∑ k ∈ Finset.range p.K, (r2.means d k * (x.len d : ℝ) + p.a k) = _
      rw [Finset.sum_add_distrib, ← Finset.sum_mul, hp.2, one_mul, add_comm]

/-- The sum of all word parameters. -/
noncomputable def mass (p : Params) (x : Data) (word : Nat → Nat → ℝ) : ℝ :=
  ∑ k ∈ Finset.range p.K, ∑ t ∈ Finset.range x.T, word k t

/-- The number of tokens of a corpus. -/
def tokens (x : Data) : Nat := ∑ d ∈ Finset.range x.D, x.len d

/-- **C74** is violated: a query without batches for at least one iteration overwrites the model, whose word parameters then
sum to the priors plus the number of tokens of the *query* corpus. -/
theorem query_overwrites_model (psi : ℝ → ℝ) (bound : (Nat → Nat → ℝ) → (Nat → Nat → ℝ) → ℝ) (p : Params) (hK : 0 < p.K)
    (x : Data) (hx : Corpus x) (plan : Plan) (hb : plan.rateAlgor = "batch") (hi : 0 < plan.iterations)
    (word topics : Nat → Nat → ℝ) :
    ∃ w t, query psi bound p x plan word topics = .ok (w, t)
      ∧ mass p x w = p.K * x.T * p.v + tokens x
      ∧ (mass p x word ≠ p.K * x.T * p.v + tokens x → w ≠ word) := by
  obtain ⟨r, h1, h2, -⟩ := batch_mass psi bound p hK x hx plan hb hi word topics
  have hm : mass p x r.word = p.K * x.T * p.v + tokens x := by
    unfold mass tokens Data.len
    rw [Finset.sum_comm, Finset.sum_congr rfl (fun t _ => h2 t), Finset.sum_add_distrib, Finset.sum_const, Finset.card_range,
      Finset.sum_comm]
    push_cast
    rw [nsmul_eq_mul]
    ring
  refine ⟨r.word, r.means, ?_, hm, fun h he => h (he ▸ hm)⟩
  unfold query
  rw [h1]

/-- What remains of **C74**: with no iterations nothing changes. -/
theorem query_zero_partial (psi : ℝ → ℝ) (bound : (Nat → Nat → ℝ) → (Nat → Nat → ℝ) → ℝ) (p : Params)
    (x : Data) (hx : Corpus x) (plan : Plan) (hk : Known plan.rateAlgor) (hs : 0 < usedBatchSize x plan)
    (hi : plan.iterations = 0) (word topics : Nat → Nat → ℝ) :
    ∃ t, query psi bound p x plan word topics = .ok (word, t) ∧ ∀ d, d < x.D → ∀ k, t d k = topics d k := by
  refine ⟨toDirichlet p x (toMeans p x topics), ?_, fun d hd k => dirichlet_of_means p x topics d k (hx.words d hd)⟩
  unfold query train
  rw [if_neg hx.check, if_neg (by omega), if_neg (not_not.mpr hk), hi, Nat.mul_zero]
  rfl

/-! ## Plans (C75, C108) -/

/-- **C75** is violated: for positive batch sizes the plan has the rate algorithm `kappa`, whatever was asked for. -/
theorem algorithm_overridden (n size : Nat) (hs : 0 < size) (delay forget a b : ℝ) (algor : String) :
    (newTrainPlan n size delay forget a b algor).rateAlgor = "kappa" := if_pos hs

/-- **C75**, exactly: the plan has the algorithm asked for if and only if there are no batches or it is `kappa`. -/
theorem algorithm_recorded_partial (n size : Nat) (delay forget a b : ℝ) (algor : String) :
    (newTrainPlan n size delay forget a b algor).rateAlgor = algor ↔ size = 0 ∨ algor = "kappa" := by
  unfold newTrainPlan
  simp only
  split
  · next h => constructor
              · intro h'; exact Or.inr h'.symm
              · rintro (h' | h')
                · omega
                · exact h'.symm
  · next h => simp only [true_iff]; left; omega

/-- **C108** is violated: asked for any other algorithm than `batch`, without a batch size, training fails. -/
theorem algorithm_without_batches_fails (psi : ℝ → ℝ) (bound : (Nat → Nat → ℝ) → (Nat → Nat → ℝ) → ℝ) (p : Params)
    (x : Data) (hx : Corpus x) (n : Nat) (delay forget a b : ℝ) (algor : String) (ha : algor ≠ "batch")
    (word topics : Nat → Nat → ℝ) :
    train psi bound p x (newTrainPlan n 0 delay forget a b algor) word topics = .error .zeroDivisionError := by
  unfold train
  rw [if_neg hx.check, if_pos]
  show (if algor = "batch" then x.D else 0) = 0
  rw [if_neg ha]

/-- **C108**: consequently no plan made by `newTrainPlan` trains with the algorithms `amari` or `variance`. -/
theorem only_batch_or_kappa (psi : ℝ → ℝ) (bound : (Nat → Nat → ℝ) → (Nat → Nat → ℝ) → ℝ) (p : Params)
    (x : Data) (hx : Corpus x) (n size : Nat) (delay forget a b : ℝ) (algor : String) (word topics : Nat → Nat → ℝ) (r : Run)
    (h : train psi bound p x (newTrainPlan n size delay forget a b algor) word topics = .ok r) :
    (newTrainPlan n size delay forget a b algor).rateAlgor = "batch"
      ∨ (newTrainPlan n size delay forget a b algor).rateAlgor = "kappa" := by
  by_cases hs : 0 < size
  · exact Or.inr (algorithm_overridden n size hs delay forget a b algor)
  · obtain rfl : size = 0 := by omega
    by_cases ha : algor = "batch"
    · exact Or.inl ha
    · rw [algorithm_without_batches_fails psi bound p x hx n delay forget a b algor ha] at h
      cases h

/-- What remains of **C108**: batch plans without a batch size and plans with a batch size can be trained. -/
theorem plans_train_partial (psi : ℝ → ℝ) (bound : (Nat → Nat → ℝ) → (Nat → Nat → ℝ) → ℝ) (p : Params) (hK : 0 < p.K)
    (x : Data) (hx : Corpus x) (n size : Nat) (delay forget a b : ℝ) (algor : String) (h : 0 < size ∨ algor = "batch")
    (word topics : Nat → Nat → ℝ) :
    ∃ r, train psi bound p x (newTrainPlan n size delay forget a b algor) word topics = .ok r := by
  by_cases hs : 0 < size
  · have ha := algorithm_overridden n size hs delay forget a b algor
    obtain ⟨r, h1, -⟩ := visits_cyclic psi bound p hK x hx (newTrainPlan n size delay forget a b algor) (Or.inr (Or.inl ha))
      (by unfold usedBatchSize; rw [ha, if_neg (by decide)]; exact hs) word topics
    exact ⟨r, h1⟩
  · obtain rfl : size = 0 := by omega
    have ha : algor = "batch" := h.resolve_left (by omega)
    obtain ⟨r, h1, -⟩ := visits_cyclic psi bound p hK x hx (newTrainPlan n 0 delay forget a b algor) (Or.inl ha)
      (by show 0 < if algor = "batch" then x.D else 0
          rw [if_pos ha]; exact hx.some) word topics
    exact ⟨r, h1⟩

/-! ## Measuring within training (C72) -/

/-- **C72** is violated in training with the algorithm `amari`, which measures the bound after every batch: the table that
should hold the means of the token's topics, which sum to one, holds the result of converting them twice. -/
theorem amari_disturbs (psi : ℝ → ℝ) (bound : (Nat → Nat → ℝ) → (Nat → Nat → ℝ) → ℝ) (p : Params) (hK : 0 < p.K)
    (ha : ∀ k, 0 < p.a k) (x : Data) (hx : Corpus x) (plan : Plan) (hal : plan.rateAlgor = "amari") (size : Nat) (r : Run)
    (n b : Nat) (hd : r.d = pos x.D n) (i : Nat) (hi : i < size) :
    ∃ r', trainStep psi bound p x plan size r b = .ok r' ∧ 1 < ∑ k ∈ Finset.range p.K, r'.means ((n + i) % x.D) k := by
  obtain ⟨g, r', h1, h2, -, -, -, -, h3⟩ := step_spec psi bound p hK x hx.some hx.words plan (Or.inr (Or.inr (Or.inl hal))) size r n b hd
  refine ⟨r', h2, ?_⟩
  rw [h3 hal]
  have hp := h1.proper i hi
  generalize hdd : (n + i) % x.D = d at hp ⊢
  have hl : (1 : ℝ) ≤ x.len d := by
    have := hx.words d (hdd ▸ Nat.mod_lt _ hx.some)
    exact_mod_cast this
  have hA : 0 < ∑ k ∈ Finset.range p.K, p.a k :=
    Finset.sum_pos (fun k _ => ha k) ⟨0, Finset.mem_range.mpr hK⟩
  show 1 < ∑ k ∈ Finset.range p.K, ((g.means d k * (x.len d : ℝ) + p.a k) * (x.len d : ℝ) + p.a k)
  have : ∑ k ∈ Finset.range p.K, ((g.means d k * (x.len d : ℝ) + p.a k) * (x.len d : ℝ) + p.a k)
      = (x.len d : ℝ) * x.len d + (∑ k ∈ Finset.range p.K, p.a k) * x.len d + ∑ k ∈ Finset.range p.K, p.a k := by
    rw [Finset.sum_add_distrib, ← Finset.sum_mul, Finset.sum_add_distrib, ← Finset.sum_mul, hp.2]
    ring
  rw [this]
  nlinarith

/-! ## Online training: mass and signs (C110, C111) -/

/-- The number of tokens in the batch of the given size that starts with visit `n`. -/
def batchTokens (x : Data) (n size : Nat) : Nat := ∑ i ∈ Finset.range size, x.len ((n + i) % x.D)

/-- **C111**, exactly: with the algorithm `kappa` each batch moves the total of the word parameters towards the priors plus the
number of tokens *in the batch*. -/
theorem online_mass (psi : ℝ → ℝ) (bound : (Nat → Nat → ℝ) → (Nat → Nat → ℝ) → ℝ) (p : Params) (hK : 0 < p.K) (x : Data)
    (hx : Corpus x) (plan : Plan) (hal : plan.rateAlgor = "kappa") (size : Nat) (r : Run) (n b : Nat) (hd : r.d = pos x.D n) :
    ∃ r', trainStep psi bound p x plan size r b = .ok r' ∧ r'.d = pos x.D (n + size)
      ∧ mass p x r'.word
        = (1 - ((b : ℝ) + plan.rateDelay) ^ (-plan.forgettingRate)) * mass p x r.word
          + ((b : ℝ) + plan.rateDelay) ^ (-plan.forgettingRate) * (p.K * x.T * p.v + batchTokens x n size) := by
  obtain ⟨g, r', h1, h2, h3, -, -, h4, -⟩ := step_spec psi bound p hK x hx.some hx.words plan (Or.inr (Or.inl hal)) size r n b hd
  refine ⟨r', h2, by rw [h3, h1.d], ?_⟩
  rw [(h4 hal).1]
  generalize ((b : ℝ) + plan.rateDelay) ^ (-plan.forgettingRate) = ρ
  have hg : mass p x g.grad = p.K * x.T * p.v + batchTokens x n size := by
    unfold mass batchTokens Data.len
    rw [Finset.sum_comm, Finset.sum_congr rfl (fun t _ => h1.grad t), Finset.sum_add_distrib]
    simp only [Finset.sum_const, Finset.card_range, nsmul_eq_mul]
    rw [Finset.sum_comm]
    push_cast
    ring
  rw [← hg]
  unfold mass mix
  simp only [Finset.sum_add_distrib, ← Finset.sum_mul]
  ring

/-- **C111** is violated: if every document has `len` words, training with batches of `size` documents ends with word
parameters that sum to the priors plus `size * len`, if they started there, however many documents there are. -/
theorem online_mass_violated (psi : ℝ → ℝ) (bound : (Nat → Nat → ℝ) → (Nat → Nat → ℝ) → ℝ) (p : Params) (hK : 0 < p.K) (x : Data)
    (hx : Corpus x) (len : Nat) (hl : ∀ d, d < x.D → x.len d = len) (plan : Plan) (hal : plan.rateAlgor = "kappa")
    (hs : 0 < plan.batchSize) (word topics : Nat → Nat → ℝ)
    (hw : mass p x word = p.K * x.T * p.v + plan.batchSize * len) :
    ∃ r, train psi bound p x plan word topics = .ok r ∧ mass p x r.word = p.K * x.T * p.v + plan.batchSize * len := by
  have hu : usedBatchSize x plan = plan.batchSize := if_neg (by rw [hal]; decide)
  have key : ∀ (r0 : Run), r0.d = -1 → mass p x r0.word = p.K * x.T * p.v + plan.batchSize * len → ∀ B,
      ∃ r, (List.range B).foldlM (trainStep psi bound p x plan plan.batchSize) r0 = .ok r ∧ r.d = pos x.D (B * plan.batchSize)
        ∧ mass p x r.word = p.K * x.T * p.v + plan.batchSize * len := by
    intro r0 h0 hm B
    induction B with
    | zero => exact ⟨r0, rfl, by rw [h0, Nat.zero_mul]; rfl, hm⟩
    | succ B ih =>
      obtain ⟨r1, h1, h2, h3⟩ := ih
      obtain ⟨r2, h4, h5, h6⟩ := online_mass psi bound p hK x hx plan hal plan.batchSize r1 (B * plan.batchSize) B h2
      refine ⟨r2, ?_, by rw [h5, Nat.succ_mul], ?_⟩
      · rw [List.range_succ, List.foldlM_append, h1]
        simp only [bind, Except.bind, List.foldlM_cons, List.foldlM_nil, pure, Except.pure]
        rw [h4]
      · have ht : batchTokens x (B * plan.batchSize) plan.batchSize = plan.batchSize * len := by
          unfold batchTokens
          rw [Finset.sum_congr rfl (fun i _ => hl _ (Nat.mod_lt _ hx.some)), Finset.sum_const, Finset.card_range, smul_eq_mul]
        rw [h6, h3, ht]
        push_cast
        ring
  unfold train
  rw [if_neg hx.check, if_neg (by rw [hu]; omega), if_neg (not_not.mpr (show Known plan.rateAlgor from Or.inr (Or.inl hal))), hu]
  obtain ⟨r, h1, -, h3⟩ := key
    { word := word, means := toMeans p x topics, d := -1, step := fun _ => 1
      gradStep := fun _ => 1 / (plan.batchSize : ℝ), exGrad := fun _ _ => 0, expGtg := fun _ => 0, visits := [] }
    rfl hw (batchCount x plan * plan.iterations)
  rw [h1]
  exact ⟨_, rfl, h3⟩

theorem batchTokens_all (x : Data) (n : Nat) (hx : 0 < x.D) : batchTokens x n x.D = tokens x := by
  unfold batchTokens tokens
  have step : ∀ n, ∑ i ∈ Finset.range x.D, x.len ((n + 1 + i) % x.D) = ∑ i ∈ Finset.range x.D, x.len ((n + i) % x.D) := by
    intro n
    obtain ⟨m, hm⟩ : ∃ m, x.D = m + 1 := ⟨x.D - 1, by omega⟩
    rw [hm, Finset.sum_range_succ, Finset.sum_range_succ']
    have e : (n + 1 + m) % (m + 1) = (n + 0) % (m + 1) := by
      rw [show n + 1 + m = n + (m + 1) by omega, Nat.add_mod_right]; rfl
    rw [e]
    congr 1
    exact Finset.sum_congr rfl (fun i _ => by rw [show n + 1 + i = n + (i + 1) by omega])
  induction n with
  | zero => exact Finset.sum_congr rfl (fun i hi => by rw [Nat.zero_add, Nat.mod_eq_of_lt (Finset.mem_range.mp hi)])
  | succ n ih => rw [step n, ih]

/-- What remains of **C111**: if the batch is the whole corpus, the total moves towards that of batch training. -/
theorem online_mass_partial (psi : ℝ → ℝ) (bound : (Nat → Nat → ℝ) → (Nat → Nat → ℝ) → ℝ) (p : Params) (hK : 0 < p.K) (x : Data)
    (hx : Corpus x) (plan : Plan) (hal : plan.rateAlgor = "kappa") (r : Run) (n b : Nat) (hd : r.d = pos x.D n) :
    ∃ r', trainStep psi bound p x plan x.D r b = .ok r'
      ∧ mass p x r'.word
        = (1 - ((b : ℝ) + plan.rateDelay) ^ (-plan.forgettingRate)) * mass p x r.word
          + ((b : ℝ) + plan.rateDelay) ^ (-plan.forgettingRate) * (p.K * x.T * p.v + tokens x) := by
  obtain ⟨r', h1, -, h3⟩ := online_mass psi bound p hK x hx plan hal x.D r n b hd
  rw [batchTokens_all x n hx.some] at h3
  exact ⟨r', h1, h3⟩

/-- **C110** is violated: a word that is not in the first batch gets a negative parameter if its parameters are large enough; if
the first step is larger than one (as with the default delay) there are such parameters, see the examples below. -/
theorem online_negative (psi : ℝ → ℝ) (bound : (Nat → Nat → ℝ) → (Nat → Nat → ℝ) → ℝ) (p : Params) (hK : 0 < p.K) (x : Data)
    (hx : Corpus x) (plan : Plan) (hal : plan.rateAlgor = "kappa") (size : Nat) (r : Run) (hd : r.d = -1)
    (t : Nat) (ht : ∀ i, i < size → x.words (i % x.D) t = 0)
    (hw : p.K * p.v * plan.rateDelay ^ (-plan.forgettingRate)
      < (plan.rateDelay ^ (-plan.forgettingRate) - 1) * ∑ k ∈ Finset.range p.K, r.word k t) :
    ∃ r', trainStep psi bound p x plan size r 0 = .ok r' ∧ ∃ k, k < p.K ∧ r'.word k t < 0 := by
  obtain ⟨g, r', h1, h2, -, -, -, h4, -⟩ := step_spec psi bound p hK x hx.some hx.words plan (Or.inr (Or.inl hal)) size r 0 0
    (by rw [hd]; rfl)
  refine ⟨r', h2, ?_⟩
  have hsum : ∑ k ∈ Finset.range p.K, r'.word k t < 0 := by
    rw [(h4 hal).1]
    simp only [Nat.cast_zero, zero_add]
    generalize plan.rateDelay ^ (-plan.forgettingRate) = ρ at *
    unfold mix
    rw [Finset.sum_add_distrib, ← Finset.sum_mul, ← Finset.sum_mul, h1.grad t]
    have hz : ∑ i ∈ Finset.range size, (x.words ((0 + i) % x.D) t : ℝ) = 0 :=
      Finset.sum_eq_zero (fun i hi => by rw [Nat.zero_add, ht i (Finset.mem_range.mp hi)]; simp)
    rw [hz]
    simp only [Finset.sum_const, Finset.card_range, nsmul_eq_mul]
    linarith
  by_contra hcon
  push Not at hcon
  have := Finset.sum_nonneg (fun k hk => hcon k (Finset.mem_range.mp hk))
  linarith

/-- The first step of the default plan is larger than one. -/
theorem default_first_step : 1 < ((6 : ℝ) / 10) ^ (-((6 : ℝ) / 10)) :=
  Real.one_lt_rpow_of_pos_of_lt_one_of_neg (by norm_num) (by norm_num) (by norm_num)

/-- What remains of **C110**: with a delay of at least one, positive word parameters stay positive. -/
theorem online_positive_partial (psi : ℝ → ℝ) (bound : (Nat → Nat → ℝ) → (Nat → Nat → ℝ) → ℝ) (p : Params) (hK : 0 < p.K)
    (hv : 0 < p.v) (x : Data) (hx : Corpus x) (plan : Plan) (hal : plan.rateAlgor = "kappa") (hs : 0 < plan.batchSize)
    (hdelay : 1 ≤ plan.rateDelay) (hforget : 0 ≤ plan.forgettingRate) (word topics : Nat → Nat → ℝ)
    (hw : ∀ k, k < p.K → ∀ t, 0 < word k t) :
    ∃ r, train psi bound p x plan word topics = .ok r ∧ ∀ k, k < p.K → ∀ t, 0 < r.word k t := by
  have hu : usedBatchSize x plan = plan.batchSize := if_neg (by rw [hal]; decide)
  have key : ∀ (r0 : Run), r0.d = -1 → (∀ k, k < p.K → ∀ t, 0 < r0.word k t) → ∀ B,
      ∃ r, (List.range B).foldlM (trainStep psi bound p x plan plan.batchSize) r0 = .ok r ∧ r.d = pos x.D (B * plan.batchSize)
        ∧ (∀ k, k < p.K → ∀ t, 0 < r.word k t) := by
    intro r0 h0 hm B
    induction B with
    | zero => exact ⟨r0, rfl, by rw [h0, Nat.zero_mul]; rfl, hm⟩
    | succ B ih =>
      obtain ⟨r1, h1, h2, h3⟩ := ih
      obtain ⟨g, r2, h4, h5, h6, -, -, h8, -⟩ := step_spec psi bound p hK x hx.some hx.words plan (Or.inr (Or.inl hal))
        plan.batchSize r1 (B * plan.batchSize) B h2
      refine ⟨r2, ?_, by rw [h6, h4.d, Nat.succ_mul], ?_⟩
      · rw [List.range_succ, List.foldlM_append, h1]
        simp only [bind, Except.bind, List.foldlM_cons, List.foldlM_nil, pure, Except.pure]
        rw [h5]
      · intro k hk t
        rw [(h8 hal).1]
        have hbase : (1 : ℝ) ≤ (B : ℝ) + plan.rateDelay := by
          have : (0 : ℝ) ≤ B := Nat.cast_nonneg _
          linarith
        have hr1 : ((B : ℝ) + plan.rateDelay) ^ (-plan.forgettingRate) ≤ 1 :=
          Real.rpow_le_one_of_one_le_of_nonpos hbase (by linarith)
        have hr0 : 0 < ((B : ℝ) + plan.rateDelay) ^ (-plan.forgettingRate) := Real.rpow_pos_of_pos (by linarith) _
        generalize ((B : ℝ) + plan.rateDelay) ^ (-plan.forgettingRate) = ρ at *
        have hg : p.v ≤ g.grad k t := h4.mono k hk t
        have a1 := mul_nonneg (h3 k hk t).le (by linarith : 0 ≤ 1 - ρ)
        have a2 := mul_pos (lt_of_lt_of_le hv hg) hr0
        show 0 < r1.word k t * (1 - ρ) + g.grad k t * ρ
        linarith
  unfold train
  rw [if_neg hx.check, if_neg (by rw [hu]; omega), if_neg (not_not.mpr (show Known plan.rateAlgor from Or.inr (Or.inl hal))), hu]
  obtain ⟨r, h1, -, h3⟩ := key
    { word := word, means := toMeans p x topics, d := -1, step := fun _ => 1
      gradStep := fun _ => 1 / (plan.batchSize : ℝ), exGrad := fun _ _ => 0, expGtg := fun _ => 0, visits := [] }
    rfl hw (batchCount x plan * plan.iterations)
  rw [h1]
  exact ⟨_, rfl, h3⟩

/-! ## Examples -/

/-- Three documents with the words 0; 0 and 1; 1. -/
def exX : Data := ⟨3, 2, fun d t => if d = 0 then (if t = 0 then 4 else 0) else if d = 1 then 1 else (if t = 1 then 3 else 0)⟩

theorem exX_corpus : Corpus exX := by
  refine ⟨by decide, fun d hd => ?_⟩
  have : d = 0 ∨ d = 1 ∨ d = 2 := by
    have : d < 3 := hd
    omega
  rcases this with rfl | rfl | rfl <;> decide

noncomputable def exP : Params := ⟨2, fun _ => 1 / 2, 11 / 10⟩

noncomputable def exPlan : Plan := newTrainPlan 5 2 (6 / 10) (6 / 10) 2 (1 / 2) "amari"

example : exPlan.rateAlgor = "kappa" := algorithm_overridden _ _ (by decide) _ _ _ _ _

example (psi : ℝ → ℝ) (bound : (Nat → Nat → ℝ) → (Nat → Nat → ℝ) → ℝ) (w t : Nat → Nat → ℝ) :
    ∃ r, train psi bound exP exX exPlan w t = .ok r ∧ r.visits.take 5 = [0, 1, 2, 0, 1] := by
  have hk : exPlan.rateAlgor = "kappa" := algorithm_overridden _ _ (by decide) _ _ _ _ _
  have hu : usedBatchSize exX exPlan = 2 := by unfold usedBatchSize; rw [hk, if_neg (by decide)]; rfl
  have hc : batchCount exX exPlan = 2 := by unfold batchCount; rw [hk, if_neg (by decide)]; rfl
  obtain ⟨r, h1, h2⟩ := visits_cyclic psi bound exP (by show 0 < 2; decide) exX exX_corpus exPlan (Or.inr (Or.inl hk))
    (by rw [hu]; decide) w t
  refine ⟨r, h1, ?_⟩
  rw [h2, hu, hc]
  show (List.take 5 ((List.range (2 * 5 * 2)).map (· % 3))) = _
  decide

example (psi : ℝ → ℝ) (bound : (Nat → Nat → ℝ) → (Nat → Nat → ℝ) → ℝ) (t : Nat → Nat → ℝ) :
    ∃ w t', query psi bound exP exX (newTrainPlan 1 0 1 1 1 1 "batch") (fun _ _ => 1 / 2) t = .ok (w, t') ∧ w ≠ fun _ _ => 1 / 2 := by
  obtain ⟨w, t', h1, -, h3⟩ := query_overwrites_model psi bound exP (by show 0 < 2; decide) exX exX_corpus
    (newTrainPlan 1 0 1 1 1 1 "batch") rfl (by show 0 < 1; decide) (fun _ _ => 1 / 2) t
  refine ⟨w, t', h1, h3 ?_⟩
  have e : tokens exX = 9 := by decide
  rw [e]
  show ∑ k ∈ Finset.range 2, ∑ t ∈ Finset.range 2, (1 / 2 : ℝ) ≠ (2 : Nat) * (2 : Nat) * (11 / 10) + ((9 : Nat) : ℝ)
  norm_num

/-- Word 1 is not in the first document: a batch of one document makes its parameter negative. -/
example (psi : ℝ → ℝ) (bound : (Nat → Nat → ℝ) → (Nat → Nat → ℝ) → ℝ) (c : ℝ)
    (hc : 2 * (11 / 10) * ((6 : ℝ) / 10) ^ (-((6 : ℝ) / 10)) < (((6 : ℝ) / 10) ^ (-((6 : ℝ) / 10)) - 1) * (2 * c)) :
    ∃ r', trainStep psi bound exP exX exPlan 1 ⟨fun _ _ => c, fun _ _ => 1, -1, fun _ => 1, fun _ => 1, fun _ _ => 0, fun _ => 0, []⟩ 0
      = .ok r' ∧ ∃ k, k < exP.K ∧ r'.word k 1 < 0 := by
  refine online_negative psi bound exP (by show 0 < 2; decide) exX exX_corpus exPlan
    (algorithm_overridden _ _ (by decide) _ _ _ _ _) 1 _ rfl 1 (fun i hi => ?_) ?_
  · obtain rfl : i = 0 := by omega
    decide
  · show ((2 : Nat) : ℝ) * (11 / 10) * ((6 : ℝ) / 10) ^ (-((6 : ℝ) / 10))
      < (((6 : ℝ) / 10) ^ (-((6 : ℝ) / 10)) - 1) * ∑ k ∈ Finset.range 2, c
    simpa [two_mul] using hc

/-- The number `c` of the last example exists. -/
example : ∃ c : ℝ, 0 < c
    ∧ 2 * (11 / 10) * ((6 : ℝ) / 10) ^ (-((6 : ℝ) / 10)) < (((6 : ℝ) / 10) ^ (-((6 : ℝ) / 10)) - 1) * (2 * c) := by
  have h := default_first_step
  generalize ((6 : ℝ) / 10) ^ (-((6 : ℝ) / 10)) = ρ at *
  have hp : 0 < ρ - 1 := by linarith
  refine ⟨2 * ρ / (ρ - 1), by positivity, ?_⟩
  have : (ρ - 1) * (2 * (2 * ρ / (ρ - 1))) = 4 * ρ := by field_simp; ring
  rw [this]
  linarith

example (psi : ℝ → ℝ) (bound : (Nat → Nat → ℝ) → (Nat → Nat → ℝ) → ℝ) (t : Nat → Nat → ℝ) :
    ∃ r, train psi bound exP exX ⟨5, 2, 1, 6 / 10, 2, 1 / 2, "kappa"⟩ (fun _ _ => 1 / 2) t = .ok r
      ∧ ∀ k, k < exP.K → ∀ t, 0 < r.word k t :=
  online_positive_partial psi bound exP (by show 0 < 2; decide) (by show (0 : ℝ) < 11 / 10; norm_num) exX exX_corpus _ rfl
    (by show 0 < 2; decide) (by norm_num) (by norm_num) _ t (fun _ _ _ => by norm_num)

example (psi : ℝ → ℝ) (bound : (Nat → Nat → ℝ) → (Nat → Nat → ℝ) → ℝ) (t : Nat → Nat → ℝ) :
    train psi bound exP exX (newTrainPlan 5 0 1 1 1 1 "variance") (fun _ _ => 1 / 2) t = .error .zeroDivisionError :=
  algorithm_without_batches_fails psi bound exP exX exX_corpus 5 1 1 1 1 "variance" (by decide) _ t

end Verif.Props.VbPython
