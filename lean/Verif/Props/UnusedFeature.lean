import Verif.Props.RenumberStm
import Verif.Props.DmrWeights
import Verif.Props.Gibbs
import Verif.Model.Dmr

/-!
# Features that no document has (C319)

Training learns nothing about a feature that no document has, so that its weights are those which the prior expects; in queries the
weights of features that no queried document has do not matter.
-/

namespace Verif.Props.UnusedFeature

open Verif Verif.Ctm Verif.Stm
open Verif.Mom (Data)
open Verif.Props.Stm (TwoSided)

/-- No document has feature `f`. -/
def Unused (D : Nat) (X : Nat → Nat → ℝ) (f : Nat) : Prop := ∀ d, d < D → X d f = 0

/-! ## Training with features -/

/-- The precision of the weights of a feature that no document has is that of the prior. -/
theorem ridge_unused (p : Params) (x : Data) (X : Nat → Nat → ℝ) (f : Nat) (hf : Unused x.D X f) (g : Nat) :
    gramRidge p x X g f = if g = f then 1 / p.fv else 0 := by
  unfold gramRidge gram tDot
  rw [Finset.sum_eq_zero fun d hd => by rw [hf d (Finset.mem_range.mp hd), mul_zero], zero_add]

theorem newA_unused (p : Params) (hfv : 0 < p.fv) (x : Data) (X Y V means : Nat → Nat → ℝ) (f : Nat) (hF : f < p.F) (hf : Unused x.D X f) (k : Nat) :
    newA p x X Y V (newRA StmCov.exactInv p x X) means k f = ∑ i ∈ Finset.range p.P, Y k i * V i f := by
  have hinv := (StmCov.exactInv_two p.F _ (StmCov.gramRidge_posDef p hfv x X)).2
  have hR : ∀ g, g < p.F → StmCov.exactInv p.F (gramRidge p x X) g f = if g = f then p.fv else 0 := by
    intro g hg
    have h := hinv g f hg hF
    simp only [ridge_unused p x X f hf, mul_ite, mul_zero] at h
    rw [Finset.sum_ite_eq' (Finset.range p.F) f, if_pos (Finset.mem_range.mpr hF)] at h
    split at h
    · rw [if_pos ‹_›]
      field_simp at h
      exact h
    · rw [if_neg ‹_›]
      have h2 : (1 / p.fv) ≠ 0 := by positivity
      exact (mul_eq_zero.mp h).resolve_right h2
  unfold newA newRA dot
  rw [Finset.sum_congr rfl fun g hg => by rw [hR g (Finset.mem_range.mp hg)]]
  simp only [mul_ite, mul_zero]
  rw [Finset.sum_ite_eq' (Finset.range p.F) f, if_pos (Finset.mem_range.mpr hF)]
  unfold tDot
  rw [Finset.sum_eq_zero (f := fun d => X d f * means d k) fun d hd => by rw [hf d (Finset.mem_range.mp hd), zero_mul]]
  field_simp
  ring

/-- **C319** (Bouchard's bound): after training the weights of a feature that no document has are those which the latent features of the model say. -/
theorem yv_unused_partial (p : Params) (hfv : 0 < p.fv) (x : Data) (X : Nat → Nat → ℝ) (n : Nat) (hn : 0 < n) (st : StmYv.State) (f : Nat) (hF : f < p.F)
    (hf : Unused x.D X f) (k : Nat) :
    (StmYv.train StmCov.exactInv p x X n st).A k f
      = ∑ i ∈ Finset.range p.P, (StmYv.train StmCov.exactInv p x X n st).Y k i * (StmYv.train StmCov.exactInv p x X n st).V i f := by
  obtain ⟨m, rfl⟩ : ∃ m, n = m + 1 := ⟨n - 1, by omega⟩
  unfold StmYv.train
  rw [Function.iterate_succ_apply']
  exact newA_unused p hfv x X _ _ _ f hF hf k

/-- **C319** (Böhning's bound and latent features) -/
theorem uv_unused_partial (p : Params) (hfv : 0 < p.fv) (x : Data) (X : Nat → Nat → ℝ) (n : Nat) (hn : 0 < n) (st : Stm.State) (f : Nat) (hF : f < p.F)
    (hf : Unused x.D X f) (k : Nat) :
    (uvTrain StmCov.exactInv p x X n st).A k f
      = ∑ i ∈ Finset.range p.P, (uvTrain StmCov.exactInv p x X n st).Y k i * (uvTrain StmCov.exactInv p x X n st).V i f := by
  obtain ⟨a1, a2, -, a4, -⟩ := Props.Stm.uv_train_spec StmCov.exactInv p x X n st
  rw [a1, a2, a4]
  obtain ⟨m, rfl⟩ : ∃ m, n = m + 1 := ⟨n - 1, by omega⟩
  rw [Function.iterate_succ_apply']
  exact newA_unused p hfv x X _ _ _ f hF hf k

/-! ## Training with least squares -/

/-- The squared error of the weights `a` of one topic -/
noncomputable def error (D F : Nat) (X : Nat → Nat → ℝ) (m a : Nat → ℝ) : ℝ := ∑ d ∈ Finset.range D, (m d - ∑ f ∈ Finset.range F, X d f * a f) ^ 2

/-- `lsq` finds, for each of the `K` topics, the shortest of the weights with the least error, as `lstsq` of scipy does. -/
def Shortest (D F K : Nat) (lsq : (Nat → Nat → ℝ) → (Nat → Nat → ℝ) → Nat → Nat → ℝ) : Prop :=
  ∀ X m k, k < K → (∀ a, error D F X (fun d => m d k) (lsq X m k) ≤ error D F X (fun d => m d k) a) ∧
    ∀ a, error D F X (fun d => m d k) a = error D F X (fun d => m d k) (lsq X m k) →
      ∑ f ∈ Finset.range F, lsq X m k f ^ 2 ≤ ∑ f ∈ Finset.range F, a f ^ 2

theorem shortest_unused (D F K : Nat) (lsq : (Nat → Nat → ℝ) → (Nat → Nat → ℝ) → Nat → Nat → ℝ) (h : Shortest D F K lsq) (X m : Nat → Nat → ℝ) (k : Nat)
    (hk : k < K) (f : Nat) (hF : f < F) (hf : Unused D X f) : lsq X m k f = 0 := by
  have h2 := (h X m k hk).2 (fun g => if g = f then 0 else lsq X m k g) (by
    refine Finset.sum_congr rfl fun d hd => ?_
    rw [Finset.sum_congr rfl fun g _ => show X d g * (if g = f then 0 else lsq X m k g) = X d g * lsq X m k g by
      split
      · next e => rw [e, hf d (Finset.mem_range.mp hd)]; simp
      · rfl])
  have h3 : ∑ g ∈ Finset.range F, lsq X m k g ^ 2
      = ∑ g ∈ Finset.range F, (if g = f then 0 else lsq X m k g) ^ 2 + lsq X m k f ^ 2 := by
    have h4 : ∀ g ∈ Finset.range F, lsq X m k g ^ 2 = (if g = f then 0 else lsq X m k g) ^ 2 + if g = f then lsq X m k f ^ 2 else 0 := by
      intro g _
      split
      · next e => rw [e]; ring
      · ring
    rw [Finset.sum_congr rfl h4, Finset.sum_add_distrib, Finset.sum_ite_eq' (Finset.range F) f, if_pos (Finset.mem_range.mpr hF)]
  have h5 : lsq X m k f ^ 2 ≤ 0 := by linarith
  exact pow_eq_zero_iff (two_ne_zero) |>.mp (le_antisymm h5 (sq_nonneg _))

theorem inner_keeps (inv : Nat → (Nat → Nat → ℝ) → Nat → Nat → ℝ) (update : (Nat → Nat → Nat → ℝ) → (Nat → Nat → ℝ) → (Nat → Nat → ℝ) → Nat → Nat → ℝ)
    (p : Params) (x : Data) (X : Nat → Nat → ℝ) (n : Nat) (st : Stm.State) :
    ((yvInner inv update p x X)^[n] st).A = st.A ∧ ((yvInner inv update p x X)^[n] st).Y = st.Y ∧ ((yvInner inv update p x X)^[n] st).V = st.V := by
  induction n generalizing st with
  | zero => exact ⟨rfl, rfl, rfl⟩
  | succ n ih => exact ih _

/-- **C319** (Böhning's bound and least squares), exactly: the weights of a feature that no document has are zero, and the latent features are those
training was given. -/
theorem lsq_unused_exact (inv : Nat → (Nat → Nat → ℝ) → Nat → Nat → ℝ) (p : Params) (x : Data) (lsq : (Nat → Nat → ℝ) → (Nat → Nat → ℝ) → Nat → Nat → ℝ)
    (h : Shortest x.D p.F p.K lsq) (X : Nat → Nat → ℝ) (n : Nat) (hn : 0 < n) (st : Stm.State) (f : Nat) (hF : f < p.F) (hf : ∀ d, X d f = 0) (k : Nat)
    (hk : k < p.K) : (yvTrain inv lsq p x X n st).A k f = 0 ∧ (yvTrain inv lsq p x X n st).Y = st.Y ∧ (yvTrain inv lsq p x X n st).V = st.V := by
  obtain ⟨m, rfl⟩ : ∃ m, n = m + 1 := ⟨n - 1, by omega⟩
  have hk2 : ∀ n (s : Stm.State), ((yvStep inv lsq (fun lhs rhs m => groupMeans p.K lhs rhs m (groups (docLens (sortData x (argsort (docLens x)))))) p
      (sortData x (argsort (docLens x))) (rows (argsort (docLens x)) X))^[n] s).Y = s.Y ∧
      ((yvStep inv lsq (fun lhs rhs m => groupMeans p.K lhs rhs m (groups (docLens (sortData x (argsort (docLens x)))))) p
      (sortData x (argsort (docLens x))) (rows (argsort (docLens x)) X))^[n] s).V = s.V := by
    intro n
    induction n with
    | zero => exact fun s => ⟨rfl, rfl⟩
    | succ n ih =>
      intro s
      have h1 := ih (yvStep inv lsq (fun lhs rhs m => groupMeans p.K lhs rhs m (groups (docLens (sortData x (argsort (docLens x)))))) p
        (sortData x (argsort (docLens x))) (rows (argsort (docLens x)) X) s)
      have h2 := inner_keeps inv (fun lhs rhs m => groupMeans p.K lhs rhs m (groups (docLens (sortData x (argsort (docLens x)))))) p
        (sortData x (argsort (docLens x))) (rows (argsort (docLens x)) X) 10 { s with A := lsq (rows (argsort (docLens x)) X) s.means }
      exact ⟨h1.1.trans h2.2.1, h1.2.trans h2.2.2⟩
  refine ⟨?_, (hk2 _ _).1, (hk2 _ _).2⟩
  show ((yvStep inv lsq _ p _ _)^[m + 1] _).A k f = 0
  rw [Function.iterate_succ_apply', yvStep, (inner_keeps _ _ _ _ _ _ _).1]
  exact shortest_unused x.D p.F p.K lsq h _ _ k hk f hF fun d _ => hf _

/-- **C319** is violated by `stm_yv_bohning`: unless the latent features that it starts with say that the weight is zero, the weight is not the one that they
say. -/
theorem lsq_unused_violation (inv : Nat → (Nat → Nat → ℝ) → Nat → Nat → ℝ) (p : Params) (x : Data)
    (lsq : (Nat → Nat → ℝ) → (Nat → Nat → ℝ) → Nat → Nat → ℝ) (h : Shortest x.D p.F p.K lsq) (X : Nat → Nat → ℝ) (n : Nat) (hn : 0 < n) (st : Stm.State)
    (f : Nat) (hF : f < p.F) (hf : ∀ d, X d f = 0) (k : Nat) (hk : k < p.K) (h0 : ∑ i ∈ Finset.range p.P, st.Y k i * st.V i f ≠ 0) :
    (yvTrain inv lsq p x X n st).A k f
      ≠ ∑ i ∈ Finset.range p.P, (yvTrain inv lsq p x X n st).Y k i * (yvTrain inv lsq p x X n st).V i f := by
  obtain ⟨h1, h2, h3⟩ := lsq_unused_exact inv p x lsq h X n hn st f hF hf k hk
  rw [h1, h2, h3]
  exact Ne.symm h0

/-! ## Training by sampling -/

/-- **C319** (Dirichlet-multinomial regression): weights of which the objective is least are zero for a feature that no document has, as the prior
expects. -/
theorem dmr_unused_partial (p : Verif.DmrWeights.Problem) (hB : 0 < p.batch) (hs : 0 < p.sigma) (W : Nat → Nat → ℝ) (k : Nat) (w : Nat → ℝ) (f : Nat)
    (hF : f < p.F) (hf : Unused p.D p.X f)
    (hw : ∀ w', Verif.DmrWeights.objective p W k w ≤ Verif.DmrWeights.objective p W k w') : w f = 0 := by
  have h := hw fun g => if g = f then 0 else w g
  rw [DmrWeights.objective_eq p hB, DmrWeights.objective_eq p hB] at h
  have hp : ∀ d, d < p.D → DmrWeights.docTerm p W k (fun g => if g = f then 0 else w g) d = DmrWeights.docTerm p W k w d := by
    intro d hd
    have h1 : ∀ j, Verif.DmrWeights.priors p W k (fun g => if g = f then 0 else w g) d j = Verif.DmrWeights.priors p W k w d j := by
      intro j
      unfold Verif.DmrWeights.priors
      rw [Finset.sum_congr rfl fun g _ => show p.X d g * (if g = f then 0 else w g) = p.X d g * w g by
        split
        · next e => rw [e, hf d hd]; simp
        · rfl]
    unfold DmrWeights.docTerm
    simp only [h1]
  rw [Finset.sum_congr rfl fun d hd => hp d (Finset.mem_range.mp hd)] at h
  have h3 : ∑ g ∈ Finset.range p.F, w g * w g
      = ∑ g ∈ Finset.range p.F, (if g = f then 0 else w g) * (if g = f then 0 else w g) + w f * w f := by
    have h4 : ∀ g ∈ Finset.range p.F, w g * w g = (if g = f then 0 else w g) * (if g = f then 0 else w g) + if g = f then w f * w f else 0 := by
      intro g _
      split
      · next e => rw [e]; ring
      · ring
    rw [Finset.sum_congr rfl h4, Finset.sum_add_distrib, Finset.sum_ite_eq' (Finset.range p.F) f, if_pos (Finset.mem_range.mpr hF)]
  rw [h3, mul_add] at h
  have h5 : 0.5 / p.sigma * (w f * w f) ≤ 0 := by linarith
  have h6 : 0 < 0.5 / p.sigma := by positivity
  have h7 : w f * w f ≤ 0 := by
    by_contra hc
    exact absurd h5 (not_le.mpr (mul_pos h6 (not_le.mp hc)))
  exact mul_self_eq_zero.mp (le_antisymm h7 (mul_self_nonneg _))

/-! ## Queries -/

/-- The weights agree for all features that some document has (the table of features ends with the last document). -/
def AgreeOnUsed (F K : Nat) (X A A' : Nat → Nat → ℝ) : Prop := ∀ f, f < F → (∃ d, X d f ≠ 0) → ∀ k, k < K → A k f = A' k f

theorem dot_used {F K : Nat} {X A A' : Nat → Nat → ℝ} (h : AgreeOnUsed F K X A A') (isig : Nat → Nat → ℝ) :
    dot K (dotT F X A) isig = dot K (dotT F X A') isig := by
  funext d j
  refine Finset.sum_congr rfl fun k hk => ?_
  congr 1
  refine Finset.sum_congr rfl fun f hf => ?_
  by_cases hx : X d f = 0
  · rw [hx, zero_mul, zero_mul]
  · rw [h f (Finset.mem_range.mp hf) ⟨d, hx⟩ k (Finset.mem_range.mp hk)]

/-- **C319** (queries): the weights of features that no queried document has do not matter. -/
theorem query_unused (inv : Nat → (Nat → Nat → ℝ) → Nat → Nat → ℝ) (p : Params) (x : Data) (X A A' : Nat → Nat → ℝ) (h : AgreeOnUsed p.F p.K X A A')
    (sig vocab : Nat → Nat → ℝ) :
    (∀ tiny perplexity big n q, StmYv.query inv tiny perplexity big p x X A sig vocab n q = StmYv.query inv tiny perplexity big p x X A' sig vocab n q) ∧
    ∀ perp atLeast n q lastPerp, Stm.query inv p x X A sig vocab perp atLeast n q lastPerp = Stm.query inv p x X A' sig vocab perp atLeast n q lastPerp := by
  refine ⟨fun tiny perplexity big n q => ?_, fun perp atLeast n q lastPerp => ?_⟩
  · unfold StmYv.query StmYv.queryStep
    simp only [dot_used h]
  · unfold Stm.query Stm.queryStep
    simp only [dot_used h]

/-- **C319** (queries of the sampler) -/
theorem dmr_query_unused (p : Gibbs.Params) (F : Nat) (X W W' : Nat → Nat → ℚ) (h : ∀ f, f < F → (∃ d, X d f ≠ 0) → ∀ k, W k f = W' k f)
    (φ vocabSum : Nat → Nat → ℚ) (plan : Dmr.Plan) (z : Nat → Nat) (rnd1 rnd2 : Nat → Gibbs.Rand) :
    Dmr.query p F X φ vocabSum plan z W rnd1 rnd2 = Dmr.query p F X φ vocabSum plan z W' rnd1 rnd2 := by
  have ha : Dmr.withWeights p F X W = Dmr.withWeights p F X W' := by
    unfold Dmr.withWeights
    congr 1
    funext d k
    refine Finset.sum_congr rfl fun f hf => ?_
    by_cases hx : X d f = 0
    · rw [hx, zero_mul, zero_mul]
    · rw [h f (Finset.mem_range.mp hf) ⟨d, hx⟩ k]
  unfold Dmr.query
  rw [ha]

/-! ## Examples -/

/-- Two documents and three features, the last of which no document has -/
def exX (d f : Nat) : ℝ := if f < 2 then d + f + 1 else 0

theorem exX_unused (D : Nat) : Unused D exX 2 := fun d _ => if_neg (by decide)

section
open Verif.Props.RenumberStm (exT)

/-- Three features, two latent features and two topics -/
noncomputable def exP : Params := ⟨3, 2, 2, 1 / 2, 2, 1 / 10, bohningA 2⟩

example : (StmYv.train StmCov.exactInv exP ⟨2, 3, fun d t => d + t + 1⟩ exX 7
    ⟨exT 1, exT 2, exT 3, exT 4, exT 5, fun _ _ => 1 / 3, exT 6, exT 7, exT 8, exT 9, fun d => d⟩).A 1 2
      = ∑ i ∈ Finset.range 2, (StmYv.train StmCov.exactInv exP ⟨2, 3, fun d t => d + t + 1⟩ exX 7
    ⟨exT 1, exT 2, exT 3, exT 4, exT 5, fun _ _ => 1 / 3, exT 6, exT 7, exT 8, exT 9, fun d => d⟩).Y 1 i
        * (StmYv.train StmCov.exactInv exP ⟨2, 3, fun d t => d + t + 1⟩ exX 7
    ⟨exT 1, exT 2, exT 3, exT 4, exT 5, fun _ _ => 1 / 3, exT 6, exT 7, exT 8, exT 9, fun d => d⟩).V i 2 :=
  yv_unused_partial exP (by norm_num [exP]) ⟨2, 3, fun d t => d + t + 1⟩ exX 7 (by decide) _ 2 (by norm_num [exP]) (exX_unused _) 1

example (st : Stm.State) : (uvTrain StmCov.exactInv exP ⟨2, 3, fun d t => d + t + 1⟩ exX 7 st).A 1 2
    = ∑ i ∈ Finset.range 2, (uvTrain StmCov.exactInv exP ⟨2, 3, fun d t => d + t + 1⟩ exX 7 st).Y 1 i
      * (uvTrain StmCov.exactInv exP ⟨2, 3, fun d t => d + t + 1⟩ exX 7 st).V i 2 :=
  uv_unused_partial exP (by norm_num [exP]) ⟨2, 3, fun d t => d + t + 1⟩ exX 7 (by decide) st 2 (by norm_num [exP]) (exX_unused _) 1

/-- Weights for other features do matter, those of the feature that no document has do not. -/
example (sig vocab : Nat → Nat → ℝ) (perp : (Nat → Nat → ℝ) → ℝ) (q : Stm.Query) :
    Stm.query StmCov.exactInv exP ⟨2, 3, fun d t => d + t + 1⟩ exX (fun k f => k + f) sig vocab perp 100 7 q 0
      = Stm.query StmCov.exactInv exP ⟨2, 3, fun d t => d + t + 1⟩ exX (fun k f => if f = 2 then 1000 else k + f) sig vocab perp 100 7 q 0 :=
  (query_unused StmCov.exactInv exP ⟨2, 3, fun d t => d + t + 1⟩ exX (fun k f => k + f) (fun k f => if f = 2 then 1000 else k + f)
    (fun f _ h k _ => (if_neg fun e : f = 2 => h.elim fun d hd => hd (if_neg (by omega))).symm) sig vocab).2 perp 100 7 q 0

end

/-- Least squares for a single document -/
noncomputable def exLsq (F : Nat) (X m : Nat → Nat → ℝ) (k f : Nat) : ℝ := m 0 k * X 0 f / ∑ g ∈ Finset.range F, X 0 g ^ 2

theorem exShortest (F K : Nat) : Shortest 1 F K (exLsq F) := by
  intro X m k _
  have hS0 : 0 ≤ ∑ g ∈ Finset.range F, X 0 g ^ 2 := Finset.sum_nonneg fun g _ => sq_nonneg _
  have herr : ∀ a, error 1 F X (fun d => m d k) a = (m 0 k - ∑ f ∈ Finset.range F, X 0 f * a f) ^ 2 := fun a => Finset.sum_range_one _
  simp only [herr]
  rcases hS0.eq_or_lt with hS | hS
  · have hX : ∀ f ∈ Finset.range F, X 0 f = 0 := fun f hf =>
      pow_eq_zero_iff two_ne_zero |>.mp ((Finset.sum_eq_zero_iff_of_nonneg fun g _ => sq_nonneg _).mp hS.symm f hf)
    have hz : ∀ a : Nat → ℝ, ∑ f ∈ Finset.range F, X 0 f * a f = 0 := fun a => Finset.sum_eq_zero fun f hf => by rw [hX f hf, zero_mul]
    refine ⟨fun a => by rw [hz, hz], fun a _ => ?_⟩
    unfold exLsq
    rw [← hS]
    simp only [div_zero, ne_eq, OfNat.ofNat_ne_zero, not_false_eq_true, zero_pow, Finset.sum_const_zero]
    exact Finset.sum_nonneg fun f _ => sq_nonneg _
  · have hfit : ∑ f ∈ Finset.range F, X 0 f * exLsq F X m k f = m 0 k := by
      unfold exLsq
      rw [Finset.sum_congr rfl fun f _ => show X 0 f * (m 0 k * X 0 f / ∑ g ∈ Finset.range F, X 0 g ^ 2)
        = X 0 f ^ 2 * (m 0 k / ∑ g ∈ Finset.range F, X 0 g ^ 2) by ring, ← Finset.sum_mul, mul_div_cancel₀ _ hS.ne']
    rw [hfit]
    refine ⟨fun a => by rw [sub_self]; simpa using sq_nonneg _, fun a ha => ?_⟩
    have ha' : ∑ f ∈ Finset.range F, X 0 f * a f = m 0 k := by
      rw [sub_self, zero_pow two_ne_zero] at ha
      exact (sub_eq_zero.mp (pow_eq_zero_iff two_ne_zero |>.mp ha)).symm
    have hcs := Finset.sum_mul_sq_le_sq_mul_sq (Finset.range F) (fun f => X 0 f) a
    rw [ha'] at hcs
    have hlen : ∑ f ∈ Finset.range F, exLsq F X m k f ^ 2 = m 0 k ^ 2 / ∑ g ∈ Finset.range F, X 0 g ^ 2 := by
      unfold exLsq
      rw [Finset.sum_congr rfl fun f _ => show (m 0 k * X 0 f / ∑ g ∈ Finset.range F, X 0 g ^ 2) ^ 2
        = X 0 f ^ 2 * (m 0 k ^ 2 / (∑ g ∈ Finset.range F, X 0 g ^ 2) ^ 2) by ring, ← Finset.sum_mul]
      field_simp
    rw [hlen, div_le_iff₀ hS, mul_comm]
    exact hcs

section
open Verif.Props.RenumberStm (exT)

example (st : Stm.State) (hY : st.Y = fun _ _ => 1) (hV : st.V = fun _ _ => 1) :
    (yvTrain StmCov.exactInv (exLsq 3) exP ⟨1, 3, fun _ t => t + 1⟩ exX 4 st).A 1 2
      ≠ ∑ i ∈ Finset.range 2, (yvTrain StmCov.exactInv (exLsq 3) exP ⟨1, 3, fun _ t => t + 1⟩ exX 4 st).Y 1 i
        * (yvTrain StmCov.exactInv (exLsq 3) exP ⟨1, 3, fun _ t => t + 1⟩ exX 4 st).V i 2 :=
  lsq_unused_violation StmCov.exactInv exP ⟨1, 3, fun _ t => t + 1⟩ (exLsq 3) (exShortest 3 2) exX 4 (by decide) st 2 (by norm_num [exP])
    (fun _ => if_neg (by decide)) 1 (by norm_num [exP]) (by rw [hY, hV]; norm_num [exP])

end

/-- Two documents with three features, of which neither has any -/
noncomputable def exProblem : Verif.DmrWeights.Problem := ⟨2, 2, 3, fun _ _ => 0, 1, fun _ _ _ => 1, 1 / 100, 5000⟩

example : ∃ w : Nat → ℝ, (∀ w', Verif.DmrWeights.objective exProblem (fun _ _ => 1) 0 w ≤ Verif.DmrWeights.objective exProblem (fun _ _ => 1) 0 w')
    ∧ w 2 = 0 := by
  have h : ∀ w', Verif.DmrWeights.objective exProblem (fun _ _ => 1) 0 (fun _ => 0) ≤ Verif.DmrWeights.objective exProblem (fun _ _ => 1) 0 w' := by
    intro w'
    rw [DmrWeights.objective_eq _ (by norm_num [exProblem]), DmrWeights.objective_eq _ (by norm_num [exProblem])]
    have h1 : 0 ≤ ∑ f ∈ Finset.range exProblem.F, w' f * w' f := Finset.sum_nonneg fun f _ => mul_self_nonneg _
    have h2 : ∀ d, DmrWeights.docTerm exProblem (fun _ _ => 1) 0 (fun _ => 0) d = DmrWeights.docTerm exProblem (fun _ _ => 1) 0 w' d := by
      intro d
      have : Verif.DmrWeights.priors exProblem (fun _ _ => 1) 0 (fun _ => 0) d = Verif.DmrWeights.priors exProblem (fun _ _ => 1) 0 w' d := by
        funext j
        simp [Verif.DmrWeights.priors, exProblem]
      unfold DmrWeights.docTerm
      rw [this]
    simp only [h2, mul_zero, Finset.sum_const_zero]
    have h3 : (0 : ℝ) ≤ 0.5 / exProblem.sigma := by norm_num [exProblem]
    linarith [mul_nonneg h3 h1]
  exact ⟨_, h, dmr_unused_partial exProblem (by norm_num [exProblem]) (by norm_num [exProblem]) _ 0 _ 2 (by norm_num [exProblem]) (fun _ _ => rfl) h⟩

example (φ vocabSum : Nat → Nat → ℚ) (plan : Dmr.Plan) (z : Nat → Nat) (rnd1 rnd2 : Nat → Gibbs.Rand) :
    Dmr.query Verif.Props.Gibbs.exP 3 (fun d f => if f < 2 then d + f + 1 else 0) φ vocabSum plan z (fun k f => k + f) rnd1 rnd2
      = Dmr.query Verif.Props.Gibbs.exP 3 (fun d f => if f < 2 then d + f + 1 else 0) φ vocabSum plan z (fun k f => if f = 2 then 1000 else k + f) rnd1 rnd2 :=
  dmr_query_unused Verif.Props.Gibbs.exP 3 _ (fun k f => k + f) (fun k f => if f = 2 then 1000 else k + f)
    (fun f _ h k => (if_neg fun e : f = 2 => h.elim fun d hd => hd (if_neg (by omega))).symm) φ vocabSum plan z rnd1 rnd2

end Verif.Props.UnusedFeature
