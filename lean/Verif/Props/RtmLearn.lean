import Verif.Model.RtmLearn
import Verif.Lemmas.Probit
import Verif.Lemmas.Digamma
import Verif.Props.Rtm
import Verif.Props.MomEm

/-!
# What the relational topic model learns (C226–C230, C232)
-/

namespace Verif.Props.RtmLearn

open Verif Verif.Rtm Verif.RtmLearn
open Verif.Mom (Data)
open Verif.VbPython (toMeans toDirichlet)
open Verif.Dirichlet (digamma digamma_mono digamma_strict)
open Verif.Props.Rtm (Proper)
open Verif.Props.MomEm (urn)

/-- The special functions are those of the normal distribution. -/
structure Normal (e : Env) : Prop where
  pdf : e.pdf = Probit.pdf
  cdf : e.cdf = Probit.cdf

/-! ## C226: the weights -/

/-- The logarithm of the probability of the links, given topic distributions and weights, each pair of linked documents once -/
noncomputable def linkLikelihood (e : Env) (means : Nat → Nat → ℝ) (w : Nat → ℝ) : ℝ :=
  ((pairs e.x.D e.links).map fun p => Real.log (Probit.cdf (∑ i ∈ Finset.range (e.K + 1), w i * (means p.1 i * means p.2 i)))).sum

/-- What the documentation says is maximised, without invented negative examples: the likelihood of the links with an L2 regulariser of
strength `reg` -/
noncomputable def documented (e : Env) (reg : ℝ) (means : Nat → Nat → ℝ) (w : Nat → ℝ) : ℝ :=
  linkLikelihood e means w - reg / 2 * ∑ i ∈ Finset.range (e.K + 1), w i ^ 2

/-- The invented negative example, topic by topic, with the intercept in entry `K` -/
noncomputable def invented (K : Nat) (prior : Nat → ℝ) (i : Nat) : ℝ :=
  if i = K then 1 else prior i ^ 2 / ∑ j ∈ Finset.range (K + 1), prior j

theorem pseudoDoc_eq (K : Nat) (prior : Nat → ℝ) : pseudoDoc K prior = invented K prior := by
  funext i
  unfold pseudoDoc invented
  rw [sq]

/-- What is climbed -/
noncomputable def climbed (e : Env) (rho reg : ℝ) (means : Nat → Nat → ℝ) (prior w : Nat → ℝ) : ℝ :=
  linkLikelihood e means w - (1 - reg) / 2 * ∑ i ∈ Finset.range (e.K + 1), w i ^ 2
    - rho * Real.log (Probit.cdf (∑ i ∈ Finset.range (e.K + 1), w i * invented e.K prior i) + 1 / 10 ^ 50)

theorem list_deriv {α : Type} (l : List α) (f : α → ℝ → ℝ) (f' : α → ℝ) (x : ℝ) (h : ∀ p ∈ l, HasDerivAt (f p) (f' p) x) :
    HasDerivAt (fun t => (l.map fun p => f p t).sum) (l.map f').sum x := by
  induction l with
  | nil => simpa using hasDerivAt_const x (0 : ℝ)
  | cons p l ih =>
    simp only [List.map_cons, List.sum_cons]
    exact (h p List.mem_cons_self).add (ih fun q hq => h q (List.mem_cons_of_mem _ hq))

theorem line_deriv (n : Nat) (w v u : Nat → ℝ) :
    HasDerivAt (fun t : ℝ => ∑ i ∈ Finset.range n, (w i + t * v i) * u i) (∑ i ∈ Finset.range n, v i * u i) 0 := by
  refine HasDerivAt.fun_sum fun i _ => ?_
  have := (((hasDerivAt_id (0 : ℝ)).mul_const (v i)).const_add (w i)).mul_const (u i)
  simpa using this

theorem square_deriv (n : Nat) (w v : Nat → ℝ) :
    HasDerivAt (fun t : ℝ => ∑ i ∈ Finset.range n, (w i + t * v i) ^ 2) (∑ i ∈ Finset.range n, 2 * w i * v i) 0 := by
  refine HasDerivAt.fun_sum fun i _ => ?_
  have := (((hasDerivAt_id (0 : ℝ)).mul_const (v i)).const_add (w i)).fun_pow 2
  simpa using this

theorem list_sum_swap {α : Type} (l : List α) (n : Nat) (v : Nat → ℝ) (c : α → ℝ) (g : α → Nat → ℝ) :
    (l.map fun p => c p * ∑ i ∈ Finset.range n, v i * g p i).sum = ∑ i ∈ Finset.range n, v i * (l.map fun p => c p * g p i).sum := by
  induction l with
  | nil => simp
  | cons p l ih =>
    simp only [List.map_cons, List.sum_cons]
    rw [ih, Finset.mul_sum, ← Finset.sum_add_distrib]
    exact Finset.sum_congr rfl fun i _ => by ring

theorem likelihood_deriv (e : Env) (means : Nat → Nat → ℝ) (w v : Nat → ℝ) :
    HasDerivAt (fun t : ℝ => linkLikelihood e means fun i => w i + t * v i)
      (∑ i ∈ Finset.range (e.K + 1), v i * ((pairs e.x.D e.links).map fun p =>
        Probit.pdf (dot e.K w (pairDoc means p.1 p.2)) / Probit.cdf (dot e.K w (pairDoc means p.1 p.2)) * pairDoc means p.1 p.2 i).sum) 0 := by
  rw [← list_sum_swap]
  unfold linkLikelihood
  refine list_deriv _ _ _ _ fun p _ => ?_
  have h1 := line_deriv (e.K + 1) w v (pairDoc means p.1 p.2)
  have h2 := (Probit.hasDerivAt_cdf (dot e.K w (pairDoc means p.1 p.2))).comp_of_eq 0 h1 (by simp [dot])
  have h3 := h2.log (Probit.cdf_pos _).ne'
  refine h3.congr_deriv ?_
  simp only [dot, Function.comp_apply, zero_mul, add_zero]
  ring

/-- **C226**: a step of the optimiser goes along the gradient of what is climbed: in every direction, its slope is the inner product of the
direction with the step. -/
theorem weights_direction (e : Env) (he : Normal e) (rho reg : ℝ) (means : Nat → Nat → ℝ) (prior : Nat → ℝ) (step : ℝ) (hs : 0 < step)
    (w v : Nat → ℝ) :
    HasDerivAt (fun t : ℝ => climbed e rho reg means prior fun i => w i + t * v i)
      (∑ i ∈ Finset.range (e.K + 1), v i * ((weightStep e rho reg means prior step w i - w i) / step)) 0 := by
  unfold climbed
  rw [← pseudoDoc_eq]
  have h1 := likelihood_deriv e means w v
  have h2 := (square_deriv (e.K + 1) w v).const_mul ((1 - reg) / 2)
  have h3 := line_deriv (e.K + 1) w v (pseudoDoc e.K prior)
  have h4 := ((Probit.hasDerivAt_cdf (dot e.K w (pseudoDoc e.K prior))).comp_of_eq 0 h3 (by simp [dot])).add_const (1 / 10 ^ 50)
  have h5 := (h4.log (by
    have := Probit.cdf_pos (∑ i ∈ Finset.range (e.K + 1), (w i + 0 * v i) * pseudoDoc e.K prior i)
    simp only [Function.comp_apply]
    positivity)).const_mul rho
  refine ((h1.sub h2).sub h5).congr_deriv ?_
  simp only [Function.comp_apply, zero_mul, add_zero]
  change _ - _ - rho * ((Probit.pdf (dot e.K w (pseudoDoc e.K prior)) * ∑ i ∈ Finset.range (e.K + 1), v i * pseudoDoc e.K prior i)
    / (Probit.cdf (dot e.K w (pseudoDoc e.K prior)) + 1 / 10 ^ 50)) = _
  rw [mul_div_right_comm, Finset.mul_sum, Finset.mul_sum, Finset.mul_sum, ← Finset.sum_sub_distrib, ← Finset.sum_sub_distrib]
  refine Finset.sum_congr rfl fun i _ => ?_
  unfold weightStep grad
  rw [he.pdf, he.cdf]
  have : ∀ g : ℝ, (w i * (1 - step) + g * step - w i) / step = g - w i := by
    intro g
    field_simp
    ring
  rw [this]
  ring

/-- **C226**: violated: if the strength of the regularisation is above one, then without links and negative examples every step goes down what
the documentation says is maximised, unless the weights are zero. -/
theorem weights_violation (e : Env) (hl : ∀ d, e.links d = []) (reg : ℝ) (hr : 1 < reg) (means : Nat → Nat → ℝ)
    (prior : Nat → ℝ) (step : ℝ) (hs : 0 < step) (w : Nat → ℝ) (hw : ∃ i, i ≤ e.K ∧ w i ≠ 0) :
    ∃ slope, slope < 0 ∧ HasDerivAt (fun t : ℝ => documented e reg means fun i => w i + t * (weightStep e 0 reg means prior step w i - w i)) slope 0 := by
  have hp : pairs e.x.D e.links = [] := by
    unfold pairs
    simp [hl, linksUpTo]
  have hstep : ∀ i, weightStep e 0 reg means prior step w i - w i = step * (reg - 1) * w i := by
    intro i
    unfold weightStep grad
    rw [hp]
    simp
    ring
  have hpos : 0 < ∑ i ∈ Finset.range (e.K + 1), w i ^ 2 := by
    obtain ⟨i, hi, hne⟩ := hw
    exact Finset.sum_pos' (fun j _ => sq_nonneg _) ⟨i, Finset.mem_range.mpr (by omega), by positivity⟩
  refine ⟨-(reg * (step * (reg - 1)) * ∑ i ∈ Finset.range (e.K + 1), w i ^ 2), ?_, ?_⟩
  · have : 0 < reg - 1 := by linarith
    have h0 : 0 < reg := by linarith
    have := mul_pos (mul_pos h0 (mul_pos hs this)) hpos
    linarith
  · have h1 := likelihood_deriv e means w (fun i => weightStep e 0 reg means prior step w i - w i)
    have h2 := (square_deriv (e.K + 1) w (fun i => weightStep e 0 reg means prior step w i - w i)).const_mul (reg / 2)
    refine (h1.sub h2).congr_deriv ?_
    rw [hp]
    simp only [List.map_nil, List.sum_nil, mul_zero, Finset.sum_const_zero, zero_sub, hstep]
    rw [Finset.mul_sum, Finset.mul_sum]
    congr 1
    exact Finset.sum_congr rfl fun i _ => by ring

/-- **C226**: with the strength one half and no negative examples, the steps do go along the gradient of what is documented. -/
theorem weights_partial (e : Env) (he : Normal e) (means : Nat → Nat → ℝ) (prior : Nat → ℝ) (step : ℝ) (hs : 0 < step) (w v : Nat → ℝ) :
    HasDerivAt (fun t : ℝ => documented e (1 / 2) means fun i => w i + t * v i)
      (∑ i ∈ Finset.range (e.K + 1), v i * ((weightStep e 0 (1 / 2) means prior step w i - w i) / step)) 0 := by
  have h := weights_direction e he 0 (1 / 2) means prior step hs w v
  refine h.congr_of_eventuallyEq (Filter.Eventually.of_forall fun t => ?_)
  unfold documented climbed
  norm_num

/-! ## C227: the regulariser -/

/-- **C227**: violated: a stronger regulariser takes every weight further from zero, whatever the data. -/
theorem regulariser_violation (e : Env) (rho reg reg' : ℝ) (hr : reg < reg') (means : Nat → Nat → ℝ) (prior : Nat → ℝ) (step : ℝ) (hs : 0 < step)
    (w : Nat → ℝ) (i : Nat) :
    (0 < w i → weightStep e rho reg means prior step w i < weightStep e rho reg' means prior step w i)
      ∧ (w i < 0 → weightStep e rho reg' means prior step w i < weightStep e rho reg means prior step w i) := by
  have h : weightStep e rho reg' means prior step w i = weightStep e rho reg means prior step w i + step * (reg' - reg) * w i := by
    unfold weightStep grad
    ring
  have hp : 0 < step * (reg' - reg) := mul_pos hs (by linarith)
  rw [h]
  constructor
  · intro hw
    have := mul_pos hp hw
    linarith
  · intro hw
    have := mul_neg_of_pos_of_neg hp hw
    linarith

theorem stepSize_bounds (t : Nat) : 0 < stepSize t ∧ stepSize t < 1 := by
  unfold stepSize
  have h : (1 : ℝ) < 5 + t := by
    have : (0 : ℝ) ≤ t := Nat.cast_nonneg t
    linarith
  exact ⟨Real.rpow_pos_of_pos (by linarith) _, Real.rpow_lt_one_of_one_lt_of_neg h (by norm_num)⟩

open Classical in
theorem weightLoop_succ (e : Env) (rho reg : ℝ) (means : Nat → Nat → ℝ) (prior : Nat → ℝ) (left t : Nat) (w : Nat → ℝ) :
    weightLoop e rho reg means prior (left + 1) t w
      = if ∑ i ∈ Finset.range (e.K + 1), |weightStep e rho reg means prior (stepSize t) w i - w i| < 1 / 100 / (e.K : ℝ)
        then weightStep e rho reg means prior (stepSize t) w
        else weightLoop e rho reg means prior left (t + 1) (weightStep e rho reg means prior (stepSize t) w) := rfl

/-- **C227**: without links and negative examples, the weights that are learned are those at the start times a number that is the same for all
of them: below one if the strength is below one, above one if it is above one. -/
theorem regulariser_alone (e : Env) (hl : ∀ d, e.links d = []) (reg : ℝ) (h0 : 0 ≤ reg) (s : State) :
    ∃ c, 0 ≤ c ∧ (reg < 1 → c < 1) ∧ (reg = 1 → c = 1) ∧ (1 < reg → 1 < c) ∧ ∀ i, inferWeights e 0 reg s i = c * s.weights i := by
  have hp : pairs e.x.D e.links = [] := by
    unfold pairs
    simp [hl, linksUpTo]
  have hstep : ∀ t (w : Nat → ℝ) i, weightStep e 0 reg s.means s.prior (stepSize t) w i = (1 + stepSize t * (reg - 1)) * w i := by
    intro t w i
    unfold weightStep grad
    rw [hp]
    simp
    ring
  have hf : ∀ t, 0 ≤ 1 + stepSize t * (reg - 1) ∧ (reg < 1 → 1 + stepSize t * (reg - 1) < 1) ∧ (1 < reg → 1 < 1 + stepSize t * (reg - 1)) := by
    intro t
    obtain ⟨h1, h2⟩ := stepSize_bounds t
    refine ⟨by nlinarith [mul_nonneg h1.le h0], fun h => ?_, fun h => ?_⟩
    · have := mul_neg_of_pos_of_neg h1 (sub_neg.mpr h)
      linarith
    · have := mul_pos h1 (sub_pos.mpr h)
      linarith
  have key : ∀ left t (w : Nat → ℝ), ∃ c, 0 ≤ c ∧ (reg < 1 → c < 1) ∧ (reg = 1 → c = 1) ∧ (1 < reg → 1 < c)
      ∧ ∀ i, weightLoop e 0 reg s.means s.prior (left + 1) t w i = c * w i := by
    intro left
    induction left with
    | zero =>
      intro t w
      refine ⟨1 + stepSize t * (reg - 1), (hf t).1, (hf t).2.1, fun h => by rw [h]; ring, (hf t).2.2, fun i => ?_⟩
      rw [weightLoop_succ]
      split <;> exact hstep t w i
    | succ left ih =>
      intro t w
      rw [weightLoop_succ]
      split
      · exact ⟨1 + stepSize t * (reg - 1), (hf t).1, (hf t).2.1, fun h => by rw [h]; ring, (hf t).2.2, fun i => hstep t w i⟩
      · obtain ⟨c, h1, h2, h3, h4, h5⟩ := ih (t + 1) (weightStep e 0 reg s.means s.prior (stepSize t) w)
        refine ⟨c * (1 + stepSize t * (reg - 1)), mul_nonneg h1 (hf t).1, fun h => ?_, fun h => ?_, fun h => ?_, fun i => ?_⟩
        · exact mul_lt_one_of_nonneg_of_lt_one_left h1 (h2 h) ((hf t).2.1 h).le
        · rw [h3 h, h]; ring
        · exact one_lt_mul_of_lt_of_le (h4 h) ((hf t).2.2 h).le
        · rw [h5, hstep]
          ring
  exact key 99 0 s.weights

/-! ## C228: invented negative examples -/

/-- **C228**: the more negative examples are invented, the lower the probability given to them after a step. -/
theorem negatives_lower (e : Env) (he : Normal e) (rho rho' reg : ℝ) (hr : rho < rho') (means : Nat → Nat → ℝ) (prior : Nat → ℝ)
    (step : ℝ) (hs : 0 < step) (w : Nat → ℝ) :
    Probit.cdf (∑ i ∈ Finset.range (e.K + 1), weightStep e rho' reg means prior step w i * invented e.K prior i)
      < Probit.cdf (∑ i ∈ Finset.range (e.K + 1), weightStep e rho reg means prior step w i * invented e.K prior i) := by
  rw [← pseudoDoc_eq]
  change Probit.cdf (dot e.K (weightStep e rho' reg means prior step w) (pseudoDoc e.K prior))
      < Probit.cdf (dot e.K (weightStep e rho reg means prior step w) (pseudoDoc e.K prior))
  refine Probit.cdf_strictMono ?_
  set r := Probit.pdf (dot e.K w (pseudoDoc e.K prior)) / (Probit.cdf (dot e.K w (pseudoDoc e.K prior)) + 1 / 10 ^ 50) with hrdef
  have hrpos : 0 < r := by
    have h1 := Probit.pdf_pos (dot e.K w (pseudoDoc e.K prior))
    have h2 := Probit.cdf_pos (dot e.K w (pseudoDoc e.K prior))
    rw [hrdef]
    positivity
  have h : ∀ i, weightStep e rho' reg means prior step w i
      = weightStep e rho reg means prior step w i - step * (rho' - rho) * r * pseudoDoc e.K prior i := by
    intro i
    unfold weightStep grad
    rw [he.pdf, he.cdf, ← hrdef]
    ring
  have hdot : dot e.K (weightStep e rho' reg means prior step w) (pseudoDoc e.K prior)
      = dot e.K (weightStep e rho reg means prior step w) (pseudoDoc e.K prior)
        - step * (rho' - rho) * r * ∑ i ∈ Finset.range (e.K + 1), pseudoDoc e.K prior i ^ 2 := by
    unfold dot
    rw [Finset.mul_sum, ← Finset.sum_sub_distrib]
    refine Finset.sum_congr rfl fun i _ => ?_
    rw [h]
    ring
  have hpos : 0 < ∑ i ∈ Finset.range (e.K + 1), pseudoDoc e.K prior i ^ 2 :=
    Finset.sum_pos' (fun _ _ => sq_nonneg _) ⟨e.K, Finset.mem_range.mpr (by omega), by unfold pseudoDoc; simp⟩
  have := mul_pos (mul_pos (mul_pos hs (sub_pos.mpr hr)) hrpos) hpos
  rw [hdot]
  linarith

/-! ## C257: typical pairs -/

/-- The topics on average, over the distribution of topics that the prior describes, multiplied for two documents drawn on their own, topic by
topic -/
noncomputable def typicalPair (K : Nat) (prior : Nat → ℝ) (i : Nat) : ℝ :=
  (prior i / ∑ j ∈ Finset.range K, prior j) * (prior i / ∑ j ∈ Finset.range K, prior j)

/-- **C257**: what the invented example is instead: the typical pair times the sum of the prior (which has a zero for the intercept). -/
theorem negatives_typical (K : Nat) (prior : Nat → ℝ) (h0 : prior K = 0) (hs : 0 < ∑ j ∈ Finset.range K, prior j) (i : Nat) (hi : i < K) :
    pseudoDoc K prior i = (∑ j ∈ Finset.range K, prior j) * typicalPair K prior i := by
  unfold pseudoDoc typicalPair
  rw [if_neg (by omega), Finset.sum_range_succ, h0, add_zero]
  field_simp

/-- **C257**: violated: with the prior that is used unless another one is given, the invented example is larger than the typical pair in every
topic, by the factor `5 + K / 2`; and for up to nine topics it is no pair of topic distributions at all. -/
theorem negatives_typical_violation (K : Nat) (hK : 0 < K) (prior : Nat → ℝ)
    (hp : ∀ i, prior i = if i = K then 0 else 5 / (K : ℝ) + 1 / 2) :
    (∀ i, i < K → pseudoDoc K prior i = (5 + (K : ℝ) / 2) * typicalPair K prior i ∧ typicalPair K prior i < pseudoDoc K prior i)
      ∧ (K < 10 → ∀ a b : Nat → ℝ, (∀ i, i < K → 0 ≤ a i) → (∀ i, i < K → 0 ≤ b i) → ∑ i ∈ Finset.range K, a i = 1 →
          ∑ i ∈ Finset.range K, b i = 1 → ∃ i, i < K ∧ pseudoDoc K prior i ≠ a i * b i) := by
  have hK' : (0 : ℝ) < K := by exact_mod_cast hK
  have hin : ∀ i, i < K → prior i = 5 / (K : ℝ) + 1 / 2 := fun i hi => by rw [hp, if_neg (by omega)]
  have hsum : ∑ j ∈ Finset.range K, prior j = 5 + (K : ℝ) / 2 := by
    rw [Finset.sum_congr rfl fun j hj => hin j (Finset.mem_range.mp hj), Finset.sum_const, Finset.card_range, nsmul_eq_mul]
    field_simp
  have h0 : prior K = 0 := by rw [hp, if_pos rfl]
  have heq : ∀ i, i < K → pseudoDoc K prior i = (5 + (K : ℝ) / 2) * typicalPair K prior i := by
    intro i hi
    rw [negatives_typical K prior h0 (by rw [hsum]; positivity) i hi, hsum]
  refine ⟨fun i hi => ⟨heq i hi, ?_⟩, ?_⟩
  · have hpos : 0 < typicalPair K prior i := by
      unfold typicalPair
      rw [hsum, hin i hi]
      positivity
    rw [heq i hi]
    nlinarith
  · intro hlt a b ha hb hsa hsb
    by_contra hcon
    push Not at hcon
    have hlt' : (K : ℝ) < 10 := by exact_mod_cast hlt
    have h1 : ∑ i ∈ Finset.range K, pseudoDoc K prior i = 5 / (K : ℝ) + 1 / 2 := by
      have : ∀ i ∈ Finset.range K, pseudoDoc K prior i = (5 / (K : ℝ) + 1 / 2) ^ 2 / (5 + (K : ℝ) / 2) := by
        intro i hi
        have hi := Finset.mem_range.mp hi
        rw [heq i hi]
        unfold typicalPair
        rw [hsum, hin i hi]
        field_simp
      rw [Finset.sum_congr rfl this, Finset.sum_const, Finset.card_range, nsmul_eq_mul]
      field_simp
    have h2 : ∑ i ∈ Finset.range K, pseudoDoc K prior i ≤ ∑ i ∈ Finset.range K, a i := by
      refine Finset.sum_le_sum fun i hi => ?_
      have hi' := Finset.mem_range.mp hi
      rw [hcon i hi']
      have : b i ≤ 1 := by
        rw [← hsb]
        exact Finset.single_le_sum (fun j hj => hb j (Finset.mem_range.mp hj)) hi
      exact mul_le_of_le_one_right (ha i hi') this
    rw [h1, hsa] at h2
    have h3 : 1 / 2 < 5 / (K : ℝ) := by
      rw [div_lt_div_iff₀ (by norm_num) hK']
      linarith
    linarith

/-- **C257**: with a prior that sums to one, it is the typical pair. -/
theorem negatives_typical_partial (K : Nat) (prior : Nat → ℝ) (h0 : prior K = 0) (hs : ∑ j ∈ Finset.range K, prior j = 1) (i : Nat)
    (hi : i < K) : pseudoDoc K prior i = typicalPair K prior i := by
  rw [negatives_typical K prior h0 (by rw [hs]; norm_num) i hi, hs, one_mul]

example : pseudoDoc 2 (fun i => if i = 2 then 0 else 5 / (2 : ℝ) + 1 / 2) 1 = 6 * typicalPair 2 (fun i => if i = 2 then 0 else 5 / (2 : ℝ) + 1 / 2) 1 := by
  have := ((negatives_typical_violation 2 (by norm_num) (fun i => if i = 2 then 0 else 5 / (2 : ℝ) + 1 / 2) (fun i => rfl)).1 1 (by norm_num)).1
  norm_num at this ⊢
  exact this

example : pseudoDoc 2 (fun i => if i = 2 then 0 else if i = 0 then 1 / 4 else 3 / 4) 1
    = typicalPair 2 (fun i => if i = 2 then 0 else if i = 0 then 1 / 4 else 3 / 4) 1 :=
  negatives_typical_partial 2 _ (by simp) (by simp [Finset.sum_range_succ]; norm_num) 1 (by norm_num)

/-! ## C229: the prior -/

/-- **C229**: every step of the re-estimation makes every entry of the prior smaller and leaves it positive, whatever the topics of the
documents are. -/
theorem prior_shrinks (K : Nat) (hK : 2 ≤ K) (x : Data) (hD : 0 < x.D) (hx : ∀ d, d < x.D → 0 < x.len d) (means : Nat → Nat → ℝ)
    (hm : ∀ d, d < x.D → Proper K (means d)) (a : Nat → ℝ) (ha : ∀ k, k < K → 0 < a k) (k : Nat) (hk : k < K) :
    0 < priorStep digamma K x means a k ∧ priorStep digamma K x means a k < a k := by
  have hlt : ∀ d, d < x.D → digamma (a k) < digamma (means d k * (x.len d : ℝ) + a k)
      ∧ digamma (means d k * (x.len d : ℝ) + a k) < digamma ((x.len d : ℝ) + ∑ j ∈ Finset.range K, a j) := by
    intro d hd
    have hl : (0 : ℝ) < x.len d := by exact_mod_cast hx d hd
    obtain ⟨h1, h2⟩ := hm d hd
    have hp := mul_pos (h1 k hk) hl
    have hle : means d k ≤ 1 := by
      rw [← h2]
      exact Finset.single_le_sum (fun j hj => (h1 j (Finset.mem_range.mp hj)).le) (Finset.mem_range.mpr hk)
    have hs : a k < ∑ j ∈ Finset.range K, a j := by
      obtain ⟨j, hj, hne⟩ : ∃ j, j < K ∧ j ≠ k := by
        by_cases h0 : k = 0
        · exact ⟨1, by omega, by omega⟩
        · exact ⟨0, by omega, by omega⟩
      exact Finset.single_lt_sum hne (Finset.mem_range.mpr hk) (Finset.mem_range.mpr hj) (ha j hj)
        (fun i hi _ => (ha i (Finset.mem_range.mp hi)).le)
    have hml : means d k * (x.len d : ℝ) ≤ x.len d := mul_le_of_le_one_left hl.le hle
    exact ⟨digamma_strict (ha k hk) (by linarith), digamma_strict (by have := ha k hk; linarith) (by linarith)⟩
  have hne : (Finset.range x.D).Nonempty := ⟨0, Finset.mem_range.mpr hD⟩
  have hconst : (x.D : ℝ) * digamma (a k) = ∑ _d ∈ Finset.range x.D, digamma (a k) := by simp
  have hn : 0 < ∑ d ∈ Finset.range x.D, digamma (means d k * (x.len d : ℝ) + a k) - (x.D : ℝ) * digamma (a k) := by
    rw [hconst, sub_pos]
    exact Finset.sum_lt_sum_of_nonempty hne fun d hd => (hlt d (Finset.mem_range.mp hd)).1
  have hnd : ∑ d ∈ Finset.range x.D, digamma (means d k * (x.len d : ℝ) + a k)
      < ∑ d ∈ Finset.range x.D, digamma ((x.len d : ℝ) + ∑ j ∈ Finset.range K, a j) :=
    Finset.sum_lt_sum_of_nonempty hne fun d hd => (hlt d (Finset.mem_range.mp hd)).2
  have hd := sub_lt_sub_right hnd ((x.D : ℝ) * digamma (a k))
  unfold priorStep
  refine ⟨mul_pos (ha k hk) (div_pos hn (hn.trans hd)), ?_⟩
  have := mul_lt_mul_of_pos_left ((div_lt_one (hn.trans hd)).mpr hd) (ha k hk)
  rwa [mul_one] at this

open Classical in
theorem priorLoop_succ (psi : ℝ → ℝ) (K : Nat) (x : Data) (means : Nat → Nat → ℝ) (left : Nat) (a : Nat → ℝ) :
    priorLoop psi K x means (left + 1) a
      = if ∑ k ∈ Finset.range K, |a k - priorStep psi K x means a k| < 1 / 1000 * (K : ℝ) then priorStep psi K x means a
        else priorLoop psi K x means left (priorStep psi K x means a) := rfl

/-- **C229**: the same for the whole re-estimation. -/
theorem prior_update_shrinks (K : Nat) (hK : 2 ≤ K) (x : Data) (hD : 0 < x.D) (hx : ∀ d, d < x.D → 0 < x.len d) (s : State)
    (hm : ∀ d, d < x.D → Proper K (s.means d)) (ha : ∀ k, k < K → 0 < s.prior k) (k : Nat) (hk : k < K) :
    0 < priorUpdate digamma K x s k ∧ priorUpdate digamma K x s k < s.prior k := by
  have key : ∀ left (a : Nat → ℝ), (∀ k, k < K → 0 < a k) → ∀ k, k < K →
      0 < priorLoop digamma K x s.means (left + 1) a k ∧ priorLoop digamma K x s.means (left + 1) a k < a k := by
    intro left
    induction left with
    | zero =>
      intro a ha k hk
      rw [priorLoop_succ]
      split <;> exact prior_shrinks K hK x hD hx s.means hm a ha k hk
    | succ left ih =>
      intro a ha k hk
      have h := prior_shrinks K hK x hD hx s.means hm a ha
      rw [priorLoop_succ]
      split
      · exact h k hk
      · obtain ⟨h1, h2⟩ := ih _ (fun j hj => (h j hj).1) k hk
        exact ⟨h1, h2.trans (h k hk).2⟩
  exact key 99 s.prior ha k hk

/-- The probability of the topic counts `n` of the documents under the prior `a` -/
noncomputable def countLikelihood (K D : Nat) (n : Nat → Nat → Nat) (a : Nat → ℝ) : ℝ := ∏ d ∈ Finset.range D, urn K a (n d)

/-- **C229**: violated: if there are two topics and every document has one token of each, the probability of the topic counts is the lower
the smaller the prior, so that the re-estimation lowers it, whatever symmetric prior it starts from. -/
theorem prior_violation (x : Data) (hD : 0 < x.D) (hx : ∀ d, d < x.D → x.len d = 2) (s : State)
    (hm : ∀ d, d < x.D → ∀ k, k < 2 → s.means d k = 1 / 2) (c : ℝ) (hc : 0 < c) (ha : ∀ k, k < 2 → s.prior k = c) :
    countLikelihood 2 x.D (fun _ _ => 1) (priorUpdate digamma 2 x s) < countLikelihood 2 x.D (fun _ _ => 1) s.prior := by
  have hp : ∀ d, d < x.D → Proper 2 (s.means d) := by
    intro d hd
    refine ⟨fun k hk => by rw [hm d hd k hk]; norm_num, ?_⟩
    rw [Finset.sum_range_succ, Finset.sum_range_one, hm d hd 0 (by omega), hm d hd 1 (by omega)]
    norm_num
  have hstep : ∀ a : Nat → ℝ, a 0 = a 1 → priorStep digamma 2 x s.means a 0 = priorStep digamma 2 x s.means a 1 := by
    intro a h
    have hsum : ∑ d ∈ Finset.range x.D, digamma (s.means d 0 * (x.len d : ℝ) + a 1)
        = ∑ d ∈ Finset.range x.D, digamma (s.means d 1 * (x.len d : ℝ) + a 1) :=
      Finset.sum_congr rfl fun d hd => by
        rw [hm d (Finset.mem_range.mp hd) 0 (by omega), hm d (Finset.mem_range.mp hd) 1 (by omega)]
    unfold priorStep
    rw [h, hsum]
  have hloop : ∀ left (a : Nat → ℝ), a 0 = a 1 → priorLoop digamma 2 x s.means left a 0 = priorLoop digamma 2 x s.means left a 1 := by
    intro left
    induction left with
    | zero => exact fun a h => h
    | succ left ih =>
      intro a h
      rw [priorLoop_succ]
      split
      · exact hstep a h
      · exact ih _ (hstep a h)
  have hsym : priorUpdate digamma 2 x s 0 = priorUpdate digamma 2 x s 1 := hloop 100 s.prior (by rw [ha 0 (by omega), ha 1 (by omega)])
  obtain ⟨h1, h2⟩ := prior_update_shrinks 2 le_rfl x hD (fun d hd => by rw [hx d hd]; omega) s hp (fun k hk => by rw [ha k hk]; exact hc) 0 (by omega)
  rw [ha 0 (by omega)] at h2
  have hurn : ∀ (a : Nat → ℝ) (b : ℝ), 0 < b → a 0 = b → a 1 = b → urn 2 a (fun _ => 1) = b / (2 * (2 * b + 1)) := by
    intro a b hb h0 h1
    unfold urn
    simp only [Finset.prod_range_succ, Finset.prod_range_zero, Finset.sum_range_succ, Finset.sum_range_zero, h0, h1]
    push_cast
    field_simp
    ring
  unfold countLikelihood
  rw [Finset.prod_const, Finset.prod_const, hurn _ _ h1 rfl hsym.symm, hurn _ _ hc (ha 0 (by omega)) (ha 1 (by omega)), Finset.card_range]
  refine pow_lt_pow_left₀ ?_ (by positivity) (by omega)
  rw [div_lt_div_iff₀ (by positivity) (by positivity)]
  nlinarith

/-! ## C230: the prior during training -/

/-- The prior is positive and nowhere above `bound`. -/
structure Sane (K : Nat) (bound : Nat → ℝ) (a : Nat → ℝ) : Prop where
  pos : ∀ k, k < K → 0 < a k
  le : ∀ k, k < K → a k ≤ bound k

theorem iteration_sane (e : Env) (hpsi : e.psi = digamma) (hK : 2 ≤ e.K) (hD : 0 < e.x.D) (hx : ∀ d, d < e.x.D → 0 < e.x.len d) (rho reg : ℝ)
    (conv : Nat → State → Bool) (itr : Nat) (s s' : State) (b : Bool) (bound : Nat → ℝ) (hs : Sane e.K bound s.prior)
    (h : iteration e (learn e rho reg conv) itr s = .ok (s', b)) : Sane e.K bound s'.prior := by
  have hsw := Props.Rtm.visits_swept e (by omega) hx s.word { s with word := fun _ _ => e.v } e.x.D le_rfl
  have hprior : (sweep e s).prior = s.prior := hsw.prior
  have hproper : ∀ d, d < e.x.D → Proper e.K ((sweep e s).means d) := hsw.proper
  have hyper : ∀ r : State, r.prior = s.prior → (∀ d, d < e.x.D → Proper e.K (r.means d)) →
      Sane e.K bound (hyperUpdate e (learn e rho reg conv) itr r).prior := by
    intro r hr hp
    unfold hyperUpdate
    split
    · have hsr : Sane e.K bound r.prior := hr ▸ hs
      have := prior_update_shrinks e.K hK e.x hD hx r hp hsr.pos
      constructor
      · intro k hk
        dsimp only [learn]
        rw [if_neg (by omega), hpsi]
        exact (this k hk).1
      · intro k hk
        dsimp only [learn]
        rw [if_neg (by omega), hpsi]
        exact (this k hk).2.le.trans (hsr.le k hk)
    · exact hr ▸ hs
  have hback : ∀ (r : State), (∀ d, d < e.x.D → Proper e.K (r.means d)) → ∀ d, d < e.x.D → Proper e.K ((measured e r).means d) := by
    intro r hp d hd
    have : ∀ k, (measured e r).means d k = r.means d k := by
      intro k
      show toMeans _ e.x (toDirichlet _ e.x (toMeans _ e.x (toDirichlet _ e.x r.means))) d k = _
      rw [Props.VbPython.means_of_dirichlet _ _ _ _ _ (hx d hd), Props.VbPython.means_of_dirichlet _ _ _ _ _ (hx d hd)]
    obtain ⟨h1, h2⟩ := hp d hd
    exact ⟨fun k hk => by rw [this]; exact h1 k hk, by simp only [this]; exact h2⟩
  generalize learn e rho reg conv = n at h hyper
  unfold iteration at h
  dsimp only at h
  split at h
  · cases h
  · next w _ =>
    split at h
    · cases h
    · split at h
      · split at h
        · cases h
          show Sane e.K bound (sweep e s).prior
          rw [hprior]
          exact hs
        · cases h
          exact hyper (measured e { sweep e s with weights := w }) hprior (hback { sweep e s with weights := w } hproper)
      · cases h
        exact hyper { sweep e s with weights := w } hprior hproper

/-- **C230**: if the prior is positive when training begins, it is so when training ends, and no entry has grown. -/
theorem prior_positive (e : Env) (hpsi : e.psi = digamma) (hK : 2 ≤ e.K) (hD : 0 < e.x.D) (rho reg : ℝ)
    (conv : Nat → State → Bool) (iterations : Nat) (s s' : State) (hs : ∀ k, k < e.K → 0 < s.prior k)
    (h : train e (learn e rho reg conv) iterations s = .ok s') : ∀ k, k < e.K → 0 < s'.prior k ∧ s'.prior k ≤ s.prior k := by
  have key : ∀ (hx : ∀ d, d < e.x.D → 0 < e.x.len d) left itr (r r' : State), Sane e.K s.prior r.prior →
      loop e (learn e rho reg conv) left itr r = .ok r' → Sane e.K s.prior r'.prior := by
    intro hx left
    induction left with
    | zero =>
      intro itr r r' hr hl
      unfold loop at hl
      cases hl
      exact hr
    | succ left ih =>
      intro itr r r' hr hl
      unfold loop at hl
      split at hl
      · cases hl
      · next r1 h1 =>
        cases hl
        exact iteration_sane e hpsi hK hD hx rho reg conv itr r _ true _ hr h1
      · next r1 h1 => exact ih _ _ _ (iteration_sane e hpsi hK hD hx rho reg conv itr r _ false _ hr h1) hl
  unfold train at h
  split at h
  · cases h
  · next hc =>
    have hx : ∀ d, d < e.x.D → 0 < e.x.len d := by
      intro d hd
      simp only [List.any_eq_true, List.mem_range, decide_eq_true_eq, not_exists, not_and] at hc
      have := hc d hd
      omega
    split at h
    · cases h
    · next r hr =>
      cases h
      have := key hx iterations 0 { s with means := toMeans ⟨e.K, s.prior, e.v⟩ e.x s.means } r ⟨hs, fun _ _ => le_rfl⟩ hr
      exact fun k hk => ⟨this.pos k hk, this.le k hk⟩

/-! ## C232: the scores of links in the update of topics -/

/-- The logarithm of the probability of the links as a function of the topic distributions, with the safeguard that the program uses -/
noncomputable def guarded (e : Env) (w : Nat → ℝ) (means : Nat → Nat → ℝ) : ℝ :=
  ((pairs e.x.D e.links).map fun p =>
    Real.log (Probit.cdf (∑ i ∈ Finset.range (e.K + 1), w i * (means p.1 i * means p.2 i)) + 1 / 10 ^ 30)).sum

/-- Rows of links as they come from a sparse symmetric matrix without entries on the diagonal -/
structure Undirected (D : Nat) (links : Nat → List Nat) : Prop where
  sorted : ∀ d, (links d).Pairwise (· < ·)
  bounded : ∀ d, ∀ j ∈ links d, j < D
  symm : ∀ i j, j ∈ links i ↔ i ∈ links j
  irrefl : ∀ d, d ∉ links d

theorem pairs_sum (D : Nat) (links : Nat → List Nat) (hu : Undirected D links) (f : Nat × Nat → ℝ) :
    ((pairs D links).map f).sum = ∑ d ∈ Finset.range D, ∑ j ∈ (links d).toFinset with j < d, f (d, j) := by
  have h1 : ∀ n, (((List.range n).flatMap fun d => (linksUpTo d (links d)).map fun j => (d, j)).map f).sum
      = ∑ d ∈ Finset.range n, ((linksUpTo d (links d)).map fun j => f (d, j)).sum := by
    intro n
    induction n with
    | zero => rfl
    | succ n ih =>
      rw [List.range_succ, List.flatMap_append, List.map_append, List.sum_append, ih, Finset.sum_range_succ]
      simp [Function.comp_def]
  unfold pairs
  rw [h1]
  refine Finset.sum_congr rfl fun d _ => ?_
  rw [Props.Rtm.linksUpTo_sorted d _ (hu.sorted d)]
  have hn : ((links d).filter fun c => decide (c < d)).Nodup := ((hu.sorted d).imp (fun h => ne_of_lt h)).filter _
  rw [← List.sum_toFinset _ hn, List.toFinset_filter]
  refine Finset.sum_congr ?_ fun _ _ => rfl
  ext j
  simp

/-- **C232**: the score that the links add to topic `k` of a document is the slope of the probability of the links in that entry of its topic
distribution, divided by the number of its tokens. -/
theorem scores_gradient (e : Env) (he : Normal e) (hu : Undirected e.x.D e.links) (s : State) (d k : Nat) (hd : d < e.x.D) (hk : k < e.K)
    (hl : 0 < e.x.len d) :
    HasDerivAt (fun t : ℝ => guarded e s.weights fun d' i => s.means d' i + if d' = d ∧ i = k then t else 0)
      ((e.x.len d : ℝ) * linkScore e s d k) 0 := by
  have hlen : (e.x.len d : ℝ) ≠ 0 := by
    have : (0 : ℝ) < e.x.len d := by exact_mod_cast hl
    exact this.ne'
  set θ : Nat → Nat → ℝ := fun a b => ∑ i ∈ Finset.range (e.K + 1), s.weights i * (s.means a i * s.means b i) with hθ
  have hsym : ∀ a b, θ a b = θ b a := by
    intro a b
    exact Finset.sum_congr rfl fun i _ => by ring
  set F : Nat → ℝ := fun j => Probit.pdf (θ d j) / (Probit.cdf (θ d j) + 1 / 10 ^ 30) * (s.weights k * s.means j k) with hF
  have hone : ∀ a b, a ≠ b → HasDerivAt (fun t : ℝ => Real.log (Probit.cdf (∑ i ∈ Finset.range (e.K + 1),
        s.weights i * ((s.means a i + if a = d ∧ i = k then t else 0) * (s.means b i + if b = d ∧ i = k then t else 0))) + 1 / 10 ^ 30))
      ((if a = d then F b else 0) + if b = d then F a else 0) 0 := by
    intro a b hab
    have hin : HasDerivAt (fun t : ℝ => ∑ i ∈ Finset.range (e.K + 1),
          s.weights i * ((s.means a i + if a = d ∧ i = k then t else 0) * (s.means b i + if b = d ∧ i = k then t else 0)))
        (∑ i ∈ Finset.range (e.K + 1), if i = k then
          s.weights i * ((if a = d then s.means b i else 0) + if b = d then s.means a i else 0) else 0) 0 := by
      refine HasDerivAt.fun_sum fun i _ => ?_
      have hc : ∀ (c : Prop) [Decidable c], HasDerivAt (fun t : ℝ => if c then t else 0) (if c then 1 else 0) 0 := by
        intro c _
        by_cases h : c
        · simp only [h, if_true]; exact hasDerivAt_id 0
        · simp only [h, if_false]; exact hasDerivAt_const 0 0
      have h1 := (hc (a = d ∧ i = k)).const_add (s.means a i)
      have h2 := (hc (b = d ∧ i = k)).const_add (s.means b i)
      refine ((h1.mul h2).const_mul (s.weights i)).congr_deriv ?_
      by_cases hi : i = k <;> by_cases ha : a = d <;> by_cases hb : b = d <;> simp [hi, ha, hb]
    rw [Finset.sum_ite_eq', if_pos (Finset.mem_range.mpr (by omega))] at hin
    have hzero : (∑ i ∈ Finset.range (e.K + 1),
          s.weights i * ((s.means a i + if a = d ∧ i = k then (0 : ℝ) else 0) * (s.means b i + if b = d ∧ i = k then (0 : ℝ) else 0))) = θ a b := by
      simp only [ite_self, add_zero]
      rfl
    have h3 := ((Probit.hasDerivAt_cdf (θ a b)).comp_of_eq 0 hin hzero.symm).add_const (1 / 10 ^ 30)
    have h4 := h3.log (by
      have := Probit.cdf_pos (θ a b)
      simp only [Function.comp_apply]
      rw [hzero]
      positivity)
    refine h4.congr_deriv ?_
    simp only [Function.comp_apply]
    rw [hzero]
    by_cases ha : a = d
    · subst ha
      rw [if_pos rfl, if_pos rfl, if_neg (fun h => hab h.symm), if_neg (fun h => hab h.symm), hF]
      dsimp only
      ring
    · by_cases hb : b = d
      · subst hb
        rw [if_neg ha, if_neg ha, if_pos rfl, if_pos rfl, hF]
        dsimp only
        rw [hsym a b]
        ring
      · simp [ha, hb]
  have hall := list_deriv (pairs e.x.D e.links) (fun p t => Real.log (Probit.cdf (∑ i ∈ Finset.range (e.K + 1),
        s.weights i * ((s.means p.1 i + if p.1 = d ∧ i = k then t else 0) * (s.means p.2 i + if p.2 = d ∧ i = k then t else 0))) + 1 / 10 ^ 30))
    (fun p => (if p.1 = d then F p.2 else 0) + if p.2 = d then F p.1 else 0) 0 (by
      intro p hp
      refine hone p.1 p.2 ?_
      unfold pairs at hp
      simp only [List.mem_flatMap, List.mem_map] at hp
      obtain ⟨a, -, b, hb, rfl⟩ := hp
      rw [Props.Rtm.linksUpTo_sorted a _ (hu.sorted a), List.mem_filter] at hb
      have := hb.2
      simp only [decide_eq_true_eq] at this
      dsimp only
      omega)
  refine hall.congr_deriv ?_
  rw [pairs_sum e.x.D e.links hu]
  have e1 : ∑ a ∈ Finset.range e.x.D, ∑ j ∈ (e.links a).toFinset with j < a, ((if a = d then F j else 0) + if j = d then F a else 0)
      = ∑ j ∈ (e.links d).toFinset, F j := by
    simp only [Finset.sum_add_distrib]
    have g1 : ∑ a ∈ Finset.range e.x.D, ∑ j ∈ (e.links a).toFinset with j < a, (if a = d then F j else 0)
        = ∑ j ∈ (e.links d).toFinset with j < d, F j := by
      rw [Finset.sum_eq_single d]
      · simp
      · intro a _ ha
        simp [ha]
      · intro h
        exact absurd (Finset.mem_range.mpr hd) h
    have g2 : ∑ a ∈ Finset.range e.x.D, ∑ j ∈ (e.links a).toFinset with j < a, (if j = d then F a else 0)
        = ∑ j ∈ (e.links d).toFinset with ¬ j < d, F j := by
      have : ∀ a, ∑ j ∈ (e.links a).toFinset with j < a, (if j = d then F a else 0) = if d ∈ e.links a ∧ d < a then F a else 0 := by
        intro a
        rw [Finset.sum_ite_eq']
        simp
      simp only [this]
      rw [← Finset.sum_filter]
      refine Finset.sum_congr ?_ fun _ _ => rfl
      ext a
      simp only [Finset.mem_filter, Finset.mem_range, List.mem_toFinset]
      constructor
      · rintro ⟨-, h1, h2⟩
        exact ⟨(hu.symm a d).mp h1, by omega⟩
      · rintro ⟨h1, h2⟩
        refine ⟨hu.bounded d a h1, (hu.symm d a).mp h1, ?_⟩
        rcases Nat.lt_or_ge d a with h | h
        · exact h
        · have : a = d := by omega
          subst this
          exact absurd h1 (hu.irrefl a)
    rw [g1, g2]
    exact Finset.sum_filter_add_sum_filter_not _ _ _
  refine Eq.trans e1 ?_
  have hn : (e.links d).Nodup := (hu.sorted d).imp fun h => ne_of_lt h
  rw [List.sum_toFinset _ hn]
  unfold linkScore
  rw [← List.sum_map_mul_left]
  congr 1
  refine List.map_congr_left fun j _ => ?_
  have : ∑ i ∈ Finset.range (e.K + 1), s.means d i * s.means j i * s.weights i = θ d j := Finset.sum_congr rfl fun i _ => by ring
  dsimp only
  rw [this, he.pdf, he.cdf, hF]
  field_simp

/-! ## Examples -/

/-- Two linked documents of two tokens each, two topics -/
noncomputable def exEnv : Env :=
  ⟨digamma, Probit.pdf, Probit.cdf, 2, 1 / 10, ⟨2, 2, fun _ _ => 1⟩, fun d => if d = 0 then [1] else if d = 1 then [0] else [], 10⟩

theorem exNormal : Normal exEnv := ⟨rfl, rfl⟩

theorem exLen (d : Nat) : exEnv.x.len d = 2 := rfl

theorem exUndirected : Undirected exEnv.x.D exEnv.links := by
  constructor
  · intro d
    simp only [exEnv]
    split
    · simp
    · split <;> simp
  · intro d j hj
    simp only [exEnv] at hj ⊢
    split at hj
    · simp at hj; omega
    · split at hj
      · simp at hj; omega
      · cases hj
  · intro i j
    simp only [exEnv]
    rcases i with _ | _ | i <;> rcases j with _ | _ | j <;> simp
  · intro d
    simp only [exEnv]
    rcases d with _ | _ | d <;> simp

noncomputable def exState : State :=
  ⟨fun _ _ => 1, fun _ k => if k = 2 then 1 else 1 / 2, fun k => if k = 2 then -1 else 3, fun k => if k = 2 then 0 else 3⟩

example : HasDerivAt (fun t : ℝ => climbed exEnv 1 (1 / 1000) exState.means exState.prior fun i => exState.weights i + t * i)
    (∑ i ∈ Finset.range 3, (i : ℝ) * ((weightStep exEnv 1 (1 / 1000) exState.means exState.prior (stepSize 0) exState.weights i - exState.weights i)
      / stepSize 0)) 0 :=
  weights_direction exEnv exNormal 1 (1 / 1000) exState.means exState.prior (stepSize 0) (stepSize_bounds 0).1 exState.weights (fun i => (i : ℝ))

example : ∃ slope, slope < 0 ∧ HasDerivAt (fun t : ℝ => documented { exEnv with links := fun _ => [] } 2 exState.means
    fun i => 3 + t * (weightStep { exEnv with links := fun _ => [] } 0 2 exState.means exState.prior (stepSize 0) (fun _ => 3) i - 3)) slope 0 :=
  weights_violation { exEnv with links := fun _ => [] } (fun _ => rfl) 2 (by norm_num) exState.means exState.prior (stepSize 0)
    (stepSize_bounds 0).1 (fun _ => 3) ⟨0, Nat.zero_le _, by norm_num⟩

example : HasDerivAt (fun t : ℝ => documented exEnv (1 / 2) exState.means fun i => exState.weights i + t * 1)
    (∑ i ∈ Finset.range 3, 1 * ((weightStep exEnv 0 (1 / 2) exState.means exState.prior (stepSize 0) exState.weights i - exState.weights i)
      / stepSize 0)) 0 :=
  weights_partial exEnv exNormal exState.means exState.prior (stepSize 0) (stepSize_bounds 0).1 exState.weights (fun _ => 1)

example : weightStep exEnv 1 (1 / 1000) exState.means exState.prior (stepSize 0) exState.weights 0
    < weightStep exEnv 1 1 exState.means exState.prior (stepSize 0) exState.weights 0 :=
  (regulariser_violation exEnv 1 (1 / 1000) 1 (by norm_num) exState.means exState.prior (stepSize 0) (stepSize_bounds 0).1 exState.weights 0).1
    (by simp [exState])

example : ∃ c, 0 ≤ c ∧ (∀ i, inferWeights { exEnv with links := fun _ => [] } 0 2 exState i = c * exState.weights i) ∧ 1 < c := by
  obtain ⟨c, h1, -, -, h4, h5⟩ := regulariser_alone { exEnv with links := fun _ => [] } (fun _ => rfl) 2 (by norm_num) exState
  exact ⟨c, h1, h5, h4 (by norm_num)⟩

example : Probit.cdf (∑ i ∈ Finset.range 3, weightStep exEnv 2 (1 / 1000) exState.means exState.prior (stepSize 0) exState.weights i
        * invented 2 exState.prior i)
    < Probit.cdf (∑ i ∈ Finset.range 3, weightStep exEnv 1 (1 / 1000) exState.means exState.prior (stepSize 0) exState.weights i
        * invented 2 exState.prior i) :=
  negatives_lower exEnv exNormal 1 2 (1 / 1000) (by norm_num) exState.means exState.prior (stepSize 0) (stepSize_bounds 0).1 exState.weights

example : countLikelihood 2 2 (fun _ _ => 1) (priorUpdate digamma 2 exEnv.x exState) < countLikelihood 2 2 (fun _ _ => 1) exState.prior :=
  prior_violation exEnv.x (by decide) (fun d _ => exLen d) exState (fun d _ k hk => if_neg (by omega)) 3 (by norm_num)
    (fun k hk => if_neg (by omega))

example : 0 < priorUpdate digamma 2 exEnv.x exState 1 ∧ priorUpdate digamma 2 exEnv.x exState 1 < 3 := by
  have := prior_update_shrinks 2 le_rfl exEnv.x (by decide) (fun d _ => by rw [exLen]; omega) exState
    (fun d _ => ⟨fun k hk => by simp only [exState]; rw [if_neg (by omega)]; norm_num,
      by rw [Finset.sum_range_succ, Finset.sum_range_one]; simp only [exState]; norm_num⟩)
    (fun k hk => by simp only [exState]; rw [if_neg (by omega)]; norm_num) 1 (by omega)
  simpa [exState] using this

example : ∃ s', train exEnv (learn exEnv 1 (1 / 1000) fun itr _ => itr == 20) 30 exState = .ok s' ∧ 0 < s'.prior 1 ∧ s'.prior 1 ≤ 3 := by
  obtain ⟨s', h⟩ := Props.Rtm.loop_ok (learn exEnv 1 (1 / 1000) fun itr _ => itr == 20) exEnv (fun i s => ⟨_, rfl⟩) (by decide) 30 0
    { exState with means := toMeans ⟨2, exState.prior, 1 / 10⟩ exEnv.x exState.means }
  have ht : train exEnv (learn exEnv 1 (1 / 1000) fun itr _ => itr == 20) 30 exState
      = .ok { s' with means := toDirichlet ⟨2, s'.prior, 1 / 10⟩ exEnv.x s'.means } := by
    unfold train
    rw [if_neg (by decide)]
    have h' : loop exEnv (learn exEnv 1 (1 / 1000) fun itr _ => itr == 20) 30 0
      { exState with means := toMeans ⟨exEnv.K, exState.prior, exEnv.v⟩ exEnv.x exState.means } = .ok s' := h
    rw [h']
    rfl
  have := prior_positive exEnv rfl le_rfl (by decide) 1 (1 / 1000) _ 30 exState _
    (fun k hk => by simp only [exState]; rw [if_neg (by have : k < 2 := hk; omega)]; norm_num) ht 1 (by decide)
  exact ⟨_, ht, this.1, by simpa [exState] using this.2⟩

example : HasDerivAt (fun t : ℝ => guarded exEnv exState.weights fun d' i => exState.means d' i + if d' = 0 ∧ i = 1 then t else 0)
    ((2 : ℕ) * linkScore exEnv exState 0 1) 0 :=
  scores_gradient exEnv exNormal exUndirected exState 0 1 (by decide) (by decide) (by decide)

end Verif.Props.RtmLearn
