import Verif.Props.Mtm
import Verif.Props.LinkPred
import Verif.Props.StmCov

/-!
# Links and inference in `mtm2.py` and `mtm3.py` (C173 to C180)
-/

namespace Verif.Props.MtmLinks

open Verif Verif.Mtm
open Verif.Ctm hiding train
open Verif.Mom (Data)
open Verif.LinkPred hiding linkProbs
open Verif.Props.MomEm (IsDist softmax_dist)
open Verif.Props.Numerics (softmax sum_exp_pos)
open Verif.Props.Ctm
open Verif.Props.Bohning
open Verif.Props.Mtm (soft_eq soft_dist)
open Verif.Props.StmCov (exactInv mat exactInv_two exactInv_posDef exactInv_prec quad_eq)

/-! ## Documents as words -/

theorem docVocab_eq (D : Nat) (means : Nat → Nat → ℝ) (k d : Nat) : docVocab D means k d = softmax D (fun e => means e k) d :=
  Props.Numerics.shifted D (fun e => means e k) (Numerics.rowMax D (fun e => means e k)) d

/-- Every topic is a distribution over the documents. -/
theorem docVocab_topics (D K : Nat) (hD : 0 < D) (means : Nat → Nat → ℝ) : Topics K D (docVocab D means) := by
  intro k _
  have h := softmax_dist D (fun e => means e k) hD
  have he : docVocab D means k = softmax D (fun e => means e k) := funext fun d => docVocab_eq D means k d
  rw [he]
  exact h

/-! ## Predicted links -/

/-- The probability of a link: a topic is drawn from those of the source, then a target from the topic. -/
noncomputable def linkProb (D K : Nat) (out ins : Nat → Nat → ℝ) (src dst : Nat) : ℝ :=
  ∑ k ∈ Finset.range K, softmax K (out src) k * softmax D (fun e => ins e k) dst

theorem linkPair_eq (D K : Nat) (out ins : Nat → Nat → ℝ) (src dst : Nat) :
    linkPair D K out ins src dst = some (linkProb D K out ins src dst) := by
  unfold linkPair linkProb
  rw [soft_eq]
  congr 1
  refine Finset.sum_congr rfl fun k _ => ?_
  rw [Props.Numerics.shifted D (fun e => ins e k) (Numerics.rowMax D (fun e => ins e k)) dst]

theorem linkAll_eq (D K : Nat) (out ins : Nat → Nat → ℝ) (src dst : Nat) :
    linkAll D K out ins src dst = some (linkProb D K out ins src dst) := by
  unfold linkAll linkProb
  rw [soft_eq]
  congr 1
  refine Finset.sum_congr rfl fun k _ => ?_
  rw [docVocab_eq, mul_comm]

/-- **C173** The scores of all targets are a distribution over the documents of the training set. -/
theorem scores_dist (D K : Nat) (hD : 0 < D) (hK : 0 < K) (out ins : Nat → Nat → ℝ) (src : Nat) :
    IsDist D (linkProb D K out ins src) := by
  have h := words_dist K D out (docVocab D ins) hK (docVocab_topics D K hD ins) src
  have he : wordProb K out (docVocab D ins) src = linkProb D K out ins src := by
    funext dst
    unfold wordProb linkProb
    exact Finset.sum_congr rfl fun k _ => by rw [docVocab_eq]
  rwa [he] at h

/-- **C173** Every expected link is among the predictions, at its probability, and apart from rounding nothing is below the least likely expected
link of its row; a document without links keeps all. -/
theorem links_complete (D K : Nat) (out ins : Nat → Nat → ℝ) (links : Nat → List Nat) (subset : List Nat)
    (hl : ∀ src ∈ subset, ∀ dst ∈ links src, dst < D) :
    ∃ res, LinkPred.linkProbs (linkAll D K out ins) D (1 / 10 ^ 9) subset (minLinkProbs (linkPair D K out ins) links (-1) subset) = .ok res
      ∧ Props.LinkPred.Complete (linkProb D K out ins) links D (1 / 10 ^ 9) subset res := by
  have he : linkPair D K out ins = linkAll D K out ins := funext fun s => funext fun d => by rw [linkPair_eq, linkAll_eq]
  rw [he]
  exact Props.LinkPred.complete_of_score _ _ links D _ _ (by positivity) subset (fun src _ dst => linkAll_eq D K out ins src dst) hl

/-- **C173** Without expected links the minimum is -1, so all documents are kept. -/
theorem links_unlinked (D K : Nat) (hD : 0 < D) (hK : 0 < K) (out ins : Nat → Nat → ℝ) (links : Nat → List Nat) (src dst : Nat) (hd : dst < D)
    (hl : links src = []) :
    minLinkProbs (linkPair D K out ins) links (-1) [src] = [some (-1)] ∧
    dst ∈ relevant (linkAll D K out ins src) D (some (-1)) (1 / 10 ^ 9) := by
  constructor
  · unfold minLinkProbs
    simp [hl, rowMin]
  · rw [Props.LinkPred.relevant_mem, linkAll_eq]
    refine ⟨hd, ?_⟩
    show -1 - 1 / 10 ^ 9 ≤ linkProb D K out ins src dst
    have := (scores_dist D K hD hK out ins src).1 dst hd
    have h2 : (0 : ℝ) < 1 / 10 ^ 9 := by positivity
    linarith

/-! ## Expected numbers of links -/

/-- **C178** The topic counts of the out-links of a document sum to its number of out-links, those of the in-links to its number of in-links, and
the counts of the topics to the number of links. -/
theorem link_counts_partial (links : Data) (hsq : links.T = links.D) (hD : 0 < links.D) (K : Nat) (hK : 0 < K) (out ins : Nat → Nat → ℝ) :
    (∀ d, ∑ k ∈ Finset.range K, outLinkCounts links K out ins d k = ((∑ e ∈ Finset.range links.D, links.words d e : Nat) : ℝ)) ∧
    (∀ d, ∑ k ∈ Finset.range K, inLinkCounts links K out ins d k = ((∑ e ∈ Finset.range links.D, links.words e d : Nat) : ℝ)) ∧
    ∑ k ∈ Finset.range K, inCounts links K out ins k
      = ((∑ d ∈ Finset.range links.D, ∑ e ∈ Finset.range links.D, links.words d e : Nat) : ℝ) ∧
    ∀ k, k < K → 0 ≤ inCounts links K out ins k := by
  have hv := docVocab_topics links.D K hD ins
  have ho : ∀ d, ∑ k ∈ Finset.range K, outLinkCounts links K out ins d k = ((∑ e ∈ Finset.range links.D, links.words d e : Nat) : ℝ) := by
    intro d
    have h := (topic_counts links K out (docVocab links.D ins) hK (by rw [hsq]; exact hv) d).2.2
    rw [show links.len d = ∑ e ∈ Finset.range links.D, links.words d e by unfold Data.len; rw [hsq]] at h
    exact h
  have hT := topic_counts (transpose links) K out (docVocab links.D ins) hK hv
  have hi : ∀ d, ∑ k ∈ Finset.range K, inLinkCounts links K out ins d k = ((∑ e ∈ Finset.range links.D, links.words e d : Nat) : ℝ) :=
    fun d => (hT d).2.2
  refine ⟨ho, hi, ?_, fun k hk => Finset.sum_nonneg fun d _ => (hT d).2.1 k hk⟩
  unfold inCounts
  rw [Finset.sum_comm, Finset.sum_congr rfl (fun d _ => hi d)]
  push_cast
  exact Finset.sum_comm

/-- The expected number of links into `d` that are due to topic `k`: for the link from `e`, the topic is among those of `e`. -/
noncomputable def inLinkExpect (links : Data) (K : Nat) (out ins : Nat → Nat → ℝ) (d k : Nat) : ℝ :=
  ∑ e ∈ Finset.range links.D, (links.words e d : ℝ) * posterior K out (docVocab links.D ins) e d k

/-- **C178** What the code computes for the links into `d`: as though `d` had sent them. -/
theorem in_links_formula (links : Data) (hD : 0 < links.D) (K : Nat) (hK : 0 < K) (out ins : Nat → Nat → ℝ) (d k : Nat) :
    inLinkCounts links K out ins d k
      = ∑ e ∈ Finset.range links.D, (links.words e d : ℝ) * posterior K out (docVocab links.D ins) d e k :=
  (topic_counts (transpose links) K out (docVocab links.D ins) hK (docVocab_topics links.D K hD ins) d).1 k

/-- Two documents, the first of which links to the second -/
def exL : Data := ⟨2, 2, fun d e => if d = 0 ∧ e = 1 then 1 else 0⟩

/-- The first document prefers the first topic. -/
noncomputable def exOut : Nat → Nat → ℝ := fun d k => if d = 0 ∧ k = 0 then 1 else 0

/-- **C178** (violation) The counts for the links into a document are not the expected ones. -/
theorem in_links_violation : inLinkCounts exL 2 exOut (fun _ _ => 0) 1 0 ≠ inLinkExpect exL 2 exOut (fun _ _ => 0) 1 0 := by
  rw [in_links_formula exL (by decide) 2 (by decide)]
  unfold inLinkExpect
  have h1 : ∀ k e, docVocab 2 (fun _ _ => (0 : ℝ)) k e = 1 / 2 := by
    intro k e
    rw [docVocab_eq]
    unfold softmax
    norm_num [Finset.sum_range_succ]
  have h2 : ∀ d e k, posterior 2 exOut (docVocab 2 (fun _ _ => (0 : ℝ))) d e k = softmax 2 (exOut d) k := by
    intro d e k
    unfold posterior wordProb
    simp only [h1]
    rw [← Finset.sum_mul, (softmax_dist 2 (exOut d) (by decide)).2]
    norm_num
  show ∑ e ∈ Finset.range 2, ((exL.words e 1 : Nat) : ℝ) * posterior 2 exOut (docVocab 2 (fun _ _ => (0 : ℝ))) 1 e 0
    ≠ ∑ e ∈ Finset.range 2, ((exL.words e 1 : Nat) : ℝ) * posterior 2 exOut (docVocab 2 (fun _ _ => (0 : ℝ))) e 1 0
  simp only [h2, Finset.sum_range_succ, Finset.sum_range_zero]
  have e0 : exL.words 0 1 = 1 := rfl
  have e1 : exL.words 1 1 = 0 := rfl
  rw [e0, e1]
  unfold softmax exOut
  norm_num [Finset.sum_range_succ]
  intro h
  have h3 : (1 : ℝ) < Real.exp 1 := by
    have := Real.add_one_lt_exp (x := 1) (by norm_num)
    linarith
  field_simp at h
  linarith

/-! ## The curvature -/

theorem quad_linkA (K : Nat) (hK : 0 < K) (y : Nat → ℝ) :
    quad K (linkA K) y = ∑ k ∈ Finset.range K, y k ^ 2 - (∑ k ∈ Finset.range K, y k) ^ 2 / (K : ℝ) := by
  have hK' : (K : ℝ) ≠ 0 := by exact_mod_cast hK.ne'
  have h1 : ∀ i ∈ Finset.range K, y i * ∑ j ∈ Finset.range K, linkA K i j * y j
      = y i ^ 2 - y i * (∑ j ∈ Finset.range K, y j) / (K : ℝ) := by
    intro i hi
    have h2 : ∀ j ∈ Finset.range K, linkA K i j * y j = (if i = j then y j else 0) - y j / (K : ℝ) := by
      intro j _
      unfold linkA
      split
      · field_simp
      · field_simp
        ring
    rw [Finset.sum_congr rfl h2, Finset.sum_sub_distrib, Finset.sum_ite_eq, if_pos hi, ← Finset.sum_div]
    field_simp
  unfold quad
  rw [Finset.sum_congr rfl h1, Finset.sum_sub_distrib, ← Finset.sum_div, ← Finset.sum_mul]
  ring

theorem linkA_symm (K i j : Nat) : linkA K i j = linkA K j i := by
  unfold linkA
  by_cases h : i = j
  · rw [if_pos h, if_pos h.symm]
  · rw [if_neg h, if_neg (Ne.symm h)]

theorem quad_linkA_nonneg (K : Nat) (hK : 0 < K) (y : Nat → ℝ) : 0 ≤ quad K (linkA K) y := by
  have hK' : (0 : ℝ) < K := by exact_mod_cast hK
  rw [quad_linkA K hK, sub_nonneg, div_le_iff₀ hK']
  have h := Finset.sum_mul_sq_le_sq_mul_sq (Finset.range K) (fun _ => (1 : ℝ)) y
  simp only [one_mul, one_pow, Finset.sum_const, Finset.card_range, nsmul_eq_mul, mul_one] at h
  linarith

theorem linkA_posSemidef (K : Nat) (hK : 0 < K) : (mat K (linkA K)).PosSemidef := by
  refine Matrix.PosSemidef.of_dotProduct_mulVec_nonneg ?_ ?_
  · ext i j
    rw [Matrix.conjTranspose_apply, star_trivial]
    exact linkA_symm K j i
  · intro v
    have h := quad_linkA_nonneg K hK (fun k => if hk : k < K then v ⟨k, hk⟩ else 0)
    rw [quad_eq] at h
    simpa using h

/-- Adding a constant to all scores adds it to their log-sum-exp. -/
theorem lse_add (K : Nat) (hK : 0 < K) (y : Nat → ℝ) (c : ℝ) : lse K (fun k => y k + c) = lse K y + c := by
  unfold lse
  have h : ∀ k ∈ Finset.range K, Real.exp (y k + c) = Real.exp (y k) * Real.exp c := fun k _ => Real.exp_add _ _
  rw [Finset.sum_congr rfl h, ← Finset.sum_mul, Real.log_mul (sum_exp_pos K y hK).ne' (Real.exp_pos c).ne', Real.log_exp]

/-- **C179** The matrix `A` of `mtm2.py` and `mtm3.py` bounds the curvature of log-sum-exp, too. -/
theorem lse_linkA (K : Nat) (hK : 0 < K) (y z : Nat → ℝ) :
    lse K z ≤ lse K y + ∑ k ∈ Finset.range K, softmax K y k * (z k - y k) + quad K (linkA K) (fun k => z k - y k) / 2 := by
  have hK' : (0 : ℝ) < K := by exact_mod_cast hK
  have hA := quad_linkA_nonneg K hK (fun k => z k - y k)
  obtain ⟨c, hc⟩ : ∃ c, c = (∑ k ∈ Finset.range K, (z k - y k)) / (K : ℝ) := ⟨_, rfl⟩
  have h := lse_bohning K hK y (fun k => z k + -c)
  rw [lse_add K hK, quad_bohning] at h
  have h1 : ∑ k ∈ Finset.range K, (z k + -c - y k) = 0 := by
    have : ∀ k ∈ Finset.range K, z k + -c - y k = (z k - y k) - c := fun k _ => by ring
    rw [Finset.sum_congr rfl this, Finset.sum_sub_distrib, Finset.sum_const, Finset.card_range, nsmul_eq_mul, hc]
    field_simp
    ring
  have h2 : ∑ k ∈ Finset.range K, (z k + -c - y k) ^ 2 = quad K (linkA K) (fun k => z k - y k) := by
    rw [quad_linkA K hK]
    have : ∀ k ∈ Finset.range K, (z k + -c - y k) ^ 2 = (z k - y k) ^ 2 - 2 * c * (z k - y k) + c ^ 2 := fun k _ => by ring
    rw [Finset.sum_congr rfl this, Finset.sum_add_distrib, Finset.sum_sub_distrib, ← Finset.mul_sum, Finset.sum_const, Finset.card_range,
      nsmul_eq_mul, hc]
    generalize ∑ k ∈ Finset.range K, (z k - y k) = s
    field_simp
    ring
  have h3 : ∑ k ∈ Finset.range K, softmax K y k * (z k + -c - y k) = ∑ k ∈ Finset.range K, softmax K y k * (z k - y k) - c := by
    have : ∀ k ∈ Finset.range K, softmax K y k * (z k + -c - y k) = softmax K y k * (z k - y k) - softmax K y k * c := fun k _ => by ring
    rw [Finset.sum_congr rfl this, Finset.sum_sub_distrib, ← Finset.sum_mul, (softmax_dist K y hK).2, one_mul]
  rw [h1, h2, h3] at h
  norm_num at h
  linarith

/-- Log-sum-exp lies above its tangents. -/
theorem lse_tangent (K : Nat) (hK : 0 < K) (y z : Nat → ℝ) :
    ∑ k ∈ Finset.range K, softmax K y k * (z k - y k) ≤ lse K z - lse K y := by
  have hd := softmax_dist K y hK
  have h := log_mean_ge K (softmax K y) (fun k => Real.exp (z k - y k)) (fun k hk => (hd.1 k hk).le) hd.2 fun k _ => Real.exp_pos _
  simp only [Real.log_exp] at h
  refine h.trans (le_of_eq ?_)
  unfold lse
  rw [← Real.log_div (sum_exp_pos K z hK).ne' (sum_exp_pos K y hK).ne', Finset.sum_div]
  congr 1
  refine Finset.sum_congr rfl fun k _ => ?_
  show Real.exp (y k) / _ * Real.exp (z k - y k) = _
  rw [Real.exp_sub]
  have := (Real.exp_pos (y k)).ne'
  field_simp

/-! ## One step for the weights of a document -/

/-- What a step maximises a lower bound of: `V` are the counts of the topics, `n` their number, `P` and `r` the prior. -/
noncomputable def gain (K : Nat) (P : Nat → Nat → ℝ) (V r : Nat → ℝ) (n : ℝ) (m : Nat → ℝ) : ℝ :=
  ∑ k ∈ Finset.range K, V k * m k - n * lse K m - quad K P m / 2 + ∑ k ∈ Finset.range K, r k * m k

/-- The solution of the system with the matrix `P + n A` does not lower it. -/
theorem gain_step (K : Nat) (hK : 0 < K) (P : Nat → Nat → ℝ) (hP : IsPrec K P) (V r : Nat → ℝ) (n : ℝ) (hn : 0 ≤ n) (m z : Nat → ℝ)
    (hz : ∀ i, i < K → ∑ l ∈ Finset.range K, (P i l + n * linkA K i l) * z l
      = V i + r i + n * (∑ l ∈ Finset.range K, m l * linkA K l i - softmax K m i)) :
    gain K P V r n m ≤ gain K P V r n z := by
  set δ := fun k => z k - m k with hδ
  set B := fun i l => P i l + n * linkA K i l with hB
  have hstep : ∀ i, i < K → ∑ l ∈ Finset.range K, B i l * δ l
      = V i + r i - n * softmax K m i - ∑ l ∈ Finset.range K, P i l * m l := by
    intro i hi
    have h1 : ∑ l ∈ Finset.range K, B i l * δ l = ∑ l ∈ Finset.range K, B i l * z l - ∑ l ∈ Finset.range K, B i l * m l := by
      rw [← Finset.sum_sub_distrib]
      exact Finset.sum_congr rfl fun l _ => by rw [hδ]; ring
    have h2 : ∑ l ∈ Finset.range K, B i l * m l
        = ∑ l ∈ Finset.range K, P i l * m l + n * ∑ l ∈ Finset.range K, m l * linkA K l i := by
      rw [Finset.mul_sum, ← Finset.sum_add_distrib]
      exact Finset.sum_congr rfl fun l _ => by rw [hB, linkA_symm K l i]; ring
    rw [h1, h2, hz i hi]
    ring
  have hquad : quad K B δ = ∑ i ∈ Finset.range K, V i * δ i + ∑ i ∈ Finset.range K, r i * δ i
      - n * ∑ i ∈ Finset.range K, softmax K m i * δ i - ∑ i ∈ Finset.range K, δ i * ∑ j ∈ Finset.range K, P i j * m j := by
    rw [Finset.mul_sum, ← Finset.sum_add_distrib, ← Finset.sum_sub_distrib, ← Finset.sum_sub_distrib]
    unfold quad
    refine Finset.sum_congr rfl fun i hi => ?_
    rw [hstep i (Finset.mem_range.mp hi)]
    ring
  have hquad2 : quad K B δ = quad K P δ + n * quad K (linkA K) δ := quad_add K P (linkA K) n δ
  have hpsd : 0 ≤ quad K B δ := by
    rw [hquad2]
    exact add_nonneg (hP.nonneg δ) (mul_nonneg hn (quad_linkA_nonneg K hK δ))
  have hlse : lse K z - lse K m ≤ ∑ k ∈ Finset.range K, softmax K m k * δ k + quad K (linkA K) δ / 2 := by
    have := lse_linkA K hK m z
    linarith
  have hzm : quad K P z = quad K P m + 2 * ∑ i ∈ Finset.range K, δ i * ∑ j ∈ Finset.range K, P i j * m j + quad K P δ := by
    rw [← quad_shift K P hP.symm m δ]
    congr 1
    funext k
    rw [hδ]; ring
  have hV : ∑ k ∈ Finset.range K, V k * z k = ∑ k ∈ Finset.range K, V k * m k + ∑ k ∈ Finset.range K, V k * δ k := by
    rw [← Finset.sum_add_distrib]
    exact Finset.sum_congr rfl fun i _ => by rw [hδ]; ring
  have hr : ∑ k ∈ Finset.range K, r k * z k = ∑ k ∈ Finset.range K, r k * m k + ∑ k ∈ Finset.range K, r k * δ k := by
    rw [← Finset.sum_add_distrib]
    exact Finset.sum_congr rfl fun i _ => by rw [hδ]; ring
  have hmul := mul_le_mul_of_nonneg_left hlse hn
  unfold gain
  rw [hzm, hV, hr]
  linarith

/-! ## Matrices given by their quadratic forms -/

theorem psd_of_quad (K : Nat) (M : Nat → Nat → ℝ) (hs : ∀ i j, M i j = M j i) (h : ∀ y, 0 ≤ quad K M y) : (mat K M).PosSemidef := by
  refine Matrix.PosSemidef.of_dotProduct_mulVec_nonneg ?_ ?_
  · ext i j
    rw [Matrix.conjTranspose_apply, star_trivial]
    exact hs j i
  · intro v
    have h := h (fun k => if hk : k < K then v ⟨k, hk⟩ else 0)
    rw [quad_eq] at h
    simpa using h

/-- Weighted sums of outer products -/
theorem outer_psd (K n : Nat) (w : Nat → ℝ) (hw : ∀ d, d < n → 0 ≤ w d) (a : Nat → Nat → ℝ) :
    (mat K fun i j => ∑ d ∈ Finset.range n, w d * a d i * a d j).PosSemidef := by
  refine psd_of_quad K _ (fun i j => Finset.sum_congr rfl fun d _ => by ring) fun y => ?_
  have : quad K (fun i j => ∑ d ∈ Finset.range n, w d * a d i * a d j) y
      = ∑ d ∈ Finset.range n, w d * (∑ i ∈ Finset.range K, a d i * y i) ^ 2 := by
    unfold quad
    have h1 : ∀ i ∈ Finset.range K, y i * ∑ j ∈ Finset.range K, (∑ d ∈ Finset.range n, w d * a d i * a d j) * y j
        = ∑ d ∈ Finset.range n, w d * (a d i * y i * ∑ j ∈ Finset.range K, a d j * y j) := by
      intro i _
      simp only [Finset.mul_sum, Finset.sum_mul]
      rw [Finset.sum_comm]
      exact Finset.sum_congr rfl fun d _ => Finset.sum_congr rfl fun j _ => by ring
    rw [Finset.sum_congr rfl h1, Finset.sum_comm]
    refine Finset.sum_congr rfl fun d _ => ?_
    rw [← Finset.mul_sum, ← Finset.sum_mul, sq]
  rw [this]
  exact Finset.sum_nonneg fun d hd => mul_nonneg (hw d (Finset.mem_range.mp hd)) (sq_nonneg _)

theorem diag_pd (K : Nat) (w : Nat → ℝ) (hw : ∀ k, k < K → 0 < w k) : (mat K fun i j => if i = j then w i else 0).PosDef := by
  have he : (mat K fun i j => if i = j then w i else 0) = Matrix.diagonal fun k : Fin K => w k := by
    ext i j
    simp [mat, Matrix.diagonal_apply, Fin.ext_iff]
  rw [he, Matrix.posDef_diagonal_iff]
  exact fun k => hw k k.2

theorem diag_psd (K : Nat) (w : Nat → ℝ) (hw : ∀ k, k < K → 0 ≤ w k) : (mat K fun i j => if i = j then w i else 0).PosSemidef := by
  have he : (mat K fun i j => if i = j then w i else 0) = Matrix.diagonal fun k : Fin K => w k := by
    ext i j
    simp [mat, Matrix.diagonal_apply, Fin.ext_iff]
  rw [he, Matrix.posSemidef_diagonal_iff]
  exact fun k => hw k k.2

theorem mat_add (K : Nat) (M N : Nat → Nat → ℝ) : (mat K fun i j => M i j + N i j) = mat K M + mat K N := rfl

theorem mat_smul (K : Nat) (c : ℝ) (M : Nat → Nat → ℝ) : (mat K fun i j => c * M i j) = c • mat K M := rfl

theorem diag_pos (K : Nat) (M : Nat → Nat → ℝ) (h : (mat K M).PosDef) (k : Nat) (hk : k < K) : 0 < M k k := h.diag_pos (i := ⟨k, hk⟩)

/-! ## Examples -/

/-! C173: two documents, each expected to link to the other -/
example : ∃ res, LinkPred.linkProbs (linkAll 2 2 exOut exOut) 2 (1 / 10 ^ 9) [0, 1]
      (minLinkProbs (linkPair 2 2 exOut exOut) (fun d => [1 - d]) (-1) [0, 1]) = .ok res
    ∧ Props.LinkPred.Complete (linkProb 2 2 exOut exOut) (fun d => [1 - d]) 2 (1 / 10 ^ 9) [0, 1] res :=
  links_complete 2 2 exOut exOut (fun d => [1 - d]) [0, 1] (by simp)

example : IsDist 2 (linkProb 2 2 exOut exOut 0) := scores_dist 2 2 (by decide) (by decide) exOut exOut 0

/-! C178: the number of links of the example -/
example : ∑ k ∈ Finset.range 2, inCounts exL 2 exOut exOut k = 1 := by
  rw [(link_counts_partial exL rfl (by decide) 2 (by decide) exOut exOut).2.2.1]
  norm_num [exL, Finset.sum_range_succ]

end Verif.Props.MtmLinks
