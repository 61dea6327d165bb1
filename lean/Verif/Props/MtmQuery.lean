import Verif.Props.MtmTrain

/-!
# The links of queried documents in `mtm3.py` (C299)
-/

namespace Verif.Props.MtmQuery

open Verif Verif.Mtm
open Verif.Ctm hiding train
open Verif.Mom (Data)
open Verif.Props.Numerics (softmax)
open Verif.Props.MomEm (softmax_dist)
open Verif.Props.Ctm
open Verif.Props.Bohning
open Verif.Props.MtmTrain
open Verif.Props.StmCov (exactInv mat exactInv_two exactInv_posDef)

theorem linkA_col (K : Nat) (hK : 0 < K) (y : Nat → ℝ) : ∑ k ∈ Finset.range K, ∑ j ∈ Finset.range K, y j * linkA K j k = 0 := by
  have hK' : (K : ℝ) ≠ 0 := by exact_mod_cast hK.ne'
  rw [Finset.sum_comm]
  refine Finset.sum_eq_zero fun j hj => ?_
  rw [← Finset.mul_sum]
  unfold linkA
  rw [Finset.sum_sub_distrib, Finset.sum_ite_eq, if_pos hj, Finset.sum_const, Finset.card_range, nsmul_eq_mul, mul_one_div_cancel hK', sub_self, mul_zero]

theorem linkA_row (K : Nat) (hK : 0 < K) (y : Nat → ℝ) : ∑ k ∈ Finset.range K, ∑ j ∈ Finset.range K, linkA K k j * y j = 0 := by
  rw [← linkA_col K hK y]
  refine Finset.sum_congr rfl fun k _ => Finset.sum_congr rfl fun j _ => ?_
  rw [Verif.Props.MtmLinks.linkA_symm, mul_comm]

/-- **C299** What an iteration of `query` does with the links: whatever the words and the weights before, the sum of the differences from the mean, weighted
by the precision of the topics, is below zero by the number of out-links. -/
theorem query_step_sum (x links : Data) (K : Nat) (hK : 0 < K) (st : State3) (ho : 0 < st.outDocCov) (hc : (mat K st.topicCov).PosDef)
    (hv : Topics K x.T st.vocab) (d : Nat) :
    ∑ k ∈ Finset.range K, ∑ j ∈ Finset.range K,
        exactInv K st.topicCov k j * ((queryStep3 exactInv x links K st).outMeans d j - st.topicMean j)
      = -(st.outDocCov * (links.len d : ℝ)) := by
  obtain ⟨z, hz⟩ : ∃ z, z = (queryStep3 exactInv x links K st).outMeans d := ⟨_, rfl⟩
  have h2 := one_div_pos.mpr ho
  have hpd : (mat K (queryLhs3 x links K (exactInv K st.topicCov) st d)).PosDef := by
    have h := system_posDef K hK (1 / st.outDocCov) ((x.len d : ℝ) + (links.len d : ℝ)) h2 (by positivity)
      (fun _ => 0) (fun _ _ => le_rfl) _ (exactInv_posDef K _ hc)
    simp only [ite_self, add_zero] at h
    exact h
  have h3 : ∀ i ∈ Finset.range K, ∑ l ∈ Finset.range K, queryLhs3 x links K (exactInv K st.topicCov) st d i l * z l
      = queryRhs3 x links K (exactInv K st.topicCov) st d i := by
    intro i hi
    rw [hz]
    exact mul_of_isInv K _ _ (exactInv_two K _ hpd).1 (queryRhs3 x links K (exactInv K st.topicCov) st d) i (Finset.mem_range.mp hi)
  have h4 := Finset.sum_congr rfl h3
  unfold queryLhs3 queryRhs3 at h4
  simp only [add_mul, Finset.sum_add_distrib, mul_sub, Finset.sum_sub_distrib, mul_assoc, ← Finset.mul_sum] at h4
  rw [softmaxRows_eq, (softmax_dist K _ hK).2, linkA_row K hK, linkA_col K hK, (topic_counts x K st.outMeans st.vocab hK hv d).2.2,
    ← Finset.sum_div] at h4
  rw [← hz]
  simp only [mul_sub, Finset.sum_sub_distrib]
  have ho' := ho.ne'
  field_simp at h4
  linarith

theorem query_model (x links : Data) (K n : Nat) (st : State3) :
    (query3 exactInv x links K n st).topicMean = st.topicMean ∧ (query3 exactInv x links K n st).topicCov = st.topicCov ∧
      (query3 exactInv x links K n st).outDocCov = st.outDocCov ∧ (query3 exactInv x links K n st).vocab = st.vocab := by
  obtain ⟨h1, h2, h3, h4, -⟩ := query3_model_partial exactInv x links K n st
  exact ⟨h1, h2, h3, h4⟩

/-- **C299** The same after any number of iterations. -/
theorem query_sum (x links : Data) (K n : Nat) (hK : 0 < K) (hn : 0 < n) (st : State3) (ho : 0 < st.outDocCov) (hc : (mat K st.topicCov).PosDef)
    (hv : Topics K x.T st.vocab) (d : Nat) :
    ∑ k ∈ Finset.range K, ∑ j ∈ Finset.range K, exactInv K st.topicCov k j * ((query3 exactInv x links K n st).outMeans d j - st.topicMean j)
      = -(st.outDocCov * (links.len d : ℝ)) := by
  obtain ⟨m, rfl⟩ : ∃ m, n = m + 1 := ⟨n - 1, by omega⟩
  obtain ⟨h1, h2, h3, h4⟩ := query_model x links K m st
  have h := query_step_sum x links K hK (query3 exactInv x links K m st) (by rw [h3]; exact ho) (by rw [h2]; exact hc) (by rw [h4]; exact hv) d
  rw [h1, h2, h3] at h
  have e : query3 exactInv x links K (m + 1) st = queryStep3 exactInv x links K (query3 exactInv x links K m st) := Function.iterate_succ_apply' _ _ _
  rw [e]
  exact h

/-- **C299 (violation).** The weights of a queried document depend on its links, though only the words are said to be used: with other numbers of links they
are never the same, whatever the words, the model, the numbers of iterations and the weights at the beginning. -/
theorem query_links_violation (x links links' : Data) (K n n' : Nat) (hK : 0 < K) (hn : 0 < n) (hn' : 0 < n') (st st' : State3)
    (ho : 0 < st.outDocCov) (hc : (mat K st.topicCov).PosDef) (hv : Topics K x.T st.vocab) (hm : st'.topicMean = st.topicMean)
    (hcov : st'.topicCov = st.topicCov) (hout : st'.outDocCov = st.outDocCov) (hvoc : st'.vocab = st.vocab) (d : Nat) (hl : links.len d ≠ links'.len d) :
    ∃ k < K, (query3 exactInv x links K n st).outMeans d k ≠ (query3 exactInv x links' K n' st').outMeans d k := by
  by_contra hne
  push Not at hne
  have h1 := query_sum x links K n hK hn st ho hc hv d
  have h2 := query_sum x links' K n' hK hn' st' (hout ▸ ho) (hcov ▸ hc) (hvoc ▸ hv) d
  rw [hm, hcov, hout] at h2
  have h3 : st.outDocCov * (links.len d : ℝ) = st.outDocCov * (links'.len d : ℝ) := by
    refine neg_injective (h1.symm.trans (Eq.trans ?_ h2))
    exact Finset.sum_congr rfl fun k _ => Finset.sum_congr rfl fun j hj => by rw [hne j (Finset.mem_range.mp hj)]
  exact hl (by exact_mod_cast mul_left_cancel₀ ho.ne' h3)

/-- **C299.** Only the numbers of the links matter, not where they lead. -/
theorem query_links_partial (inv : Nat → (Nat → Nat → ℝ) → Nat → Nat → ℝ) (x links links' : Data) (K n : Nat) (st : State3)
    (hl : ∀ d, links.len d = links'.len d) : query3 inv x links K n st = query3 inv x links' K n st := by
  have h : queryStep3 inv x links K = queryStep3 inv x links' K := by
    funext s
    unfold queryStep3 queryLhs3 queryRhs3
    simp only [hl]
  unfold query3
  rw [h]

/-! ## Examples -/

example := query_sum exWords exPair 1 3 one_pos (by decide) exSt (by norm_num [exSt]) exSt_cov exSt_good.topics 1

example : ∃ k < 1, (query3 exactInv exWords exPair 1 5 exSt).outMeans 0 k ≠ (query3 exactInv exWords ⟨2, 2, fun _ _ => 0⟩ 1 5 exSt).outMeans 0 k :=
  query_links_violation exWords exPair _ 1 5 5 one_pos (by decide) (by decide) exSt exSt (by norm_num [exSt]) exSt_cov exSt_good.topics rfl rfl rfl rfl 0
    (by decide)

/-- All documents link to the first, or all to the second. -/
example (inv : Nat → (Nat → Nat → ℝ) → Nat → Nat → ℝ) :
    query3 inv exWords ⟨2, 2, fun _ e => if e = 0 then 1 else 0⟩ 1 4 exSt = query3 inv exWords ⟨2, 2, fun _ e => if e = 1 then 1 else 0⟩ 1 4 exSt :=
  query_links_partial inv exWords _ _ 1 4 exSt fun _ => rfl

end Verif.Props.MtmQuery
