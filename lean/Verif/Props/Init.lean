import Mathlib.Algebra.BigOperators.Field
import Mathlib.Algebra.Order.BigOperators.Group.Finset
import Mathlib.Combinatorics.Pigeonhole
import Mathlib.Tactic.FieldSimp
import Mathlib.Tactic.Linarith
import Mathlib.Tactic.NormNum
import Mathlib.Tactic.Positivity
import Mathlib.Tactic.Ring
import Verif.Model.Init

/-!
# Initial topics (C285, C286, C287, C288)
-/

namespace Verif.Props.Init

open Verif Verif.Init

/-! ## Topics that start from documents (C285) -/

/-- The row `row` of the word table is `c` times one plus the occurrences `n` of each word. -/
def Started (T : Nat) (c : ℚ) (n : Nat → Nat) (row : Nat → ℚ) : Prop := ∀ t < T, row t = c * (1 + (n t : ℚ))

theorem vague_sum (x : Data) (d : Nat) : ∑ t ∈ Finset.range x.T, vagueRow x d t = (x.T : ℚ) + (x.len d : ℚ) := by
  unfold vagueRow Data.len
  rw [Finset.sum_add_distrib]
  simp

/-- The factor of the rows: one for rtm and self_lda, the words of the corpus for each topic for mtm, and for mtm2 and mtm3 one over
the size of the vocabulary plus the length of the document. -/
def factor (m : OneDoc) (x : Data) (K d : Nat) : ℚ :=
  match m with
  | .rtm => 1
  | .selfLda => 1
  | .mtm => (∑ d ∈ Finset.range x.D, ∑ t ∈ Finset.range x.T, (x.words d t : ℚ)) / (K : ℚ)
  | .mtm2 => 1 / ((x.T : ℚ) + ∑ t ∈ Finset.range x.T, (x.words d t : ℚ))
  | .mtm3 => 1 / ((x.T : ℚ) + ∑ t ∈ Finset.range x.T, (x.words d t : ℚ))

theorem len_cast (x : Data) (d : Nat) : (x.len d : ℚ) = ∑ t ∈ Finset.range x.T, (x.words d t : ℚ) := by
  unfold Data.len
  push_cast
  rfl

theorem wordCount_cast (x : Data) : (x.wordCount : ℚ) = ∑ d ∈ Finset.range x.D, ∑ t ∈ Finset.range x.T, (x.words d t : ℚ) := by
  unfold Data.wordCount
  push_cast
  simp only [len_cast]

/-- When the number of topics (and of groups) is accepted. -/
def Accepted (m : OneDoc) (K Q : Nat) : Prop :=
  1 < K ∧ (m = .rtm ∨ m = .selfLda ∨ m = .mtm → K < 255) ∧ (m = .mtm → Q < K)

theorem asserts_eq (m : OneDoc) (K Q : Nat) :
    (Accepted m K Q → m.asserts K Q = .ok ()) ∧ (¬ Accepted m K Q → m.asserts K Q = .error .assertionError) := by
  unfold Accepted OneDoc.asserts pyAssert
  by_cases h1 : 1 < K <;> by_cases h2 : K < 255 <;> by_cases h3 : Q < K <;> cases m <;>
    simp [h1, h2, h3, bind, Except.bind]

/-- **C285** for the modules that draw one document for each topic: every word of the vocabulary gets a multiple of one plus its
occurrences in the document, with the same factor for all words. -/
theorem one_doc_exact (m : OneDoc) (x : Data) (K Q : Nat) (ids : Nat → Nat) (hD : 0 < x.D) :
    (Accepted m K Q → ∃ w, oneDocTopics m x K Q ids = .ok w
      ∧ ∀ k < K, Started x.T (factor m x K (ids k)) (fun t => x.words (ids k) t) (w k))
    ∧ (¬ Accepted m K Q → oneDocTopics m x K Q ids = .error .assertionError) := by
  have hD' : ¬ x.D = 0 := by omega
  refine ⟨fun h => ?_, fun h => ?_⟩
  · refine ⟨fun k => m.finish x K (vagueRow x (ids k)), ?_, ?_⟩
    · unfold oneDocTopics
      rw [(asserts_eq m K Q).1 h]
      simp only [bind, Except.bind, if_neg hD']
    · intro k _ t _
      cases m <;> simp only [OneDoc.finish, factor, normalise, vague_sum] <;> simp only [len_cast, wordCount_cast, vagueRow] <;> ring
  · unfold oneDocTopics
    rw [(asserts_eq m K Q).2 h]
    rfl

/-- **C285**: no module starts without documents. -/
theorem one_doc_none (m : OneDoc) (x : Data) (K Q : Nat) (ids : Nat → Nat) (hD : x.D = 0) :
    ∃ e, oneDocTopics m x K Q ids = .error e := by
  unfold oneDocTopics
  by_cases h : Accepted m K Q
  · rw [(asserts_eq m K Q).1 h]
    exact ⟨.valueError, by simp [bind, Except.bind, hD]⟩
  · rw [(asserts_eq m K Q).2 h]
    exact ⟨_, rfl⟩

theorem factor_pos (m : OneDoc) (x : Data) (K d : Nat) (hK : 0 < K) (hT : 0 < x.T)
    (hw : m = .mtm → ∃ d < x.D, ∃ t < x.T, 0 < x.words d t) : 0 < factor m x K d := by
  have h1 : (0 : ℚ) < x.T := by exact_mod_cast hT
  have h2 : (0 : ℚ) ≤ ∑ t ∈ Finset.range x.T, (x.words d t : ℚ) := Finset.sum_nonneg (fun _ _ => by positivity)
  cases m
  · exact one_pos
  · exact one_pos
  · obtain ⟨d', hd, t, ht, hp⟩ := hw rfl
    unfold factor
    refine div_pos ?_ (by exact_mod_cast hK)
    refine Finset.sum_pos' (fun _ _ => Finset.sum_nonneg (fun _ _ => by positivity)) ⟨d', Finset.mem_range.mpr hd, ?_⟩
    exact Finset.sum_pos' (fun _ _ => by positivity) ⟨t, Finset.mem_range.mpr ht, by exact_mod_cast hp⟩
  · unfold factor
    positivity
  · unfold factor
    positivity

/-- **C285** for the modules that draw one document for each topic: all weights are positive, and a word weighs more than another
exactly if it is more frequent in the document of the topic.  Missing: mtm and a corpus without words. -/
theorem one_doc_prefers_partial (m : OneDoc) (x : Data) (K Q : Nat) (ids : Nat → Nat)
    (hw : m = .mtm → ∃ d < x.D, ∃ t < x.T, 0 < x.words d t) (w : Nat → Nat → ℚ) (h : oneDocTopics m x K Q ids = .ok w) (k : Nat) (hk : k < K)
    (t t' : Nat) (ht : t < x.T) (ht' : t' < x.T) :
    0 < w k t ∧ (w k t' < w k t ↔ x.words (ids k) t' < x.words (ids k) t) := by
  have hD : 0 < x.D := by
    by_contra h0
    obtain ⟨e, he⟩ := one_doc_none m x K Q ids (by omega)
    rw [he] at h
    cases h
  obtain ⟨h1, h2⟩ := one_doc_exact m x K Q ids hD
  have ha : Accepted m K Q := by
    by_contra h0
    rw [h2 h0] at h
    cases h
  obtain ⟨w', hw', hs⟩ := h1 ha
  rw [h] at hw'
  cases hw'
  have hc := factor_pos m x K (ids k) (by omega) (by omega : 0 < x.T) hw
  rw [hs k hk t ht, hs k hk t' ht']
  refine ⟨by positivity, ?_⟩
  rw [mul_lt_mul_iff_right₀ hc, add_lt_add_iff_left, Nat.cast_lt]

/-- **C285** is violated by mtm: in a corpus without words all weights are zero. -/
theorem mtm_empty_violation (x : Data) (K Q : Nat) (ids : Nat → Nat) (he : ∀ d < x.D, ∀ t < x.T, x.words d t = 0)
    (w : Nat → Nat → ℚ) (h : oneDocTopics .mtm x K Q ids = .ok w) (k t : Nat) (hk : k < K) (ht : t < x.T) : w k t = 0 := by
  have hD : 0 < x.D := by
    by_contra h0
    obtain ⟨e, he⟩ := one_doc_none .mtm x K Q ids (by omega)
    rw [he] at h
    cases h
  obtain ⟨h1, h2⟩ := one_doc_exact .mtm x K Q ids hD
  have ha : Accepted .mtm K Q := by
    by_contra h0
    rw [h2 h0] at h
    cases h
  obtain ⟨w', hw', hs⟩ := h1 ha
  rw [h] at hw'
  cases hw'
  rw [hs k hk t ht]
  have : factor .mtm x K (ids k) = 0 := by
    unfold factor
    rw [Finset.sum_eq_zero, zero_div]
    intro d hd
    refine Finset.sum_eq_zero (fun t ht => ?_)
    rw [he d (Finset.mem_range.mp hd) t (Finset.mem_range.mp ht), Nat.cast_zero]
  rw [this, zero_mul]

/-- `n` is the number of draws after which the drawn documents have a thousand words for the first time. -/
def FirstThousand (x : Data) (draws : Nat → Nat) (n : Nat) : Prop :=
  1000 ≤ ∑ i ∈ Finset.range n, ∑ t ∈ Finset.range x.T, x.words (draws i) t
    ∧ ∀ j < n, ∑ i ∈ Finset.range j, ∑ t ∈ Finset.range x.T, x.words (draws i) t < 1000

theorem sampleLoop_spec (x : Data) (draws : Nat → Nat) (fuel : Nat) : ∀ i (row : Nat → ℚ),
    (∀ t, row t = 1 + ((∑ j ∈ Finset.range i, x.words (draws j) t : Nat) : ℚ)) →
    (∀ j < i, ∑ i ∈ Finset.range j, x.len (draws i) < 1000) →
    (∀ w, sampleLoop x draws fuel i (∑ j ∈ Finset.range i, x.len (draws j)) row = some w →
      ∃ n, FirstThousand x draws n ∧ ∀ t, w t = 1 + ((∑ j ∈ Finset.range n, x.words (draws j) t : Nat) : ℚ))
    ∧ (sampleLoop x draws fuel i (∑ j ∈ Finset.range i, x.len (draws j)) row = none ↔
        ∑ j ∈ Finset.range (i + fuel), x.len (draws j) < 1000) := by
  induction fuel with
  | zero =>
    intro i row hrow hi
    unfold sampleLoop
    split
    · next h => exact ⟨nofun, by simpa using h⟩
    · next h =>
      refine ⟨fun w hw => ?_, by simpa using h⟩
      cases hw
      exact ⟨i, ⟨not_lt.mp h, hi⟩, hrow⟩
  | succ fuel ih =>
    intro i row hrow hi
    unfold sampleLoop
    split
    · next h =>
      rw [← Finset.sum_range_succ (fun j => x.len (draws j))]
      have := ih (i + 1) (fun t => row t + (x.words (draws i) t : ℚ)) (fun t => by
        rw [hrow t, Finset.sum_range_succ]
        push_cast
        ring) (fun j hj => by
          rcases Nat.lt_succ_iff_lt_or_eq.mp hj with h' | h'
          · exact hi j h'
          · rw [h']
            exact h)
      rw [show i + (fuel + 1) = i + 1 + fuel by omega]
      exact this
    · next h =>
      refine ⟨fun w hw => ?_, ?_⟩
      · cases hw
        exact ⟨i, ⟨not_lt.mp h, hi⟩, hrow⟩
      · refine iff_of_false (by simp) ?_
        rw [Finset.sum_range_add]
        omega

/-- **C285** for the modules that draw documents until there are a thousand words: every word gets a multiple of one plus its
occurrences in the drawn documents; these are the first ones that have a thousand words together.  The factor is one for mom_em, and
otherwise makes the weights add up to one. -/
theorem many_exact (m : Many) (x : Data) (draws : Nat → Nat) (fuel : Nat) (hT : 0 < x.T) (w : Nat → ℚ) (h : manyRow m x draws fuel = some w) :
    ∃ n c, FirstThousand x draws n ∧ 0 < c ∧ (m = .momEm → c = 1) ∧ (m ≠ .momEm → ∑ t ∈ Finset.range x.T, w t = 1)
      ∧ Started x.T c (fun t => ∑ i ∈ Finset.range n, x.words (draws i) t) w := by
  unfold manyRow at h
  rw [Option.map_eq_some_iff] at h
  obtain ⟨row, h1, h2⟩ := h
  obtain ⟨h3, -⟩ := sampleLoop_spec x draws fuel 0 (fun _ => 1) (fun t => by simp) (fun j hj => absurd hj (by omega))
  obtain ⟨n, hn, hr⟩ := h3 row h1
  have hpos : 0 < ∑ t ∈ Finset.range x.T, row t := by
    refine Finset.sum_pos (fun t _ => ?_) ⟨0, Finset.mem_range.mpr hT⟩
    rw [hr t]
    positivity
  have hnorm : ∑ t ∈ Finset.range x.T, normalise x.T row t = 1 := by
    unfold normalise
    rw [← Finset.sum_div, div_self hpos.ne']
  cases m with
  | momEm =>
    refine ⟨n, 1, hn, one_pos, fun _ => rfl, fun h => absurd rfl h, fun t _ => ?_⟩
    rw [← h2, one_mul]
    exact hr t
  | ldaVbPython =>
    refine ⟨n, 1 / ∑ t ∈ Finset.range x.T, row t, hn, by positivity, nofun, fun _ => ?_, fun t _ => ?_⟩
    · rw [← h2]
      exact hnorm
    · rw [← h2]
      show row t / _ = _
      rw [hr t]
      ring
  | momGibbs =>
    refine ⟨n, 1 / ∑ t ∈ Finset.range x.T, row t, hn, by positivity, nofun, fun _ => ?_, fun t _ => ?_⟩
    · rw [← h2]
      exact hnorm
    · rw [← h2]
      show row t / _ = _
      rw [hr t]
      ring

/-- **C285**: the sampling has not ended after some draws exactly if the documents drawn so far have less than a thousand words. -/
theorem many_unended (m : Many) (x : Data) (draws : Nat → Nat) (fuel : Nat) :
    manyRow m x draws fuel = none ↔ ∑ i ∈ Finset.range fuel, ∑ t ∈ Finset.range x.T, x.words (draws i) t < 1000 := by
  have h := (sampleLoop_spec x draws fuel 0 (fun _ => 1) (fun t => by simp) (fun j hj => absurd hj (by omega))).2
  unfold manyRow
  rw [Option.map_eq_none_iff]
  rw [zero_add] at h
  exact h

/-- **C285** for corpora without empty documents: a thousand draws are enough.  Missing: corpora with empty documents. -/
theorem many_ends_partial (m : Many) (x : Data) (draws : Nat → Nat) (hd : ∀ i, ∃ t < x.T, 0 < x.words (draws i) t) :
    (manyRow m x draws 1000).isSome := by
  by_contra h
  rw [Bool.not_eq_true, Option.isSome_eq_false_iff, Option.isNone_iff_eq_none, many_unended] at h
  have h1 : ∑ i ∈ Finset.range 1000, 1 ≤ ∑ i ∈ Finset.range 1000, ∑ t ∈ Finset.range x.T, x.words (draws i) t := by
    refine Finset.sum_le_sum (fun i _ => ?_)
    obtain ⟨t, ht, hp⟩ := hd i
    exact le_trans hp (Finset.single_le_sum (f := fun t => x.words (draws i) t) (fun _ _ => Nat.zero_le _) (Finset.mem_range.mpr ht))
  simp only [Finset.sum_const, Finset.card_range, smul_eq_mul, mul_one] at h1
  omega

/-- **C285** is violated: if all documents are empty, the sampling never ends. -/
theorem many_hangs_violation (m : Many) (x : Data) (draws : Nat → Nat) (hd : ∀ d, ∀ t < x.T, x.words d t = 0) (fuel : Nat) :
    manyRow m x draws fuel = none := by
  rw [many_unended, Finset.sum_eq_zero]
  · norm_num
  · exact fun i _ => Finset.sum_eq_zero (fun t ht => hd _ t (Finset.mem_range.mp ht))

/-! ## The scale of the initial weights (C286) -/

/-- **C286**: the weights that mtm starts with add up to the number of words in the corpus times the size of the vocabulary plus the
mean length of the drawn documents. -/
theorem mtm_total (x : Data) (K Q : Nat) (ids : Nat → Nat) (w : Nat → Nat → ℚ) (h : oneDocTopics .mtm x K Q ids = .ok w) :
    ∑ k ∈ Finset.range K, ∑ t ∈ Finset.range x.T, w k t
      = (∑ d ∈ Finset.range x.D, ∑ t ∈ Finset.range x.T, (x.words d t : ℚ))
        * ((x.T : ℚ) + (∑ k ∈ Finset.range K, ∑ t ∈ Finset.range x.T, (x.words (ids k) t : ℚ)) / (K : ℚ)) := by
  have hD : 0 < x.D := by
    by_contra h0
    obtain ⟨e, he⟩ := one_doc_none .mtm x K Q ids (by omega)
    rw [he] at h
    cases h
  obtain ⟨h1, h2⟩ := one_doc_exact .mtm x K Q ids hD
  have ha : Accepted .mtm K Q := by
    by_contra h0
    rw [h2 h0] at h
    cases h
  obtain ⟨w', hw', hs⟩ := h1 ha
  rw [h] at hw'
  cases hw'
  have hrow : ∀ k ∈ Finset.range K, ∑ t ∈ Finset.range x.T, w k t
      = (∑ d ∈ Finset.range x.D, ∑ t ∈ Finset.range x.T, (x.words d t : ℚ)) / (K : ℚ)
        * ((x.T : ℚ) + ∑ t ∈ Finset.range x.T, (x.words (ids k) t : ℚ)) := by
    intro k hk
    rw [Finset.sum_congr rfl (fun t ht => hs k (Finset.mem_range.mp hk) t (Finset.mem_range.mp ht)), ← Finset.mul_sum,
      Finset.sum_add_distrib]
    simp only [factor, Finset.sum_const, Finset.card_range, nsmul_eq_mul, mul_one]
  rw [Finset.sum_congr rfl hrow, ← Finset.mul_sum, Finset.sum_add_distrib]
  have hK : (K : ℚ) ≠ 0 := by
    have := ha.1
    exact_mod_cast (by omega : K ≠ 0)
  simp only [Finset.sum_const, Finset.card_range, nsmul_eq_mul]
  field_simp

/-- **C286** is violated by mtm: the weights add up to at least as many times the words of the corpus as there are words in the
vocabulary. -/
theorem mtm_scale_violation (x : Data) (K Q : Nat) (ids : Nat → Nat) (w : Nat → Nat → ℚ) (h : oneDocTopics .mtm x K Q ids = .ok w) :
    (x.T : ℚ) * ∑ d ∈ Finset.range x.D, ∑ t ∈ Finset.range x.T, (x.words d t : ℚ) ≤ ∑ k ∈ Finset.range K, ∑ t ∈ Finset.range x.T, w k t := by
  rw [mtm_total x K Q ids w h, mul_comm]
  refine mul_le_mul_of_nonneg_left ?_ (Finset.sum_nonneg (fun _ _ => Finset.sum_nonneg (fun _ _ => by positivity)))
  refine le_add_of_nonneg_right (div_nonneg (Finset.sum_nonneg (fun _ _ => Finset.sum_nonneg (fun _ _ => by positivity))) (by positivity))

/-- **C286**: for the modules with distributions of words (mtm2, mtm3), each topic adds up to one.  Missing: mtm. -/
theorem normalised_partial (m : OneDoc) (hm : m = .mtm2 ∨ m = .mtm3) (x : Data) (K Q : Nat) (ids : Nat → Nat) (hT : 0 < x.T)
    (w : Nat → Nat → ℚ) (h : oneDocTopics m x K Q ids = .ok w) (k : Nat) (hk : k < K) : ∑ t ∈ Finset.range x.T, w k t = 1 := by
  have hD : 0 < x.D := by
    by_contra h0
    obtain ⟨e, he⟩ := one_doc_none m x K Q ids (by omega)
    rw [he] at h
    cases h
  obtain ⟨h1, h2⟩ := one_doc_exact m x K Q ids hD
  have ha : Accepted m K Q := by
    by_contra h0
    rw [h2 h0] at h
    cases h
  obtain ⟨w', hw', hs⟩ := h1 ha
  rw [h] at hw'
  cases hw'
  have hpos : (0 : ℚ) < (x.T : ℚ) + ∑ t ∈ Finset.range x.T, (x.words (ids k) t : ℚ) :=
    add_pos_of_pos_of_nonneg (by exact_mod_cast hT) (Finset.sum_nonneg (fun _ _ => by positivity))
  rw [Finset.sum_congr rfl (fun t ht => hs k hk t (Finset.mem_range.mp ht)), ← Finset.mul_sum, Finset.sum_add_distrib]
  simp only [Finset.sum_const, Finset.card_range, nsmul_eq_mul, mul_one]
  rcases hm with rfl | rfl <;> exact one_div_mul_cancel hpos.ne'

/-! ## Topics that start alike (C287) -/

/-- **C287** is violated: with more topics than documents, two topics start alike, whatever is drawn. -/
theorem alike_violation (m : OneDoc) (x : Data) (K Q : Nat) (ids : Nat → Nat) (hids : ∀ k < K, ids k < x.D) (hK : x.D < K)
    (w : Nat → Nat → ℚ) (h : oneDocTopics m x K Q ids = .ok w) : ∃ k < K, ∃ k' < K, k ≠ k' ∧ w k = w k' := by
  obtain ⟨k, hk, k', hk', hne, he⟩ := Finset.exists_ne_map_eq_of_card_lt_of_maps_to (s := Finset.range K) (t := Finset.range x.D) (f := ids)
    (by simpa using hK) (fun k hk => Finset.mem_coe.mpr (Finset.mem_range.mpr (hids k (Finset.mem_range.mp (Finset.mem_coe.mp hk)))))
  refine ⟨k, Finset.mem_range.mp hk, k', Finset.mem_range.mp hk', hne, ?_⟩
  unfold oneDocTopics at h
  cases ha : m.asserts K Q with
  | error e =>
    rw [ha] at h
    cases h
  | ok u =>
    rw [ha] at h
    simp only [bind, Except.bind] at h
    split at h
    · cases h
    · cases h
      simp only [he]

/-- **C287** for rtm, self_lda and mtm: two topics start alike exactly if the documents drawn for them have the same words.  Missing:
that different documents are drawn. -/
theorem alike_iff_partial (m : OneDoc) (hm : m = .rtm ∨ m = .selfLda ∨ m = .mtm) (x : Data) (K Q : Nat) (ids : Nat → Nat)
    (hw : ∃ d < x.D, ∃ t < x.T, 0 < x.words d t) (w : Nat → Nat → ℚ) (h : oneDocTopics m x K Q ids = .ok w) (k k' : Nat) (hk : k < K) (hk' : k' < K) :
    (∀ t < x.T, w k t = w k' t) ↔ ∀ t < x.T, x.words (ids k) t = x.words (ids k') t := by
  have hD : 0 < x.D := by
    obtain ⟨d, hd, -⟩ := hw
    omega
  obtain ⟨h1, h2⟩ := one_doc_exact m x K Q ids hD
  have ha : Accepted m K Q := by
    by_contra h0
    rw [h2 h0] at h
    cases h
  obtain ⟨w', hw', hs⟩ := h1 ha
  rw [h] at hw'
  cases hw'
  have hT : 0 < x.T := by
    obtain ⟨d, hd, t, ht, -⟩ := hw
    omega
  have hf : factor m x K (ids k') = factor m x K (ids k) := by
    rcases hm with rfl | rfl | rfl <;> rfl
  have hc := factor_pos m x K (ids k) (by omega) hT (fun _ => hw)
  refine forall₂_congr (fun t ht => ?_)
  rw [hs k hk t ht, hs k' hk' t ht, hf, mul_right_inj' hc.ne', add_right_inj, Nat.cast_inj]

/-! ## Drawn distributions (C288) -/

/-- What is known about a drawn table of `n` rows of distributions over `K` things -/
def Distributions (n K : Nat) (draw : Nat → Nat → ℚ) : Prop :=
  ∀ d < n, (∀ k < K, 0 ≤ draw d k) ∧ ∑ k ∈ Finset.range K, draw d k = 1

/-- **C288** for the topics that lda_vb and lda_svb start with: they are distributions, and no word weighs less than half of what it
would if all words weighed the same. -/
theorem dirichlet_topics (K T : Nat) (hT : 0 < T) (draw : Nat → Nat → ℚ) (hd : Distributions K T draw) :
    Distributions K T (dirichletTopics T draw) ∧ ∀ k < K, ∀ t < T, 1 / (2 * (T : ℚ)) ≤ dirichletTopics T draw k t
      ∧ dirichletTopics T draw k t = (draw k t + 1 / (T : ℚ)) / 2 := by
  have hT' : (0 : ℚ) < T := by exact_mod_cast hT
  have hs : ∀ k < K, ∑ t' ∈ Finset.range T, (draw k t' + 1 / (T : ℚ)) = 2 := by
    intro k hk
    rw [Finset.sum_add_distrib, (hd k hk).2]
    simp only [Finset.sum_const, Finset.card_range, nsmul_eq_mul]
    rw [mul_one_div_cancel hT'.ne']
    norm_num
  have he : ∀ k < K, ∀ t, dirichletTopics T draw k t = (draw k t + 1 / (T : ℚ)) / 2 := by
    intro k hk t
    unfold dirichletTopics
    rw [hs k hk]
  refine ⟨fun k hk => ⟨fun t ht => ?_, ?_⟩, fun k hk t ht => ⟨?_, he k hk t⟩⟩
  · rw [he k hk]
    have := (hd k hk).1 t ht
    positivity
  · rw [Finset.sum_congr rfl (fun t _ => he k hk t), ← Finset.sum_div, hs k hk]
    norm_num
  · rw [he k hk, le_div_iff₀ (by norm_num)]
    have := (hd k hk).1 t ht
    have h2 : 1 / (2 * (T : ℚ)) * 2 = 1 / (T : ℚ) := by field_simp
    rw [h2]
    linarith

/-- The prior is positive for every topic. -/
def Positive (prior : List ℚ) : Prop := prior ≠ [] ∧ ∀ a ∈ prior, 0 < a

theorem params_positive (m : Drawn) (prior : List ℚ) (hp : Positive prior) : ∀ a ∈ m.params prior, 0 < a := by
  have hs : 0 < prior.sum := List.sum_pos _ hp.2 hp.1
  have h1 : ∀ a ∈ prior.map (fun a => a / prior.sum), 0 < a := by
    intro a ha
    obtain ⟨b, hb, rfl⟩ := List.mem_map.mp ha
    exact div_pos (hp.2 b hb) hs
  cases m
  · exact h1
  · exact h1
  · exact h1
  · exact hp.2
  · exact hp.2

theorem sum_getD (prior : List ℚ) : ∑ k ∈ Finset.range prior.length, prior.getD k 0 = prior.sum := by
  induction prior with
  | nil => rfl
  | cons a l ih =>
    rw [List.length_cons, Finset.sum_range_succ', List.sum_cons, ← ih]
    simp [add_comm]

/-- **C288** for the topics of the documents in lda_vb_python and mom_gibbs: for every positive prior they add up to the length of the
document plus the prior, and no topic weighs less than its prior. -/
theorem topics_counts (m : Drawn) (hm : m = .ldaVbPython ∨ m = .momGibbs) (x : Data) (prior : List ℚ) (hp : Positive prior)
    (draw : Nat → Nat → ℚ) (hd : Distributions x.D prior.length draw) :
    ∃ w, newTopics m x prior draw = .ok w ∧ ∀ d < x.D,
      (∑ k ∈ Finset.range prior.length, w d k = (∑ t ∈ Finset.range x.T, (x.words d t : ℚ)) + prior.sum)
        ∧ ∀ k < prior.length, prior.getD k 0 ≤ w d k ∧ 0 < w d k := by
  have hany : (m.params prior).any (fun a => decide (a ≤ 0)) = false := by
    rw [List.any_eq_false]
    intro a ha
    have := params_positive m prior hp a ha
    simpa using this
  refine ⟨fun d k => draw d k * (x.len d : ℚ) + prior.getD k 0, ?_, fun d hlt => ⟨?_, fun k hk => ?_⟩⟩
  · unfold newTopics
    rw [hany]
    rcases hm with rfl | rfl <;> rfl
  · rw [Finset.sum_add_distrib, ← Finset.sum_mul, (hd d hlt).2, one_mul, sum_getD, len_cast]
  · have h1 := (hd d hlt).1 k hk
    have h2 : 0 < prior.getD k 0 := by
      rw [show prior.getD k 0 = prior[k] by simp [List.getD_eq_getElem?_getD, hk]]
      exact hp.2 _ (List.getElem_mem hk)
    have h3 : 0 ≤ draw d k * (x.len d : ℚ) := by positivity
    refine ⟨?_, ?_⟩ <;> linarith

/-- **C288** for the topics of the documents in mom_em, lda_vb and lda_svb: for every positive prior they are distributions. -/
theorem topics_distributions (m : Drawn) (hm : m = .momEm ∨ m = .ldaVb ∨ m = .ldaSvb) (x : Data) (prior : List ℚ) (hp : Positive prior)
    (draw : Nat → Nat → ℚ) (hd : Distributions x.D prior.length draw) :
    ∃ w, newTopics m x prior draw = .ok w ∧ Distributions x.D prior.length w := by
  have hany : (m.params prior).any (fun a => decide (a ≤ 0)) = false := by
    rw [List.any_eq_false]
    intro a ha
    have := params_positive m prior hp a ha
    simpa using this
  refine ⟨draw, ?_, hd⟩
  unfold newTopics
  rw [hany]
  rcases hm with rfl | rfl | rfl <;> rfl

/-! ## Examples -/

/-- Three documents over two words, one of them without words -/
def exX : Data := ⟨3, 2, fun d t => if d = 0 then (if t = 0 then 3 else 1) else if d = 1 then (if t = 1 then 2 else 0) else 0⟩

example : ∃ w, oneDocTopics .mtm exX 2 1 (fun k => k) = .ok w ∧ w 0 0 = 12 ∧ w 0 1 = 6 ∧ w 1 0 = 3 ∧ w 1 1 = 9 :=
  ⟨_, rfl, by decide +kernel, by decide +kernel, by decide +kernel, by decide +kernel⟩

example : ∃ w, oneDocTopics .mtm2 exX 2 5 (fun k => k) = .ok w ∧ w 0 0 = 2 / 3 ∧ w 1 1 = 3 / 4 :=
  ⟨_, rfl, by decide +kernel, by decide +kernel⟩

example : Accepted .mtm 2 1 ∧ ¬ Accepted .mtm 2 2 ∧ ¬ Accepted .rtm 255 1 ∧ Accepted .mtm3 300 1 := by
  simp [Accepted]

example : ∃ d < exX.D, ∃ t < exX.T, 0 < exX.words d t := ⟨0, by decide, 0, by decide, by decide⟩

/-- A corpus of two documents without words -/
def exEmpty : Data := ⟨2, 3, fun _ _ => 0⟩

example : ∃ w, oneDocTopics .mtm exEmpty 2 1 (fun _ => 0) = .ok w ∧ w 1 2 = 0 :=
  ⟨_, rfl, mtm_empty_violation exEmpty 2 1 (fun _ => 0) (fun _ _ _ _ => rfl) _ rfl 1 2 (by decide) (by decide)⟩

example (m : Many) : manyRow m exEmpty (fun i => i % 2) 1000000 = none := many_hangs_violation m _ _ (fun _ _ _ => rfl) _

/-- Two documents of three hundred and nine hundred words -/
def exLong : Data := ⟨2, 2, fun d t => if d = 0 then (if t = 0 then 300 else 0) else (if t = 1 then 900 else 0)⟩

example : FirstThousand exLong (fun i => i % 2) 2 := by
  refine ⟨by decide, fun j hj => ?_⟩
  have : j = 0 ∨ j = 1 := by omega
  rcases this with rfl | rfl <;> decide

example : ∃ w, manyRow .momEm exLong (fun i => i % 2) 5 = some w ∧ w 0 = 301 ∧ w 1 = 901 :=
  ⟨_, rfl, by decide +kernel, by decide +kernel⟩

example (m : Many) : (manyRow m exLong (fun i => i % 2) 1000).isSome :=
  many_ends_partial m exLong _ (fun i => by
    have : i % 2 = 0 ∨ i % 2 = 1 := by omega
    rcases this with h | h
    · exact ⟨0, by decide, by simp [exLong, h]⟩
    · exact ⟨1, by decide, by simp [exLong, h]⟩)

example : ∃ w, oneDocTopics .rtm exX 4 0 (fun k => k % 3) = .ok w ∧ ∃ k < 4, ∃ k' < 4, k ≠ k' ∧ w k = w k' :=
  ⟨_, rfl, alike_violation .rtm exX 4 0 (fun k => k % 3) (fun k _ => by show k % 3 < 3; omega) (by decide) _ rfl⟩

/-- Two drawn distributions over two things -/
def exDraw : Nat → Nat → ℚ := fun d k => if d = 0 then (if k = 0 then 1 else 0) else 1 / 2

theorem exDraw_dist : Distributions 2 2 exDraw := by
  intro d hd
  have : d = 0 ∨ d = 1 := by omega
  rcases this with rfl | rfl
  · refine ⟨fun k _ => ?_, ?_⟩
    · show (0 : ℚ) ≤ if (0 : Nat) = 0 then (if k = 0 then 1 else 0) else 1 / 2
      split
      · split <;> norm_num
      · norm_num
    · norm_num [exDraw, Finset.sum_range_succ]
  · refine ⟨fun k _ => ?_, ?_⟩
    · norm_num [exDraw]
    · norm_num [exDraw, Finset.sum_range_succ]

example : dirichletTopics 2 exDraw 0 0 = 3 / 4 ∧ dirichletTopics 2 exDraw 0 1 = 1 / 4 := by
  constructor <;> decide +kernel

example : ∃ w, newTopics .ldaVbPython exLong [1 / 2, 3 / 2] exDraw = .ok w ∧ w 0 0 = 601 / 2 ∧ w 0 1 = 3 / 2 ∧ w 1 1 = 903 / 2 := by
  obtain ⟨w, h, -⟩ := topics_counts .ldaVbPython (.inl rfl) exLong [1 / 2, 3 / 2] ⟨by simp, by norm_num⟩ exDraw exDraw_dist
  have h' : newTopics .ldaVbPython exLong [1 / 2, 3 / 2] exDraw
      = .ok (fun d k => exDraw d k * (exLong.len d : ℚ) + [1 / 2, 3 / 2].getD k 0) := by
    unfold newTopics
    rw [if_neg (by norm_num [Drawn.params])]
  refine ⟨_, h', ?_, ?_, ?_⟩ <;> decide +kernel

end Verif.Props.Init
