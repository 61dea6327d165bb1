import Mathlib.Algebra.Order.Floor.Ring
import Verif.Lemmas.Gibbs
import Verif.Lemmas.Csr

/-!
# Properties C51 – C58, C92: collapsed Gibbs sampling
-/

namespace Verif.Props.Gibbs

open Verif Verif.Gibbs

/-! ## Specifications -/

/-- How many tokens satisfy a condition on their document, word and topic: a direct count over documents and offsets. -/
def count (lens : List Nat) (P : Nat → Nat → Prop) [∀ d n, Decidable (P d n)] : Nat :=
  ∑ d ∈ Finset.range lens.length,
    ((Finset.range (lens.getD d 0)).filter (fun i => P d ((lens.take d).sum + i))).card

/-- The tables are the counts of the assignments. -/
structure Consistent (p : Params) (s : Tables) : Prop where
  ndk : ∀ d k, s.ndk d k = count p.lens (fun d' n => d' = d ∧ s.z n = k)
  nkv : ∀ k v, s.nkv k v = count p.lens (fun _ n => s.z n = k ∧ p.w n = v)
  nk : ∀ k, s.nk k = count p.lens (fun _ n => s.z n = k)

/-- the assignments are topics -/
def ValidTopics (p : Params) (z : Nat → Nat) : Prop := ∀ n, n < p.lens.sum → z n < p.K

/-- the words are words -/
def ValidWords (p : Params) : Prop := ∀ n, n < p.lens.sum → p.w n < p.T

theorem countP_tokensFrom (lens : List Nat) (P : Nat → Nat → Prop) [∀ d n, Decidable (P d n)] : ∀ d0 start,
    (tokensFrom d0 start lens).countP (fun t => decide (P t.1 t.2)) =
    ∑ d ∈ Finset.range lens.length,
      ((Finset.range (lens.getD d 0)).filter (fun i => P (d0 + d) (start + ((lens.take d).sum + i)))).card := by
  induction lens with
  | nil => intros; rfl
  | cons len lens ih =>
    intro d0 start
    rw [tokensFrom, List.countP_append, ih, List.length_cons, Finset.sum_range_succ', List.countP_map, add_comm]
    congr 1
    · apply Finset.sum_congr rfl
      intro d _
      rw [List.getD_cons_succ]
      congr 1
      apply Finset.filter_congr
      intro i _
      rw [List.take_succ_cons, List.sum_cons,
        show d0 + 1 + d = d0 + (d + 1) by omega,
        show start + len + ((lens.take d).sum + i) = start + (len + (lens.take d).sum + i) by omega]
    · rw [List.getD_cons_zero, List.countP_eq_length_filter, ← Multiset.coe_card, Finset.card_def, Finset.filter_val,
        Finset.range_val, Multiset.range, Multiset.filter_coe]
      congr 2
      apply List.filter_congr
      intro i _
      simp

theorem count_eq (lens : List Nat) (P : Nat → Nat → Prop) [∀ d n, Decidable (P d n)] :
    ((tokens lens).countP (fun t => decide (P t.1 t.2))) = count lens P := by
  unfold tokens count
  rw [countP_tokensFrom]
  simp only [Nat.zero_add]

theorem cnt_eq_count (lens : List Nat) (z : Nat → Nat) (q : Nat → Nat → Nat → Bool)
    (P : Nat → Nat → Prop) [∀ d n, Decidable (P d n)] (h : ∀ d n, q d n (z n) = decide (P d n)) :
    cnt (tokens lens) z q = count lens P := by
  unfold cnt
  rw [← count_eq]
  congr 1
  apply List.countP_congr
  intro t _
  rw [h]

theorem ok_iff (p : Params) (s : Tables) :
    (DocOk p s ∧ WordOk p s) ↔ Consistent p s ∧ ∀ t ∈ tokens p.lens, s.z t.2 < p.K := by
  have e1 : ∀ d k, cnt (tokens p.lens) s.z (fun d' _ k' => decide (d' = d) && decide (k' = k)) =
      count p.lens (fun d' n => d' = d ∧ s.z n = k) := fun d k => cnt_eq_count _ _ _ _ (fun d n => by simp)
  have e2 : ∀ k v, cnt (tokens p.lens) s.z (fun _ n k' => decide (k' = k) && decide (p.w n = v)) =
      count p.lens (fun _ n => s.z n = k ∧ p.w n = v) := fun k v => cnt_eq_count _ _ _ _ (fun d n => by simp)
  have e3 : ∀ k, cnt (tokens p.lens) s.z (fun _ _ k' => decide (k' = k)) =
      count p.lens (fun _ n => s.z n = k) := fun k => cnt_eq_count _ _ _ _ (fun d n => by simp)
  constructor
  · rintro ⟨h1, h2⟩
    exact ⟨⟨fun d k => (h1.ndk d k).trans (e1 d k), fun k v => (h2.nkv k v).trans (e2 k v),
      fun k => (h2.nk k).trans (e3 k)⟩, h1.zlt⟩
  · rintro ⟨h1, h2⟩
    exact ⟨⟨fun d k => (h1.ndk d k).trans (e1 d k).symm, h2⟩,
      ⟨fun k v => (h1.nkv k v).trans (e2 k v).symm, fun k => (h1.nk k).trans (e3 k).symm⟩⟩

theorem valid_tokens (p : Params) (z : Nat → Nat) : ValidTopics p z ↔ ∀ t ∈ tokens p.lens, z t.2 < p.K := by
  constructor
  · intro h t ht; exact h t.2 (tokens_lt _ _ ht)
  · intro h n hn
    have : n ∈ (tokens p.lens).map Prod.snd := by
      unfold tokens; rw [tokensFrom_snd, List.mem_range'_1]; omega
    obtain ⟨t, ht, rfl⟩ := List.mem_map.mp this
    exact h t ht

/-! ## C51: the count tables -/

theorem init_ok (p : Params) (z : Nat → Nat) (hz : ValidTopics p z) :
    DocOk p (sumSuffStats p.w p.lens (zeroTables z)) ∧ WordOk p (sumSuffStats p.w p.lens (zeroTables z)) := by
  rw [sumSuffStats_eq]
  refine ⟨⟨?_, ?_⟩, ⟨?_, ?_⟩⟩
  · intro d k; simp [zeroTables]
  · exact (valid_tokens p z).mp hz
  · intro k v; simp [zeroTables]
  · intro k; simp [zeroTables]

/-- **C51** Counting from empty tables gives the counts of the assignments. -/
theorem initial_tables_consistent (p : Params) (z : Nat → Nat) (hz : ValidTopics p z) :
    Consistent p (sumSuffStats p.w p.lens (zeroTables z)) :=
  ((ok_iff p _).mp (init_ok p z hz)).1

theorem sample_ok (p : Params) (hK : p.K ≤ 256) (n thin : Nat) (rnd : Nat → Rand) (st st' : State)
    (h : DocOk p st.tables ∧ WordOk p st.tables) (hrun : sample p false n thin rnd st = some st') :
    DocOk p st'.tables ∧ WordOk p st'.tables := by
  refine sample_inv p false thin rnd st (fun _ s => DocOk p s.tables ∧ WordOk p s.tables) h ?_ n st' hrun
  intro n s t hs ht
  have := sweep_ok p hK (rnd n) s.tables t hs (by simpa using ht)
  split <;> exact this

/-- **C51** After any number of sweeps, with any draws, the tables are the counts of the assignments. -/
theorem sampling_keeps_tables_consistent (p : Params) (hK : p.K ≤ 256) (n thin : Nat) (rnd : Nat → Rand)
    (st st' : State) (hz : ValidTopics p st.tables.z) (h : Consistent p st.tables)
    (hrun : sample p false n thin rnd st = some st') :
    Consistent p st'.tables ∧ ValidTopics p st'.tables.z := by
  have h1 := sample_ok p hK n thin rnd st st' ((ok_iff p _).mpr ⟨h, (valid_tokens p _).mp hz⟩) hrun
  exact ⟨((ok_iff p _).mp h1).1, (valid_tokens p _).mpr ((ok_iff p _).mp h1).2⟩

theorem train_ok (p : Params) (hK : p.K ≤ 256) (plan : Plan) (z : Nat → Nat) (hz : ValidTopics p z)
    (rnd1 rnd2 : Nat → Rand) (st : State) (hrun : train p plan z rnd1 rnd2 = some st) :
    DocOk p st.tables ∧ WordOk p st.tables := by
  unfold train at hrun
  simp only [bind] at hrun
  rcases h1 : sample p false plan.burnIn (plan.burnIn + 1) rnd1
    ⟨sumSuffStats p.w p.lens (zeroTables z), fun _ _ => 0, fun _ _ => 0, 0⟩ with _ | s
  · rw [h1] at hrun; cases hrun
  · rw [h1, Option.bind_some] at hrun
    exact sample_ok p hK _ _ _ _ _ (sample_ok p hK _ _ _ _ _ (init_ok p z hz) h1) hrun

/-- **C51** Training, from any assignment of topics: the tables are the counts of the assignments. -/
theorem training_tables_consistent (p : Params) (hK : p.K ≤ 256) (plan : Plan) (z : Nat → Nat) (hz : ValidTopics p z)
    (rnd1 rnd2 : Nat → Rand) (st : State) (hrun : train p plan z rnd1 rnd2 = some st) :
    Consistent p st.tables ∧ ValidTopics p st.tables.z := by
  have h1 := train_ok p hK plan z hz rnd1 rnd2 st hrun
  exact ⟨((ok_iff p _).mp h1).1, (valid_tokens p _).mpr ((ok_iff p _).mp h1).2⟩

theorem docOk_sum (p : Params) (s : Tables) (h : DocOk p s) (d : Nat) :
    ∑ k ∈ Finset.range p.K, s.ndk d k = p.lens.getD d 0 := by
  rw [Finset.sum_congr rfl (fun k _ => h.ndk d k),
    sum_cnt_topics (tokens p.lens) s.z p.K h.zlt (fun d' _ => decide (d' = d))]
  unfold cnt
  rw [tokens_doc]

theorem wordOk_sum (p : Params) (hw : ValidWords p) (s : Tables) (h : WordOk p s) (k : Nat) :
    ∑ v ∈ Finset.range p.T, s.nkv k v = s.nk k := by
  rw [Finset.sum_congr rfl (fun v _ => h.nkv k v), h.nk,
    sum_cnt_words (tokens p.lens) s.z p.w p.T (fun t ht => hw _ (tokens_lt _ _ ht))]

theorem wordOk_total (p : Params) (s : Tables) (hz : ∀ t ∈ tokens p.lens, s.z t.2 < p.K) (h : WordOk p s) :
    ∑ k ∈ Finset.range p.K, s.nk k = p.lens.sum := by
  have h1 : ∀ k, s.nk k = cnt (tokens p.lens) s.z (fun d n k' => (fun _ _ => true) d n && decide (k' = k)) := by
    intro k; rw [h.nk]; simp
  rw [Finset.sum_congr rfl (fun k _ => h1 k), sum_cnt_topics (tokens p.lens) s.z p.K hz (fun _ _ => true)]
  unfold cnt
  have : (tokens p.lens).countP (fun _ => true) = (tokens p.lens).length := by simp
  rw [this]
  have h2 := congrArg List.length (tokensFrom_snd p.lens 0 0)
  rw [List.length_map, List.length_range'] at h2
  exact_mod_cast h2

/-- **C51** So no count is ever negative, each document's counts add up to its length, each topic's counts of words to the
count of the topic, and all of them to the number of tokens, whatever was drawn. -/
theorem training_totals (p : Params) (hK : p.K ≤ 256) (hw : ValidWords p) (plan : Plan) (z : Nat → Nat)
    (hz : ValidTopics p z) (rnd1 rnd2 : Nat → Rand) (st : State) (hrun : train p plan z rnd1 rnd2 = some st) :
    (∀ d k, 0 ≤ st.tables.ndk d k) ∧ (∀ k v, 0 ≤ st.tables.nkv k v) ∧ (∀ k, 0 ≤ st.tables.nk k) ∧
    (∀ d, ∑ k ∈ Finset.range p.K, st.tables.ndk d k = p.lens.getD d 0) ∧
    (∀ k, ∑ v ∈ Finset.range p.T, st.tables.nkv k v = st.tables.nk k) ∧
    ∑ k ∈ Finset.range p.K, st.tables.nk k = p.lens.sum := by
  obtain ⟨h1, h2⟩ := train_ok p hK plan z hz rnd1 rnd2 st hrun
  refine ⟨fun d k => ?_, fun k v => ?_, fun k => ?_, docOk_sum p _ h1, wordOk_sum p hw _ h2,
    wordOk_total p _ h1.zlt h2⟩
  · rw [h1.ndk]; exact cnt_nonneg _ _ _
  · rw [h2.nkv]; exact cnt_nonneg _ _ _
  · rw [h2.nk]; exact cnt_nonneg _ _ _

/-- The limit on the number of topics is what construction of a model checks. -/
theorem modelChecks_ok (K T : Nat) (h : modelChecks K T = .ok ()) : K ≤ 256 ∧ 1 < K ∧ T < 65536 := by
  unfold modelChecks pyAssert at h
  by_cases h1 : 1 < K <;> by_cases h2 : K < 256 <;> by_cases h3 : T < 65536 <;> simp_all [bind, Except.bind]
  omega

/-! ## C52: every token once -/

/-- The random starting point is inside the document. -/
theorem randLim_range (r : Nat) (hr : r ≤ randMax) (len : Nat) (hlen : 0 < len) :
    0 ≤ randLim r ((len : Int) - 1) ∧ randLim r ((len : Int) - 1) < len := by
  unfold randLim
  have hm : (0 : ℚ) < (randMax : ℚ) + 1 := by positivity
  have hl : (0 : ℚ) < (len : ℚ) := by exact_mod_cast hlen
  have e : ((((len : Int) - 1 : Int) : ℚ) + 1) = (len : ℚ) := by push_cast; ring
  rw [e]
  constructor
  · apply Int.floor_nonneg.mpr; positivity
  · rw [Int.floor_lt]
    have hlt : (r : ℚ) / ((randMax : ℚ) + 1) < 1 := by
      rw [div_lt_one hm]
      exact_mod_cast Nat.lt_succ_of_le hr
    calc (r : ℚ) / ((randMax : ℚ) + 1) * (len : ℚ) < 1 * (len : ℚ) := by
          exact mul_lt_mul_of_pos_right hlt hl
      _ = ((len : Int) : ℚ) := by push_cast; ring

/-- **C52** A sweep visits each offset of each document exactly once and nothing else, whatever offsets are drawn. -/
theorem sweep_visits_every_token_once (rnd : Nat → Nat) (lens : List Nat) (d n : Nat) :
    (sweepOrder rnd lens).count (d, n) =
      if d < lens.length ∧ (lens.take d).sum ≤ n ∧ n < (lens.take (d + 1)).sum then 1 else 0 := by
  unfold sweepOrder
  rw [(sweepFrom_perm rnd lens 0 0).count_eq]
  have key : ∀ (lens : List Nat) d0 start d n, (tokensFrom d0 start lens).count (d, n) =
      if d0 ≤ d ∧ d < d0 + lens.length ∧ start + (lens.take (d - d0)).sum ≤ n ∧ n < start + (lens.take (d - d0 + 1)).sum
        then 1 else 0 := by
    intro lens
    induction lens with
    | nil => intro d0 start d n; rw [if_neg (by simp)]; rfl
    | cons len lens ih =>
      intro d0 start d n
      rw [tokensFrom, List.count_append, ih]
      by_cases hd : d = d0
      · subst hd
        have hmap : ((List.range len).map (fun i => (d, start + i))).count (d, n) =
            if start ≤ n ∧ n < start + len then 1 else 0 := by
          split
          · rename_i h
            have hinj : Function.Injective (fun i : Nat => (d, start + i)) := fun a b h => by simpa using h
            have : (d, n) = (fun i : Nat => (d, start + i)) (n - start) := by
              simp only [Prod.mk.injEq, true_and]; omega
            rw [this, List.count_map_of_injective _ _ hinj]
            exact List.count_eq_one_of_mem List.nodup_range (List.mem_range.mpr (by omega))
          · rename_i h
            apply List.count_eq_zero_of_not_mem
            intro hm
            obtain ⟨i, hi, he⟩ := List.mem_map.mp hm
            have := List.mem_range.mp hi
            simp only [Prod.mk.injEq, true_and] at he
            omega
        rw [hmap]
        simp only [Nat.sub_self, List.take_zero, List.sum_nil, Nat.zero_add, List.take_succ_cons, List.sum_cons,
          List.length_cons, Nat.add_zero]
        rw [if_neg (by omega : ¬ (d + 1 ≤ d ∧ _)), Nat.add_zero]
        congr 1
        simp only [eq_iff_iff]
        constructor
        · intro h; exact ⟨by omega, by omega, by omega, by omega⟩
        · intro h; exact ⟨by omega, by omega⟩
      · have hmap : ((List.range len).map (fun i => (d0, start + i))).count (d, n) = 0 := by
          apply List.count_eq_zero_of_not_mem
          intro hm
          obtain ⟨i, hi, he⟩ := List.mem_map.mp hm
          simp only [Prod.mk.injEq] at he
          exact hd he.1.symm
        rw [hmap, Nat.zero_add]
        congr 1
        simp only [eq_iff_iff, List.length_cons]
        by_cases hlt : d0 < d
        · have e1 : d - d0 = (d - (d0 + 1)) + 1 := by omega
          rw [e1, List.take_succ_cons, List.take_succ_cons, List.sum_cons, List.sum_cons]
          constructor
          · rintro ⟨h1, h2, h3, h4⟩; exact ⟨by omega, by omega, by omega, by omega⟩
          · rintro ⟨h1, h2, h3, h4⟩; exact ⟨by omega, by omega, by omega, by omega⟩
        · constructor
          · rintro ⟨h1, _⟩; omega
          · rintro ⟨h1, _⟩; omega
  rw [key]
  simp

example : sweepOrder (fun _ => 1000000000) [3, 0, 2] = [(0, 2), (0, 0), (0, 1), (2, 4), (2, 3)] := by decide +kernel

/-! ## C53: queries -/

/-- **C53** However many sweeps a query makes, sampling leaves the topic-word table, the topic table and the accumulated
vocabulary estimate as they were, and the document-topic table still counts the assignments. -/
theorem query_sampling_leaves_model (p : Params) (hK : p.K ≤ 256) (n thin : Nat) (rnd : Nat → Rand) (st st' : State)
    (hz : ValidTopics p st.tables.z)
    (hd : ∀ d k, st.tables.ndk d k = count p.lens (fun d' n => d' = d ∧ st.tables.z n = k))
    (hrun : sample p true n thin rnd st = some st') :
    st'.tables.nkv = st.tables.nkv ∧ st'.tables.nk = st.tables.nk ∧ st'.vocabSum = st.vocabSum ∧
    ValidTopics p st'.tables.z ∧
    ∀ d k, st'.tables.ndk d k = count p.lens (fun d' n => d' = d ∧ st'.tables.z n = k) := by
  have e1 : ∀ z d k, cnt (tokens p.lens) z (fun d' _ k' => decide (d' = d) && decide (k' = k)) =
      count p.lens (fun d' n => d' = d ∧ z n = k) := fun z d k => cnt_eq_count _ _ _ _ (fun d n => by simp)
  have hdoc : DocOk p st.tables := ⟨fun d k => (hd d k).trans (e1 _ d k).symm, (valid_tokens p _).mp hz⟩
  have := sample_inv p true thin rnd st (fun _ s => DocOk p s.tables ∧ s.tables.nkv = st.tables.nkv ∧
    s.tables.nk = st.tables.nk ∧ s.vocabSum = st.vocabSum) ⟨hdoc, rfl, rfl, rfl⟩ ?_ n st' hrun
  · obtain ⟨h1, h2, h3, h4⟩ := this
    exact ⟨h2, h3, h4, (valid_tokens p _).mpr h1.zlt, fun d k => (h1.ndk d k).trans (e1 _ d k)⟩
  · intro n s t ⟨h1, h2, h3, h4⟩ ht
    have ht' : sweep p 0 (rnd n) s.tables = some t := by simpa using ht
    have a := sweep_docOk p hK 0 (rnd n) s.tables t h1 ht'
    have b := sweep_query_fixed p hK (rnd n) s.tables t h1 ht'
    split
    · exact ⟨a, b.1.trans h2, b.2.trans h3, by simpa [takeSample] using h4⟩
    · exact ⟨a, b.1.trans h2, b.2.trans h3, h4⟩

/-! ## C54: the sampled topic -/

/-- **C54 (partial)** For weights which are not negative and not all zero, any draw but zero selects the topic in
whose share of the total the draw falls.  Missing: a draw of exactly zero. -/
theorem chosen_topic_valid_partial (K : Nat) (dist : Nat → ℚ)
    (hpos : 0 < ∑ j ∈ Finset.range K, dist j) (r : Nat) (hr : 0 < r) (hr' : r ≤ randMax) :
    ∃ k : Nat, k < K ∧ chooseTopic K dist r = some (k : Int) ∧
      ∑ j ∈ Finset.range k, dist j < (r : ℚ) / randMax * ∑ j ∈ Finset.range K, dist j ∧
      (r : ℚ) / randMax * ∑ j ∈ Finset.range K, dist j ≤ ∑ j ∈ Finset.range (k + 1), dist j := by
  have hm : (0 : ℚ) < (randMax : ℚ) := by unfold randMax; norm_num
  have hr0 : (0 : ℚ) < (r : ℚ) := by exact_mod_cast hr
  have h1 : (r : ℚ) / randMax ≤ 1 := by
    rw [div_le_one hm]; exact_mod_cast hr'
  have h2 : 0 < (r : ℚ) / randMax * ∑ j ∈ Finset.range K, dist j := by positivity
  have h3 : (r : ℚ) / randMax * ∑ j ∈ Finset.range K, dist j ≤ ∑ j ∈ Finset.range K, dist j := by
    calc _ ≤ 1 * ∑ j ∈ Finset.range K, dist j := mul_le_mul_of_nonneg_right h1 hpos.le
      _ = _ := one_mul _
  obtain ⟨k, a, b, c⟩ := chooseLoop_valid K dist _ h3 K 0 (by omega) (by simpa using h2)
  refine ⟨k, a, ?_, c⟩
  unfold chooseTopic
  simpa using b

/-- **C54** The topic drawn has a positive weight. -/
theorem chosen_topic_has_weight (K : Nat) (dist : Nat → ℚ)
    (hpos : 0 < ∑ j ∈ Finset.range K, dist j) (r : Nat) (hr : 0 < r) (hr' : r ≤ randMax) (k : Nat)
    (h : chooseTopic K dist r = some (k : Int)) : k < K ∧ 0 < dist k := by
  obtain ⟨k', h1, h2, h3, h4⟩ := chosen_topic_valid_partial K dist hpos r hr hr'
  have : k' = k := by
    have := h2.symm.trans h
    simpa using this
  subst this
  refine ⟨h1, ?_⟩
  rw [Finset.sum_range_succ] at h4
  linarith

/-- **C54, violated.** A draw of exactly zero selects no topic: the index stays at −1, for every vector of
weights. -/
theorem zero_draw_selects_no_topic (K : Nat) (dist : Nat → ℚ) : chooseTopic K dist 0 = some (-1) := by
  unfold chooseTopic
  simp only [Nat.cast_zero, zero_div, zero_mul]
  rcases K with _ | K
  · unfold chooseLoop; simp
  · unfold chooseLoop; simp

/-- **C54** so that the tables would be written at index −1: the model has no result. -/
theorem zero_draw_writes_outside (p : Params) (delta : Int) (t : Nat × Nat) (s : Tables) :
    resample p delta 0 t s = none := by
  unfold resample
  simp only [zero_draw_selects_no_topic]

example : chooseTopic 3 (fun k => [1, 0, 1].getD k 0) 1073741823 = some 0 := by decide +kernel
example : chooseTopic 3 (fun k => [1, 0, 1].getD k 0) 1073741824 = some 2 := by decide +kernel
example : chooseTopic 3 (fun k => [1, 0, 1].getD k 0) randMax = some 2 := by decide +kernel

/-! ## Training has a result -/

/-- The priors are positive. -/
def PositivePriors (p : Params) : Prop :=
  (∀ d k, d < p.lens.length → k < p.K → 0 < p.a d k) ∧ (∀ v, v < p.T → 0 < p.b v)

/-- the draws for topics are not zero -/
def GoodRand (p : Params) (rnd : Rand) : Prop := ∀ n, n < p.lens.sum → 0 < rnd.draw n ∧ rnd.draw n ≤ randMax

theorem bSum_pos (p : Params) (hp : PositivePriors p) (hT : 0 < p.T) : 0 < p.bSum := by
  unfold Params.bSum
  exact Finset.sum_pos (fun v hv => hp.2 v (Finset.mem_range.mp hv)) ⟨0, Finset.mem_range.mpr hT⟩

theorem resample_returns (p : Params) (hp : PositivePriors p) (hw : ValidWords p) (r : Nat) (hr : 0 < r)
    (hr' : r ≤ randMax) (t : Nat × Nat) (ht : t ∈ tokens p.lens) (s : Tables) (h1 : DocOk p s) (h2 : WordOk p s) :
    ∃ s', resample p 1 r t s = some s' := by
  have hd : t.1 < p.lens.length := by
    have := tokens_doc_lt p.lens 0 0 t ht; omega
  have hwt := hw t.2 (tokens_lt _ _ ht)
  have hb := bSum_pos p hp (by omega)
  have hzt := h1.zlt t ht
  set k := s.z t.2 with hk
  have n1 : ∀ j, 0 ≤ bump2 s.ndk t.1 k (-1) t.1 j := by
    intro j
    rw [bump2_at, h1.ndk]
    split
    · rename_i h
      have := cnt_pos (tokens p.lens) t ht s.z (fun d' _ k' => decide (d' = t.1) && decide (k' = j))
        (by simp [h.2, hk])
      omega
    · have := cnt_nonneg (tokens p.lens) s.z (fun d' _ k' => decide (d' = t.1) && decide (k' = j)); omega
  have n2 : ∀ j, 0 ≤ bump2 s.nkv k (p.w t.2) (-1) j (p.w t.2) := by
    intro j
    rw [bump2_at, h2.nkv]
    split
    · rename_i h
      have := cnt_pos (tokens p.lens) t ht s.z (fun _ n k' => decide (k' = j) && decide (p.w n = p.w t.2))
        (by simp [h.1, hk])
      omega
    · have := cnt_nonneg (tokens p.lens) s.z (fun _ n k' => decide (k' = j) && decide (p.w n = p.w t.2)); omega
  have n3 : ∀ j, 0 ≤ bump s.nk k (-1) j := by
    intro j
    rw [bump_at, h2.nk]
    split
    · rename_i h
      have := cnt_pos (tokens p.lens) t ht s.z (fun _ _ k' => decide (k' = j)) (by simp [h, hk])
      omega
    · have := cnt_nonneg (tokens p.lens) s.z (fun _ _ k' => decide (k' = j)); omega
  have hpos : 0 < ∑ j ∈ Finset.range p.K, topicWeights p (bump2 s.ndk t.1 k (-1)) (bump2 s.nkv k (p.w t.2) (-1))
      (bump s.nk k (-1)) t.1 (p.w t.2) j := by
    apply Finset.sum_pos
    · intro j hj
      unfold topicWeights
      have a1 : (0 : ℚ) ≤ ((bump2 s.ndk t.1 k (-1) t.1 j : Int) : ℚ) := by exact_mod_cast n1 j
      have a2 : (0 : ℚ) ≤ ((bump2 s.nkv k (p.w t.2) (-1) j (p.w t.2) : Int) : ℚ) := by exact_mod_cast n2 j
      have a3 : (0 : ℚ) ≤ ((bump s.nk k (-1) j : Int) : ℚ) := by exact_mod_cast n3 j
      have a4 := hp.1 t.1 j hd (Finset.mem_range.mp hj)
      have a5 := hp.2 (p.w t.2) hwt
      exact div_pos (mul_pos (by linarith) (by linarith)) (by linarith)
    · exact ⟨k, Finset.mem_range.mpr hzt⟩
  obtain ⟨k', _, hk', _⟩ := chosen_topic_valid_partial p.K _ hpos r hr hr'
  unfold resample
  simp only
  rw [← hk, hk']
  exact ⟨_, rfl⟩

theorem sweep_returns (p : Params) (hK : p.K ≤ 256) (hp : PositivePriors p) (hw : ValidWords p) (rnd : Rand)
    (hr : GoodRand p rnd) (s : Tables) (h : DocOk p s ∧ WordOk p s) :
    ∃ s', sweep p 1 rnd s = some s' ∧ DocOk p s' ∧ WordOk p s' := by
  refine foldlM_some _ (fun s => DocOk p s ∧ WordOk p s) _ ?_ s h
  intro s t hm hs
  have ht := mem_sweep _ _ t hm
  have hd := hr t.2 (tokens_lt _ _ ht)
  obtain ⟨s', hs'⟩ := resample_returns p hp hw (rnd.draw t.2) hd.1 hd.2 t ht s hs.1 hs.2
  exact ⟨s', hs', resample_docOk p hK 1 _ t ht s s' hs.1 hs',
    resample_wordOk p hK _ t ht s s' (hs.1.zlt t ht) hs.2 hs'⟩

theorem sample_returns (p : Params) (hK : p.K ≤ 256) (hp : PositivePriors p) (hw : ValidWords p) (n thin : Nat)
    (rnd : Nat → Rand) (hr : ∀ i, i < n → GoodRand p (rnd i)) (st : State)
    (h : DocOk p st.tables ∧ WordOk p st.tables) : ∃ st', sample p false n thin rnd st = some st' := by
  induction n with
  | zero => exact ⟨_, rfl⟩
  | succ n ih =>
    obtain ⟨s, hs⟩ := ih (fun i hi => hr i (by omega))
    obtain ⟨t, ht, _⟩ := sweep_returns p hK hp hw (rnd n) (hr n (by omega)) s.tables
      (sample_ok p hK n thin rnd st s h hs)
    rw [sample_succ, hs, Option.bind_some]
    have : sweep p (if false = true then 0 else 1) (rnd n) s.tables = some t := by simpa using ht
    rw [this, Option.bind_some]
    exact ⟨_, rfl⟩

/-- **C51, C54** With positive priors, training returns for every sequence of draws in which no draw of a topic is
exactly zero. -/
theorem training_returns (p : Params) (hK : p.K ≤ 256) (hp : PositivePriors p) (hw : ValidWords p) (plan : Plan)
    (z : Nat → Nat) (hz : ValidTopics p z) (rnd1 rnd2 : Nat → Rand)
    (h1 : ∀ i, i < plan.burnIn → GoodRand p (rnd1 i)) (h2 : ∀ i, i < plan.iterations - plan.burnIn → GoodRand p (rnd2 i)) :
    ∃ st, train p plan z rnd1 rnd2 = some st := by
  obtain ⟨s, hs⟩ := sample_returns p hK hp hw plan.burnIn (plan.burnIn + 1) rnd1 h1
    ⟨sumSuffStats p.w p.lens (zeroTables z), fun _ _ => 0, fun _ _ => 0, 0⟩ (init_ok p z hz)
  obtain ⟨st, hst⟩ := sample_returns p hK hp hw (plan.iterations - plan.burnIn) plan.thin rnd2 h2 s
    (sample_ok p hK _ _ _ _ _ (init_ok p z hz) hs)
  refine ⟨st, ?_⟩
  unfold train
  simp only [bind]
  rw [hs, Option.bind_some, hst]

/-! ## C55: flattening -/

/-- **C55** The tokens are the concatenation, over the documents in order, of blocks as long as the documents; in each
block every word occurs as often as the matrix says; the length of a document is the sum of its counts. -/
theorem flatten_preserves_counts (m : Csr Nat) (h : m.WF) (hc : m.cols ≤ 65536) :
    ∃ blocks : List (List Nat), blocks.length = m.rows ∧
      flatten m = .ok (blocks.flatten, squeeze (docLens m)) ∧
      docLens m = blocks.map List.length ∧
      (∀ r b, blocks[r]? = some b → (∀ c, b.count c = m.entry r c) ∧ (∀ c ∈ b, c < m.cols) ∧
        b.length = ∑ c ∈ Finset.range m.cols, m.entry r c) := by
  let blk : List (Nat × Nat) → List Nat := fun l => l.flatMap (fun p => List.replicate p.2 p.1)
  have hcount : ∀ (l : List (Nat × Nat)) c, (blk l).count c = ((l.filter (fun p => p.1 = c)).map Prod.snd).sum := by
    intro l c
    induction l with
    | nil => rfl
    | cons p l ih =>
      simp only [blk, List.flatMap_cons, List.count_append] at ih ⊢
      rw [ih, List.count_replicate]
      by_cases hp : p.1 = c <;> simp [hp]
  have hlen : ∀ l : List (Nat × Nat), (blk l).length = (l.map Prod.snd).sum := by
    intro l
    induction l with
    | nil => rfl
    | cons p l ih =>
      simp only [blk, List.flatMap_cons, List.length_append] at ih ⊢
      rw [ih]; simp
  have hcol : ∀ r, r < m.rows → ∀ c ∈ blk (m.row r), c < m.cols := by
    intro r hr c hmem
    obtain ⟨p, hp, hcp⟩ := List.mem_flatMap.mp hmem
    have e : c = p.1 := (List.mem_replicate.mp hcp).2
    subst e
    apply h.cols
    unfold Csr.row at hp
    have := List.mem_of_mem_drop (List.mem_of_mem_take hp)
    exact (List.of_mem_zip this).1
  refine ⟨(List.range m.rows).map (fun r => blk (m.row r)), by simp, ?_, ?_, ?_⟩
  · unfold flatten
    rw [if_neg (by omega)]
    congr 2
    unfold flattenNative
    change m.pairs.flatMap _ = _
    rw [← Csr.rows_flatten m h]
    have hff : ∀ ls : List (List (Nat × Nat)), blk ls.flatten = (ls.map blk).flatten := by
      intro ls
      induction ls with
      | nil => rfl
      | cons l ls ih =>
        rw [List.flatten_cons, List.map_cons, List.flatten_cons, ← ih]
        exact List.flatMap_append
    have := hff ((List.range m.rows).map m.row)
    rw [List.map_map] at this
    exact this
  · unfold docLens
    rw [List.map_map]
    apply List.map_congr_left
    intro r _
    exact (hlen _).symm
  · intro r b hb
    rw [List.getElem?_map] at hb
    have hr : r < m.rows := by
      by_contra hc
      rw [List.getElem?_eq_none (by simp; omega)] at hb
      cases hb
    rw [List.getElem?_range hr] at hb
    have hb' : blk (m.row r) = b := by simpa using hb
    subst hb'
    refine ⟨fun c => hcount _ c, hcol r hr, ?_⟩
    have : (blk (m.row r)).length = ∑ c ∈ Finset.range m.cols, (blk (m.row r)).count c := by
      have hgen : ∀ (l : List Nat), (∀ c ∈ l, c < m.cols) → l.length = ∑ c ∈ Finset.range m.cols, l.count c := by
        intro l
        induction l with
        | nil => intro _; simp
        | cons a l ih =>
          intro hl
          have h1 : ∀ c ∈ Finset.range m.cols, (a :: l).count c = l.count c + if c = a then 1 else 0 := by
            intro c _
            rw [List.count_cons]
            by_cases hca : c = a
            · subst hca; simp
            · simp [hca, Ne.symm hca]
          rw [Finset.sum_congr rfl h1, Finset.sum_add_distrib, ← ih (fun c hc => hl c (List.mem_cons_of_mem _ hc)),
            Finset.sum_ite_eq', if_pos (Finset.mem_range.mpr (hl a (by simp)))]
          rfl
      exact hgen _ (hcol r hr)
    rw [this]
    exact Finset.sum_congr rfl (fun c _ => hcount _ c)

/-- A vocabulary of more than 65536 words is rejected. -/
theorem flatten_rejects (m : Csr Nat) (h : 65536 < m.cols) : flatten m = .error .valueError := by
  unfold flatten; rw [if_pos h]

/-- **C92, violated.** With a single document the length is not a vector: `docLens.shape[0]` in `train` and `query`
fails. -/
theorem single_document_fails (m : Csr Nat) (hr : m.rows = 1) (hc : m.cols ≤ 65536) :
    ∃ w l, flatten m = .ok (w, l) ∧ l.shape0 = .error .indexError := by
  refine ⟨_, _, by unfold flatten; rw [if_neg (by omega)], ?_⟩
  unfold docLens
  rw [hr]
  rfl

/-- **C92 (partial)** With any other number of documents it is one.  Missing: a single document. -/
theorem several_documents_partial (m : Csr Nat) (hr : m.rows ≠ 1) (hc : m.cols ≤ 65536) :
    ∃ w l, flatten m = .ok (w, l) ∧ l.shape0 = .ok m.rows := by
  refine ⟨_, _, by unfold flatten; rw [if_neg (by omega)], ?_⟩
  have hl : (docLens m).length = m.rows := by simp [docLens]
  rcases hd : docLens m with _ | ⟨a, _ | ⟨b, l⟩⟩
  · rw [hd] at hl; simpa [squeeze, Squeezed.shape0] using hl
  · rw [hd] at hl; exact absurd hl.symm hr
  · rw [hd] at hl
    simp only [squeeze, Squeezed.shape0]
    rw [hl]

/-- Two documents: words 0, 0, 2 and 1. -/
def exMat : Csr Nat := ⟨2, 3, [0, 2, 3], [0, 2, 1], [2, 1, 1]⟩

theorem exMat_wf : exMat.WF := by
  refine ⟨rfl, rfl, ?_, rfl, rfl, by decide⟩
  intro r hr
  have : r = 0 ∨ r = 1 := by have : r < 2 := hr; omega
  rcases this with rfl | rfl <;> decide

example : flattenNative exMat = [0, 0, 2, 1] ∧ docLens exMat = [3, 1] := by decide
example : ∃ blocks : List (List Nat), blocks.length = 2 ∧ docLens exMat = blocks.map List.length :=
  let ⟨b, h1, _, h3, _⟩ := flatten_preserves_counts exMat exMat_wf (by decide)
  ⟨b, h1, h3⟩

example : ∃ w l, flatten exMat = .ok (w, l) ∧ l.shape0 = .ok 2 :=
  several_documents_partial exMat (by decide) (by decide)
example : ∃ w l, flatten (⟨1, 3, [0, 2], [0, 2], [2, 1]⟩ : Csr Nat) = .ok (w, l) ∧ l.shape0 = .error .indexError :=
  single_document_fails _ rfl (by decide)

/-! ## C56: burn-in and thinning -/

theorem sample_count (p : Params) (isQuery : Bool) (n thin : Nat) (rnd : Nat → Rand) (st st' : State)
    (hrun : sample p isQuery n thin rnd st = some st') : st'.count = n / thin := by
  refine sample_inv p isQuery thin rnd st (fun n s => s.count = n / thin) (by simp) ?_ n st' hrun
  intro n s t hs _
  rw [count_step]
  split
  · simp only [takeSample]; rw [hs]
  · simp only; rw [hs]; rfl

/-- Without a sample nothing is accumulated. -/
theorem sample_none (p : Params) (isQuery : Bool) (n thin : Nat) (hlt : n < thin) (rnd : Nat → Rand) (st st' : State)
    (hrun : sample p isQuery n thin rnd st = some st') :
    st'.topicSum = st.topicSum ∧ st'.vocabSum = st.vocabSum := by
  have := sample_inv p isQuery thin rnd st (fun n s => n < thin → s.topicSum = st.topicSum ∧ s.vocabSum = st.vocabSum)
    (fun _ => ⟨rfl, rfl⟩) ?_ n st' hrun
  · exact this hlt
  · intro n s t hs _ hn
    rw [if_neg (by rw [Nat.mod_eq_of_lt hn]; omega)]
    exact hs (by omega)

/-- What a plan asks for: the burn-in, the iterations after it, the thinning. -/
theorem plan_fields (n : Nat) (b t : Int) :
    (newTrainPlan n b t).iterations - (newTrainPlan n b t).burnIn = n ∧
    (0 ≤ b → ((newTrainPlan n b t).burnIn : Int) = b) ∧ (b < 0 → (newTrainPlan n b t).burnIn = n / 2) ∧
    (0 ≤ t → ((newTrainPlan n b t).thin : Int) = t) := by
  unfold newTrainPlan
  simp only
  refine ⟨by omega, ?_, ?_, ?_⟩
  · intro h; rw [if_neg (by omega)]; omega
  · intro h; rw [if_pos h]
  · intro h; rw [if_neg (by omega)]; omega

/-- **C56** Training with `n` iterations and thinning `t` averages exactly `n / t` samples. -/
theorem training_takes_samples (p : Params) (n : Nat) (b t : Int) (ht : 1 ≤ t) (z : Nat → Nat)
    (rnd1 rnd2 : Nat → Rand) (st : State) (hrun : train p (newTrainPlan n b t) z rnd1 rnd2 = some st) :
    (st.count : Int) = (n : Int) / t := by
  unfold train at hrun
  simp only [bind] at hrun
  rcases h1 : sample p false (newTrainPlan n b t).burnIn ((newTrainPlan n b t).burnIn + 1) rnd1
    ⟨sumSuffStats p.w p.lens (zeroTables z), fun _ _ => 0, fun _ _ => 0, 0⟩ with _ | s
  · rw [h1] at hrun; cases hrun
  · rw [h1, Option.bind_some] at hrun
    have h2 := sample_count p false _ _ _ _ _ hrun
    rw [h2, (plan_fields n b t).1]
    have h3 := (plan_fields n b t).2.2.2 (by omega)
    rw [← h3]
    push_cast
    rfl

/-- **C56** The estimates are the sums over the sweeps after burn-in only: training is burn-in, which contributes nothing,
followed by sampling into empty sums. -/
theorem burn_in_not_sampled (p : Params) (plan : Plan) (z : Nat → Nat) (rnd1 rnd2 : Nat → Rand) (st : State)
    (hrun : train p plan z rnd1 rnd2 = some st) :
    ∃ t, sample p false (plan.iterations - plan.burnIn) plan.thin rnd2 ⟨t, fun _ _ => 0, fun _ _ => 0, 0⟩ = some st := by
  unfold train at hrun
  simp only [bind] at hrun
  rcases h1 : sample p false plan.burnIn (plan.burnIn + 1) rnd1
    ⟨sumSuffStats p.w p.lens (zeroTables z), fun _ _ => 0, fun _ _ => 0, 0⟩ with _ | s
  · rw [h1] at hrun; cases hrun
  · rw [h1, Option.bind_some] at hrun
    obtain ⟨h2, h3⟩ := sample_none p false _ _ (by omega) _ _ _ h1
    have h4 := sample_count p false _ _ _ _ _ h1
    rw [Nat.div_eq_of_lt (by omega)] at h4
    refine ⟨s.tables, ?_⟩
    rw [← hrun]
    congr 1
    rcases s with ⟨a, b, c, d⟩
    simp only at h2 h3 h4
    rw [h2, h3, h4]

/-- **C56** The averaged estimates are defined exactly when at least one sample was taken, `t ≤ n`. -/
theorem estimates_defined_iff (p : Params) (n : Nat) (b t : Int) (ht : 1 ≤ t) (z : Nat → Nat)
    (rnd1 rnd2 : Nat → Rand) (st : State) (hrun : train p (newTrainPlan n b t) z rnd1 rnd2 = some st) :
    ((topicDists st.topicSum st.count).isSome ↔ t ≤ n) ∧ ((wordDists ⟨st.vocabSum, st.count⟩).isSome ↔ t ≤ n) := by
  have h := training_takes_samples p n b t ht z rnd1 rnd2 st hrun
  have h0 : st.count = 0 ↔ ¬ t ≤ n := by
    rw [← Int.natCast_eq_zero, h]
    constructor
    · intro h1 h2
      have h3 : 1 ≤ (n : Int) / t := (Int.le_ediv_iff_mul_le (by omega)).mpr (by omega)
      omega
    · intro h1; exact Int.ediv_eq_zero_of_lt (by omega) (by omega)
  unfold topicDists wordDists
  by_cases hc : st.count = 0
  · simp [hc, h0.mp hc]
  · have : t ≤ n := by by_contra h1; exact hc (h0.mpr h1)
    simp [hc, this]

/-- **C56** With the default plan at least five iterations are needed for a single sample. -/
theorem default_plan (n : Nat) :
    let plan := newTrainPlan n (-1) (-1)
    plan.burnIn = n / 2 ∧ plan.iterations = n + n / 2 ∧
    plan.thin = (if n ≤ 100 then 5 else if n ≤ 1000 then 10 else 50) ∧ (plan.thin ≤ n ↔ 5 ≤ n) := by
  unfold newTrainPlan
  refine ⟨rfl, rfl, rfl, ?_⟩
  simp only [show ((-1 : Int) < 0) = True by simp, if_true]
  split
  · rfl
  · split <;> omega

/-! ## C57: distributions -/

theorem aSum_pos (p : Params) (hK : 0 < p.K) (hp : PositivePriors p) (d : Nat) (hd : d < p.lens.length) :
    0 < p.aSum d := by
  unfold Params.aSum
  exact Finset.sum_pos (fun k hk => hp.1 d k hd (Finset.mem_range.mp hk)) ⟨0, Finset.mem_range.mpr hK⟩

/-- what is known of the accumulated samples -/
structure SumsOk (p : Params) (st : State) : Prop where
  tpos : ∀ d k, d < p.lens.length → k < p.K → (if st.count = 0 then st.topicSum d k = 0 else 0 < st.topicSum d k)
  tsum : ∀ d, d < p.lens.length → ∑ k ∈ Finset.range p.K, st.topicSum d k = st.count
  vpos : ∀ k v, k < p.K → v < p.T → (if st.count = 0 then st.vocabSum k v = 0 else 0 < st.vocabSum k v)
  vsum : ∀ k, k < p.K → ∑ v ∈ Finset.range p.T, st.vocabSum k v = st.count

theorem takeSample_ok (p : Params) (hK : 0 < p.K) (hT : 0 < p.T) (hp : PositivePriors p) (hw : ValidWords p) (st : State)
    (h1 : DocOk p st.tables) (h2 : WordOk p st.tables) (hs : SumsOk p st) : SumsOk p (takeSample p false st) := by
  have hb := bSum_pos p hp hT
  have key1 : ∀ d k, d < p.lens.length → k < p.K →
      0 < ((st.tables.ndk d k : ℚ) + p.a d k) / ((p.lens.getD d 0 : ℚ) + p.aSum d) := by
    intro d k hd hk
    have a1 := aSum_pos p hK hp d hd
    have a2 := hp.1 d k hd hk
    have a3 : (0 : ℚ) ≤ (st.tables.ndk d k : ℚ) := by
      rw [h1.ndk]; exact_mod_cast cnt_nonneg _ _ _
    have a4 : (0 : ℚ) ≤ (p.lens.getD d 0 : ℚ) := Nat.cast_nonneg _
    exact div_pos (by linarith) (by linarith)
  have key2 : ∀ k v, k < p.K → v < p.T →
      0 < ((st.tables.nkv k v : ℚ) + p.b v) / ((st.tables.nk k : ℚ) + p.bSum) := by
    intro k v _ hv
    have a2 := hp.2 v hv
    have a3 : (0 : ℚ) ≤ (st.tables.nkv k v : ℚ) := by rw [h2.nkv]; exact_mod_cast cnt_nonneg _ _ _
    have a4 : (0 : ℚ) ≤ (st.tables.nk k : ℚ) := by rw [h2.nk]; exact_mod_cast cnt_nonneg _ _ _
    exact div_pos (by linarith) (by linarith)
  refine ⟨?_, ?_, ?_, ?_⟩
  · intro d k hd hk
    have := hs.tpos d k hd hk
    have h3 := key1 d k hd hk
    simp only [takeSample, Nat.add_eq_zero_iff, one_ne_zero, and_false, if_false]
    split at this <;> linarith
  · intro d hd
    have a1 := aSum_pos p hK hp d hd
    have a4 : (0 : ℚ) ≤ (p.lens.getD d 0 : ℚ) := Nat.cast_nonneg _
    simp only [takeSample]
    rw [Finset.sum_add_distrib, hs.tsum d hd, ← Finset.sum_div, Finset.sum_add_distrib]
    have e : ∑ k ∈ Finset.range p.K, (st.tables.ndk d k : ℚ) = (p.lens.getD d 0 : ℚ) := by
      exact_mod_cast docOk_sum p st.tables h1 d
    rw [e, show ∑ k ∈ Finset.range p.K, p.a d k = p.aSum d from rfl, div_self (by linarith)]
    push_cast; rfl
  · intro k v hk hv
    have := hs.vpos k v hk hv
    have h3 := key2 k v hk hv
    simp only [takeSample, Nat.add_eq_zero_iff, one_ne_zero, and_false, if_false, Bool.false_eq_true]
    split at this <;> linarith
  · intro k hk
    have a4 : (0 : ℚ) ≤ (st.tables.nk k : ℚ) := by rw [h2.nk]; exact_mod_cast cnt_nonneg _ _ _
    simp only [takeSample, if_false, Bool.false_eq_true]
    rw [Finset.sum_add_distrib, hs.vsum k hk, ← Finset.sum_div, Finset.sum_add_distrib]
    have e : ∑ v ∈ Finset.range p.T, (st.tables.nkv k v : ℚ) = (st.tables.nk k : ℚ) := by
      exact_mod_cast wordOk_sum p hw st.tables h2 k
    rw [e, show ∑ v ∈ Finset.range p.T, p.b v = p.bSum from rfl, div_self (by linarith)]
    push_cast; rfl

/-- **C57** After at least one sample each document's topic estimate and each topic's word estimate are strictly positive
and sum to one. -/
theorem estimates_are_distributions (p : Params) (hK0 : 0 < p.K) (hK : p.K ≤ 256) (hT : 0 < p.T)
    (hp : PositivePriors p) (hw : ValidWords p) (plan : Plan) (z : Nat → Nat) (hz : ValidTopics p z)
    (rnd1 rnd2 : Nat → Rand) (st : State) (hrun : train p plan z rnd1 rnd2 = some st) (hc : st.count ≠ 0) :
    ∃ θ φ, topicDists st.topicSum st.count = some θ ∧ wordDists ⟨st.vocabSum, st.count⟩ = some φ ∧
      (∀ d, d < p.lens.length → (∀ k, k < p.K → 0 < θ d k) ∧ ∑ k ∈ Finset.range p.K, θ d k = 1) ∧
      (∀ k, k < p.K → (∀ v, v < p.T → 0 < φ k v) ∧ ∑ v ∈ Finset.range p.T, φ k v = 1) := by
  have hsums : SumsOk p st := by
    unfold train at hrun
    simp only [bind] at hrun
    rcases h1 : sample p false plan.burnIn (plan.burnIn + 1) rnd1
      ⟨sumSuffStats p.w p.lens (zeroTables z), fun _ _ => 0, fun _ _ => 0, 0⟩ with _ | s
    · rw [h1] at hrun; cases hrun
    · rw [h1, Option.bind_some] at hrun
      obtain ⟨h2, h3⟩ := sample_none p false _ _ (by omega) _ _ _ h1
      have hok := sample_ok p hK _ _ _ _ _ (init_ok p z hz) h1
      have := sample_inv p false plan.thin rnd2 s
        (fun _ s => (DocOk p s.tables ∧ WordOk p s.tables) ∧ SumsOk p s) ⟨hok, ?_⟩ ?_ _ st hrun
      · exact this.2
      · refine ⟨?_, ?_, ?_, ?_⟩
        · intro d k _ _; simp [h2]
        · intro d _; simp [h2]
        · intro d k _ _; simp [h3]
        · intro d _; simp [h3]
      · intro n s t ⟨hs1, hs2⟩ ht
        have hok' := sweep_ok p hK (rnd2 n) s.tables t hs1 (by simpa using ht)
        have hs' : SumsOk p { s with tables := t } := ⟨hs2.tpos, hs2.tsum, hs2.vpos, hs2.vsum⟩
        split
        · exact ⟨hok', takeSample_ok p hK0 hT hp hw { s with tables := t } hok'.1 hok'.2 hs'⟩
        · exact ⟨hok', hs'⟩
  have hn : (0 : ℚ) < (st.count : ℚ) := by exact_mod_cast Nat.pos_of_ne_zero hc
  refine ⟨_, _, if_neg hc, if_neg hc, ?_, ?_⟩
  · intro d hd
    refine ⟨fun k hk => ?_, ?_⟩
    · have := hsums.tpos d k hd hk
      rw [if_neg hc] at this
      exact div_pos this hn
    · rw [← Finset.sum_div, hsums.tsum d hd, div_self hn.ne']
  · intro k hk
    refine ⟨fun v hv => ?_, ?_⟩
    · have := hsums.vpos k v hk hv
      rw [if_neg hc] at this
      exact div_pos this hn
    · simp only
      rw [← Finset.sum_div, hsums.vsum k hk, div_self hn.ne']

/-! ## C58: the model after a query -/

theorem query_result (p : Params) (hK : p.K ≤ 256) (m m' : Model) (plan : Plan) (z : Nat → Nat) (hz : ValidTopics p z)
    (rnd1 rnd2 : Nat → Rand) (st : State) (hrun : query p m plan z rnd1 rnd2 = some (m', st)) :
    m'.vocabSum = m.vocabSum ∧ m'.numSamples = (plan.iterations - plan.burnIn) / plan.thin ∧ m.numSamples ≠ 0 := by
  unfold query at hrun
  simp only [bind] at hrun
  rcases hφ : wordDists m with _ | φ
  · rw [hφ] at hrun; cases hrun
  rw [hφ, Option.bind_some] at hrun
  generalize hq : ({ p with b := fun _ => 0 } : Params) = q at hrun
  generalize hs0 : (⟨sumSuffStats p.w p.lens ⟨z, fun _ _ => 0, fun k v => ⌊φ k v * 1000000⌋,
    fun k => ∑ v ∈ Finset.range p.T, ⌊φ k v * 1000000⌋⟩, fun _ _ => 0, m.vocabSum, 0⟩ : State) = s0 at hrun
  have hqK : q.K ≤ 256 := by rw [← hq]; exact hK
  have hz0 : ValidTopics q s0.tables.z := by
    rw [← hq, ← hs0, sumSuffStats_eq]; exact hz
  have hd0 : ∀ d k, s0.tables.ndk d k = count q.lens (fun d' n => d' = d ∧ s0.tables.z n = k) := by
    intro d k
    rw [← hq, ← hs0, sumSuffStats_eq]
    simp only [zero_add]
    exact cnt_eq_count _ _ _ _ (fun d n => by simp)
  rcases h1 : sample q true plan.burnIn (plan.burnIn + 1) rnd1 s0 with _ | s1
  · rw [h1] at hrun; cases hrun
  rw [h1, Option.bind_some] at hrun
  rcases h2 : sample q true (plan.iterations - plan.burnIn) plan.thin rnd2 s1 with _ | s2
  · rw [h2] at hrun; cases hrun
  rw [h2, Option.bind_some] at hrun
  have he := Option.some.inj hrun
  have a1 := query_sampling_leaves_model q hqK _ _ _ s0 s1 hz0 hd0 h1
  have a2 := query_sampling_leaves_model q hqK _ _ _ s1 s2 a1.2.2.2.1 a1.2.2.2.2 h2
  have a3 := sample_count q true _ _ _ _ _ h2
  refine ⟨?_, ?_, ?_⟩
  · rw [← (Prod.mk.inj he).1]
    simp only
    rw [a2.2.2.1, a1.2.2.1, ← hs0]
  · rw [← (Prod.mk.inj he).1]
    exact a3
  · intro h0
    unfold wordDists at hφ
    rw [if_pos h0] at hφ
    cases hφ

/-- **C58, exact behaviour.** The returned model's word distributions are those of the queried model, times the number of
samples of training over the number of samples of the query; they are undefined if the query takes no sample. -/
theorem query_rescales_word_dists (p : Params) (hK : p.K ≤ 256) (m m' : Model) (plan : Plan) (z : Nat → Nat)
    (hz : ValidTopics p z) (rnd1 rnd2 : Nat → Rand) (st : State)
    (hrun : query p m plan z rnd1 rnd2 = some (m', st)) :
    let n := (plan.iterations - plan.burnIn) / plan.thin
    (n = 0 → wordDists m' = none) ∧
    (n ≠ 0 → ∃ φ φ', wordDists m = some φ ∧ wordDists m' = some φ' ∧
      ∀ k v, φ' k v = φ k v * ((m.numSamples : ℚ) / n)) := by
  obtain ⟨h1, h2, h3⟩ := query_result p hK m m' plan z hz rnd1 rnd2 st hrun
  simp only
  refine ⟨fun h => ?_, fun h => ⟨_, _, if_neg h3, if_neg (by rw [h2]; exact h), ?_⟩⟩
  · unfold wordDists; rw [if_pos (by rw [h2]; exact h)]
  · intro k v
    rw [h1, h2]
    have hm : ((m.numSamples : Nat) : ℚ) ≠ 0 := by exact_mod_cast h3
    field_simp

/-- **C58 (partial)** Word distributions are preserved exactly when the query takes as many samples as training did.
Missing: all other plans, for which the claim is false. -/
theorem query_preserves_word_dists_partial (p : Params) (hK : p.K ≤ 256) (m m' : Model) (plan : Plan) (z : Nat → Nat)
    (hz : ValidTopics p z) (rnd1 rnd2 : Nat → Rand) (st : State)
    (hrun : query p m plan z rnd1 rnd2 = some (m', st)) (k v : Nat) (hkv : m.vocabSum k v ≠ 0) :
    (∃ φ φ', wordDists m = some φ ∧ wordDists m' = some φ' ∧ φ' k v = φ k v) ↔
      m.numSamples = (plan.iterations - plan.burnIn) / plan.thin := by
  obtain ⟨h1, h2, h3⟩ := query_result p hK m m' plan z hz rnd1 rnd2 st hrun
  constructor
  · rintro ⟨φ, φ', a, b, c⟩
    unfold wordDists at a b
    by_cases h : m'.numSamples = 0
    · rw [if_pos h] at b; cases b
    rw [if_neg h3] at a
    rw [if_neg h] at b
    rw [← Option.some.inj a, ← Option.some.inj b] at c
    simp only at c
    rw [h1] at c
    have hm : ((m.numSamples : Nat) : ℚ) ≠ 0 := by exact_mod_cast h3
    have hm' : ((m'.numSamples : Nat) : ℚ) ≠ 0 := by exact_mod_cast h
    field_simp at c
    rw [← h2]
    exact_mod_cast c
  · intro h
    have h' : m'.numSamples ≠ 0 := by rw [h2, ← h]; exact h3
    refine ⟨_, _, if_neg h3, if_neg h', ?_⟩
    rw [h1, h2, h]

/-! ## A concrete corpus -/

/-- Two documents of lengths 3 and 1, two topics, three words. -/
def exP : Params := ⟨2, 3, [3, 1], fun n => [0, 0, 2, 1].getD n 0, fun _ _ => 1 / 2, fun _ => 1 / 10⟩

def exRand : Nat → Rand := fun i => ⟨fun d => 1000000000 + d, fun n => (n + 1) * 400000000 + i⟩

theorem exP_priors : PositivePriors exP := ⟨fun _ _ _ _ => by simp [exP], fun _ _ => by simp [exP]⟩

theorem exP_words : ValidWords exP := by
  intro n hn
  have : n < 4 := hn
  have : n = 0 ∨ n = 1 ∨ n = 2 ∨ n = 3 := by omega
  rcases this with rfl | rfl | rfl | rfl <;> decide

theorem exP_topics : ValidTopics exP (fun n => n % 2) := fun n _ => Nat.mod_lt _ (by decide)

theorem exP_rand (i : Nat) (h : i < 100) : GoodRand exP (exRand i) := by
  intro n hn
  have : n < 4 := hn
  refine ⟨?_, ?_⟩
  · simp only [exRand]; omega
  · simp only [exRand, randMax]; omega

/-- a training run with 10 iterations, 3 of burn-in, thinning 4: two samples, with all conclusions -/
example : ∃ st θ φ, train exP (newTrainPlan 10 3 4) (fun n => n % 2) exRand exRand = some st ∧ st.count = 2 ∧
    Consistent exP st.tables ∧ topicDists st.topicSum st.count = some θ ∧
    wordDists ⟨st.vocabSum, st.count⟩ = some φ ∧ ∑ k ∈ Finset.range 2, θ 1 k = 1 := by
  obtain ⟨st, hst⟩ := training_returns exP (by decide) exP_priors exP_words (newTrainPlan 10 3 4) _ exP_topics
    exRand exRand (fun i hi => exP_rand i (by have : i < 3 := hi; omega))
    (fun i hi => exP_rand i (by have : i < 10 := hi; omega))
  have hc := training_takes_samples exP 10 3 4 (by decide) _ _ _ st hst
  have hc' : st.count = 2 := by
    have : ((10 : Nat) : Int) / 4 = 2 := by decide
    omega
  obtain ⟨θ, φ, h1, h2, h3, _⟩ := estimates_are_distributions exP (by decide) (by decide) (by decide) exP_priors
    exP_words _ _ exP_topics _ _ st hst (by omega)
  exact ⟨st, θ, φ, hst, hc', (training_tables_consistent exP (by decide) _ _ exP_topics _ _ st hst).1, h1, h2,
    (h3 1 (by decide)).2⟩

/-- a queried model: two topics over three words, from four samples -/
def exModel : Model := ⟨fun k v => if (k + v) % 2 = 0 then 2 else 1, 4⟩

/-- **C58, violated.** A query taking one sample from a model of four multiplies its word distributions by four. -/
theorem query_changes_word_dists :
    ∃ m' st φ φ', query exP exModel ⟨3, 2, 1⟩ (fun n => n % 2) exRand exRand = some (m', st) ∧
      wordDists exModel = some φ ∧ wordDists m' = some φ' ∧ φ 0 0 = 1 / 2 ∧ φ' 0 0 = 2 := by
  have hsome : (query exP exModel ⟨3, 2, 1⟩ (fun n => n % 2) exRand exRand).isSome = true := by decide +kernel
  obtain ⟨⟨m', st⟩, h⟩ := Option.isSome_iff_exists.mp hsome
  obtain ⟨_, h2⟩ := query_rescales_word_dists exP (by decide) exModel m' ⟨3, 2, 1⟩ _ exP_topics _ _ st h
  obtain ⟨φ, φ', a, b, c⟩ := h2 (by decide)
  refine ⟨m', st, φ, φ', h, a, b, ?_⟩
  have : φ 0 0 = 1 / 2 := by
    have := Option.some.inj (a.symm.trans (if_neg (by decide)))
    rw [this]; norm_num [exModel]
  refine ⟨this, ?_⟩
  rw [c, this]
  norm_num [exModel]

/-- C53: a run of the query sampler -/
example : (sample exP true 5 2 exRand
    ⟨sumSuffStats exP.w exP.lens (zeroTables (fun n => n % 2)), fun _ _ => 0, fun _ _ => 0, 0⟩).isSome = true := by
  decide +kernel

end Verif.Props.Gibbs
