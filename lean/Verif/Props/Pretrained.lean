import Mathlib.Analysis.SpecialFunctions.Log.Basic
import Mathlib.Algebra.BigOperators.Field
import Mathlib.Algebra.Order.BigOperators.Group.Finset
import Mathlib.Tactic.FieldSimp
import Mathlib.Tactic.NormNum
import Mathlib.Tactic.Linarith
import Verif.Model.Pretrained

/-!
# Properties of topic models trained before (C261–C264)
-/

namespace Verif.Props.Pretrained

open Verif Verif.Pretrained

/-! ## C261: loading -/

theorem all_eq_nodup (x : Nat) (b : List Nat) (hb : b.Nodup) (hne : b ≠ []) (h : ∀ y ∈ b, y = x) : b = [x] := by
  cases b with
  | nil => exact absurd rfl hne
  | cons y b =>
    have hy := h y List.mem_cons_self
    cases b with
    | nil => rw [hy]
    | cons z b =>
      have hz := h z (List.mem_cons_of_mem _ List.mem_cons_self)
      rw [List.nodup_cons] at hb
      exact absurd (by rw [hy, hz]; exact List.mem_cons_self) hb.1

/-- **C261.** A saved model is used if and only if it was trained on the same documents in the same order, and is then used as it
was saved; otherwise there is an error.  The order of a data set names no document twice. -/
theorem load_iff {α : Type} (saved desired : List Nat) (hs : saved.Nodup) (hd : desired.Nodup) (hs0 : saved ≠ []) (hd0 : desired ≠ [])
    (m : α) : load saved desired m = if saved = desired then .ok m else .error .valueError := by
  have key : allEqual saved desired = true ↔ saved = desired := by
    unfold allEqual
    split
    · simp
    · rename_i hlen
      have hne : saved ≠ desired := fun h => hlen (by rw [h])
      constructor
      · intro h
        split at h
        · rename_i x
          exact absurd (all_eq_nodup x desired hd hd0 (by simpa using h)).symm hne
        · rename_i y _
          exact absurd (all_eq_nodup y saved hs hs0 (by simpa using h)) hne
        · cases h
      · exact fun h => absurd h hne
  unfold load
  by_cases h : saved = desired
  · rw [if_pos (key.mpr h), if_pos h]
  · rw [if_neg (fun hc => h (key.mp hc)), if_neg h]

example : load [2, 0, 1] [2, 0, 1] "model" = .ok "model" := load_iff [2, 0, 1] [2, 0, 1] (by decide) (by decide) (by decide) (by decide) _
example : load [2, 0, 1] [0, 1, 2] "model" = .error .valueError :=
  load_iff [2, 0, 1] [0, 1, 2] (by decide) (by decide) (by decide) (by decide) _

/-! ## C262: use in the evaluations -/

theorem svbp_ne (desc : String) : ("lda/svbp/" ++ desc) ≠ "lda/gibbs" ∧ ("lda/svbp/" ++ desc) ≠ "lda/vbp" := by
  constructor
  all_goals
    intro h
    have h1 := congrArg (fun s => s.toList.take 5) h
    simp only [String.toList_append] at h1
    rw [List.take_append_of_le_length (by decide)] at h1
    revert h1
    decide

theorem startWith_eq (desc : String) (k : Kind) (r : Rec) :
    startWith desc k r = match k, r with
      | .vb, .lro | .vb, .sim | .gibbs, .mtm3 => .ok true
      | .vb, .mtm3 => .error .valueError
      | .gibbs, .lro | .gibbs, .sim => .error .attributeError := by
  cases k <;> cases r <;> rfl

/-- **C262 (violation).** A saved model is never used in the evaluation that splits the links: it is ignored or the evaluation ends in
an error. -/
theorem link_split_violation (k : Kind) (r : Rec) : linkSplit (some k) r ≠ .ok true := by
  cases k <;> cases r <;> simp [linkSplit, modelFields, attrs, bind, Except.bind]

/-- **C262.** How the evaluation that splits the links ends: with a saved sampler always in an error; with a saved variational model in an
error for the recommender that is given it, and for the others the model is ignored; without a saved model it is not used. -/
theorem link_split_exact (r : Rec) :
    linkSplit (some .gibbs) r = .error .valueError
      ∧ linkSplit (some .vb) r = (if r = .lro then .error .attributeError else .ok false)
      ∧ linkSplit none r = .ok false := by
  cases r <;> simp [linkSplit, modelFields, attrs, bind, Except.bind]

/-- **C262 (violation).** The evaluation on documents with a feature fails without a saved model for each recommender that uses one,
and with a model of the variational implementation. -/
theorem outsample_violation (desc : String) (r : Rec) :
    outsample desc none r = .error .typeError ∧ outsample desc (some .vb) r = .error .valueError := by
  refine ⟨rfl, ?_⟩
  unfold outsample subset trainedName
  simp only
  rw [if_neg (not_or.mpr (svbp_ne desc))]
  rfl

/-- **C262.** Where a saved model is used: in the evaluation on the training documents, a variational one by the two recommenders based
on the variational implementation, and one from sampling by the matrix model; in that on other documents, the latter only. -/
theorem used_partial (desc : String) (k : Kind) (r : Rec) :
    (insample desc (some k) r = .ok true ↔ (k = .vb ∧ r ≠ .mtm3) ∨ (k = .gibbs ∧ r = .mtm3))
      ∧ (outsample desc (some k) r = .ok true ↔ k = .gibbs ∧ r = .mtm3) ∧ insample desc none r = .ok false := by
  refine ⟨?_, ?_, rfl⟩
  · show startWith desc k r = .ok true ↔ _
    rw [startWith_eq]
    cases k <;> cases r <;> simp
  · cases k with
    | vb =>
      rw [(outsample_violation desc r).2]
      simp
    | gibbs =>
      show startWith desc .gibbs r = .ok true ↔ _
      rw [startWith_eq]
      cases r <;> simp

/-- **C262.** The topics passed on are those of the training documents, in their order. -/
theorem prune_rows {α : Type} (rows : List α) (indices : List Nat) (out : List α) (h : prune rows indices = .ok out) :
    out.map some = indices.map fun i => rows[i]? := by
  induction indices generalizing out with
  | nil =>
    cases h
    rfl
  | cons i is ih =>
    unfold prune at h
    rw [List.mapM_cons] at h
    cases hi : rows[i]? with
    | none =>
      rw [hi] at h
      cases h
    | some r =>
      rw [hi] at h
      cases hr : prune rows is with
      | error e =>
        unfold prune at hr
        simp only [bind, Except.bind, hr] at h
        cases h
      | ok rs =>
        have := ih rs hr
        unfold prune at hr
        simp only [bind, Except.bind, hr, pure, Except.pure] at h
        cases h
        rw [List.map_cons, List.map_cons, this, hi]

example : insample "batch" (some .vb) .lro = .ok true := (used_partial "batch" .vb .lro).1.mpr (by decide)
example : outsample "batch" (some .gibbs) .mtm3 = .ok true := (used_partial "batch" .gibbs .mtm3).2.1.mpr (by decide)
example : [some 7, some 5] = [2, 0].map fun i => [5, 6, 7][i]? := prune_rows [5, 6, 7] [2, 0] [7, 5] rfl
example : linkSplit (some .vb) .lro ≠ .ok true := link_split_violation .vb .lro

/-! ## C263: the start of the matrix topic model -/

/-- The topics that a row of scores stands for -/
noncomputable def softmax (K : Nat) (scores : Nat → ℝ) (k : Nat) : ℝ := Real.exp (scores k) / ∑ j ∈ Finset.range K, Real.exp (scores j)

/-- Distributions over the topics, without zeros -/
def Proper (D K : Nat) (topics : Nat → Nat → ℝ) : Prop :=
  ∀ d, d < D → (∀ k, k < K → 0 < topics d k) ∧ ∑ k ∈ Finset.range K, topics d k = 1

theorem overall_neg (D K : Nat) (hD : 0 < D) (hK : 2 ≤ K) (topics : Nat → Nat → ℝ) (h : Proper D K topics) : overall D K topics < 0 := by
  unfold overall
  have hlt : ∀ d, d < D → ∀ k, k < K → topics d k < 1 := by
    intro d hd k hk
    obtain ⟨hp, hs⟩ := h d hd
    rw [← hs]
    obtain ⟨j, hj, hne⟩ : ∃ j, j < K ∧ j ≠ k := by
      by_cases h0 : k = 0
      · exact ⟨1, by omega, by omega⟩
      · exact ⟨0, by omega, by omega⟩
    exact Finset.single_lt_sum hne (Finset.mem_range.mpr hk) (Finset.mem_range.mpr hj) (hp j hj)
      (fun i hi _ => (hp i (Finset.mem_range.mp hi)).le)
  refine div_neg_of_neg_of_pos ?_ (by
    have : (0 : ℝ) < D := by exact_mod_cast hD
    have : (0 : ℝ) < K := by exact_mod_cast (by omega : 0 < K)
    positivity)
  refine Finset.sum_neg (fun d hd => Finset.sum_neg (fun k hk => ?_) ⟨0, Finset.mem_range.mpr (by omega)⟩) ⟨0, Finset.mem_range.mpr hD⟩
  have hd := Finset.mem_range.mp hd
  have hk := Finset.mem_range.mp hk
  exact Real.log_neg ((h d hd).1 k hk) (hlt d hd k hk)

/-- **C263.** Started from the topics of a topic model, the matrix topic model describes every document by the same topics, has positive
variances, and the scores of its documents as targets of links differ from those as origins by at most a variance. -/
theorem start_topics (D K : Nat) (hD : 0 < D) (hK : 2 ≤ K) (topics noise : Nat → Nat → ℝ) (h : Proper D K topics)
    (hn : ∀ d k, 0 ≤ noise d k ∧ noise d k < 1) (d : Nat) (hd : d < D) (k : Nat) (hk : k < K) :
    softmax K ((fromLda D K topics noise).outMeans d) k = topics d k ∧ 0 < (fromLda D K topics noise).outVarcs d k
      ∧ 0 < (fromLda D K topics noise).inVarcs d k
      ∧ |(fromLda D K topics noise).inMeans d k - (fromLda D K topics noise).outMeans d k| ≤ (fromLda D K topics noise).outVarcs d k := by
  have hm := overall_neg D K hD hK topics h
  simp only [fromLda]
  generalize overall D K topics = m at hm
  have hv : 0 < |1 * m / 10| := abs_pos.mpr (by linarith)
  refine ⟨?_, hv, hv, ?_⟩
  · obtain ⟨hp, hs⟩ := h d hd
    unfold softmax
    have he : ∀ j ∈ Finset.range K, Real.exp (Real.log (topics d j) - m) = topics d j * Real.exp (-m) := by
      intro j hj
      rw [sub_eq_add_neg, Real.exp_add, Real.exp_log (hp j (Finset.mem_range.mp hj))]
    rw [Finset.sum_congr rfl he, he k (Finset.mem_range.mpr hk), ← Finset.sum_mul, hs, one_mul]
    exact mul_div_cancel_right₀ _ (Real.exp_pos _).ne'
  · rw [add_sub_cancel_left, abs_mul, one_mul]
    obtain ⟨h0, h1⟩ := hn d k
    rw [abs_of_nonneg h0]
    exact mul_le_of_le_one_right (abs_nonneg _) h1.le

/-- **C263.** The mean that is put into the model is the mean of the scores, and adds up to zero. -/
theorem start_mean (D K : Nat) (hD : 0 < D) (hK : 0 < K) (topics noise : Nat → Nat → ℝ) :
    (∀ k, (fromLda D K topics noise).topicMean k * D = ∑ d ∈ Finset.range D, (fromLda D K topics noise).outMeans d k)
      ∧ ∑ k ∈ Finset.range K, (fromLda D K topics noise).topicMean k = 0 := by
  have hD' : (D : ℝ) ≠ 0 := by exact_mod_cast hD.ne'
  have hK' : (K : ℝ) ≠ 0 := by exact_mod_cast hK.ne'
  refine ⟨fun k => div_mul_cancel₀ _ hD', ?_⟩
  simp only [fromLda]
  rw [← Finset.sum_div, Finset.sum_comm]
  have : ∑ d ∈ Finset.range D, ∑ k ∈ Finset.range K, (Real.log (topics d k) - overall D K topics) = 0 := by
    simp only [Finset.sum_sub_distrib, Finset.sum_const, Finset.card_range, nsmul_eq_mul]
    unfold overall
    field_simp
    ring
  rw [this, zero_div]

/-- Topics of two documents, for the examples -/
noncomputable def exTopics (d k : Nat) : ℝ := if d = k then 3 / 4 else 1 / 4

theorem exProper : Proper 2 2 exTopics := by
  intro d hd
  refine ⟨fun k _ => by unfold exTopics; split <;> norm_num, ?_⟩
  have : d = 0 ∨ d = 1 := by omega
  rcases this with rfl | rfl <;> simp [exTopics, Finset.sum_range_succ] <;> norm_num

example : softmax 2 ((fromLda 2 2 exTopics fun _ _ => 1 / 2).outMeans 1) 1 = 3 / 4 := by
  rw [(start_topics 2 2 (by norm_num) le_rfl exTopics (fun _ _ => 1 / 2) exProper (fun _ _ => by norm_num) 1 (by norm_num) 1 (by norm_num)).1]
  simp [exTopics]

example : ∑ k ∈ Finset.range 2, (fromLda 2 2 exTopics fun _ _ => 1 / 2).topicMean k = 0 :=
  (start_mean 2 2 (by norm_num) (by norm_num) exTopics _).2

/-! ## C264: fresh query states -/

/-- **C264 (violation).** A fresh query state of the variational implementation made with debugging on is marked as processed, and the
recommender by similarity then uses its random topics without training. -/
theorem fresh_violation : freshProcessed .vb true = true ∧ simTrains (some (freshProcessed .vb true)) = false := ⟨rfl, rfl⟩

/-- **C264.** Without debugging, and in the other implementation always, it is not, and the topics are trained, as they are if none are given. -/
theorem fresh_partial (k : Kind) (debug : Bool) (h : k = .gibbs ∨ debug = false) :
    freshProcessed k debug = false ∧ simTrains (some (freshProcessed k debug)) = true ∧ simTrains none = true := by
  rcases h with rfl | rfl
  · exact ⟨rfl, rfl, rfl⟩
  · cases k <;> exact ⟨rfl, rfl, rfl⟩

example : simTrains (some (freshProcessed .vb false)) = true := (fresh_partial .vb false (.inr rfl)).2.1

end Verif.Props.Pretrained
