import Mathlib.Algebra.Order.BigOperators.Ring.Finset
import Mathlib.Analysis.SpecialFunctions.Log.Basic
import Mathlib.Tactic.Positivity
import Mathlib.Tactic.Linarith
import Mathlib.Tactic.NormNum
import Mathlib.Tactic.FieldSimp
import Verif.Model.LinkPred

/-!
# Link prediction (C80, C119–C122)
-/

namespace Verif.Props.LinkPred

open Verif Verif.LinkPred

/-! ## Minima and kept links, for any score -/

/-- `m` is the smallest element of the list. -/
def IsMin (m : ℝ) (l : List ℝ) : Prop := m ∈ l ∧ ∀ x ∈ l, m ≤ x

theorem pyMin_some (x : ℝ) (xs : List ℝ) : ∃ m, pyMin (some x) (xs.map some) = some m ∧ IsMin m (x :: xs) := by
  induction xs generalizing x with
  | nil => exact ⟨x, rfl, by simp, by simp⟩
  | cons y ys ih =>
    unfold pyMin at ih ⊢
    rw [List.map_cons, List.foldl_cons]
    by_cases h : y < x
    · rw [if_pos (show Lt (some y) (some x) from h)]
      obtain ⟨m, h1, h2, h3⟩ := ih y
      refine ⟨m, h1, by simp only [List.mem_cons] at h2 ⊢; tauto, ?_⟩
      intro z hz
      have hy := h3 y (by simp)
      rcases List.mem_cons.mp hz with rfl | hz
      · linarith
      · exact h3 z hz
    · rw [if_neg (show ¬ Lt (some y) (some x) from h)]
      obtain ⟨m, h1, h2, h3⟩ := ih x
      refine ⟨m, h1, by simp only [List.mem_cons] at h2 ⊢; tauto, ?_⟩
      intro z hz
      have hy := h3 x (by simp)
      rcases List.mem_cons.mp hz with rfl | hz
      · exact hy
      · rcases List.mem_cons.mp hz with rfl | hz
        · linarith
        · exact h3 z (by simp [hz])

theorem pyMin_none (xs : List Fl) : pyMin none xs = none := by
  unfold pyMin
  induction xs with
  | nil => rfl
  | cons y ys ih =>
    rw [List.foldl_cons, if_neg (by cases y <;> exact not_false)]
    exact ih

theorem relevant_mem (probs : Nat → Fl) (D : Nat) (m : Fl) (eps : ℝ) (c : Nat) :
    c ∈ relevant probs D m eps ↔ c < D ∧ Ge (probs c) (m.map (· - eps)) := by
  unfold relevant
  classical
  rw [List.mem_filter, List.mem_range, decide_eq_true_iff]

/-- What `link_probs` returns. -/
theorem linkProbs_mem (probs : Nat → Nat → Fl) (D : Nat) (eps : ℝ) (subset : List Nat) (mins : List Fl)
    (hl : subset.length ≤ mins.length) :
    ∃ out, linkProbs probs D eps subset mins = .ok out
      ∧ ∀ i c v, (i, c, v) ∈ out ↔ ∃ src m, subset[i]? = some src ∧ mins[i]? = some m ∧ c < D
          ∧ Ge (probs src c) (m.map (· - eps)) ∧ v = probs src c := by
  have gen : ∀ (l : List (Nat × Nat)) (acc : List (Nat × Nat × Fl)), (∀ p ∈ l, p.2 < mins.length) →
      ∃ out, l.foldlM (predictRow probs D eps mins) acc = .ok out
        ∧ ∀ i c v, (i, c, v) ∈ out ↔ (i, c, v) ∈ acc ∨ ∃ src m, (src, i) ∈ l ∧ mins[i]? = some m ∧ c < D
            ∧ Ge (probs src c) (m.map (· - eps)) ∧ v = probs src c := by
    intro l
    induction l with
    | nil => intro acc _; exact ⟨acc, rfl, fun i c v => by simp⟩
    | cons p l ih =>
      intro acc hp
      have hlt := hp p (by simp)
      have hstep : predictRow probs D eps mins acc p = .ok (acc ++ (relevant (probs p.1) D mins[p.2] eps).map (fun c => (p.2, c, probs p.1 c))) := by
        unfold predictRow
        rw [List.getElem?_eq_getElem hlt]
      obtain ⟨out, h1, h2⟩ := ih (acc ++ (relevant (probs p.1) D mins[p.2] eps).map (fun c => (p.2, c, probs p.1 c)))
        (fun q hq => hp q (by simp [hq]))
      refine ⟨out, ?_, ?_⟩
      · rw [List.foldlM_cons, hstep]
        exact h1
      · intro i c v
        rw [h2, List.mem_append, List.mem_map, or_assoc]
        refine or_congr Iff.rfl ?_
        constructor
        · rintro (⟨c', hc', he⟩ | ⟨src, m, hm, hrest⟩)
          · rw [relevant_mem] at hc'
            simp only [Prod.mk.injEq] at he
            obtain ⟨rfl, rfl, rfl⟩ := he
            exact ⟨p.1, mins[p.2], by simp, List.getElem?_eq_getElem hlt, hc'.1, hc'.2, rfl⟩
          · exact ⟨src, m, by simp [hm], hrest⟩
        · rintro ⟨src, m, hm, h3, h4, h5, h6⟩
          rcases List.mem_cons.mp hm with hm | hm
          · left
            subst hm
            rw [List.getElem?_eq_getElem hlt, Option.some.injEq] at h3
            exact ⟨c, (relevant_mem ..).mpr ⟨h4, h3 ▸ h5⟩, by rw [h6]⟩
          · exact Or.inr ⟨src, m, hm, h3, h4, h5, h6⟩
  obtain ⟨out, h1, h2⟩ := gen subset.zipIdx [] (fun p hp => by
    have := List.mem_zipIdx hp
    omega)
  refine ⟨out, h1, fun i c v => ?_⟩
  rw [h2]
  simp only [List.not_mem_nil, false_or]
  constructor
  · rintro ⟨src, m, hm, hrest⟩
    exact ⟨src, m, by rwa [List.mk_mem_zipIdx_iff_getElem?] at hm, hrest⟩
  · rintro ⟨src, m, hm, hrest⟩
    exact ⟨src, m, by rwa [List.mk_mem_zipIdx_iff_getElem?], hrest⟩

/-- What the evaluation of links relies on: row `i` of the predictions belongs to the `i`-th document of the subset, contains
all its expected links with their scores, and otherwise only links whose scores are at least the smallest score of an
expected link, less `eps`. -/
structure Complete (score : Nat → Nat → ℝ) (links : Nat → List Nat) (D : Nat) (eps : ℝ) (subset : List Nat)
    (out : List (Nat × Nat × Fl)) : Prop where
  keeps : ∀ i src dst, subset[i]? = some src → dst ∈ links src → (i, dst, some (score src dst)) ∈ out
  sound : ∀ i c v, (i, c, v) ∈ out → ∃ src, subset[i]? = some src ∧ c < D ∧ v = some (score src c)
    ∧ (links src ≠ [] → ∃ dst ∈ links src, (∀ e ∈ links src, score src dst ≤ score src e) ∧ score src dst - eps ≤ score src c)
  functional : ∀ i c v v', (i, c, v) ∈ out → (i, c, v') ∈ out → v = v'

theorem complete_of_score (probs : Nat → Nat → Fl) (score : Nat → Nat → ℝ) (links : Nat → List Nat) (D : Nat) (eps dflt : ℝ)
    (heps : 0 ≤ eps) (subset : List Nat) (hs : ∀ src ∈ subset, ∀ dst, probs src dst = some (score src dst))
    (hl : ∀ src ∈ subset, ∀ dst ∈ links src, dst < D) :
    ∃ out, linkProbs probs D eps subset (minLinkProbs probs links dflt subset) = .ok out
      ∧ Complete score links D eps subset out := by
  obtain ⟨out, h1, h2⟩ := linkProbs_mem probs D eps subset (minLinkProbs probs links dflt subset) (by simp [minLinkProbs])
  have hmin : ∀ (i src : Nat), subset[i]? = some src → (minLinkProbs probs links dflt subset)[i]?
      = some (rowMin dflt ((links src).map (fun dst => some (score src dst)))) := by
    intro i src h
    unfold minLinkProbs
    rw [List.getElem?_map, h, Option.map_some]
    congr 2
    exact List.map_congr_left (fun dst _ => hs src (List.mem_of_getElem? h) dst)
  have hrow : ∀ src, links src ≠ [] → ∃ dst ∈ links src, (∀ e ∈ links src, score src dst ≤ score src e)
      ∧ rowMin dflt ((links src).map (fun dst => some (score src dst))) = some (score src dst) := by
    intro src hne
    obtain ⟨e, es, he⟩ := List.exists_cons_of_ne_nil hne
    obtain ⟨m, hm, hm2, hm3⟩ := pyMin_some (score src e) (es.map (score src))
    rw [← List.map_cons, ← he] at hm2 hm3
    obtain ⟨dst, hd, rfl⟩ := List.mem_map.mp hm2
    refine ⟨dst, hd, fun e' he' => hm3 _ (List.mem_map_of_mem he'), ?_⟩
    rw [he, List.map_cons]
    unfold rowMin
    rw [← hm, List.map_map]
    rfl
  refine ⟨out, h1, ?_, ?_, ?_⟩
  · intro i src dst hi hd
    have hmem := List.mem_of_getElem? hi
    obtain ⟨e, he, hle, hm⟩ := hrow src (by rintro h; rw [h] at hd; cases hd)
    rw [h2]
    refine ⟨src, _, hi, (hmin i src hi).trans (by rw [hm]), hl src hmem dst hd, ?_, (hs src hmem dst).symm⟩
    rw [hs src hmem]
    show score src e - eps ≤ score src dst
    linarith [hle dst hd]
  · intro i c v h
    obtain ⟨src, m, hi, hm, hc, hge, rfl⟩ := (h2 i c v).mp h
    have hmem := List.mem_of_getElem? hi
    refine ⟨src, hi, hc, hs src hmem c, fun hne => ?_⟩
    obtain ⟨dst, hd, hle, hrm⟩ := hrow src hne
    refine ⟨dst, hd, hle, ?_⟩
    rw [hmin i src hi, hrm, Option.some.injEq] at hm
    rw [← hm, hs src hmem] at hge
    exact hge
  · intro i c v v' h h'
    obtain ⟨src, m, hi, -, -, -, rfl⟩ := (h2 i c v).mp h
    obtain ⟨src', m', hi', -, -, -, rfl⟩ := (h2 i c v').mp h'
    rw [hi] at hi'
    cases hi'
    rfl

/-! ## The predictors (C80) -/

theorem lro_scores (K : Nat) (scale : ℝ) (tops offs : Nat → Nat → ℝ) : lroPair K scale tops offs = lroAll K scale tops offs := by
  funext src dst
  unfold lroPair lroAll
  simp only [mul_comm]

/-- **C80** for latent regression of offsets. -/
theorem lro_complete (K : Nat) (scale : ℝ) (tops offs : Nat → Nat → ℝ) (links : Nat → List Nat) (D : Nat) (subset : List Nat)
    (hl : ∀ src ∈ subset, ∀ dst ∈ links src, dst < D) :
    ∃ out, linkProbs (lroAll K scale tops offs) D (1 / 10 ^ 9) subset (minLinkProbs (lroPair K scale tops offs) links (-1) subset) = .ok out
      ∧ Complete (fun src dst => scale * ∑ k ∈ Finset.range K, tops src k * offs dst k) links D (1 / 10 ^ 9) subset out := by
  rw [← lro_scores]
  exact complete_of_score _ _ links D _ _ (by positivity) subset (fun _ _ _ => rfl) hl

/-- The similarity of two documents: `SQRT_TWO` over the distance of their representations, which is taken to be at least
`1E-30`. -/
noncomputable def ldaSimilarity (K : Nat) (src_reps dst_reps : Nat → Nat → ℝ) (src dst : Nat) : ℝ :=
  1414213562 / 10 ^ 9 / max (Real.sqrt (∑ k ∈ Finset.range K, (src_reps src k - dst_reps dst k) ^ 2)) (1 / 10 ^ 30)

theorem ldaPair_eq (K : Nat) (src_reps dst_reps : Nat → Nat → ℝ) (src dst : Nat) :
    ldaPair K src_reps dst_reps src dst = some (ldaSimilarity K src_reps dst_reps src dst) := by
  unfold ldaPair ldaSimilarity sqrtTwo
  simp only [sq_abs]

theorem ldaAll_eq (K : Nat) (src_reps dst_reps : Nat → Nat → ℝ) (src dst : Nat) :
    ldaAll K src_reps dst_reps src dst = some (ldaSimilarity K src_reps dst_reps src dst) := by
  unfold ldaAll ldaSimilarity sqrtTwo
  simp only [← pow_two]
  congr 2
  split
  · next h => rw [max_eq_right h.le]
  · next h => rw [max_eq_left (not_lt.mp h)]

/-- **C80** for the similarity of topics. -/
theorem lda_complete (K : Nat) (src_reps dst_reps : Nat → Nat → ℝ) (links : Nat → List Nat) (D : Nat) (subset : List Nat)
    (hl : ∀ src ∈ subset, ∀ dst ∈ links src, dst < D) :
    ∃ out, linkProbs (ldaAll K src_reps dst_reps) D (1 / 10 ^ 9) subset (minLinkProbs (ldaPair K src_reps dst_reps) links (-1) subset)
        = .ok out
      ∧ Complete (ldaSimilarity K src_reps dst_reps) links D (1 / 10 ^ 9) subset out := by
  have he : ldaPair K src_reps dst_reps = ldaAll K src_reps dst_reps := by
    funext src dst
    rw [ldaPair_eq, ldaAll_eq]
  rw [he]
  exact complete_of_score _ _ links D _ _ (by positivity) subset (fun _ _ _ => ldaAll_eq ..) hl

/-- **C80** for the relational topic model. -/
theorem rtm_complete (cdf : ℝ → ℝ) (K : Nat) (weights : Nat → ℝ) (means : Nat → Nat → ℝ) (links : Nat → List Nat) (D : Nat)
    (hl : ∀ src, src < D → ∀ dst ∈ links src, dst < D) :
    ∃ out, linkProbs (rtmScore cdf K weights means) D 0 (allDocs D) (rtmMins cdf K weights means links D) = .ok out
      ∧ Complete (fun d e => cdf (rtmArg K weights means d e)) links D 0 (allDocs D) out :=
  complete_of_score _ _ links D _ _ le_rfl (allDocs D) (fun _ _ _ => rfl) (fun src h => hl src (List.mem_range.mp h))

/-! ## TF-IDF -/

theorem rowNorm_sq (T : Nat) (reps : Nat → Nat → ℝ) (d : Nat) : rowNorm T reps d ^ 2 = ∑ t ∈ Finset.range T, reps d t ^ 2 := by
  unfold rowNorm
  rw [Real.sq_sqrt (Finset.sum_nonneg (fun t _ => abs_nonneg _))]
  exact Finset.sum_congr rfl (fun t _ => by rw [abs_of_nonneg (mul_self_nonneg _), pow_two])

theorem rowNorm_nonneg (T : Nat) (reps : Nat → Nat → ℝ) (d : Nat) : 0 ≤ rowNorm T reps d := Real.sqrt_nonneg _

/-- The norm is zero for documents without any weighted word. -/
theorem rowNorm_zero (T : Nat) (reps : Nat → Nat → ℝ) (d : Nat) : rowNorm T reps d = 0 ↔ ∀ t, t < T → reps d t = 0 := by
  constructor
  · intro h t ht
    have h2 := rowNorm_sq T reps d
    rw [h, zero_pow (by norm_num)] at h2
    have := (Finset.sum_eq_zero_iff_of_nonneg (fun t _ => sq_nonneg (reps d t))).mp h2.symm t (Finset.mem_range.mpr ht)
    exact pow_eq_zero_iff (by norm_num) |>.mp this
  · intro h
    have h2 := rowNorm_sq T reps d
    rw [Finset.sum_eq_zero (fun t ht => by rw [h t (Finset.mem_range.mp ht)]; norm_num)] at h2
    exact pow_eq_zero_iff (by norm_num) |>.mp h2

/-- The cosine of the angle between two representations. -/
noncomputable def cosine (T : Nat) (src_reps dst_reps : Nat → Nat → ℝ) (src dst : Nat) : ℝ :=
  (∑ t ∈ Finset.range T, src_reps src t * dst_reps dst t)
    / (Real.sqrt (∑ t ∈ Finset.range T, src_reps src t ^ 2) * Real.sqrt (∑ t ∈ Finset.range T, dst_reps dst t ^ 2))

theorem rowNorm_eq (T : Nat) (reps : Nat → Nat → ℝ) (d : Nat) : rowNorm T reps d = Real.sqrt (∑ t ∈ Finset.range T, reps d t ^ 2) := by
  rw [← rowNorm_sq, Real.sqrt_sq (rowNorm_nonneg T reps d)]

theorem tfidf_scores (T : Nat) (src_reps dst_reps : Nat → Nat → ℝ) : tfidfPair T src_reps dst_reps = tfidfAll T src_reps dst_reps := by
  funext src dst
  unfold tfidfPair tfidfAll fdiv
  by_cases h1 : rowNorm T src_reps src = 0
  · rw [if_pos (by rw [h1, zero_mul]), if_pos h1]
  · by_cases h2 : rowNorm T dst_reps dst = 0
    · rw [if_pos (by rw [h2, mul_zero]), if_pos h2, if_neg h1]
      rfl
    · rw [if_neg (mul_ne_zero h1 h2), if_neg h1, if_neg h2]
      simp only [Option.map_some, Option.some.injEq]
      rw [div_div, mul_comm (rowNorm T src_reps src)]
      congr 1
      exact Finset.sum_congr rfl (fun t _ => mul_comm _ _)

theorem tfidf_some (T : Nat) (src_reps dst_reps : Nat → Nat → ℝ) (src dst : Nat) (h1 : rowNorm T src_reps src ≠ 0)
    (h2 : rowNorm T dst_reps dst ≠ 0) : tfidfPair T src_reps dst_reps src dst = some (cosine T src_reps dst_reps src dst) := by
  unfold tfidfPair fdiv cosine
  rw [if_neg (mul_ne_zero h1 h2), ← rowNorm_eq, ← rowNorm_eq]
  rfl

theorem tfidf_nan (T : Nat) (src_reps dst_reps : Nat → Nat → ℝ) (src dst : Nat)
    (h : rowNorm T src_reps src = 0 ∨ rowNorm T dst_reps dst = 0) : tfidfPair T src_reps dst_reps src dst = none := by
  unfold tfidfPair fdiv
  rw [if_pos (by rcases h with h | h <;> rw [h] <;> simp)]

/-- What remains of **C80** for TF-IDF: all documents have weighted words. -/
theorem tfidf_complete_partial (T : Nat) (src_reps dst_reps : Nat → Nat → ℝ) (links : Nat → List Nat) (D : Nat) (subset : List Nat)
    (hl : ∀ src ∈ subset, ∀ dst ∈ links src, dst < D) (hs : ∀ src ∈ subset, rowNorm T src_reps src ≠ 0)
    (hd : ∀ dst, rowNorm T dst_reps dst ≠ 0) :
    ∃ out, linkProbs (tfidfAll T src_reps dst_reps) D (1 / 10 ^ 9) subset
        (minLinkProbs (tfidfPair T src_reps dst_reps) links (-1) subset) = .ok out
      ∧ Complete (cosine T src_reps dst_reps) links D (1 / 10 ^ 9) subset out := by
  rw [← tfidf_scores]
  exact complete_of_score _ _ links D _ _ (by positivity) subset (fun src h dst => tfidf_some T _ _ src dst (hs src h) (hd dst)) hl

/-- **C80** is violated by TF-IDF: a link to a document without weighted words is not kept; and if it is the first link of a
document, then no link of this document is. -/
theorem tfidf_loses_links (T : Nat) (src_reps dst_reps : Nat → Nat → ℝ) (links : Nat → List Nat) (D : Nat) (subset : List Nat) (i src : Nat)
    (hi : subset[i]? = some src) (dst : Nat) (hz : rowNorm T dst_reps dst = 0) :
    ∃ out, linkProbs (tfidfAll T src_reps dst_reps) D (1 / 10 ^ 9) subset
        (minLinkProbs (tfidfPair T src_reps dst_reps) links (-1) subset) = .ok out
      ∧ (∀ v, (i, dst, v) ∉ out)
      ∧ ((links src).head? = some dst → ∀ c v, (i, c, v) ∉ out) := by
  rw [← tfidf_scores]
  obtain ⟨out, h1, h2⟩ := linkProbs_mem (tfidfPair T src_reps dst_reps) D (1 / 10 ^ 9) subset
    (minLinkProbs (tfidfPair T src_reps dst_reps) links (-1) subset) (by simp [minLinkProbs])
  refine ⟨out, h1, fun v hv => ?_, fun hh c v hv => ?_⟩
  · obtain ⟨src', m, -, -, -, hge, -⟩ := (h2 ..).mp hv
    rw [tfidf_nan T src_reps dst_reps src' dst (Or.inr hz)] at hge
    exact hge
  · obtain ⟨src', m, hs, hm, -, hge, -⟩ := (h2 ..).mp hv
    rw [hi] at hs
    cases hs
    have hrow : rowMin (-1) ((links src).map (tfidfPair T src_reps dst_reps src)) = none := by
      cases hls : links src with
      | nil => rw [hls] at hh; cases hh
      | cons e es =>
        rw [hls] at hh
        cases hh
        rw [List.map_cons]
        show pyMin _ _ = none
        rw [tfidf_nan T src_reps dst_reps src dst (Or.inr hz), pyMin_none]
    unfold minLinkProbs at hm
    rw [List.getElem?_map, hi, Option.map_some, hrow] at hm
    cases hm
    cases hp : tfidfPair T src_reps dst_reps src c <;> rw [hp] at hge <;> exact hge

/-- Words that occur in all but one document have weight zero. -/
theorem tfidf_zero (D T : Nat) (words : Nat → Nat → Nat) (d t : Nat) (h : docCount D words t + 1 = D) : tfidf D T words d t = 0 := by
  unfold tfidf
  have : (D : ℝ) / ((docCount D words t : ℝ) + 1) = 1 := by
    have h' : ((docCount D words t : ℝ) + 1) = (D : ℝ) := by exact_mod_cast h
    rw [h', div_self]
    have : (0 : ℝ) < (D : ℝ) := by rw [← h']; positivity
    exact this.ne'
  rw [this, Real.log_one, mul_zero]

/-! ## Probabilities (C119) -/

/-- **C119** for TF-IDF: similarities are between zero and one, and one for equal documents. -/
theorem tfidf_probability_partial (D T : Nat) (words : Nat → Nat → Nat) (src dst : Nat) (v : ℝ)
    (h : tfidfAll T (tfidf D T words) (tfidf D T words) src dst = some v) :
    0 ≤ v ∧ v ≤ 1 ∧ ((∀ t, t < T → words src t = words dst t) → v = 1) := by
  rw [← tfidf_scores] at h
  have hn1 : rowNorm T (tfidf D T words) src ≠ 0 := fun hz => by rw [tfidf_nan T _ _ src dst (Or.inl hz)] at h; cases h
  have hn2 : rowNorm T (tfidf D T words) dst ≠ 0 := fun hz => by rw [tfidf_nan T _ _ src dst (Or.inr hz)] at h; cases h
  rw [tfidf_some T _ _ src dst hn1 hn2, Option.some.injEq] at h
  have hp1 := lt_of_le_of_ne (rowNorm_nonneg T (tfidf D T words) src) (Ne.symm hn1)
  have hp2 := lt_of_le_of_ne (rowNorm_nonneg T (tfidf D T words) dst) (Ne.symm hn2)
  have hv : v = (∑ t ∈ Finset.range T, tfidf D T words src t * tfidf D T words dst t)
      / (rowNorm T (tfidf D T words) src * rowNorm T (tfidf D T words) dst) := by
    rw [← h]
    unfold cosine
    rw [← rowNorm_eq, ← rowNorm_eq]
  have hs := rowNorm_sq T (tfidf D T words) src
  have hd := rowNorm_sq T (tfidf D T words) dst
  generalize rowNorm T (tfidf D T words) src = n1 at *
  generalize rowNorm T (tfidf D T words) dst = n2 at *
  have hnum : 0 ≤ ∑ t ∈ Finset.range T, tfidf D T words src t * tfidf D T words dst t := by
    refine Finset.sum_nonneg (fun t _ => ?_)
    unfold tfidf
    generalize Real.log ((D : ℝ) / ((docCount D words t : ℝ) + 1)) = g
    have : (1 / ((∑ t' ∈ Finset.range T, words src t' : Nat) : ℝ)) * (words src t : ℝ) * g
        * ((1 / ((∑ t' ∈ Finset.range T, words dst t' : Nat) : ℝ)) * (words dst t : ℝ) * g)
        = (1 / ((∑ t' ∈ Finset.range T, words src t' : Nat) : ℝ)) * (words src t : ℝ)
          * ((1 / ((∑ t' ∈ Finset.range T, words dst t' : Nat) : ℝ)) * (words dst t : ℝ)) * (g * g) := by ring
    rw [this]
    exact mul_nonneg (by positivity) (mul_self_nonneg g)
  have hcs := Finset.sum_mul_sq_le_sq_mul_sq (Finset.range T) (tfidf D T words src) (tfidf D T words dst)
  rw [← hs, ← hd] at hcs
  refine ⟨?_, ?_, ?_⟩
  · rw [hv]; positivity
  · rw [hv, div_le_one (by positivity)]
    have h2 : (∑ t ∈ Finset.range T, tfidf D T words src t * tfidf D T words dst t) ^ 2 ≤ (n1 * n2) ^ 2 := by rw [mul_pow]; exact hcs
    exact abs_le_of_sq_le_sq' h2 (by positivity) |>.2
  · intro heq
    have hrep : ∀ t, t < T → tfidf D T words src t = tfidf D T words dst t := by
      intro t ht
      unfold tfidf
      rw [heq t ht, Finset.sum_congr rfl (fun t' ht' => heq t' (Finset.mem_range.mp ht'))]
    have hsum : ∑ t ∈ Finset.range T, tfidf D T words src t * tfidf D T words dst t = n1 ^ 2 := by
      rw [hs]
      exact Finset.sum_congr rfl (fun t ht => by rw [hrep t (Finset.mem_range.mp ht), pow_two])
    have h12 : n1 = n2 := by
      have : n1 ^ 2 = n2 ^ 2 := by
        rw [hs, hd]
        exact Finset.sum_congr rfl (fun t ht => by rw [hrep t (Finset.mem_range.mp ht)])
      nlinarith
    rw [hv, hsum, ← h12, ← pow_two, div_self (by positivity)]

/-- **C119** for the relational topic model, whose scores are values of a distribution function. -/
theorem rtm_probability_partial (cdf : ℝ → ℝ) (hcdf : ∀ x, 0 ≤ cdf x ∧ cdf x ≤ 1) (K : Nat) (weights : Nat → ℝ) (means : Nat → Nat → ℝ)
    (d e : Nat) (v : ℝ) (h : rtmScore cdf K weights means d e = some v) : 0 ≤ v ∧ v ≤ 1 := by
  unfold rtmScore at h
  rw [Option.some.injEq] at h
  rw [← h]
  exact hcdf _

/-- **C119** is violated by the similarity of topics: it is greater than one whenever the distance is less than `SQRT_TWO`. -/
theorem lda_exceeds_one (K : Nat) (src_reps dst_reps : Nat → Nat → ℝ) (src dst : Nat) :
    1 < ldaSimilarity K src_reps dst_reps src dst
      ↔ Real.sqrt (∑ k ∈ Finset.range K, (src_reps src k - dst_reps dst k) ^ 2) < 1414213562 / 10 ^ 9 := by
  unfold ldaSimilarity
  rw [lt_div_iff₀ (lt_max_of_lt_right (by positivity)), one_mul, max_lt_iff]
  constructor
  · exact fun h => h.1
  · refine fun h => ⟨h, ?_⟩
    norm_num

/-- Topic distributions with a topic in common are at a distance less than the square root of two. -/
theorem hellinger_lt (K : Nat) (p q : Nat → ℝ) (hp : ∀ k, 0 ≤ p k) (hq : ∀ k, 0 ≤ q k) (sp : ∑ k ∈ Finset.range K, p k = 1)
    (sq : ∑ k ∈ Finset.range K, q k = 1) :
    ∑ k ∈ Finset.range K, (Real.sqrt (p k) - Real.sqrt (q k)) ^ 2 = 2 - 2 * ∑ k ∈ Finset.range K, Real.sqrt (p k * q k) := by
  have h1 : ∀ k, (Real.sqrt (p k) - Real.sqrt (q k)) ^ 2 = p k + q k - 2 * Real.sqrt (p k * q k) := by
    intro k
    rw [sub_sq, Real.sq_sqrt (hp k), Real.sq_sqrt (hq k), Real.sqrt_mul (hp k)]
    ring
  simp only [h1]
  rw [Finset.sum_sub_distrib, Finset.sum_add_distrib, sp, sq, ← Finset.mul_sum]
  ring

/-- **C119** is violated by the similarity of topics: documents that share more than a billionth of their topics are more than
certain to be linked. -/
theorem lda_not_probability (K : Nat) (tops tops' : Nat → Nat → ℝ) (src dst : Nat) (hp : ∀ k, 0 ≤ tops src k) (hq : ∀ k, 0 ≤ tops' dst k)
    (sp : ∑ k ∈ Finset.range K, tops src k = 1) (sq : ∑ k ∈ Finset.range K, tops' dst k = 1)
    (hcommon : 1 / 10 ^ 8 < ∑ k ∈ Finset.range K, Real.sqrt (tops src k * tops' dst k)) :
    1 < ldaSimilarity K (ldaReps tops) (ldaReps tops') src dst := by
  rw [lda_exceeds_one]
  unfold ldaReps
  rw [hellinger_lt K (tops src) (tops' dst) hp hq sp sq, Real.sqrt_lt' (by norm_num)]
  norm_num at hcommon ⊢
  linarith

/-! ## Documents and themselves (C120) -/

/-- **C120** is violated by the similarity of topics: among the documents themselves, each is predicted to link to itself, and
nothing scores more. -/
theorem lda_self_first (K : Nat) (reps : Nat → Nat → ℝ) (links : Nat → List Nat) (D : Nat) (subset : List Nat)
    (hl : ∀ src ∈ subset, ∀ dst ∈ links src, dst < D) (i src : Nat) (hi : subset[i]? = some src) (hsrc : src < D)
    (hne : links src ≠ []) (out : List (Nat × Nat × Fl))
    (ho : linkProbs (ldaAll K reps reps) D (1 / 10 ^ 9) subset (minLinkProbs (ldaPair K reps reps) links (-1) subset) = .ok out) :
    ∃ v, (i, src, some v) ∈ out ∧ ∀ c w, (i, c, some w) ∈ out → w ≤ v := by
  have hself : ∀ dst, ldaSimilarity K reps reps src dst ≤ ldaSimilarity K reps reps src src := by
    intro dst
    unfold ldaSimilarity
    refine div_le_div_of_nonneg_left (by norm_num) (lt_max_of_lt_right (by positivity)) ?_
    refine max_le_max ?_ le_rfl
    simp only [sub_self]
    rw [Finset.sum_eq_zero (fun k _ => by norm_num), Real.sqrt_zero]
    exact Real.sqrt_nonneg _
  obtain ⟨out', h1, h2⟩ := lda_complete K reps reps links D subset hl
  rw [ho] at h1
  cases h1
  refine ⟨ldaSimilarity K reps reps src src, ?_, ?_⟩
  · have he : ldaPair K reps reps = ldaAll K reps reps := by
      funext src dst
      rw [ldaPair_eq, ldaAll_eq]
    rw [he] at ho
    obtain ⟨out', h3, h4⟩ := linkProbs_mem (ldaAll K reps reps) D (1 / 10 ^ 9) subset (minLinkProbs (ldaAll K reps reps) links (-1) subset)
      (by simp [minLinkProbs])
    rw [ho] at h3
    cases h3
    obtain ⟨e, es, hes⟩ := List.exists_cons_of_ne_nil hne
    obtain ⟨m, hm, hm2, hm3⟩ := pyMin_some (ldaSimilarity K reps reps src e) (es.map (ldaSimilarity K reps reps src))
    rw [h4]
    refine ⟨src, some m, hi, ?_, hsrc, ?_, (ldaAll_eq ..).symm⟩
    · unfold minLinkProbs
      rw [List.getElem?_map, hi, Option.map_some, hes, List.map_cons]
      show some (pyMin _ _) = _
      rw [← hm, List.map_map, ldaAll_eq]
      congr 2
      exact List.map_congr_left (fun _ _ => ldaAll_eq ..)
    · rw [ldaAll_eq]
      show m - 1 / 10 ^ 9 ≤ _
      rw [← List.map_cons] at hm2
      obtain ⟨dst, -, rfl⟩ := List.mem_map.mp hm2
      have := hself dst
      have h9 : (0 : ℝ) ≤ 1 / 10 ^ 9 := by positivity
      linarith
  · intro c w hw
    obtain ⟨src', h3, -, h4, -⟩ := h2.sound i c _ hw
    rw [hi] at h3
    cases h3
    cases h4
    exact hself c

/-- **C120** is violated by TF-IDF, too. -/
theorem tfidf_self_best (D T : Nat) (words : Nat → Nat → Nat) (src : Nat) (hn : rowNorm T (tfidf D T words) src ≠ 0) :
    tfidfAll T (tfidf D T words) (tfidf D T words) src src = some 1
      ∧ ∀ dst v, tfidfAll T (tfidf D T words) (tfidf D T words) src dst = some v → v ≤ 1 := by
  have h1 : tfidfAll T (tfidf D T words) (tfidf D T words) src src = some (cosine T (tfidf D T words) (tfidf D T words) src src) := by
    rw [← tfidf_scores]
    exact tfidf_some T _ _ src src hn hn
  refine ⟨?_, fun dst v h => (tfidf_probability_partial D T words src dst v h).2.1⟩
  rw [h1, (tfidf_probability_partial D T words src src _ h1).2.2 (fun _ _ => rfl)]

/-- What remains of **C120**: with any other score, a document is left out of its own predictions if its score is less than
those of all its links. -/
theorem self_dropped_partial (score : Nat → Nat → ℝ) (links : Nat → List Nat) (D : Nat) (eps : ℝ)
    (subset : List Nat) (out : List (Nat × Nat × Fl)) (hc : Complete score links D eps subset out) (i src : Nat)
    (hi : subset[i]? = some src) (hne : links src ≠ []) (hlt : ∀ dst ∈ links src, score src src < score src dst - eps) (v : Fl) :
    (i, src, v) ∉ out := by
  intro hv
  obtain ⟨src', h1, -, -, h2⟩ := hc.sound i src v hv
  rw [hi] at h1
  cases h1
  obtain ⟨dst, hd, -, hle⟩ := h2 hne
  linarith [hlt dst hd]

/-! ## Query documents and their company (C121) -/

/-- **C121** is violated: the weights come from the queried documents, so the same document has another representation in other
company. -/
theorem tfidf_depends_on_company :
    ∃ (w w' : Nat → Nat → Nat), (∀ t, w 0 t = w' 0 t) ∧ tfidf 3 2 w 0 0 ≠ tfidf 3 2 w' 0 0 := by
  refine ⟨fun d t => if d = 0 then 1 else if t = 1 then 1 else 0, fun d t => 1, fun t => by simp, ?_⟩
  have h1 : docCount 3 (fun d t => if d = 0 then 1 else if t = 1 then 1 else 0) 0 = 1 := by decide
  have h2 : docCount 3 (fun _ _ => 1) 0 = 3 := by decide
  unfold tfidf
  rw [h1, h2]
  simp only [Finset.sum_range_succ, Finset.sum_range_zero]
  norm_num
  intro h
  have h3 : 0 < Real.log (3 / 2) := Real.log_pos (by norm_num)
  have h4 : Real.log (3 / 4) < 0 := Real.log_neg (by norm_num) (by norm_num)
  linarith

/-- What remains of **C121**: the company matters by its size and by the document frequencies only. -/
theorem tfidf_company_partial (D T : Nat) (w w' : Nat → Nat → Nat) (d d' : Nat) (hd : ∀ t, w d t = w' d' t)
    (hc : ∀ t, docCount D w t = docCount D w' t) (t : Nat) : tfidf D T w d t = tfidf D T w' d' t := by
  unfold tfidf
  simp only [hd, hc]

/-! ## Evaluations and predictors (C122) -/

/-- **C122** is violated: for each predictor there are two evaluations that fail whatever it computes. -/
theorem no_predictor_for_all (m : Predictor) :
    ∃ e e', e ≠ e' ∧ ∀ {α : Type} (r : Py α), callPredictor m e r = .error .typeError ∧ callPredictor m e' r = .error .typeError := by
  cases m
  · exact ⟨.insample, .outsample, by decide, fun _ => ⟨rfl, rfl⟩⟩
  · exact ⟨.insample, .outsample, by decide, fun _ => ⟨rfl, rfl⟩⟩
  · exact ⟨.linkSplitMap, .linkSplitPrecRec, by decide, fun _ => ⟨rfl, rfl⟩⟩
  · exact ⟨.linkSplitMap, .linkSplitPrecRec, by decide, fun _ => ⟨rfl, rfl⟩⟩
  · exact ⟨.linkSplitMap, .linkSplitPrecRec, by decide, fun _ => ⟨rfl, rfl⟩⟩

/-- What remains of **C122**: each predictor works with two of the four evaluations. -/
theorem predictor_callable_partial {α : Type} (r : Py α) :
    (∀ m e, m = .rtm ∨ m = .mtm2 → e = .linkSplitMap ∨ e = .linkSplitPrecRec → callPredictor m e r = r)
      ∧ (∀ m e, m = .mtm3 ∨ m = .lro ∨ m = .sim → e = .insample ∨ e = .outsample → callPredictor m e r = r) := by
  constructor
  · rintro m e (rfl | rfl) (rfl | rfl) <;> rfl
  · rintro m e (rfl | rfl | rfl) (rfl | rfl) <;> rfl

/-! ## Examples -/

/-- Two documents with different words: all weights are zero, and the expected link is lost. -/
example : ∃ out, linkProbs (tfidfAll 2 (tfidf 2 2 (fun d t => if d = t then 1 else 0)) (tfidf 2 2 (fun d t => if d = t then 1 else 0))) 2
      (1 / 10 ^ 9) [0, 1] (minLinkProbs (tfidfPair 2 (tfidf 2 2 (fun d t => if d = t then 1 else 0))
        (tfidf 2 2 (fun d t => if d = t then 1 else 0))) (fun d => [1 - d]) (-1) [0, 1]) = .ok out
    ∧ ∀ c v, (0, c, v) ∉ out := by
  have hz : rowNorm 2 (tfidf 2 2 (fun d t => if d = t then 1 else 0)) 1 = 0 := by
    rw [rowNorm_zero]
    intro t ht
    refine tfidf_zero 2 2 _ 1 t ?_
    match t, ht with
    | 0, _ => decide
    | 1, _ => decide
  obtain ⟨out, h1, -, h3⟩ := tfidf_loses_links 2 (tfidf 2 2 (fun d t => if d = t then 1 else 0))
    (tfidf 2 2 (fun d t => if d = t then 1 else 0)) (fun d => [1 - d]) 2 [0, 1] 0 0 rfl 1 hz
  exact ⟨out, h1, h3 rfl⟩

/-- Representations with weights, and a subset in another order. -/
example : ∃ out, linkProbs (lroAll 2 1 (fun d k => if d = k then 1 else 0) (fun d _ => (d : ℝ))) 3 (1 / 10 ^ 9) [1, 0]
      (minLinkProbs (lroPair 2 1 (fun d k => if d = k then 1 else 0) (fun d _ => (d : ℝ))) (fun d => [d + 1]) (-1) [1, 0]) = .ok out
    ∧ (∃ v, (1, 1, some v) ∈ out) ∧ ∃ v, (0, 2, some v) ∈ out := by
  obtain ⟨out, h1, h2⟩ := lro_complete 2 1 (fun d k => if d = k then 1 else 0) (fun d _ => (d : ℝ)) (fun d => [d + 1]) 3 [1, 0]
    (by intro src h dst hd; simp at h hd; omega)
  exact ⟨out, h1, ⟨_, h2.keeps 1 0 1 rfl (by simp)⟩, ⟨_, h2.keeps 0 1 2 rfl (by simp)⟩⟩

/-- Two documents with the same two topics in different proportions. -/
example : 1 < ldaSimilarity 2 (ldaReps fun d _ => if d = 0 then 1 / 2 else 1 / 2) (ldaReps fun _ k => if k = 0 then 1 / 4 else 3 / 4) 0 1 := by
  refine lda_not_probability 2 _ _ 0 1 (fun k => by norm_num) (fun k => by split <;> norm_num)
    (by norm_num [Finset.sum_range_succ]) (by norm_num [Finset.sum_range_succ]) ?_
  rw [Finset.sum_range_succ, Finset.sum_range_one]
  have h1 : (1 : ℝ) / 10 ^ 8 < Real.sqrt (1 / 8) := by
    rw [Real.lt_sqrt (by positivity)]
    norm_num
  have h2 : 0 ≤ Real.sqrt ((if (0 : Nat) = 0 then (1 : ℝ) / 2 else 1 / 2) * (if (1 : Nat) = 0 then 1 / 4 else 3 / 4)) := Real.sqrt_nonneg _
  have h3 : Real.sqrt ((if (0 : Nat) = 0 then (1 : ℝ) / 2 else 1 / 2) * (if (0 : Nat) = 0 then 1 / 4 else 3 / 4)) = Real.sqrt (1 / 8) := by
    norm_num
  rw [h3]
  linarith

end Verif.Props.LinkPred
