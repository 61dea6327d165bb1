import Verif.Model.Rtm
import Verif.Model.LinkPred
import Verif.Props.VbPython
import Verif.Props.LinkPred

/-!
# The relational topic model (C81, C123–C126)
-/

namespace Verif.Props.Rtm

open Verif Verif.Rtm
open Verif.Mom (Data)
open Verif.VbPython (Params toMeans toDirichlet)
open Verif.Props.Numerics (softmax shifted softmax_spec)
open Verif.Props.VbPython (dirichlet_of_means means_of_dirichlet Corpus)

/-! ## Links to earlier documents (C81) -/

theorem linksUpTo_sorted (d : Nat) (row : List Nat) (h : row.Pairwise (· < ·)) : linksUpTo d row = row.filter (fun c => decide (c < d)) := by
  induction row with
  | nil => rfl
  | cons c cs ih =>
    rw [List.pairwise_cons] at h
    unfold linksUpTo
    split
    · next hc =>
      symm
      rw [List.filter_eq_nil_iff]
      intro e he
      rcases List.mem_cons.mp he with rfl | he
      · simpa using hc
      · have := h.1 e he
        simp
        omega
    · next hc =>
      rw [List.filter_cons_of_pos (by simpa using hc), ih h.2]

/-- The pairs considered when all documents are gone through. -/
def considered (D : Nat) (rows : Nat → List Nat) : List (Nat × Nat) :=
  (List.range D).flatMap (fun d => (linksUpTo d (rows d)).map (fun c => (c, d)))

theorem count_considered (D : Nat) (rows : Nat → List Nat) (i j : Nat) :
    (considered D rows).count (i, j) = if j < D then (linksUpTo j (rows j)).count i else 0 := by
  unfold considered
  induction D with
  | zero => rfl
  | succ D ih =>
    rw [List.range_succ, List.flatMap_append, List.count_append, ih]
    have h1 : List.count (i, j) (List.flatMap (fun d => (linksUpTo d (rows d)).map (fun c => (c, d))) [D])
        = if j = D then (linksUpTo j (rows j)).count i else 0 := by
      rw [List.flatMap_cons, List.flatMap_nil, List.append_nil]
      by_cases hj : j = D
      · subst hj
        rw [if_pos rfl]
        exact List.count_map_of_injective _ (fun c => (c, j)) (fun a b h => by simpa using h) i
      · rw [if_neg hj, List.count_eq_zero]
        intro hm
        obtain ⟨c, -, hc⟩ := List.mem_map.mp hm
        simp only [Prod.mk.injEq] at hc
        exact hj hc.2.symm
    rw [h1]
    by_cases hj : j < D
    · rw [if_pos hj, if_neg (by omega), if_pos (by omega), Nat.add_zero]
    · rw [if_neg hj, Nat.zero_add]
      by_cases hj2 : j = D
      · rw [if_pos hj2, if_pos (by omega)]
      · rw [if_neg hj2, if_neg (by omega)]

/-- **C81**: with sorted rows, each pair of linked documents is considered exactly once, from the later one; nothing else is
considered. -/
theorem links_once (D : Nat) (rows : Nat → List Nat) (hs : ∀ d, (rows d).Pairwise (· < ·)) (hsym : ∀ i j, j ∈ rows i ↔ i ∈ rows j)
    (i j : Nat) (hij : i < j) (hj : j < D) :
    (considered D rows).count (i, j) + (considered D rows).count (j, i) = (if j ∈ rows i then 1 else 0)
      ∧ (considered D rows).count (i, i) = 0 := by
  have hc : ∀ a b, (linksUpTo b (rows b)).count a = if a < b ∧ a ∈ rows b then 1 else 0 := by
    intro a b
    rw [linksUpTo_sorted b _ (hs b)]
    have hnd : (rows b).Nodup := (hs b).imp (fun h => Nat.ne_of_lt h)
    by_cases h : a < b ∧ a ∈ rows b
    · rw [if_pos h]
      exact List.count_eq_one_of_mem (hnd.filter _) (List.mem_filter.mpr ⟨h.2, by simpa using h.1⟩)
    · rw [if_neg h, List.count_eq_zero]
      intro hm
      rw [List.mem_filter] at hm
      exact h ⟨by simpa using hm.2, hm.1⟩
  rw [count_considered, count_considered, count_considered, if_pos hj, if_pos (show i < D by omega), if_pos (show i < D by omega), hc, hc, hc]
  constructor
  · rw [if_neg (show ¬ (j < i ∧ j ∈ rows i) by omega), Nat.add_zero]
    by_cases h : j ∈ rows i
    · rw [if_pos h, if_pos ⟨hij, (hsym i j).mp h⟩]
    · rw [if_neg h, if_neg (fun hh => h ((hsym i j).mpr hh.2))]
  · rw [if_neg (fun h => absurd h.1 (Nat.lt_irrefl i))]

/-- With an unsorted row, a link is missed. -/
theorem links_missed_unsorted : ∃ rows : Nat → List Nat, (∀ d, (rows d).Nodup) ∧ (∀ i j, j ∈ rows i ↔ i ∈ rows j)
    ∧ 0 ∈ rows 1 ∧ (considered 3 rows).count (0, 1) + (considered 3 rows).count (1, 0) = 0 := by
  refine ⟨fun d => if d = 0 then [1] else if d = 1 then [2, 0] else if d = 2 then [1] else [], ?_, ?_, by decide, by decide⟩
  · intro d
    dsimp only
    split_ifs <;> decide
  · intro i j
    dsimp only
    split_ifs <;> simp <;> omega

/-! ## Making models (C125) -/

/-- **C125** is violated: the documented forms of the prior, a number or a vector with one entry per topic, are rejected. -/
theorem documented_priors_rejected (K : Nat) (hK : 1 < K ∧ K < 255) :
    (∀ x, newPrior K (.scalar x) = .error .typeError)
      ∧ (∀ xs, xs.length = K → newPrior K (.vector xs) = .error .indexError) := by
  constructor
  · intro x
    unfold newPrior
    rw [if_neg (not_not.mpr hK)]
  · intro xs hx
    unfold newPrior
    rw [if_neg (not_not.mpr hK)]
    show (if K < xs.length then _ else _) = _
    rw [if_neg (by omega)]

/-- **C125** is violated: where NumPy checks the parameters of Dirichlet distributions, no model that can be made can be given
a query state. -/
theorem query_state_rejected (K : Nat) (arg : PriorArg) (prior : List ℝ) (h : newPrior K arg = .ok prior) (x : Data)
    (draw : Nat → Nat → ℝ) : newQueryState true K x prior draw = .error .valueError := by
  have hz : ∃ a ∈ prior, a ≤ 0 := by
    refine ⟨0, ?_, le_rfl⟩
    unfold newPrior at h
    split at h
    · cases h
    · cases arg with
      | default =>
        cases h
        exact List.mem_set (by rw [List.length_replicate]; omega) _
      | scalar x => cases h
      | vector xs =>
        simp only at h
        split at h
        · next hl =>
          cases h
          exact List.mem_set hl _
        · cases h
  unfold newQueryState
  rw [if_pos ⟨rfl, hz⟩]

/-- What remains of **C125**: without the check and with the default prior, the topic parameters of the intercept are the
document lengths. -/
theorem query_state_partial (K : Nat) (hK : 1 < K ∧ K < 255) (x : Data) (draw : Nat → Nat → ℝ) :
    ∃ prior topics, newPrior K .default = .ok prior ∧ prior.length = K + 1 ∧ prior.getD K 0 = 0
      ∧ (∀ k, k < K → prior.getD k 0 = 5 / (K : ℝ) + 1 / 2)
      ∧ newQueryState false K x prior draw = .ok topics ∧ ∀ d, topics d K = x.len d := by
  refine ⟨_, _, by unfold newPrior; rw [if_neg (not_not.mpr hK)], by simp, ?_, ?_, by unfold newQueryState; rw [if_neg (by simp)],
    fun d => if_pos rfl⟩
  · simp [List.getD_eq_getElem?_getD]
  · intro k hk
    rw [List.getD_eq_getElem?_getD, List.getElem?_set_ne (by omega), List.getElem?_replicate, if_pos (by omega)]
    rfl

/-! ## Training (C123) -/

theorem inferTopics_eq (e : Env) (word0 : Nat → Nat → ℝ) (s : State) (d t k : Nat) :
    inferTopics e word0 s d t k = softmax e.K (score e word0 s d t) k := by
  unfold inferTopics
  exact shifted e.K _ _ k

theorem infer_pos (e : Env) (word0 : Nat → Nat → ℝ) (s : State) (d t k : Nat) (hk : k < e.K) : 0 < inferTopics e word0 s d t k := by
  rw [inferTopics_eq]
  exact (softmax_spec e.K _ (by omega)).pos k

theorem infer_sum (e : Env) (word0 : Nat → Nat → ℝ) (s : State) (d t : Nat) (hK : 0 < e.K) :
    ∑ k ∈ Finset.range e.K, inferTopics e word0 s d t k = 1 := by
  simp only [inferTopics_eq]
  exact (softmax_spec e.K _ hK).sum

/-- A distribution over `K` topics, all of them possible. -/
def Proper (K : Nat) (r : Nat → ℝ) : Prop := (∀ k, k < K → 0 < r k) ∧ ∑ k ∈ Finset.range K, r k = 1

theorem visited_proper (e : Env) (word0 : Nat → Nat → ℝ) (s : State) (hK : 0 < e.K) (d : Nat) (hd : 0 < e.x.len d) :
    Proper e.K ((visit e word0 s d).means d) := by
  have hl : (0 : ℝ) < e.x.len d := by exact_mod_cast hd
  have hm : ∀ k, k < e.K → (visit e word0 s d).means d k
      = (∑ t ∈ Finset.range e.x.T, inferTopics e word0 s d t k * (e.x.words d t : ℝ)) / (e.x.len d : ℝ) :=
    fun k hk => if_pos ⟨rfl, hk⟩
  constructor
  · intro k hk
    rw [hm k hk]
    refine div_pos ?_ hl
    have hex : ∃ t ∈ Finset.range e.x.T, 0 < e.x.words d t := by
      by_contra h
      push Not at h
      have : e.x.len d = 0 := Finset.sum_eq_zero (fun t ht => Nat.le_zero.mp (h t ht))
      omega
    obtain ⟨t, ht, hw⟩ := hex
    refine Finset.sum_pos' (fun t _ => ?_) ⟨t, ht, ?_⟩
    · exact mul_nonneg (infer_pos e word0 s d t k hk).le (Nat.cast_nonneg _)
    · exact mul_pos (infer_pos e word0 s d t k hk) (by exact_mod_cast hw)
  · rw [Finset.sum_congr rfl (fun k hk => hm k (Finset.mem_range.mp hk)), ← Finset.sum_div, Finset.sum_comm]
    simp only [← Finset.sum_mul, infer_sum e word0 s d _ hK, one_mul]
    rw [div_eq_one_iff_eq hl.ne']
    unfold Data.len
    push_cast
    rfl

/-- What the visits of the first `n` documents do. -/
structure Swept (e : Env) (n : Nat) (s s' : State) : Prop where
  weights : s'.weights = s.weights
  prior : s'.prior = s.prior
  proper : ∀ d, d < n → Proper e.K (s'.means d)
  intercept : ∀ d, s'.means d e.K = s.means d e.K
  mass : ∀ t, ∑ k ∈ Finset.range e.K, s'.word k t = ∑ k ∈ Finset.range e.K, s.word k t + ∑ d ∈ Finset.range n, (e.x.words d t : ℝ)
  mono : ∀ k, k < e.K → ∀ t, s.word k t ≤ s'.word k t

theorem visits_swept (e : Env) (hK : 0 < e.K) (hx : ∀ d, d < e.x.D → 0 < e.x.len d) (word0 : Nat → Nat → ℝ) (s : State) (n : Nat)
    (hn : n ≤ e.x.D) : Swept e n s ((List.range n).foldl (visit e word0) s) := by
  induction n with
  | zero => exact ⟨rfl, rfl, fun d h => absurd h (by omega), fun _ => rfl, fun t => by simp, fun _ _ _ => le_rfl⟩
  | succ n ih =>
    have ih := ih (by omega)
    rw [List.range_succ, List.foldl_append, List.foldl_cons, List.foldl_nil]
    generalize (List.range n).foldl (visit e word0) s = s1 at *
    refine ⟨ih.weights, ih.prior, ?_, ?_, ?_, ?_⟩
    · intro d hd
      by_cases hdn : d = n
      · subst hdn
        exact visited_proper e word0 s1 hK d (hx d (by omega))
      · have : (visit e word0 s1 n).means d = s1.means d := by
          funext k
          exact if_neg (fun h => hdn h.1)
        rw [this]
        exact ih.proper d (by omega)
    · intro d
      have : (visit e word0 s1 n).means d e.K = s1.means d e.K := if_neg (by omega)
      rw [this, ih.intercept]
    · intro t
      show ∑ k ∈ Finset.range e.K, (s1.word k t + (e.x.words n t : ℝ) * inferTopics e word0 s1 n t k) = _
      rw [Finset.sum_add_distrib, ih.mass, ← Finset.mul_sum, infer_sum e word0 s1 n t hK, mul_one, Finset.sum_range_succ, add_assoc]
    · intro k hk t
      show _ ≤ s1.word k t + (e.x.words n t : ℝ) * inferTopics e word0 s1 n t k
      have h1 := ih.mono k hk t
      have h2 := mul_nonneg (Nat.cast_nonneg (α := ℝ) (e.x.words n t)) (infer_pos e word0 s1 n t k hk).le
      linarith

/-- The state between iterations after the first: what training guarantees, in terms of means. -/
structure Good (e : Env) (s : State) : Prop where
  mass : ∀ t, ∑ k ∈ Finset.range e.K, s.word k t = e.K * e.v + ∑ d ∈ Finset.range e.x.D, (e.x.words d t : ℝ)
  floor : ∀ k, k < e.K → ∀ t, e.v ≤ s.word k t
  proper : ∀ d, d < e.x.D → Proper e.K (s.means d)

/-- The intercept counts fully for every document, and has no prior. -/
structure Intercept (e : Env) (s : State) : Prop where
  means : ∀ d, d < e.x.D → s.means d e.K = 1
  prior : s.prior e.K = 0

theorem iteration_good (e : Env) (hK : 0 < e.K) (hx : ∀ d, d < e.x.D → 0 < e.x.len d) (n : Numerics) (itr : Nat) (s s' : State)
    (b : Bool) (hi : Intercept e s) (h : iteration e n itr s = .ok (s', b)) : Good e s' ∧ Intercept e s' := by
  have hsw := visits_swept e hK hx s.word { s with word := fun _ _ => e.v } e.x.D le_rfl
  have hg : Good e (sweep e s) ∧ Intercept e (sweep e s) := by
    refine ⟨⟨?_, ?_, hsw.proper⟩, ?_, ?_⟩
    · intro t
      refine (hsw.mass t).trans ?_
      simp
    · intro k hk t
      exact hsw.mono k hk t
    · intro d hd
      exact (hsw.intercept d).trans (hi.means d hd)
    · exact (congrFun hsw.prior e.K).trans hi.prior
  unfold iteration at h
  generalize sweep e s = s1 at *
  simp only at h
  cases hw : n.weights itr s1 with
  | error err => rw [hw] at h; cases h
  | ok w =>
    rw [hw] at h
    simp only at h
    have hgw : Good e { s1 with weights := w } ∧ Intercept e { s1 with weights := w } :=
      ⟨⟨hg.1.mass, hg.1.floor, hg.1.proper⟩, ⟨hg.2.means, hg.2.prior⟩⟩
    generalize ({ s1 with weights := w } : State) = s2 at *
    have hhyper : ∀ s3 : State, Good e s3 ∧ Intercept e s3 → Good e (hyperUpdate e n itr s3) ∧ Intercept e (hyperUpdate e n itr s3) := by
      intro s3 h3
      unfold hyperUpdate
      split
      · exact ⟨⟨h3.1.mass, h3.1.floor, h3.1.proper⟩, ⟨h3.2.means, if_pos rfl⟩⟩
      · exact h3
    have hmeas : ∀ d, d < e.x.D → (measured e s2).means d = s2.means d := by
      intro d hd
      funext k
      unfold measured
      simp only
      rw [means_of_dirichlet _ _ _ _ _ (hx d hd), means_of_dirichlet _ _ _ _ _ (hx d hd)]
    have hm : Good e (measured e s2) ∧ Intercept e (measured e s2) := by
      refine ⟨⟨hgw.1.mass, hgw.1.floor, ?_⟩, ?_, hgw.2.prior⟩
      · intro d hd; rw [hmeas d hd]; exact hgw.1.proper d hd
      · intro d hd; rw [hmeas d hd]; exact hgw.2.means d hd
    split at h
    · cases h
    · split at h
      · split at h
        · cases h; exact hm
        · cases h; exact hhyper _ hm
      · cases h; exact hhyper _ hgw

theorem loop_good (e : Env) (hK : 0 < e.K) (hx : ∀ d, d < e.x.D → 0 < e.x.len d) (n : Numerics) (left itr : Nat) (s s' : State)
    (hi : Intercept e s) (h0 : 0 < left ∨ Good e s) (h : loop e n left itr s = .ok s') : Good e s' ∧ Intercept e s' := by
  induction left generalizing itr s with
  | zero =>
    unfold loop at h
    cases h
    exact ⟨h0.resolve_left (by omega), hi⟩
  | succ left ih =>
    unfold loop at h
    cases hit : iteration e n itr s with
    | error err => rw [hit] at h; cases h
    | ok r =>
      obtain ⟨s1, b⟩ := r
      have hg := iteration_good e hK hx n itr s s1 b hi hit
      rw [hit] at h
      cases b with
      | true => cases h; exact hg
      | false => exact ih (itr + 1) s1 hg.2 (Or.inr hg.1) h

/-- **C123**: if training for at least one iteration succeeds, then the word parameters of all topics sum to the priors plus the
word counts, for every word, each at least the prior; the topic parameters of every document exceed the priors, of which the
intercept has none, and sum to the priors plus the document's length; the intercept's parameter is the document's length. -/
theorem rtm_mass (e : Env) (hK : 0 < e.K) (n : Numerics) (iterations : Nat) (hit : 0 < iterations) (s s' : State)
    (hprior : s.prior e.K = 0) (hint : ∀ d, d < e.x.D → s.means d e.K = e.x.len d) (h : train e n iterations s = .ok s') :
    (∀ t, ∑ k ∈ Finset.range e.K, s'.word k t = e.K * e.v + ∑ d ∈ Finset.range e.x.D, (e.x.words d t : ℝ))
      ∧ (∀ k, k < e.K → ∀ t, e.v ≤ s'.word k t)
      ∧ s'.prior e.K = 0
      ∧ ∀ d, d < e.x.D → (∀ k, k < e.K → s'.prior k < s'.means d k)
          ∧ ∑ k ∈ Finset.range e.K, s'.means d k = ∑ k ∈ Finset.range e.K, s'.prior k + e.x.len d
          ∧ s'.means d e.K = e.x.len d := by
  unfold train at h
  split at h
  · cases h
  · next hne =>
    have hx : ∀ d, d < e.x.D → 0 < e.x.len d := by
      intro d hd
      simp only [List.any_eq_true, List.mem_range, decide_eq_true_eq, not_exists, not_and] at hne
      have := hne d hd
      omega
    have hlen : ∀ d, d < e.x.D → (0 : ℝ) < e.x.len d := fun d hd => by exact_mod_cast hx d hd
    cases hl : loop e n iterations 0 { s with means := toMeans ⟨e.K, s.prior, e.v⟩ e.x s.means } with
    | error err => rw [hl] at h; cases h
    | ok s1 =>
      rw [hl] at h
      cases h
      obtain ⟨hg, hi⟩ := loop_good e hK hx n iterations 0 { s with means := toMeans ⟨e.K, s.prior, e.v⟩ e.x s.means } s1 ⟨fun d hd => by
        show (s.means d e.K - s.prior e.K) / (e.x.len d : ℝ) = 1
        rw [hint d hd, hprior, sub_zero, div_self (hlen d hd).ne'], hprior⟩ (Or.inl hit) hl
      refine ⟨hg.mass, hg.floor, hi.prior, fun d hd => ⟨?_, ?_, ?_⟩⟩
      · intro k hk
        show s1.prior k < s1.means d k * (e.x.len d : ℝ) + s1.prior k
        have := mul_pos ((hg.proper d hd).1 k hk) (hlen d hd)
        linarith
      · show ∑ k ∈ Finset.range e.K, (s1.means d k * (e.x.len d : ℝ) + s1.prior k) = _
        rw [Finset.sum_add_distrib, ← Finset.sum_mul, (hg.proper d hd).2, one_mul, add_comm]
      · show s1.means d e.K * (e.x.len d : ℝ) + s1.prior e.K = _
        rw [hi.means d hd, hi.prior]
        ring

/-! ## Querying (C124) -/

/-- **C124** is violated: querying any non-empty corpus of non-empty documents fails, leaving the query state with means
instead of parameters. -/
theorem query_fails (e : Env) (hx : Corpus e.x) (iterations : Nat) (hit : 0 < iterations) (s : State) :
    (query e iterations s).1 = .error .typeError
      ∧ ∀ d, d < e.x.D → ∀ k, (query e iterations s).2 d k * (e.x.len d : ℝ) + s.prior k = s.means d k := by
  have hq : query e iterations s = (.error .typeError, toMeans ⟨e.K, s.prior, e.v⟩ e.x s.means) := by
    unfold query
    rw [if_neg hx.check, if_pos ⟨hit, hx.some⟩]
  rw [hq]
  exact ⟨rfl, fun d hd k => dirichlet_of_means ⟨e.K, s.prior, e.v⟩ e.x s.means d k (hx.words d hd)⟩

/-- What remains of **C124**: querying for no iterations changes nothing. -/
theorem query_nothing_partial (e : Env) (hx : Corpus e.x) (s : State) :
    (query e 0 s).1 = .ok () ∧ ∀ d, d < e.x.D → ∀ k, (query e 0 s).2 d k = s.means d k := by
  have hq : query e 0 s = (.ok (), toDirichlet ⟨e.K, s.prior, e.v⟩ e.x (toMeans ⟨e.K, s.prior, e.v⟩ e.x s.means)) := by
    unfold query
    rw [if_neg hx.check, if_neg (by omega)]
  rw [hq]
  exact ⟨rfl, fun d hd k => dirichlet_of_means ⟨e.K, s.prior, e.v⟩ e.x s.means d k (hx.words d hd)⟩

/-! ## Undirected predictions (C126) -/

open Verif.LinkPred Verif.Props.LinkPred

/-- Scores do not depend on the direction. -/
theorem score_symmetric (cdf : ℝ → ℝ) (K : Nat) (weights : Nat → ℝ) (means : Nat → Nat → ℝ) (d e : Nat) :
    rtmScore cdf K weights means d e = rtmScore cdf K weights means e d := by
  unfold rtmScore rtmArg
  simp only [mul_comm (means d _)]

/-- What remains of **C126**: links predicted in both directions have the same score. -/
theorem predictions_agree_partial (cdf : ℝ → ℝ) (K : Nat) (weights : Nat → ℝ) (means : Nat → Nat → ℝ) (links : Nat → List Nat) (D : Nat)
    (hl : ∀ src, src < D → ∀ dst ∈ links src, dst < D) (out : List (Nat × Nat × Fl))
    (ho : linkProbs (rtmScore cdf K weights means) D 0 (allDocs D) (rtmMins cdf K weights means links D) = .ok out) (d e : Nat) (v w : Fl)
    (hv : (d, e, v) ∈ out) (hw : (e, d, w) ∈ out) : v = w := by
  obtain ⟨out', h1, h2⟩ := rtm_complete cdf K weights means links D hl
  rw [ho] at h1
  cases h1
  have hget : ∀ i src : Nat, (allDocs D)[i]? = some src → src = i := by
    intro i src h
    unfold allDocs at h
    obtain ⟨hlt, he⟩ := List.getElem?_eq_some_iff.mp h
    rw [List.getElem_range] at he
    exact he.symm
  obtain ⟨src, h3, -, rfl, -⟩ := h2.sound d e v hv
  obtain ⟨src', h4, -, rfl, -⟩ := h2.sound e d w hw
  rw [hget _ _ h3, hget _ _ h4]
  exact score_symmetric cdf K weights means d e

/-- **C126** is violated: links are predicted in one direction only, although the expected links are symmetric. -/
theorem predictions_asymmetric (cdf : ℝ → ℝ) (hcdf : StrictMono cdf) (hpos : ∀ x, 1 / 10 ^ 300 ≤ cdf x) :
    ∃ (means : Nat → Nat → ℝ) (links : Nat → List Nat) (out : List (Nat × Nat × Fl)),
      (∀ d e, e ∈ links d ↔ d ∈ links e)
      ∧ linkProbs (rtmScore cdf 1 (fun _ => 1) means) 3 0 (allDocs 3) (rtmMins cdf 1 (fun _ => 1) means links 3) = .ok out
      ∧ (∃ v, (2, 0, v) ∈ out) ∧ ∀ v, (0, 2, v) ∉ out := by
  let means : Nat → Nat → ℝ := fun d k => if k = 1 then 1 else if d = 2 then 0 else 1
  let links : Nat → List Nat := fun d => if d = 0 then [1] else if d = 1 then [0] else []
  have hl : ∀ src, src < 3 → ∀ dst ∈ links src, dst < 3 := by
    intro src hs dst hd
    simp only [links] at hd
    split_ifs at hd
    · simp at hd; omega
    · simp at hd; omega
    · simp at hd
  obtain ⟨out, h1, h2⟩ := rtm_complete cdf 1 (fun _ => 1) means links 3 hl
  refine ⟨means, links, out, ?_, h1, ?_, ?_⟩
  · intro d e
    simp only [links]
    split_ifs <;> simp <;> omega
  · obtain ⟨out', h3, h4⟩ := linkProbs_mem (rtmScore cdf 1 (fun _ => 1) means) 3 0 (allDocs 3) (rtmMins cdf 1 (fun _ => 1) means links 3)
      (by simp [rtmMins, minLinkProbs])
    rw [h1] at h3
    cases h3
    refine ⟨_, (h4 2 0 _).mpr ⟨2, some (1 / 10 ^ 300), rfl, rfl, by omega, ?_, rfl⟩⟩
    show 1 / 10 ^ 300 - 0 ≤ cdf _
    rw [sub_zero]
    exact hpos _
  · intro v hv
    obtain ⟨src, h3, -, -, h5⟩ := h2.sound 0 2 v hv
    cases h3
    obtain ⟨dst, h6, -, h7⟩ := h5 (by simp [links])
    have : dst = 1 := by simpa [links] using h6
    subst this
    have hlt : cdf (rtmArg 1 (fun _ => 1) means 0 2) < cdf (rtmArg 1 (fun _ => 1) means 0 1) := by
      apply hcdf
      unfold rtmArg
      simp [means]
    linarith

/-! ## Examples -/

example : considered 4 (fun d => if d = 0 then [1, 3] else if d = 1 then [0] else if d = 3 then [0, 3] else []) = [(0, 1), (0, 3)] := by
  decide

/-- Three non-empty documents and two topics, with a link; training for seven iterations succeeds. -/
noncomputable def exEnv : Env :=
  ⟨fun x => x, fun _ => 1, fun _ => 1, 2, 1 / 10, Props.VbPython.exX, fun d => if d = 0 then [1] else if d = 1 then [0] else [], 10⟩

def exNum : Numerics := ⟨fun _ s => .ok s.weights, fun itr _ => itr == 20, fun _ s => s.prior⟩

noncomputable def exState : State :=
  ⟨fun _ _ => 1, fun d k => if k = 2 then exEnv.x.len d else 1, fun _ => 1, fun k => if k = 2 then 0 else 1⟩

theorem loop_ok (n : Numerics) (e : Env) (hn : ∀ i s, ∃ w, n.weights i s = .ok w) (hf : e.logFrequency ≠ 0) (left itr : Nat) (s : State) :
    ∃ s', loop e n left itr s = .ok s' := by
  induction left generalizing itr s with
  | zero => exact ⟨s, rfl⟩
  | succ left ih =>
    have hit : ∃ r, iteration e n itr s = .ok r := by
      unfold iteration
      obtain ⟨w, hw⟩ := hn itr (sweep e s)
      simp only [hw]
      rw [if_neg hf]
      split
      · split
        · exact ⟨_, rfl⟩
        · exact ⟨_, rfl⟩
      · exact ⟨_, rfl⟩
    obtain ⟨⟨s1, b⟩, hr⟩ := hit
    unfold loop
    rw [hr]
    cases b with
    | true => exact ⟨s1, rfl⟩
    | false => exact ih (itr + 1) s1

example : ∃ s', train exEnv exNum 7 exState = .ok s' ∧ (∀ d, d < 3 → s'.means d 2 = exEnv.x.len d)
    ∧ ∀ t, ∑ k ∈ Finset.range 2, s'.word k t = (2 : Nat) * (1 / 10) + ∑ d ∈ Finset.range 3, (exEnv.x.words d t : ℝ) := by
  have hex : ∃ s', train exEnv exNum 7 exState = .ok s' := by
    unfold train
    have hc := Props.VbPython.exX_corpus.check
    rw [if_neg (show ¬ ((List.range exEnv.x.D).any fun d => decide (exEnv.x.len d < 1)) = true from hc)]
    obtain ⟨s', h⟩ := loop_ok exNum exEnv (fun i s => ⟨s.weights, rfl⟩) (by show 10 ≠ 0; decide) 7 0
      { exState with means := toMeans ⟨exEnv.K, exState.prior, exEnv.v⟩ exEnv.x exState.means }
    rw [h]
    exact ⟨_, rfl⟩
  obtain ⟨s', h⟩ := hex
  obtain ⟨h1, -, -, h2⟩ := rtm_mass exEnv (by show 0 < 2; decide) exNum 7 (by decide) exState s'
    (show (if 2 = 2 then (0 : ℝ) else 1) = 0 from if_pos rfl) (fun d _ => show (if 2 = 2 then (exEnv.x.len d : ℝ) else 1) = _ from if_pos rfl) h
  exact ⟨s', h, fun d hd => (h2 d hd).2.2, h1⟩

example (s : State) : (query exEnv 5 s).1 = .error .typeError := (query_fails exEnv Props.VbPython.exX_corpus 5 (by decide) s).1

end Verif.Props.Rtm
