import Mathlib.Algebra.BigOperators.Field
import Mathlib.Algebra.Order.BigOperators.Group.Finset
import Mathlib.Tactic.FieldSimp
import Mathlib.Tactic.Linarith
import Mathlib.Tactic.Ring
import Mathlib.Data.List.GetD
import Verif.Model.SelfLda

/-!
# Using the self-linked LDA model
-/

namespace Verif.Props.SelfLda

open Verif
open Verif.SelfLda

/-- A model made by `newModelAtRandom` has a zero among its topic priors. -/
theorem model_has_zero (K : Nat) (prior : Prior) (v : ℚ) (w : Nat → Nat → ℚ) (b : Bool) (m : Model)
    (h : newModel K prior v w b = .ok m) : (0 : ℚ) ∈ m.topicPrior ∧ m.K = K := by
  unfold newModel pyAssert at h
  by_cases h1 : 1 < K
  · by_cases h2 : K < 255
    · simp only [h1, h2, decide_true, if_true, bind, Except.bind] at h
      cases prior with
      | default =>
        simp only [makePrior, Except.ok.injEq] at h
        subst h
        exact ⟨List.mem_iff_getElem.2 ⟨K, by simp, by simp⟩, rfl⟩
      | scalar c => simp [makePrior] at h
      | vector l =>
        by_cases hl : K < l.length
        · simp only [makePrior, if_pos hl, Except.ok.injEq] at h
          subst h
          exact ⟨List.mem_iff_getElem.2 ⟨K, by simpa using hl, by simp⟩, rfl⟩
        · simp [makePrior, if_neg hl] at h
    · simp [h1, h2, bind, Except.bind] at h
  · simp [h1, bind, Except.bind] at h

/-- C194: no model made by `newModelAtRandom`, with whatever prior, gets a query state. -/
theorem no_query_state (K : Nat) (prior : Prior) (v : ℚ) (w : Nat → Nat → ℚ) (b : Bool) (m : Model)
    (h : newModel K prior v w b = .ok m) (docLens : List Nat) (draw : Nat → Nat → ℚ) :
    newQueryState docLens m draw = .error .valueError := by
  have : m.topicPrior.any (fun a => decide (a ≤ 0)) = true :=
    List.any_eq_true.2 ⟨0, (model_has_zero K prior v w b m h).1, by decide⟩
  unfold newQueryState
  rw [if_pos this]

/-- C194: the documented kinds of priors, a number or one number for each topic, are rejected; the default, or a vector with one
more element, is accepted. -/
theorem priors_accepted (K : Nat) (hK : 1 < K ∧ K < 255) (prior : Prior) (v : ℚ) (w : Nat → Nat → ℚ) (b : Bool) :
    (∃ m, newModel K prior v w b = .ok m) ↔ (match prior with | .default => True | .scalar _ => False | .vector l => K < l.length) := by
  unfold newModel pyAssert
  simp only [hK.1, hK.2, decide_true, if_true, bind, Except.bind]
  cases prior with
  | default => simp [makePrior]
  | scalar c => simp [makePrior]
  | vector l =>
    by_cases hl : K < l.length
    · simp [makePrior, hl]
    · simp [makePrior, hl]

/-- C194: a number is refused with a TypeError, one number for each topic with an IndexError. -/
theorem documented_priors_rejected (K : Nat) (hK : 1 < K ∧ K < 255) (c : ℚ) (l : List ℚ) (hl : l.length = K) (v : ℚ)
    (w : Nat → Nat → ℚ) (b : Bool) :
    newModel K (.scalar c) v w b = .error .typeError ∧ newModel K (.vector l) v w b = .error .indexError := by
  unfold newModel pyAssert
  simp only [hK.1, hK.2, decide_true, if_true, bind, Except.bind]
  refine ⟨by simp [makePrior], ?_⟩
  have : ¬ K < l.length := by omega
  simp [makePrior, if_neg this]

/-- C194: whatever model and query state are handed to `train`, one or more iterations end in an exception. -/
theorem train_fails (n : Nat) (hn : 0 < n) (updateVocab : Bool) (m : Model) (q : Query) :
    ∃ e, (train n updateVocab m q).result = .error e := by
  obtain ⟨n, rfl⟩ := Nat.exists_eq_add_of_le' hn
  unfold train
  split_ifs <;> exact ⟨_, rfl⟩

/-- A corpus and model which pass the checks at the start of `train` -/
structure Sane (m : Model) (q : Query) : Prop where
  words : ∀ n ∈ q.docLens, 0 < n
  float : m.float64 = true

theorem Sane.check {m : Model} {q : Query} (h : Sane m q) : ¬ q.docLens.any (fun n => decide (n < 1)) = true := by
  simp only [List.any_eq_true, decide_eq_true_eq, not_exists, not_and]
  intro n hn
  have := h.words n hn
  omega

/-- C194: a call of `train` that fails has already erased the topics of the model: all words have the weight of the prior. -/
theorem train_erases (n : Nat) (hn : 0 < n) (m : Model) (q : Query) (h : Sane m q) (k t : Nat) :
    (train n true m q).result = .error .typeError ∧ (train n true m q).words k t = m.vocabPrior := by
  obtain ⟨n, rfl⟩ := Nat.exists_eq_add_of_le' hn
  unfold train
  rw [if_neg h.check, h.float]
  exact ⟨rfl, rfl⟩

/-- C194: a query that fails keeps the words, yet leaves means in place of the topic parameters. -/
theorem query_fails (n : Nat) (hn : 0 < n) (m : Model) (q : Query) (h : Sane m q) (d k : Nat) :
    (query n m q).result = .error .typeError ∧ (query n m q).words = m.wordDists ∧
    (query n m q).topics d k = (q.topicDists d k - m.topicPrior.getD k 0) / (q.docLens.getD d 0 : ℚ) := by
  obtain ⟨n, rfl⟩ := Nat.exists_eq_add_of_le' hn
  unfold query train
  rw [if_neg h.check, h.float]
  exact ⟨rfl, rfl, rfl⟩

/-- C194: no iterations at all: the state comes back as it was. -/
theorem train_zero_partial (updateVocab : Bool) (m : Model) (q : Query) (h : Sane m q) :
    ∃ q', (train 0 updateVocab m q).result = .ok (m, q') ∧ q'.docLens = q.docLens ∧
      (∀ d k, d < q.docLens.length → q'.topicDists d k = q.topicDists d k) ∧
      (train 0 updateVocab m q).words = m.wordDists ∧ (train 0 updateVocab m q).topics = q'.topicDists := by
  have hrun : train 0 updateVocab m q = ⟨.ok (m, ⟨q.docLens, toDirichlet q m (toMeans q m q.topicDists)⟩), m.wordDists,
      toDirichlet q m (toMeans q m q.topicDists)⟩ := by
    unfold train
    rw [if_neg h.check, h.float]
    rfl
  rw [hrun]
  refine ⟨_, rfl, rfl, ?_, rfl, rfl⟩
  intro d k hd
  show (q.topicDists d k - m.topicPrior.getD k 0) / (q.docLens.getD d 0 : ℚ) * (q.docLens.getD d 0 : ℚ) + m.topicPrior.getD k 0 = _
  have h0 : (0 : ℚ) < (q.docLens.getD d 0 : ℚ) := by
    rw [List.getD_eq_getElem _ _ hd]
    exact_mod_cast h.words _ (List.getElem_mem hd)
  generalize hL : (q.docLens.getD d 0 : ℚ) = L at h0
  field_simp
  ring

/-- C195: the topics reported for a document sum to one and do not depend on the extra column. -/
theorem topicDists_dist (cols : Nat) (hc : 1 < cols) (q : Query) (d : Nat) (hpos : ∀ k, k < cols - 1 → 0 < q.topicDists d k) :
    (∀ k, k < cols - 1 → 0 < topicDists cols q d k) ∧ ∑ k ∈ Finset.range (cols - 1), topicDists cols q d k = 1 ∧
    ∀ q' : Query, (∀ k, k < cols - 1 → q'.topicDists d k = q.topicDists d k) →
      ∀ k, k < cols - 1 → topicDists cols q' d k = topicDists cols q d k := by
  have hs : 0 < ∑ j ∈ Finset.range (cols - 1), q.topicDists d j :=
    Finset.sum_pos (fun j hj => hpos j (Finset.mem_range.1 hj)) ⟨0, Finset.mem_range.2 (by omega)⟩
  refine ⟨fun k hk => div_pos (hpos k hk) hs, ?_, ?_⟩
  · unfold topicDists
    rw [← Finset.sum_div]
    exact div_self hs.ne'
  · intro q' hq k hk
    unfold topicDists
    rw [hq k hk, Finset.sum_congr rfl (fun j hj => hq j (Finset.mem_range.1 hj))]

/-! ## Examples -/

def exM : Model := ⟨2, [3, 3, 0], 6 / 10, fun _ _ => 2, true⟩

def exQ : Query := ⟨[4, 5], fun d k => if k = 2 then 4 + d else 3 + k⟩

theorem exSane : Sane exM exQ := ⟨by decide, rfl⟩

example : newModel 2 .default (6 / 10) (fun _ _ => 2) true = .ok exM := by
  have : (List.replicate (2 + 1) (5 / ((2 : Nat) : ℚ) + 1 / 2)).set 2 0 = [3, 3, 0] := by decide +kernel
  simp only [newModel, pyAssert, makePrior, this]
  rfl

example : newQueryState [4, 5] exM (fun _ _ => 1 / 2) = .error .valueError :=
  no_query_state 2 (.vector [3, 3, 7]) (6 / 10) (fun _ _ => 2) true exM rfl [4, 5] _

example : (train 100 true exM exQ).result = .error .typeError ∧ (train 100 true exM exQ).words 1 1 = 6 / 10 :=
  train_erases 100 (by decide) exM exQ exSane 1 1

example : ∃ q', (train 0 true exM exQ).result = .ok (exM, q') ∧ q'.topicDists 1 0 = 3 := by
  obtain ⟨q', h1, _, h2, _⟩ := train_zero_partial true exM exQ exSane
  exact ⟨q', h1, by rw [h2 1 0 (by decide)]; decide +kernel⟩

example : topicDists 3 exQ 0 1 = 4 / 7 := by decide +kernel

end Verif.Props.SelfLda
