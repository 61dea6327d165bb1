import Mathlib.Tactic.NormNum
import Mathlib.Tactic.Linarith
import Verif.Model.Priors
import Verif.Model.RunOptions

/-!
# Properties of the options of the command line program (C258–C260)
-/

namespace Verif.Props.RunOptions

open Verif Verif.RunOptions

/-! ## Specification -/

/-- A call succeeds and gives the parameter the value of the option -/
def Gets (r : Py (List (String × Opt))) (param : String) (o : Opt) : Prop := ∃ b, r = .ok b ∧ (param, o) ∈ b

/-- A call succeeds and leaves the parameter at its default -/
def LeftOut (r : Py (List (String × Opt))) (param : String) : Prop := ∃ b, r = .ok b ∧ ∀ o, (param, o) ∉ b

/-- Binding gives values to parameters only. -/
theorem bindArgs_params (params : List String) (c : Call) (b : List (String × Opt)) (h : bindArgs params c = .ok b) :
    ∀ p ∈ b, p.1 ∈ params := by
  unfold bindArgs at h
  split at h
  · cases h
  · split at h
    · rename_i hkw
      injection h with h
      subst h
      intro p hp
      rcases List.mem_append.mp hp with hp | hp
      · exact (List.of_mem_zip hp).1
      · have := (List.all_eq_true.mp hkw) p hp
        exact List.mem_of_mem_drop (by simpa using this)
    · cases h

/-- Binding succeeds exactly if there are no more arguments by position than parameters and every keyword is one of the other parameters; it raises a
`TypeError` otherwise. -/
theorem bindArgs_spec (params : List String) (c : Call) :
    (c.pos.length ≤ params.length ∧ (∀ p ∈ c.kw, p.1 ∈ params.drop c.pos.length) → bindArgs params c = .ok (params.zip c.pos ++ c.kw)) ∧
    (¬ (c.pos.length ≤ params.length ∧ ∀ p ∈ c.kw, p.1 ∈ params.drop c.pos.length) → bindArgs params c = .error .typeError) := by
  have hall : (c.kw.all fun p => (params.drop c.pos.length).contains p.1) = true ↔ ∀ p ∈ c.kw, p.1 ∈ params.drop c.pos.length := by
    rw [List.all_eq_true]
    exact forall₂_congr fun p _ => by simp
  unfold bindArgs
  constructor
  · rintro ⟨h1, h2⟩
    rw [if_neg (by omega), if_pos (hall.2 h2)]
  · intro h
    split
    · rfl
    · rw [if_neg fun hc => h ⟨by omega, hall.1 hc⟩]

/-- All the parameters can be given by position. -/
example : bindArgs ["K", "dtype"] ⟨[.K, .dtype], []⟩ = .ok [("K", .K), ("dtype", .dtype)] :=
  (bindArgs_spec _ _).1 ⟨by decide, by decide⟩

/-! ## C258: the vocabulary prior -/

/-- The models that the vocabulary prior reaches -/
def vocabPriorReaches : List Model := [.ctmBouchard, .ctmBohning, .stmYvBouchard, .stmYvBohning, .stmYvBohningFakeOnline, .stmUyvBohning]

/-- **C258 (violation).** The variational topic models take the option for the prior of the vocabulary as the prior of their topics, and
leave the prior of the vocabulary at its default. -/
theorem vocab_prior_violation (m : Model) (hm : m = .ldaVb ∨ m = .ldaSvb) :
    Gets (template m) "topicPrior" .vocabPrior ∧ LeftOut (template m) "vocabPrior" := by
  rcases hm with rfl | rfl <;>
    refine ⟨⟨_, rfl, by decide⟩, ⟨_, rfl, ?_⟩⟩ <;> intro o <;> cases o <;> decide

/-- **C258.** What that does: whatever value is given is the prior of every topic, and the prior of the words stays at `1.1`. -/
theorem vocab_prior_used (K T : Nat) (x : ℚ) :
    Priors.topicUsed .vbPython K (.float x) = .ok (List.replicate K x) ∧ Priors.vocabUsed .vbPython T .none = .ok (List.replicate T (11 / 10)) :=
  ⟨rfl, rfl⟩

/-- **C258.** The option is the prior of the vocabulary in exactly the correlated and the feature models; in the others it is not used,
but for those of the violation. -/
theorem vocab_prior_partial (m : Model) :
    (Gets (template m) "vocabPrior" .vocabPrior ↔ m ∈ vocabPriorReaches)
      ∧ (m ∉ vocabPriorReaches → m ≠ .ldaVb → m ≠ .ldaSvb → ∃ b, template m = .ok b ∧ ∀ p ∈ b, p.2 ≠ .vocabPrior) := by
  cases m <;>
    refine ⟨⟨fun h => ?_, fun h => ?_⟩, fun h1 h2 h3 => ?_⟩ <;>
    first
      | (exact absurd h (by decide))
      | (exact absurd rfl h2)
      | (exact absurd rfl h3)
      | (exact absurd (by decide) h1)
      | (exact by decide)
      | (exact ⟨_, rfl, by decide⟩)
      | (obtain ⟨b, hb, hmem⟩ := h; injection hb with hb; subst hb; exact absurd hmem (by decide))

example : Gets (template .ldaVb) "topicPrior" .vocabPrior := (vocab_prior_violation .ldaVb (.inl rfl)).1
example : Gets (template .stmUyvBohning) "vocabPrior" .vocabPrior := (vocab_prior_partial .stmUyvBohning).1.mpr (by decide)
example : ∃ b, template .ldaGibbs = .ok b ∧ ∀ p ∈ b, p.2 ≠ .vocabPrior :=
  (vocab_prior_partial .ldaGibbs).2 (by decide) (by decide) (by decide)

/-! ## C259: the options for training -/

/-- **C259 (violation).** No plan is given a log frequency or a smallest change of the bound, whatever the model and the batch size: the
options `--log-freq` and `--min-vb-change` are without effect. -/
theorem plan_violation (m : Model) (batchSize : Int) :
    LeftOut (trainPlan m batchSize) "logFrequency" ∧ LeftOut (trainPlan m batchSize) "epsilon"
      ∧ LeftOut (queryPlan m) "logFrequency" ∧ LeftOut (queryPlan m) "epsilon" := by
  have key : ∀ (p : Prop) [Decidable p], m = .ldaSvb ∨ ¬ p →
      (LeftOut (bindArgs (planParams m) (if p then
        ⟨[.iters], [("batchSize", .batchSize), ("rate_delay", .rateDelay), ("forgetting_rate", .forgettingRate), ("debug", .debug)]⟩
        else ⟨[.iters], [("debug", .debug)]⟩)) "logFrequency"
      ∧ LeftOut (bindArgs (planParams m) (if p then
        ⟨[.iters], [("batchSize", .batchSize), ("rate_delay", .rateDelay), ("forgetting_rate", .forgettingRate), ("debug", .debug)]⟩
        else ⟨[.iters], [("debug", .debug)]⟩)) "epsilon") := by
    intro p _ hp
    by_cases h : p
    · simp only [if_pos h]
      obtain rfl := hp.resolve_right (not_not.mpr h)
      exact ⟨⟨_, rfl, by intro o; cases o <;> decide⟩, ⟨_, rfl, by intro o; cases o <;> decide⟩⟩
    · simp only [if_neg h]
      cases m <;> exact ⟨⟨_, rfl, by intro o; cases o <;> decide⟩, ⟨_, rfl, by intro o; cases o <;> decide⟩⟩
  have h1 := key (0 < batchSize ∧ m = .ldaSvb) (by
    by_cases h : m = .ldaSvb
    · exact .inl h
    · exact .inr fun hc => h hc.2)
  refine ⟨h1.1, h1.2, ?_⟩
  unfold queryPlan
  cases m <;> exact ⟨⟨_, rfl, by intro o; cases o <;> decide⟩, ⟨_, rfl, by intro o; cases o <;> decide⟩⟩

/-- **C259.** The numbers of iterations and the debug switch reach the plans of every model; the options of gradient descent reach
that of the stochastic model, if the batch size is positive, and no other plan. -/
theorem plan_partial (m : Model) (batchSize : Int) :
    Gets (trainPlan m batchSize) "iterations" .iters ∧ Gets (trainPlan m batchSize) "debug" .debug
      ∧ Gets (queryPlan m) "iterations" .queryIters ∧ Gets (queryPlan m) "debug" .debug
      ∧ (Gets (trainPlan m batchSize) "batchSize" .batchSize ↔ 0 < batchSize ∧ m = .ldaSvb)
      ∧ (Gets (trainPlan m batchSize) "rate_delay" .rateDelay ↔ 0 < batchSize ∧ m = .ldaSvb)
      ∧ (Gets (trainPlan m batchSize) "forgetting_rate" .forgettingRate ↔ 0 < batchSize ∧ m = .ldaSvb) := by
  have hq : Gets (queryPlan m) "iterations" .queryIters ∧ Gets (queryPlan m) "debug" .debug := by
    unfold queryPlan
    cases m <;> exact ⟨⟨_, rfl, by decide⟩, ⟨_, rfl, by decide⟩⟩
  unfold trainPlan
  by_cases h : 0 < batchSize ∧ m = .ldaSvb
  · simp only [if_pos h]
    obtain ⟨h1, rfl⟩ := h
    exact ⟨⟨_, rfl, by decide⟩, ⟨_, rfl, by decide⟩, hq.1, hq.2, ⟨fun _ => ⟨h1, rfl⟩, fun _ => ⟨_, rfl, by decide⟩⟩,
      ⟨fun _ => ⟨h1, rfl⟩, fun _ => ⟨_, rfl, by decide⟩⟩, ⟨fun _ => ⟨h1, rfl⟩, fun _ => ⟨_, rfl, by decide⟩⟩⟩
  · simp only [if_neg h]
    have no : ∀ param o, o = .batchSize ∨ o = .rateDelay ∨ o = .forgettingRate →
        ¬ Gets (bindArgs (planParams m) ⟨[.iters], [("debug", .debug)]⟩) param o := by
      rintro param o ho ⟨b, hb, hmem⟩
      have : ∀ p ∈ b, p.2 = .iters ∨ p.2 = .debug := by
        cases m <;> (injection hb with hb; subst hb; decide)
      rcases this _ hmem with h | h <;> rcases ho with rfl | rfl | rfl <;> cases h
    refine ⟨?_, ?_, hq.1, hq.2, ⟨fun hc => absurd hc (no _ _ (by simp)), fun hc => absurd hc h⟩,
      ⟨fun hc => absurd hc (no _ _ (by simp)), fun hc => absurd hc h⟩, ⟨fun hc => absurd hc (no _ _ (by simp)), fun hc => absurd hc h⟩⟩ <;>
      cases m <;> exact ⟨_, rfl, by decide⟩

example : LeftOut (trainPlan .ldaSvb 20) "epsilon" := (plan_violation .ldaSvb 20).2.1
example : Gets (trainPlan .ldaSvb 20) "rate_delay" .rateDelay := (plan_partial .ldaSvb 20).2.2.2.2.2.1.mpr ⟨by decide, rfl⟩
example : ¬ Gets (trainPlan .ldaGibbs 20) "batchSize" .batchSize := fun h => by
  have := (plan_partial .ldaGibbs 20).2.2.2.2.1.mp h
  exact absurd this.2 (by decide)

/-! ## C260: switching debugging off -/

/-- The texts that say no -/
def SaysNo (s : String) : Prop := s ∈ ["False", "false", "no", "0"]

/-- **C260 (violation).** Every text that says no switches debugging on. -/
theorem debug_violation (s : String) (h : SaysNo s) : debugOption (some s) = true := by
  simp only [SaysNo, List.mem_cons, List.not_mem_nil, or_false] at h
  rcases h with rfl | rfl | rfl | rfl <;> decide

/-- **C260.** Debugging is off exactly if the option is left out, or given the empty text. -/
theorem debug_partial (o : Option String) : debugOption o = false ↔ o = none ∨ o = some "" := by
  cases o with
  | none => simp [debugOption]
  | some s => simp [debugOption]

example : debugOption (some "False") = true := debug_violation _ (by simp [SaysNo])
example : debugOption none = false := (debug_partial none).mpr (.inl rfl)

end Verif.Props.RunOptions
