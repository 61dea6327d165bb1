import Verif.Model.Seeding

/-!
# What the seed of a wrapper decides
-/

namespace Verif.Props.Seeding

open Verif Verif.Seeding

variable {N C R : Type}

/-- The result of a computation without the states of the generators it leaves. -/
def result : Py (R × World N C) → Py R
  | .ok x => .ok x.1
  | .error e => .error e

/-- The states after an assignment of an accepted seed. -/
theorem setSeed_ok (g : Generators N C) (kind : Sklearn.Kind) (seed : Int) (h : 0 ≤ seed ∧ seed < 4294967296)
    (w : World N C) : setSeed g kind seed w =
      if kind = .ldaGibbs then .ok ⟨g.np 12648430, g.c 12648430⟩ else .ok ⟨g.np seed.toNat, w.c⟩ := by
  have hn : ∀ (s : Int) (w : World N C), 0 ≤ s ∧ s < 4294967296 → npSeed g s w = .ok { w with np := g.np s.toNat } :=
    fun s w h => if_pos (by omega)
  have hr : seedRng g seed ⟨g.np seed.toNat, w.c⟩ = .ok ⟨g.np 12648430, g.c 12648430⟩ := by
    have := hn (coffee : Nat) ⟨g.np seed.toNat, w.c⟩ (by decide)
    unfold seedRng
    rw [this]
    rfl
  unfold setSeed
  rw [hn seed w h]
  simp only [bind, Except.bind]
  by_cases hk : kind = .ldaGibbs
  · rw [if_pos hk, if_pos hk]; exact hr
  · rw [if_neg hk, if_neg hk]; rfl

/-- A seed that is not accepted. -/
theorem setSeed_error (g : Generators N C) (kind : Sklearn.Kind) (seed : Int) (h : ¬ (0 ≤ seed ∧ seed < 4294967296))
    (w : World N C) : setSeed g kind seed w = .error .valueError := by
  have hn : npSeed g seed w = .error .valueError := if_neg (by omega)
  unfold setSeed
  rw [hn]
  rfl

/-- A seed is accepted if and only if it lies between 0 and 2³² - 1; others are a `ValueError`. -/
theorem seed_range (g : Generators N C) (kind : Sklearn.Kind) (seed : Int) (w : World N C) :
    ((∃ w', setSeed g kind seed w = .ok w') ↔ 0 ≤ seed ∧ seed < 4294967296) ∧
      (¬ (0 ≤ seed ∧ seed < 4294967296) → setSeed g kind seed w = .error .valueError) := by
  refine ⟨⟨?_, fun h => ?_⟩, fun h => setSeed_error g kind seed h w⟩
  · rintro ⟨w', hw'⟩
    by_cases h : 0 ≤ seed ∧ seed < 4294967296
    · exact h
    · rw [setSeed_error g kind seed h w] at hw'
      cases hw'
  · rw [setSeed_ok g kind seed h w]
    split <;> exact ⟨_, rfl⟩

/-- Whatever ran before in the process, a new wrapper that is fitted at once gives the result that the same seed always gives,
for each kind of model. -/
theorem fresh_reproducible (g : Generators N C) (kind : Sklearn.Kind) (p : Program N C R (use kind)) (seed : Int)
    (w w' : World N C) : result (constructAndFit g kind p seed w) = result (constructAndFit g kind p seed w') := by
  unfold constructAndFit
  by_cases h : 0 ≤ seed ∧ seed < 4294967296
  · rw [setSeed_ok g kind seed h w, setSeed_ok g kind seed h w']
    cases kind <;> (simp only [use] at p; cases p) <;> rfl
  · rw [setSeed_error g kind seed h w, setSeed_error g kind seed h w']

/-- For every kind but the Gibbs sampler, the numbers that numpy draws are those that follow the wrapper's seed. -/
theorem seed_used_partial (g : Generators N C) (kind : Sklearn.Kind) (hk : kind ≠ .ldaGibbs) (seed : Nat) (hs : seed < 4294967296)
    (w : World N C) : setSeed g kind (seed : Int) w = .ok ⟨g.np seed, w.c⟩ := by
  rw [setSeed_ok g kind seed (by omega) w, if_neg hk, Int.toNat_natCast]

/-- **Violation.** For the Gibbs sampler both generators start at a constant: all seeds that are accepted give the same
fitted model and leave the same generators. -/
theorem gibbs_seed_violation (g : Generators N C) (p : Program N C R .shares) (seed seed' : Nat) (hs : seed < 4294967296)
    (hs' : seed' < 4294967296) (w : World N C) :
    setSeed g .ldaGibbs (seed : Int) w = .ok ⟨g.np 12648430, g.c 12648430⟩ ∧
      constructAndFit g .ldaGibbs p (seed : Int) w = constructAndFit g .ldaGibbs p (seed' : Int) w := by
  refine ⟨setSeed_ok g .ldaGibbs seed (by omega) w, ?_⟩
  unfold constructAndFit
  rw [setSeed_ok g .ldaGibbs seed (by omega) w, setSeed_ok g .ldaGibbs seed' (by omega) w]
  rfl

/-- Generators that count: a state is the number that is drawn next. -/
def counting : Generators Nat Nat := ⟨id, id⟩

/-- The seeds 1 and 2: another kind of model draws different numbers, the Gibbs sampler the same. -/
example : result (constructAndFit counting .momGibbs (.never fun n => (n, n + 1)) 1 ⟨7, 8⟩) = .ok 1 ∧
    result (constructAndFit counting .momGibbs (.never fun n => (n, n + 1)) 2 ⟨7, 8⟩) = .ok 2 ∧
    result (constructAndFit counting .ldaGibbs (.shares fun n c => ((n, c), n + 1, c + 1)) 1 ⟨7, 8⟩) = .ok (12648430, 12648430) ∧
    result (constructAndFit counting .ldaGibbs (.shares fun n c => ((n, c), n + 1, c + 1)) 2 ⟨7, 8⟩) = .ok (12648430, 12648430) :=
  ⟨rfl, rfl, rfl, rfl⟩

/-! ## When the seed is applied -/

/-- Two wrappers are made with the same seed, which `assign` assigns, then fitted one after the other. -/
def twoFits (g : Generators N C) {u : Use} (assign : World N C → Py (World N C)) (p : Program N C R u) (w : World N C) :
    Py (R × R) := do
  let w ← assign w
  let w ← assign w
  let r := fit g p w
  let r' := fit g p r.2
  return (r.1, r'.1)

/-- Two fits after two assignments that lead to the same state. -/
theorem two (g : Generators N C) {u : Use} (assign : World N C → Py (World N C)) (p : Program N C R u)
    (w w₁ : World N C) (h₁ : assign w = .ok w₁) (h₂ : assign w₁ = .ok w₁) :
    twoFits g assign p w = .ok ((fit g p w₁).1, (fit g p (fit g p w₁).2).1) := by
  unfold twoFits
  rw [h₁]
  simp only [bind, Except.bind]
  rw [h₂]
  rfl

/-- **Violation.** For each kind and all generators of which a draw changes the state (`step`), there is a fit, that draws one
number, for which two wrappers with the same seed give different models: the second starts from the state that the first
has left. -/
theorem same_seed_violation (g : Generators N C) (step : N → N) (hstep : ∀ n, step n ≠ n) (kind : Sklearn.Kind) (seed : Nat)
    (hs : seed < 4294967296) : ∃ p : Program N C N (use kind), ∀ w, ∃ r r', twoFits g (setSeed g kind (seed : Int)) p w = .ok (r, r') ∧
      r' = step r ∧ r' ≠ r := by
  by_cases hk : kind = .ldaGibbs
  · have hw : ∀ w, setSeed g kind (seed : Int) w = .ok ⟨g.np 12648430, g.c 12648430⟩ := fun w => by
      rw [setSeed_ok g kind seed (by omega) w, if_pos hk]
    generalize g.np 12648430 = a, g.c 12648430 = b at hw
    subst hk
    exact ⟨.shares (fun n c => (n, step n, c)), fun w => ⟨a, step a, two g _ _ w ⟨a, b⟩ (hw w) (hw _), rfl, hstep a⟩⟩
  · have hw : ∀ w, setSeed g kind (seed : Int) w = .ok ⟨g.np seed, w.c⟩ := seed_used_partial g kind hk seed hs
    cases kind
    case ldaVbPython | momVb | momGibbs =>
      exact ⟨.never (fun n => (n, step n)), fun w => ⟨_, _, two g _ _ w _ (hw w) (hw _), rfl, hstep _⟩⟩
    case ldaGibbs => exact absurd rfl hk
    all_goals exact ⟨.reseeds (fun n c => (n, step n, c)), fun w => ⟨_, _, two g _ _ w _ (hw w) (hw _), rfl, hstep _⟩⟩

/-- The fit of a wrapper depends on its seed only through the generators: given their states at the time of the call, neither
the kind nor the seed plays a part, and of the states only those that the kind uses do. -/
theorem fit_depends (g : Generators N C) {u : Use} (p : Program N C R u) (w w' : World N C) (hn : w.np = w'.np)
    (hc : u = .shares → w.c = w'.c) : (fit g p w).1 = (fit g p w').1 ∧ (fit g p w).2.np = (fit g p w').2.np := by
  cases p with
  | never f => simp [fit, hn]
  | reseeds f => simp [fit, hn]
  | shares f => simp [fit, hn, hc rfl]

/-- A fit of the Gibbs sampler begins with the states that both generators have when it is called, and leaves them where its
last draws have. -/
theorem gibbs_draws (g : Generators N C) (f : N → C → R × N × C) (w : World N C) :
    fit g (.shares f : Program N C R (use .ldaGibbs)) w = ((f w.np w.c).1, ⟨(f w.np w.c).2.1, (f w.np w.c).2.2⟩) := rfl

/-- Assigning the seed again just before a fit gives the result of a new wrapper, whatever ran since the wrapper was made. -/
theorem reseed_partial (g : Generators N C) (kind : Sklearn.Kind) (p : Program N C R (use kind)) (seed : Int)
    (between : World N C → World N C) (w w₀ : World N C) :
    result (do let w ← setSeed g kind seed w; constructAndFit g kind p seed (between w)) =
      result (constructAndFit g kind p seed w₀) := by
  by_cases h : 0 ≤ seed ∧ seed < 4294967296
  · obtain ⟨w', hw'⟩ := (seed_range g kind seed w).1.2 h
    simp only [hw', bind, Except.bind]
    exact fresh_reproducible g kind p seed _ _
  · have he := (seed_range g kind seed w).2 h
    have he' := (seed_range g kind seed w₀).2 h
    simp only [constructAndFit, he, he', bind, Except.bind]

/-- Fitting a model of the kinds that shuffle words changes the generator of C to a state that its shuffling leaves, so a Gibbs
sampler fitted afterwards no longer draws what its construction set up. -/
theorem interference (g : Generators N C) (f : N → C → R × N × C) (w : World N C) :
    (fit g (.reseeds f : Program N C R .reseeds) w).2.c = (f w.np (g.c 195932245)).2.2 := rfl

/-- Training by Dirichlet-multinomial regression does not depend on what was drawn before from the generator of C, and leaves
numpy's as it is. -/
theorem dmr_reproducible (g : Generators N C) (f : C → R × C) (w w' : World N C) :
    (dmrTrain g f w).1 = (dmrTrain g f w').1 ∧ (dmrTrain g f w).2.c = (dmrTrain g f w').2.c ∧ (dmrTrain g f w).2.np = w.np :=
  ⟨rfl, rfl, rfl⟩

/-- Two wrappers of the mixture sampler with the seed 5, fitted in turn, draw the numbers 5 and 6. -/
example : twoFits counting (setSeed counting .momGibbs 5) (.never fun n => (n, n + 1)) ⟨0, 0⟩ = .ok (5, 6) := rfl

/-- An assignment of the seed before the second fit makes the results equal. -/
example : (do
    let w ← setSeed counting .momGibbs 5 ⟨0, 0⟩
    let r := fit counting (.never fun n => (n, n + 1) : Program Nat Nat Nat .never) w
    let r' ← constructAndFit counting .momGibbs (.never fun n => (n, n + 1)) 5 r.2
    return (r.1, r'.1) : Py (Nat × Nat)) = .ok (5, 5) := rfl

end Verif.Props.Seeding
