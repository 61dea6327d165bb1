import Verif.Model.SkParams

/-!
# The parameters of the wrapper (C282-C284)
-/

namespace Verif.Props.SkParams

open Verif Verif.Sklearn Verif.SkParams

variable {R : Type}

/-- The names of the eight kinds -/
def names : List String := ["LDA_CVB0", "LDA_CVB", "LDA_VB", "LDA_VB_PYTHON_IMPL", "LDA_SVB", "LDA_GIBBS", "MOM_VB", "MOM_GIBBS"]

/-- A kind that the wrapper knows: a member, or one of the names -/
def Known : KindArg → Prop
  | .member _ => True
  | .name s => s ∈ names

/-- The seeds that numpy takes -/
def Seed (s : Int) : Prop := 0 ≤ s ∧ s < 4294967296

instance (s : Int) : Decidable (Seed s) := inferInstanceAs (Decidable (0 ≤ s ∧ s < 4294967296))

instance : (k : KindArg) → Decidable (Known k)
  | .member _ => inferInstanceAs (Decidable True)
  | .name s => inferInstanceAs (Decidable (s ∈ names))

theorem lookup_name (k : Kind) : lookup (.name (nameOf k)) = .ok k := by cases k <;> rfl

theorem name_mem (k : Kind) : nameOf k ∈ names := by cases k <;> decide

theorem lookup_known (s : String) : (∃ k, lookup (.name s) = .ok k) ↔ s ∈ names := by
  constructor
  · rintro ⟨k, h⟩
    unfold lookup at h
    simp only at h
    split at h
    · rename_i k' hk
      have h0 := List.find?_some hk
      have h1 : nameOf k' = s := of_decide_eq_true h0
      rw [← h1]
      exact name_mem k'
    · cases h
  · intro h
    have : ∃ k, s = nameOf k := by
      simp only [names, List.mem_cons, List.not_mem_nil, or_false] at h
      rcases h with rfl | rfl | rfl | rfl | rfl | rfl | rfl | rfl
      · exact ⟨.ldaCvb0, rfl⟩
      · exact ⟨.ldaCvb, rfl⟩
      · exact ⟨.ldaVb, rfl⟩
      · exact ⟨.ldaVbPython, rfl⟩
      · exact ⟨.ldaSvb, rfl⟩
      · exact ⟨.ldaGibbs, rfl⟩
      · exact ⟨.momVb, rfl⟩
      · exact ⟨.momGibbs, rfl⟩
    obtain ⟨k, rfl⟩ := this
    exact ⟨k, lookup_name k⟩

theorem lookup_unknown (s : String) (h : s ∉ names) : lookup (.name s) = .error .keyError := by
  cases hl : lookup (.name s) with
  | ok k => exact absurd ((lookup_known s).mp ⟨k, hl⟩) h
  | error e =>
    unfold lookup at hl
    simp only at hl
    split at hl
    · cases hl
    · exact hl.symm

theorem assign_eq (s : Int) (p : Params R) :
    assignSeed s p = if 0 ≤ s ∧ s < 4294967296 then
        (match lookup p.kind with | .ok _ => .ok { p with seed := s } | .error e => .error e)
      else .error .valueError := by
  unfold assignSeed
  by_cases hs : 0 ≤ s ∧ s < 4294967296
  · have h1 : ¬ ¬ (0 ≤ s ∧ s < 2 ^ 32) := fun h => h hs
    rw [if_neg h1, if_pos hs]
    simp only [bind, Except.bind, pure, Except.pure]
    cases lookup p.kind <;> rfl
  · have h1 : ¬ (0 ≤ s ∧ s < 2 ^ 32) := hs
    rw [if_pos h1, if_neg hs]
    rfl

theorem stored_known (k : KindArg) : (∃ m, lookup (storedKind k) = .ok m) ↔ Known k := by
  cases k with
  | member k => exact ⟨fun _ => trivial, fun _ => ⟨k, lookup_name k⟩⟩
  | name s => exact lookup_known s

/-- The wrapper that the constructor makes, in terms of the arguments: the kind under its name; `None` and zero replaced; the
rest as given -/
def made (a : Params R) : Params R :=
  { kind := match a.kind with | .member k => .name (nameOf k) | .name s => .name s
    iterations := a.iterations
    queryIterations := if a.queryIterations = none ∨ a.queryIterations = some 0 then some (a.iterations / 10) else a.queryIterations
    perpTolerance := if a.perpTolerance = none ∨ a.perpTolerance = some 0 then some (1 / 10) else a.perpTolerance
    seed := a.seed
    rest := a.rest }

theorem stored_query (o : Option Nat) (n : Nat) :
    some (storedQuery o n) = if o = none ∨ o = some 0 then some (n / 10) else o := by
  cases o with
  | none => rfl
  | some m =>
    unfold storedQuery
    by_cases h : m = 0
    · simp [h]
    · simp [h]

theorem stored_tolerance (o : Option Rat) :
    some (storedTolerance o) = if o = none ∨ o = some 0 then some (1 / 10) else o := by
  cases o with
  | none => rfl
  | some m =>
    unfold storedTolerance
    by_cases h : m = 0
    · simp [h]
    · simp [h]

theorem stored_kind (k : KindArg) : storedKind k = match k with | .member k => .name (nameOf k) | .name s => .name s := by
  cases k <;> rfl

/-- What the constructor does: a seed out of range is refused before an unknown kind is. -/
theorem construct_eq (a : Params R) : (Seed a.seed → Known a.kind → construct a = .ok (made a)) ∧
    (¬ Seed a.seed → construct a = .error .valueError) ∧ (Seed a.seed → ¬ Known a.kind → construct a = .error .keyError) := by
  unfold construct
  rw [assign_eq]
  refine ⟨fun hs hk => ?_, fun hs => if_neg hs, fun hs hk => ?_⟩
  · rw [if_pos (show 0 ≤ a.seed ∧ a.seed < 4294967296 from hs)]
    obtain ⟨m, hm⟩ := (stored_known a.kind).mpr hk
    simp only [hm]
    rw [stored_query, stored_tolerance, stored_kind]
    rfl
  · rw [if_pos (show 0 ≤ a.seed ∧ a.seed < 4294967296 from hs)]
    cases hkind : a.kind with
    | member k => rw [hkind] at hk; exact absurd trivial hk
    | name s =>
      rw [hkind] at hk
      simp only [storedKind, lookup_unknown s hk]

theorem construct_iff (a w : Params R) : construct a = .ok w ↔ Seed a.seed ∧ Known a.kind ∧ w = made a := by
  obtain ⟨h1, h2, h3⟩ := construct_eq a
  by_cases hs : Seed a.seed
  · by_cases hk : Known a.kind
    · rw [h1 hs hk]
      simp [hs, hk, eq_comm]
    · rw [h3 hs hk]
      simp [hk]
  · rw [h2 hs]
    simp [hs]

/-! ## C282: a wrapper can be made again from its parameters -/

/-- **C282**: the constructor, called with the parameters of a wrapper that it has made, makes an equal wrapper. -/
theorem clone_same (a w : Params R) (h : construct a = .ok w) : construct (getParams w) = .ok w := by
  rw [construct_iff] at h
  obtain ⟨hs, hk, rfl⟩ := h
  rw [construct_iff]
  refine ⟨hs, ?_, ?_⟩
  · show Known (made a).kind
    unfold made
    cases hkind : a.kind with
    | member k => exact name_mem k
    | name s => rw [hkind] at hk; exact hk
  · unfold getParams made
    cases a with
    | mk kind it q t seed rest =>
      simp only [Params.mk.injEq, true_and]
      refine ⟨?_, ?_, ?_⟩
      · cases kind <;> rfl
      · by_cases hq : q = none ∨ q = some 0
        · rw [if_pos hq]
          by_cases h0 : it / 10 = 0 <;> simp [h0]
        · rw [if_neg hq, if_neg hq]
      · by_cases ht : t = none ∨ t = some 0
        · rw [if_pos ht, if_neg (by decide +kernel)]
          exact ⟨rfl, trivial⟩
        · rw [if_neg ht, if_neg ht]
          exact ⟨rfl, trivial⟩

/-- **C282**, for a wrapper with any attributes, such as one whose parameters have been changed since: it is made again exactly
if its kind is one of the names, its seed is one that numpy takes, and neither of the two defaults applies to it. -/
theorem clone_iff (w : Params R) : construct (getParams w) = .ok w ↔
    Seed w.seed ∧ (∃ s ∈ names, w.kind = .name s) ∧ (∃ n, w.queryIterations = some n ∧ (n = 0 → w.iterations < 10)) ∧
      ∃ x, w.perpTolerance = some x ∧ x ≠ 0 := by
  rw [construct_iff]
  unfold getParams made
  cases w with
  | mk kind it q t seed rest =>
    simp only [Params.mk.injEq, true_and, and_true]
    constructor
    · rintro ⟨hs, hk, hkind, hq, ht⟩
      refine ⟨hs, ?_, ?_, ?_⟩
      · cases kind with
        | member k => cases hkind
        | name s => exact ⟨s, hk, rfl⟩
      · cases q with
        | none => simp at hq
        | some n =>
          refine ⟨n, rfl, ?_⟩
          rintro rfl
          simp at hq
          omega
      · cases t with
        | none => simp at ht
        | some x =>
          refine ⟨x, rfl, ?_⟩
          rintro rfl
          rw [if_pos (Or.inr rfl)] at ht
          exact absurd ht (by decide +kernel)
    · rintro ⟨hs, ⟨s, hmem, rfl⟩, ⟨n, rfl, hn⟩, x, rfl, hx⟩
      refine ⟨hs, hmem, rfl, ?_, ?_⟩
      · by_cases h0 : n = 0
        · subst h0
          have := hn rfl
          simp
          omega
        · simp [h0]
      · simp [hx]

/-! ## C283: the settings given are the ones used -/

/-- **C283**, what holds: the wrapper has the number of iterations, the seed and the other settings that it is given, and the
number of iterations of a query and the tolerance if they are not zero; its module is that of the kind it is given. -/
theorem given_partial (a w : Params R) (h : construct a = .ok w) : w.iterations = a.iterations ∧ w.seed = a.seed ∧ w.rest = a.rest ∧
    (∀ n, a.queryIterations = some n → n ≠ 0 → w.queryIterations = some n) ∧
    (∀ x, a.perpTolerance = some x → x ≠ 0 → w.perpTolerance = some x) ∧
    (∀ k, a.kind = .member k → module w = .ok k) ∧ ∀ s, a.kind = .name s → ∃ k, module w = .ok k ∧ nameOf k = s := by
  rw [construct_iff] at h
  obtain ⟨hs, hk, rfl⟩ := h
  refine ⟨rfl, rfl, rfl, ?_, ?_, ?_, ?_⟩
  · intro n hn h0
    simp [made, hn, h0]
  · intro n hn h0
    simp [made, hn, h0]
  · intro k hkind
    simp [made, module, hkind, lookup_name]
  · intro s hkind
    rw [hkind] at hk
    have hm : s ∈ names := hk
    obtain ⟨k, hl⟩ := (lookup_known s).mpr hm
    refine ⟨k, by simp [made, module, hkind, hl], ?_⟩
    unfold lookup at hl
    simp only at hl
    split at hl
    · rename_i k' hk'
      cases hl
      have h1 := List.find?_some hk'
      exact of_decide_eq_true h1
    · cases hl

/-- **C283** is violated: a tolerance of zero becomes a tenth, and zero
iterations of a query become a tenth of the iterations of training. -/
theorem zero_violation (a w : Params R) (h : construct a = .ok w) :
    (a.perpTolerance = some 0 → w.perpTolerance = some (1 / 10)) ∧
    (a.queryIterations = some 0 → w.queryIterations = some (a.iterations / 10)) := by
  rw [construct_iff] at h
  obtain ⟨_, _, rfl⟩ := h
  constructor <;> intro h0 <;> simp [made, h0]

/-! ## C284: changing a parameter -/

/-- The arguments of the constructor with one of them changed -/
def changed (a : Params R) : Change R → Params R
  | .kind k => { a with kind := k }
  | .iterations n => { a with iterations := n }
  | .queryIterations o => { a with queryIterations := o }
  | .perpTolerance o => { a with perpTolerance := o }
  | .seed s => { a with seed := s }
  | .rest r => { a with rest := r }

/-- The changes that do the same as the constructor: not those of the iterations of training, not a member as the kind nor an
unknown name, and neither `None` nor zero for the parameters that have a default. -/
def Plain : Change R → Prop
  | .kind k => ∃ s ∈ names, k = .name s
  | .iterations _ => False
  | .queryIterations o => ∃ n, o = some n ∧ n ≠ 0
  | .perpTolerance o => ∃ x, o = some x ∧ x ≠ 0
  | .seed _ => True
  | .rest _ => True

theorem made_known (a : Params R) (hk : Known a.kind) : ∃ m, lookup (made a).kind = .ok m := by
  obtain ⟨m, hm⟩ := (stored_known a.kind).mpr hk
  exact ⟨m, by rw [stored_kind] at hm; exact hm⟩

/-- **C284**, what holds: for plain changes, `set_params` has the effect of constructing the wrapper with the new value, and
refuses a seed if the constructor does. -/
theorem set_partial (a w : Params R) (h : construct a = .ok w) (c : Change R) (hc : Plain c) :
    setParam w c = construct (changed a c) := by
  rw [construct_iff] at h
  obtain ⟨hs, hk, rfl⟩ := h
  cases c with
  | kind k =>
    obtain ⟨s, hm, rfl⟩ := hc
    exact ((construct_iff (changed a (.kind (.name s))) _).mpr ⟨hs, hm, rfl⟩).symm
  | iterations n => exact hc.elim
  | queryIterations o =>
    obtain ⟨n, rfl, hn⟩ := hc
    refine ((construct_iff (changed a (.queryIterations (some n))) _).mpr ⟨hs, hk, ?_⟩).symm
    simp only [made, changed, Option.some.injEq, hn, reduceCtorEq, or_self, if_false]
    rfl
  | perpTolerance o =>
    obtain ⟨n, rfl, hn⟩ := hc
    refine ((construct_iff (changed a (.perpTolerance (some n))) _).mpr ⟨hs, hk, ?_⟩).symm
    simp only [made, changed, Option.some.injEq, hn, reduceCtorEq, or_self, if_false]
    rfl
  | seed s =>
    show assignSeed s (made a) = _
    rw [assign_eq]
    by_cases hseed : 0 ≤ s ∧ s < 4294967296
    · rw [if_pos hseed]
      obtain ⟨m, hm⟩ := made_known a hk
      simp only [hm]
      exact ((construct_iff (changed a (.seed s)) _).mpr ⟨hseed, hk, rfl⟩).symm
    · rw [if_neg hseed]
      exact ((construct_eq (changed a (.seed s))).2.1 hseed).symm
  | rest r => exact ((construct_iff (changed a (.rest r)) _).mpr ⟨hs, hk, rfl⟩).symm

/-- **C284**, exactly, for the iterations of training: the iterations of a query keep the number that followed from the old
one. -/
theorem set_iterations_iff (a w : Params R) (h : construct a = .ok w) (n : Nat) :
    setParam w (.iterations n) = construct (changed a (.iterations n)) ↔
      (∃ q, a.queryIterations = some q ∧ q ≠ 0) ∨ a.iterations / 10 = n / 10 := by
  rw [construct_iff] at h
  obtain ⟨hs, hk, rfl⟩ := h
  rw [show construct (changed a (.iterations n)) = .ok (made (changed a (.iterations n))) from (construct_eq _).1 hs hk]
  simp only [setParam, Except.ok.injEq]
  cases hq : a.queryIterations with
  | none => simp [made, changed, hq]
  | some q =>
    by_cases h0 : q = 0
    · simp [made, changed, hq, h0]
    · simp [made, changed, hq, h0]

/-- **C284** is violated: a member of the enumeration, which the constructor takes, makes every later use of the wrapper fail;
an unknown name, which the constructor refuses, is accepted. -/
theorem set_kind_violation (a w : Params R) (h : construct a = .ok w) :
    (∀ k, ∃ w', setParam w (.kind (.member k)) = .ok w' ∧ module w' = .error .keyError ∧
      ∃ w'', construct (changed a (.kind (.member k))) = .ok w'' ∧ module w'' = .ok k) ∧
    ∀ s, s ∉ names → (∃ w', setParam w (.kind (.name s)) = .ok w') ∧ construct (changed a (.kind (.name s))) = .error .keyError := by
  rw [construct_iff] at h
  obtain ⟨hs, hk, rfl⟩ := h
  refine ⟨fun k => ⟨_, rfl, rfl, _, (construct_iff _ _).mpr ⟨hs, trivial, rfl⟩, ?_⟩, fun s hn => ⟨⟨_, rfl⟩, ?_⟩⟩
  · exact lookup_name k
  · exact (construct_eq _).2.2 hs hn

/-- **C284** is violated for the iterations: a wrapper made with the defaults and then told to train for 20 iterations infers
topics in 100 iterations; made with 20 iterations, in 2. -/
theorem set_iterations_violation : ∃ w w' w'' : Params Unit, construct { kind := .name "LDA_VB", rest := () } = .ok w ∧
    setParam w (.iterations 20) = .ok w' ∧ w'.queryIterations = some 100 ∧
    construct { kind := .name "LDA_VB", iterations := 20, rest := () } = .ok w'' ∧ w''.queryIterations = some 2 := by
  refine ⟨_, _, _, (construct_iff _ _).mpr ⟨by decide, by decide, rfl⟩, rfl, rfl,
    (construct_iff _ _).mpr ⟨by decide, by decide, rfl⟩, rfl⟩

/-! ## Examples -/

/-- A wrapper of the collapsed model with 5 iterations and a tolerance of zero -/
def exArgs : Params Nat := { kind := .member .ldaCvb0, iterations := 5, perpTolerance := some 0, rest := 7 }

theorem exArgs_made : construct exArgs = .ok ⟨.name "LDA_CVB0", 5, some 0, some (1 / 10), 0xC0FFEE, 7⟩ :=
  (construct_iff _ _).mpr ⟨by decide, trivial, rfl⟩

example : construct (⟨.name "LDA_CVB0", 5, some 0, some (1 / 10), 0xC0FFEE, 7⟩ : Params Nat)
    = .ok ⟨.name "LDA_CVB0", 5, some 0, some (1 / 10), 0xC0FFEE, 7⟩ := clone_same _ _ exArgs_made

example : construct { exArgs with kind := .name "LDA" } = .error .keyError :=
  (construct_eq _).2.2 (by decide) (by decide)

example : construct { exArgs with kind := .name "LDA", seed := -1 } = .error .valueError :=
  (construct_eq _).2.1 (by decide)

/-- After the tolerance has been set to zero, the wrapper cannot be made again from its parameters. -/
example : construct (getParams (⟨.name "LDA_CVB0", 5, some 0, some 0, 0xC0FFEE, 7⟩ : Params Nat))
    ≠ .ok ⟨.name "LDA_CVB0", 5, some 0, some 0, 0xC0FFEE, 7⟩ := by
  rw [Ne, clone_iff]
  rintro ⟨_, _, _, x, hx, h0⟩
  exact h0 (Option.some.inj hx).symm

example : setParam (⟨.name "LDA_CVB0", 5, some 0, some (1 / 10), 0xC0FFEE, 7⟩ : Params Nat) (.queryIterations (some 3))
    = construct { exArgs with queryIterations := some 3 } :=
  set_partial _ _ exArgs_made (.queryIterations (some 3)) ⟨3, rfl, by decide⟩

end Verif.Props.SkParams
