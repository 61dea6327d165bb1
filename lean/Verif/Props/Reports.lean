import Verif.Model.Reports
import Verif.Props.RunCli

/-!
# The report generator (C292 to C295)
-/

namespace Verif.Props.Reports

open Verif Verif.Reports

/-! ## Names of models -/

/-- A list of numbers as it is written on the command line -/
def Lists (toInt : Str → Py Int) (text : Str) (ns : List Int) : Prop := (text.splitOn ',').mapM toInt = .ok ns

/-- C292: none of the four documented names is accepted. -/
theorem names_violation (toInt : Str → Py Int) (topics : Str) (ks : List Int) (hk : Lists toInt topics ks) (latents : Option Str)
    (hl : ∀ l, latents = some l → ∃ ls, Lists toInt l ls) (dataset : Str) :
    ∀ name ∈ ["ctm_bouchard", "ctm_bohning", "stm_yv_bouchard", "stm_yv_bohning"],
      plan toInt ⟨some name.toList, some topics, latents, dataset⟩ = .error .valueError := by
  have h : ∀ name : Str, (splitModel name).2 ≠ "ctm".toList → (splitModel name).2 ≠ "stm_yv".toList →
      plan toInt ⟨some name, some topics, latents, dataset⟩ = .error .valueError := by
    intro name h1 h2
    unfold plan numbers
    dsimp only
    unfold Lists at hk
    rw [hk]
    cases latents with
    | none =>
      simp only [bind, Except.bind, pure, Except.pure]
      rw [if_neg h1, if_neg h2]
      rfl
    | some l =>
      obtain ⟨ls, hls⟩ := hl l rfl
      unfold Lists at hls
      simp only [bind, Except.bind, Except.map, hls]
      rw [if_neg h1, if_neg h2]
      rfl
  intro name hn
  apply h
  · revert name
    decide +kernel
  · revert name
    decide +kernel

/-- What a name of a model stands for: the model, and the bound written behind it without a separator or else both bounds -/
def Means (name model : Str) (bounds : List Bound) : Prop :=
  (name = model ∧ bounds = [.bouchard, .bohning]) ∨ (name = model ++ "bohning".toList ∧ bounds = [.bohning]) ∨
    (name = model ++ "bouchard".toList ∧ bounds = [.bouchard])

theorem splitModel_ctm (name : Str) (bounds : List Bound) (h : Means name "ctm".toList bounds) : splitModel name = (bounds, "ctm".toList) := by
  rcases h with ⟨rfl, rfl⟩ | ⟨rfl, rfl⟩ | ⟨rfl, rfl⟩ <;> decide +kernel

theorem splitModel_stm (name : Str) (bounds : List Bound) (h : Means name "stm_yv".toList bounds) :
    splitModel name = (bounds, "stm_yv".toList) := by
  rcases h with ⟨rfl, rfl⟩ | ⟨rfl, rfl⟩ | ⟨rfl, rfl⟩ <;> decide +kernel

theorem splitModel_means (name : Str) : Means name (splitModel name).2 (splitModel name).1 := by
  unfold splitModel Means
  have hs : ∀ b : Str, b.isSuffixOf name = true → name = name.take (name.length - b.length) ++ b := by
    intro b hb
    obtain ⟨t, rfl⟩ := List.isSuffixOf_iff_suffix.1 hb
    simp
  by_cases h1 : Bound.bohning.name.isSuffixOf name = true
  · rw [if_pos h1]
    exact Or.inr (Or.inl ⟨hs _ h1, rfl⟩)
  · rw [if_neg h1]
    by_cases h2 : Bound.bouchard.name.isSuffixOf name = true
    · rw [if_pos h2]
      exact Or.inr (Or.inr ⟨hs _ h2, rfl⟩)
    · rw [if_neg h2]
      exact Or.inl ⟨rfl, rfl⟩

/-- C292: what is accepted is the name of the model alone, for both bounds, or directly followed by the bound. -/
theorem names_partial (toInt : Str → Py Int) (name topics : Str) (ks : List Int) (hk : Lists toInt topics ks) (bounds : List Bound) :
    (Means name "ctm".toList bounds → plan toInt ⟨some name, some topics, none, "tweets".toList⟩ = .ok (.ctm bounds ks)) ∧
    ∀ latents ls, Lists toInt latents ls → Means name "stm_yv".toList bounds → ∀ dataset,
      plan toInt ⟨some name, some topics, some latents, dataset⟩ = .ok (.stm bounds ks ls dataset) := by
  unfold Lists at hk
  constructor
  · intro h
    unfold plan numbers
    dsimp only
    rw [hk, splitModel_ctm name bounds h]
    rfl
  · intro latents ls hl h dataset
    unfold Lists at hl
    unfold plan numbers
    dsimp only
    rw [hk, hl, splitModel_stm name bounds h]
    rfl

/-- C292: without latent sizes the reports on the model with features end in an exception. -/
theorem latents_missing (toInt : Str → Py Int) (name topics : Str) (ks : List Int) (hk : Lists toInt topics ks) (bounds : List Bound)
    (h : Means name "stm_yv".toList bounds) (dataset : Str) :
    plan toInt ⟨some name, some topics, none, dataset⟩ = .error .unboundLocalError := by
  unfold Lists at hk
  unfold plan numbers
  dsimp only
  rw [hk, splitModel_stm name bounds h]
  rfl

/-- C292: nothing else is accepted, and topic models are only reported on tweets. -/
theorem names_only (toInt : Str → Py Int) (o : Options) (t : Task) (h : plan toInt o = .ok t) :
    ∃ name topics ks, o.model = some name ∧ o.topics = some topics ∧ Lists toInt topics ks ∧
      ((∃ bounds, Means name "ctm".toList bounds ∧ o.dataset = "tweets".toList ∧ t = .ctm bounds ks) ∨
        ∃ bounds latents ls, Means name "stm_yv".toList bounds ∧ o.latents = some latents ∧ Lists toInt latents ls ∧
          t = .stm bounds ks ls o.dataset) := by
  unfold plan numbers at h
  cases hm : o.model with
  | none => rw [hm] at h; cases h
  | some name =>
    rw [hm] at h
    dsimp only at h
    cases ht : o.topics with
    | none => rw [ht] at h; cases h
    | some topics =>
      rw [ht] at h
      dsimp only at h
      rcases hk : (topics.splitOn ',').mapM toInt with e | ks
      · rw [hk] at h; cases h
      rw [hk] at h
      have hmeans := splitModel_means name
      refine ⟨name, topics, ks, rfl, rfl, hk, ?_⟩
      generalize hsm : splitModel name = sm at h hmeans
      obtain ⟨bounds, model⟩ := sm
      dsimp only at h hmeans
      cases hl : o.latents with
      | none =>
        rw [hl] at h
        simp only [bind, Except.bind, pure, Except.pure] at h
        split at h
        · rename_i h1
          subst h1
          split at h
          · cases h
          · rename_i hd
            simp only [Except.ok.injEq] at h
            exact Or.inl ⟨bounds, hmeans, by simpa using hd, h.symm⟩
        · split at h <;> cases h
      | some l =>
        rw [hl] at h
        rcases hls : (l.splitOn ',').mapM toInt with e | ls
        · simp only [bind, Except.bind, Except.map, hls] at h
          cases h
        simp only [bind, Except.bind, Except.map, pure, Except.pure, hls] at h
        split at h
        · rename_i h1
          subst h1
          split at h
          · cases h
          · rename_i hd
            simp only [Except.ok.injEq] at h
            exact Or.inl ⟨bounds, hmeans, by simpa using hd, h.symm⟩
        · split at h
          · rename_i h1
            subst h1
            simp only [Except.ok.injEq] at h
            exact Or.inr ⟨bounds, l, ls, hmeans, rfl, hls, h.symm⟩
          · cases h

/-- A reader of numbers for the examples -/
def exInt (s : Str) : Py Int := if s = "10".toList then .ok 10 else if s = "25".toList then .ok 25 else .error .valueError

theorem exLists : Lists exInt "10,25".toList [10, 25] := by
  unfold Lists
  decide +kernel

example : plan exInt ⟨some "ctm_bohning".toList, some "10,25".toList, none, "tweets".toList⟩ = .error .valueError :=
  names_violation exInt _ _ exLists none (by simp) _ "ctm_bohning" (by simp)

example : plan exInt ⟨some "stm_yvbohning".toList, some "10,25".toList, some "10,25".toList, "nips".toList⟩ = .ok (.stm [.bohning] [10, 25] [10, 25] "nips".toList) :=
  (names_partial exInt _ _ _ exLists [.bohning]).2 _ _ exLists (Or.inr (Or.inl ⟨rfl, rfl⟩)) _

example : plan exInt ⟨some "stm_yv".toList, some "10,25".toList, none, "nips".toList⟩ = .error .unboundLocalError :=
  latents_missing exInt _ _ _ exLists _ (Or.inl ⟨rfl, rfl⟩) _

/-! ## Patterns -/

theorem reMatch_lits (s : Str) (p : List Pat) (x : Str) : reMatch (lits s ++ p) x = true ↔ ∃ r, x = s ++ r ∧ reMatch p r = true := by
  induction s generalizing x with
  | nil => simp [lits]
  | cons c s ih =>
    cases x with
    | nil => simp [lits, reMatch]
    | cons d x =>
      have e : reMatch (lits (c :: s) ++ p) (d :: x) = (decide (d = c) && reMatch (lits s ++ p) x) := rfl
      rw [e, Bool.and_eq_true, ih]
      constructor
      · rintro ⟨h1, r, rfl, h2⟩
        exact ⟨r, by simp [of_decide_eq_true h1], h2⟩
      · rintro ⟨r, h1, h2⟩
        simp only [List.cons_append, List.cons.injEq] at h1
        exact ⟨by simp [h1.1], r, h1.2, h2⟩

theorem reMatch_digits (n : Nat) (p : List Pat) (x : Str) :
    reMatch (List.replicate n .digit ++ p) x = true ↔ ∃ a r, x = a ++ r ∧ a.length = n ∧ (∀ c ∈ a, c.isDigit = true) ∧ reMatch p r = true := by
  induction n generalizing x with
  | zero =>
    constructor
    · intro h
      exact ⟨[], x, rfl, rfl, by simp, by simpa using h⟩
    · rintro ⟨a, r, rfl, ha, _, h⟩
      rw [List.length_eq_zero_iff] at ha
      subst ha
      simpa using h
  | succ n ih =>
    cases x with
    | nil =>
      simp only [List.replicate_succ, List.cons_append, reMatch, Bool.false_eq_true, false_iff]
      rintro ⟨a, r, h, ha, _⟩
      have := congrArg List.length h
      simp at this
      omega
    | cons d x =>
      have e : reMatch (List.replicate (n + 1) .digit ++ p) (d :: x) = (d.isDigit && reMatch (List.replicate n .digit ++ p) x) := rfl
      rw [e, Bool.and_eq_true, ih]
      constructor
      · rintro ⟨h1, a, r, rfl, rfl, h2, h3⟩
        exact ⟨d :: a, r, rfl, rfl, by simpa using ⟨h1, h2⟩, h3⟩
      · rintro ⟨a, r, h, ha, h2, h3⟩
        cases a with
        | nil => simp at ha
        | cons c a =>
          simp only [List.cons_append, List.cons.injEq] at h
          obtain ⟨rfl, rfl⟩ := h
          simp only [List.mem_cons, forall_eq_or_imp] at h2
          exact ⟨h2.1, a, r, rfl, by simpa using ha, h2.2, h3⟩

/-- A time in minutes as it is written into names of files: eight digits, an underscore, four digits -/
def Stamp (s : Str) : Prop :=
  ∃ a b, s = a ++ '_' :: b ∧ a.length = 8 ∧ b.length = 4 ∧ (∀ c ∈ a, c.isDigit = true) ∧ ∀ c ∈ b, c.isDigit = true

/-- The end of a name of a file: a digit, a time, any character but a newline, `pkl`, and anything behind it -/
def Ends (s : Str) : Prop :=
  ∃ d st x rest, s = "_fold_".toList ++ d :: '_' :: st ++ x :: "pkl".toList ++ rest ∧ d.isDigit = true ∧ Stamp st ∧ x ≠ '\n'

theorem tail_spec (s : Str) : reMatch tailPat s = true ↔ Ends s := by
  have e : tailPat = lits "_fold_".toList ++ (List.replicate 1 .digit ++ (lits "_".toList ++ (List.replicate 8 .digit ++ (lits "_".toList ++
      (List.replicate 4 .digit ++ (.any :: (lits "pkl".toList ++ []))))))) := rfl
  rw [e]
  simp only [reMatch_lits, reMatch_digits]
  constructor
  · rintro ⟨_, rfl, d, _, rfl, hd, hd', _, rfl, a, _, rfl, ha, ha', _, rfl, b, r, rfl, hb, hb', h⟩
    cases r with
    | nil => exact absurd h (by simp [reMatch])
    | cons x r =>
      have e : reMatch (.any :: (lits "pkl".toList ++ [])) (x :: r) = (decide (x ≠ '\n') && reMatch (lits "pkl".toList ++ []) r) := rfl
      rw [e, Bool.and_eq_true, reMatch_lits] at h
      obtain ⟨hx, rest, rfl, -⟩ := h
      obtain ⟨c, rfl⟩ := List.length_eq_one_iff.1 hd
      exact ⟨c, a ++ '_' :: b, x, rest, by simp, hd' c (by simp), ⟨a, b, rfl, ha, hb, ha', hb'⟩, of_decide_eq_true hx⟩
  · rintro ⟨d, st, x, rest, rfl, hd, ⟨a, b, rfl, ha, hb, ha', hb'⟩, hx⟩
    refine ⟨d :: '_' :: (a ++ '_' :: (b ++ x :: ("pkl".toList ++ rest))), by simp, [d], _, rfl, rfl, by simpa using hd, _, rfl, a, _, rfl, ha, ha', _, rfl, b, _, rfl,
      hb, hb', ?_⟩
    have e : reMatch (.any :: (lits "pkl".toList ++ [])) (x :: ("pkl".toList ++ rest)) =
      (decide (x ≠ '\n') && reMatch (lits "pkl".toList ++ []) ("pkl".toList ++ rest)) := rfl
    rw [e, Bool.and_eq_true, reMatch_lits]
    exact ⟨by simpa using hx, rest, rfl, rfl⟩

/-- The names of the bounds -/
def boundName : Bound → Str
  | .bohning => "bohning".toList
  | .bouchard => "bouchard".toList

/-- C293: the files of a report are those with the name of the model, the bound and the sizes, one digit for the fold and a time, whatever follows. -/
theorem pattern_spec (b : Bound) (K P : Nat) (f : Str) :
    (reMatch (ctmPat b K) f = true ↔ ∃ e, f = "ctm_".toList ++ boundName b ++ "_k_".toList ++ Nat.toDigits 10 K ++ e ∧ Ends e) ∧
    (reMatch (stmPat b K P) f = true ↔
      ∃ e, f = "stm_yv_".toList ++ boundName b ++ "_k_".toList ++ Nat.toDigits 10 K ++ "_p_".toList ++ Nat.toDigits 10 P ++ e ∧ Ends e) := by
  have hb : Bound.name b = boundName b := by cases b <;> rfl
  unfold ctmPat stmPat decimal
  rw [reMatch_lits, reMatch_lits, hb]
  simp only [tail_spec, and_self]

theorem k_lit : "_k_".toList = ['_', 'k', '_'] := rfl
theorem p_lit : "_p_".toList = ['_', 'p', '_'] := rfl
theorem fold_lit : "_fold_".toList = ['_', 'f', 'o', 'l', 'd', '_'] := rfl

theorem digits_inj {m n : Nat} (h : Nat.toDigits 10 m = Nat.toDigits 10 n) : m = n := by
  rw [← Nat.ofDigitChars_ten_toDigits (n := m), ← Nat.ofDigitChars_ten_toDigits (n := n), h]

theorem bound_inj {b b' : Bound} {u v : Str} (h : boundName b ++ '_' :: u = boundName b' ++ '_' :: v) : b = b' ∧ u = v := by
  have hb : ∀ b, '_' ∉ boundName b := by
    intro b
    cases b <;> decide
  obtain ⟨h1, h2⟩ := RunCli.append_cons_inj _ _ _ _ (hb b) (hb b') h
  refine ⟨?_, h2⟩
  cases b <;> cases b' <;> first | rfl | exact absurd h1 (by decide)

/-- The name under which the models are saved -/
def savedName (kind : Kind) (b : Bound) : Str :=
  match kind with
  | .ctm => "ctm/".toList ++ boundName b
  | .stm => "stm-yv/".toList ++ boundName b

theorem clean_ctm (b : Bound) : RunCli.cleanName (savedName .ctm b) = "ctm_".toList ++ boundName b := by cases b <;> rfl

theorem clean_stm (b : Bound) : RunCli.cleanName (savedName .stm b) = "stm_yv_".toList ++ boundName b := by cases b <;> rfl

/-- C293: no file of a topic model that the program saves belongs to any of its reports. -/
theorem ctm_violation (b b' : Bound) (K K' fold : Nat) (P : Option Nat) (dir stamp f : Str)
    (hf : RunCli.saveFile (Nat.toDigits 10) (savedName .ctm b) K P fold dir stamp = dir ++ '/' :: f) :
    reMatch (ctmPat b' K') f = false := by
  unfold RunCli.saveFile RunCli.newModelFile at hf
  dsimp only at hf
  rw [clean_ctm] at hf
  simp only [List.append_assoc, List.append_cancel_left_eq, List.cons_append, List.nil_append, List.cons.injEq, true_and] at hf
  rw [Bool.eq_false_iff]
  intro hm
  obtain ⟨e, rfl, d, st, x, rest, rfl, -⟩ := (pattern_spec b' K' 0 f).1.1 hm
  simp only [k_lit, fold_lit, List.append_assoc, List.append_cancel_left_eq, List.cons_append, List.nil_append] at hf
  obtain ⟨-, hf⟩ := bound_inj hf
  simp only [List.cons.injEq, true_and] at hf
  have hf' := RunCli.append_cons_inj _ _ _ _ Nat.underscore_not_in_toDigits Nat.underscore_not_in_toDigits hf
  have := hf'.2
  simp at this

theorem saved_stm (b : Bound) (K P fold : Nat) (dir stamp f : Str)
    (hf : RunCli.saveFile (Nat.toDigits 10) (savedName .stm b) K (some P) fold dir stamp = dir ++ '/' :: f) :
    f = "stm_yv_".toList ++ boundName b ++ "_k_".toList ++ Nat.toDigits 10 K ++ "_p_".toList ++ Nat.toDigits 10 P ++
      ("_fold_".toList ++ Nat.toDigits 10 fold ++ '_' :: (stamp ++ ".pkl".toList)) := by
  unfold RunCli.saveFile RunCli.newModelFile at hf
  dsimp only at hf
  rw [clean_stm] at hf
  simp only [List.append_assoc, List.append_cancel_left_eq, List.cons_append, List.nil_append, List.cons.injEq, true_and] at hf
  rw [← hf]
  simp

theorem one_digit (n : Nat) : (∃ d : Char, Nat.toDigits 10 n = [d]) ↔ n < 10 := by
  constructor
  · rintro ⟨d, h⟩
    have := (Nat.length_toDigits_le_iff (b := 10) (n := n) (k := 1) (by decide) (by decide)).1 (by rw [h]; simp)
    simpa using this
  · intro h
    exact ⟨_, Nat.toDigits_of_lt_base h⟩

/-- C293: a saved file of the model with features belongs to the report of its own bound and sizes, if its fold is one of the first ten, and to no other. -/
theorem stm_partial (b b' : Bound) (K K' P P' fold : Nat) (dir stamp f : Str) (hst : Stamp stamp)
    (hf : RunCli.saveFile (Nat.toDigits 10) (savedName .stm b) K (some P) fold dir stamp = dir ++ '/' :: f) :
    reMatch (stmPat b' K' P') f = true ↔ b' = b ∧ K' = K ∧ P' = P ∧ fold < 10 := by
  have hs := saved_stm b K P fold dir stamp f hf
  rw [(pattern_spec b' K' P' f).2]
  constructor
  · rintro ⟨e, he, d, st, x, rest, rfl, hd, -, -⟩
    rw [hs] at he
    simp only [k_lit, p_lit, fold_lit, List.append_assoc, List.append_cancel_left_eq, List.cons_append, List.nil_append] at he
    obtain ⟨hb, he⟩ := bound_inj he
    simp only [List.cons.injEq, true_and] at he
    obtain ⟨h1, he⟩ := RunCli.append_cons_inj _ _ _ _ Nat.underscore_not_in_toDigits Nat.underscore_not_in_toDigits he
    simp only [List.cons.injEq, true_and] at he
    obtain ⟨h2, he⟩ := RunCli.append_cons_inj _ _ _ _ Nat.underscore_not_in_toDigits Nat.underscore_not_in_toDigits he
    simp only [List.cons.injEq, true_and] at he
    have hd' : '_' ∉ [d] := by
      simp only [List.mem_singleton]
      rintro rfl
      exact absurd hd (by decide)
    obtain ⟨h3, -⟩ := RunCli.append_cons_inj _ [d] _ _ Nat.underscore_not_in_toDigits hd' he
    exact ⟨hb.symm, (digits_inj h1).symm, (digits_inj h2).symm, (one_digit fold).1 ⟨d, h3⟩⟩
  · rintro ⟨rfl, rfl, rfl, h⟩
    obtain ⟨d, hd⟩ := (one_digit fold).2 h
    refine ⟨_, hs, d, stamp, '.', [], ?_, ?_, hst, by decide⟩
    · rw [hd]
      simp
    · exact Nat.isDigit_of_mem_toDigits (b := 10) (n := fold) (by decide) (by decide) (by rw [hd]; simp)

/-- C293: anything appended to the name of such a file makes another file of the same report. -/
theorem extra_violation (p : List Pat) (f extra : Str) (h : reMatch p f = true) : reMatch p (f ++ extra) = true := by
  induction p generalizing f with
  | nil => rfl
  | cons q p ih =>
    cases f with
    | nil => simp [reMatch] at h
    | cons c f =>
      have e : reMatch (q :: p) (c :: f) = (q.fits c && reMatch p f) := rfl
      rw [e, Bool.and_eq_true] at h
      have e' : reMatch (q :: p) (c :: f ++ extra) = (q.fits c && reMatch p (f ++ extra)) := rfl
      rw [e', Bool.and_eq_true]
      exact ⟨h.1, ih f h.2⟩

theorem exStamp : Stamp "20150301_1205".toList := ⟨"20150301".toList, "1205".toList, by decide, by decide, by decide, by decide, by decide⟩

example : reMatch (stmPat .bohning 10 25) "stm_yv_bohning_k_10_p_25_fold_3_20150301_1205.pkl".toList = true :=
  (stm_partial .bohning .bohning 10 10 25 25 3 "out".toList _ _ exStamp (by decide +kernel)).2 ⟨rfl, rfl, rfl, by decide⟩

example : reMatch (stmPat .bohning 10 25) "stm_yv_bohning_k_10_p_25_fold_10_20150301_1205.pkl".toList = false := by
  rw [Bool.eq_false_iff]
  intro h
  have := (stm_partial .bohning .bohning 10 10 25 25 10 "out".toList _ _ exStamp (by decide +kernel)).1 h
  omega

example : reMatch (ctmPat .bohning 10) "ctm_bohning_k_10_p_0_fold_3_20150301_1205.pkl".toList = false :=
  ctm_violation .bohning .bohning 10 10 3 none "out".toList "20150301_1205".toList _ (by decide +kernel)

example : reMatch (stmPat .bohning 10 25) "stm_yv_bohning_k_10_p_25_fold_3_20150301_1205.pkl.bak".toList = true :=
  extra_violation _ "stm_yv_bohning_k_10_p_25_fold_3_20150301_1205.pkl".toList ".bak".toList
    ((stm_partial .bohning .bohning 10 10 25 25 3 "out".toList _ _ exStamp (by decide +kernel)).2 ⟨rfl, rfl, rfl, by decide⟩)

/-! ## Templates -/

/-- A part of a template: text, in which a dollar is written twice, or a placeholder, which may be in braces -/
inductive Piece
  | text (s : Str) | name (n : Str) | braced (n : Str)

/-- How a part is written -/
def Piece.source : Piece → Str
  | .text s => s.flatMap fun c => if c = '$' then ['$', '$'] else [c]
  | .name n => '$' :: n
  | .braced n => '$' :: '{' :: (n ++ ['}'])

/-- What a part becomes -/
def Piece.result (vals : Str → Option Str) : Piece → Option Str
  | .text s => some s
  | .name n => vals n
  | .braced n => vals n

/-- A letter or an underscore -/
def Letter (c : Char) : Prop := c = '_' ∨ ('a' ≤ c ∧ c ≤ 'z') ∨ ('A' ≤ c ∧ c ≤ 'Z')

/-- A digit -/
def Digit (c : Char) : Prop := '0' ≤ c ∧ c ≤ '9'

/-- An identifier -/
def Ident (n : Str) : Prop := ∃ c r, n = c :: r ∧ Letter c ∧ ∀ x ∈ r, Letter x ∨ Digit x

/-- A template that can be read back: placeholders are identifiers, and one without braces ends where it is meant to -/
def Readable : List Piece → Prop
  | [] => True
  | .text _ :: ps => Readable ps
  | .name n :: ps => Ident n ∧ (∀ c, ((ps.map Piece.source).flatten).head? = some c → ¬ (Letter c ∨ Digit c)) ∧ Readable ps
  | .braced n :: ps => Ident n ∧ Readable ps

theorem idStart_iff (c : Char) : idStart c = true ↔ Letter c := by
  unfold idStart Letter Char.isAlpha Char.isUpper Char.isLower
  simp only [Bool.or_eq_true, decide_eq_true_eq, Bool.and_eq_true]
  constructor
  · rintro (h | h | h)
    · exact Or.inl h
    · exact Or.inr (Or.inr h)
    · exact Or.inr (Or.inl h)
  · rintro (h | h | h)
    · exact Or.inl h
    · exact Or.inr (Or.inr h)
    · exact Or.inr (Or.inl h)

theorem idChar_iff (c : Char) : idChar c = true ↔ Letter c ∨ Digit c := by
  rw [← idStart_iff]
  unfold idChar idStart Digit Char.isDigit
  simp only [Bool.or_eq_true, decide_eq_true_eq, Bool.and_eq_true]
  exact Iff.rfl

theorem ident_chars {n : Str} (h : Ident n) : (∀ c ∈ n, idChar c = true) ∧ ∃ c r, n = c :: r ∧ idStart c = true := by
  obtain ⟨c, r, rfl, h1, h2⟩ := h
  refine ⟨?_, c, r, rfl, (idStart_iff c).2 h1⟩
  intro x hx
  rw [idChar_iff]
  rcases List.mem_cons.1 hx with rfl | hx
  · exact Or.inl h1
  · exact h2 x hx

theorem takeWhile_stop {p : Char → Bool} {n r : Str} (hn : ∀ c ∈ n, p c = true) (hr : ∀ c, r.head? = some c → p c = false) :
    (n ++ r).takeWhile p = n ∧ (n ++ r).dropWhile p = r := by
  rw [List.takeWhile_append_of_pos hn, List.dropWhile_append_of_pos hn]
  cases r with
  | nil => simp
  | cons c r =>
    have := hr c rfl
    simp [this]

/-- The parts replaced one after the other: the text, or a `KeyError` at the first placeholder without a value -/
def fill (vals : Str → Option Str) : List Piece → Py Str
  | [] => .ok []
  | p :: ps => match p.result vals with
    | none => .error .keyError
    | some v => (fill vals ps).map (v ++ ·)

theorem substitute_text (vals : Str → Option Str) (s rest : Str) (r : Py Str) (h : ∀ fuel, rest.length ≤ fuel → substituteAux vals fuel rest = r) (fuel : Nat)
    (hf : ((s.flatMap fun c => if c = '$' then ['$', '$'] else [c]) ++ rest).length ≤ fuel) :
    substituteAux vals fuel ((s.flatMap fun c => if c = '$' then ['$', '$'] else [c]) ++ rest) = r.map (s ++ ·) := by
  induction s generalizing fuel with
  | nil =>
    have hr : r.map (([] : Str) ++ ·) = r := by cases r <;> rfl
    rw [hr]
    exact h fuel (by simpa using hf)
  | cons c s ih =>
    have hr : r.map ((c :: s) ++ ·) = (r.map (s ++ ·)).map (c :: ·) := by cases r <;> rfl
    rw [hr]
    rw [List.flatMap_cons, List.append_assoc] at hf ⊢
    by_cases hc : c = '$'
    · subst hc
      simp only [if_true, List.cons_append, List.nil_append, List.length_cons] at hf ⊢
      obtain ⟨fuel, rfl⟩ : ∃ g, fuel = g + 1 := ⟨fuel - 1, by omega⟩
      rw [← ih fuel (by omega)]
      simp [substituteAux]
    · simp only [if_neg hc, List.cons_append, List.nil_append, List.length_cons] at hf ⊢
      obtain ⟨fuel, rfl⟩ : ∃ g, fuel = g + 1 := ⟨fuel - 1, by omega⟩
      rw [← ih fuel (by omega)]
      simp [substituteAux, hc]

theorem substitute_pieces (vals : Str → Option Str) (ps : List Piece) (h : Readable ps) (fuel : Nat)
    (hf : ((ps.map Piece.source).flatten).length ≤ fuel) : substituteAux vals fuel ((ps.map Piece.source).flatten) = fill vals ps := by
  induction ps generalizing fuel with
  | nil => cases fuel <;> rfl
  | cons p ps ih =>
    rw [List.map_cons, List.flatten_cons] at hf ⊢
    cases p with
    | text s => exact substitute_text vals s _ _ (fun fuel hf => ih h fuel hf) fuel hf
    | name n =>
      obtain ⟨hn, hstop, h⟩ := h
      obtain ⟨hc, c, r, hcr, hs⟩ := ident_chars hn
      have hd : c ≠ '$' := by
        rintro rfl
        exact absurd hs (by decide)
      obtain ⟨h1, h2⟩ := takeWhile_stop (p := idChar) (n := n) (r := (ps.map Piece.source).flatten) hc (fun c hh => by
        rw [← Bool.not_eq_true, idChar_iff]
        exact hstop c hh)
      simp only [Piece.source, List.cons_append, List.length_cons, List.length_append] at hf ⊢
      obtain ⟨fuel, rfl⟩ : ∃ g, fuel = g + 1 := ⟨fuel - 1, by omega⟩
      have ih' := ih h fuel (by omega)
      generalize (ps.map Piece.source).flatten = q at *
      subst hcr
      have e : substituteAux vals (fuel + 1) ('$' :: (c :: r ++ q)) = match vals ((c :: r ++ q).takeWhile idChar) with
          | none => .error .keyError
          | some v => (substituteAux vals fuel ((c :: r ++ q).dropWhile idChar)).map (v ++ ·) := by
        simp [substituteAux, hd, hs]
        rfl
      rw [e, h1, h2, ih']
      rfl
    | braced n =>
      obtain ⟨hn, h⟩ := h
      obtain ⟨hc, c, r, hcr, hs⟩ := ident_chars hn
      simp only [Piece.source, List.cons_append, List.append_assoc, List.nil_append, List.length_cons, List.length_append] at hf ⊢
      obtain ⟨h1, h2⟩ := takeWhile_stop (p := idChar) (n := n) (r := '}' :: (ps.map Piece.source).flatten) hc (fun c hh => by
        simp only [List.head?_cons, Option.some.injEq] at hh
        subst hh
        decide)
      obtain ⟨fuel, rfl⟩ : ∃ g, fuel = g + 1 := ⟨fuel - 1, by omega⟩
      have ih' := ih h fuel (by omega)
      generalize (ps.map Piece.source).flatten = q at *
      have hst : idStart '{' = false := by decide
      have e : substituteAux vals (fuel + 1) ('$' :: '{' :: (n ++ '}' :: q)) =
          match (n ++ '}' :: q).takeWhile idChar, (n ++ '}' :: q).dropWhile idChar with
          | e :: n, '}' :: q =>
            if idStart e then
              match vals (e :: n) with
              | none => .error .keyError
              | some v => (substituteAux vals fuel q).map (v ++ ·)
            else .error .valueError
          | _, _ => .error .valueError := by
        simp only [substituteAux, if_true, hst, Bool.false_eq_true, if_false]
        rfl
      rw [e, h1, h2, hcr]
      simp only [hs, if_true]
      rw [ih']
      rfl

/-- C295: a template is its text, with every doubled dollar single, and every placeholder replaced by its value. -/
theorem template_filled (vals : Str → Option Str) (ps : List Piece) (h : Readable ps) (out : List Str)
    (ho : ps.map (Piece.result vals) = out.map some) : substitute vals ((ps.map Piece.source).flatten) = .ok out.flatten := by
  unfold substitute
  rw [substitute_pieces vals ps h _ (Nat.le_refl _)]
  clear h
  induction ps generalizing out with
  | nil =>
    rw [List.map_nil, eq_comm, List.map_eq_nil_iff] at ho
    subst ho
    rfl
  | cons p ps ih =>
    cases out with
    | nil => simp at ho
    | cons o out =>
      simp only [List.map_cons, List.cons.injEq] at ho
      unfold fill
      rw [ho.1, ih out ho.2]
      rfl

/-- C295: a placeholder without a value is refused. -/
theorem template_unknown (vals : Str → Option Str) (ps : List Piece) (h : Readable ps) (hn : none ∈ ps.map (Piece.result vals)) :
    substitute vals ((ps.map Piece.source).flatten) = .error .keyError := by
  unfold substitute
  rw [substitute_pieces vals ps h _ (Nat.le_refl _)]
  clear h
  induction ps with
  | nil => simp at hn
  | cons p ps ih =>
    unfold fill
    cases hp : p.result vals with
    | none => rfl
    | some v =>
      rw [List.map_cons, hp, List.mem_cons] at hn
      rcases hn with hn | hn
      · cases hn
      · dsimp only
        rw [ih hn]
        rfl

/-- C295: the values: the bound, the directories in quotes, the files in quotes behind the prefix, with commas between them, and the implementation. -/
theorem values_spec (kind : Kind) (b : Bound) (code out : Str) (fs : List Str) :
    values kind b code out fs "bound".toList = some (match b with | .bohning => "Bohning".toList | .bouchard => "Bouchard".toList) ∧
    values kind b code out fs "codePath".toList = some ("'".toList ++ code ++ "'".toList) ∧
    values kind b code out fs "outFilesPrefix".toList = some ("'".toList ++ out ++ "/'".toList) ∧
    values kind b code out fs "outputFiles".toList = some (", ".toList.intercalate (fs.map fun f => "outputPathPrefix + '".toList ++ f ++ "'".toList)) ∧
    values kind b code out fs "implName".toList = some (match kind, b with
      | .ctm, .bouchard => "ctm".toList
      | .ctm, .bohning => "ctm_bohning".toList
      | .stm, .bouchard => "stm_yv".toList
      | .stm, .bohning => "stm_yv_bohning".toList) ∧
    ∀ n, n ∉ ["bound".toList, "codePath".toList, "outFilesPrefix".toList, "outputFiles".toList, "implName".toList] → values kind b code out fs n = none := by
  refine ⟨?_, rfl, rfl, rfl, ?_, ?_⟩
  · cases b <;> rfl
  · cases kind <;> cases b <;> rfl
  · intro n hn
    simp only [List.mem_cons, List.not_mem_nil, or_false, not_or] at hn
    unfold values
    rw [if_neg hn.1, if_neg hn.2.1, if_neg hn.2.2.1, if_neg hn.2.2.2.1, if_neg hn.2.2.2.2]

example : substitute (values .stm .bohning "code".toList "out".toList ["a.pkl".toList, "b.pkl".toList])
    "model $implName at $$5: [$outputFiles] ${bound}".toList =
    .ok "model stm_yv_bohning at $5: [outputPathPrefix + 'a.pkl', outputPathPrefix + 'b.pkl'] Bohning".toList :=
  template_filled _ [.text "model ".toList, .name "implName".toList, .text " at $5: [".toList, .name "outputFiles".toList, .text "] ".toList, .braced "bound".toList]
    (by
      simp only [Readable, Ident, Letter, Digit]
      refine ⟨⟨'i', "mplName".toList, by decide, by decide, by decide⟩, ?_, ⟨'o', "utputFiles".toList, by decide, by decide, by decide⟩, ?_,
        ⟨'b', "ound".toList, by decide, by decide, by decide⟩, trivial⟩
      · intro c hc
        obtain rfl : ' ' = c := by simpa [Piece.source] using hc
        decide
      · intro c hc
        obtain rfl : ']' = c := by simpa [Piece.source] using hc
        decide)
    ["model ".toList, "stm_yv_bohning".toList, " at $5: [".toList, "outputPathPrefix + 'a.pkl', outputPathPrefix + 'b.pkl'".toList, "] ".toList, "Bohning".toList]
    (by decide +kernel)

example : substitute (values .stm .bohning "code".toList "out".toList []) "$folds".toList = .error .keyError :=
  template_unknown _ [.name "folds".toList] ⟨⟨'f', "olds".toList, by decide, by unfold Letter; decide, by unfold Letter Digit; decide⟩, by simp, trivial⟩
    (by decide +kernel)

/-! ## Reports -/

/-- C294: every model, bound and size has a report of its own. -/
theorem report_names (dir : Str) (b b' : Bound) (K K' P P' : Nat) :
    (ctmReport dir b K = ctmReport dir b' K' ↔ b = b' ∧ K = K') ∧
    (stmReport dir b K P = stmReport dir b' K' P' ↔ b = b' ∧ K = K' ∧ P = P') ∧ ctmReport dir b K ≠ stmReport dir b' K' P' := by
  have hb : ∀ b, Bound.name b = boundName b := by
    intro b
    cases b <;> rfl
  have hdot : ∀ n, '.' ∉ Nat.toDigits 10 n := fun n hn =>
    absurd (Nat.isDigit_of_mem_toDigits (b := 10) (by decide) (by decide) hn) (by decide)
  have hi : ".ipynb".toList = ['.', 'i', 'p', 'y', 'n', 'b'] := rfl
  unfold ctmReport stmReport decimal
  simp only [hb, hi, k_lit, p_lit, List.append_assoc, List.append_cancel_left_eq, List.cons_append, List.nil_append, List.cons.injEq, true_and]
  refine ⟨⟨fun h => ?_, ?_⟩, ⟨fun h => ?_, ?_⟩, fun h => ?_⟩
  · obtain ⟨h1, h⟩ := bound_inj h
    simp only [List.cons.injEq, true_and] at h
    exact ⟨h1, digits_inj (RunCli.append_cons_inj _ _ _ _ (hdot K) (hdot K') h).1⟩
  · rintro ⟨rfl, rfl⟩
    rfl
  · obtain ⟨h1, h⟩ := bound_inj h
    simp only [List.cons.injEq, true_and] at h
    obtain ⟨h2, h⟩ := RunCli.append_cons_inj _ _ _ _ Nat.underscore_not_in_toDigits Nat.underscore_not_in_toDigits h
    simp only [List.cons.injEq, true_and] at h
    exact ⟨h1, digits_inj h2, digits_inj (RunCli.append_cons_inj _ _ _ _ (hdot P) (hdot P') h).1⟩
  · rintro ⟨rfl, rfl, rfl⟩
    rfl
  · have h0 := List.append_cancel_left h
    have h1 : "ctm_".toList = ['c', 't', 'm', '_'] := rfl
    have h2 : "stm_yv_".toList = ['s', 't', 'm', '_', 'y', 'v', '_'] := rfl
    rw [h1, h2] at h0
    simp at h0

theorem generateAll_spec (gen : List Pat → Bound → Py (Nat × Option Str)) (cs : List (Str × List Pat × Bound)) (n : Str → Nat) (t : Str → Option Str)
    (hg : ∀ c ∈ cs, gen c.2.1 c.2.2 = .ok (n c.1, t c.1)) (hnd : (cs.map Prod.fst).Nodup) (results : List (Str × Nat))
    (hr : ∀ c ∈ cs, ∀ p ∈ results, p.1 ≠ c.1) (written : List (Str × Str)) :
    generateAll gen cs results written = .ok (results ++ cs.map (fun c => (c.1, n c.1)), written ++ cs.filterMap fun c => (t c.1).map fun x => (c.1, x)) := by
  induction cs generalizing results written with
  | nil => simp [generateAll]
  | cons c cs ih =>
    obtain ⟨file, pat, b⟩ := c
    have h := hg (file, pat, b) (by simp)
    dsimp only at h
    unfold generateAll
    simp only [h, bind, Except.bind]
    have hset : setResult results file (n file) = results ++ [(file, n file)] := by
      unfold setResult
      rw [if_neg]
      simp only [List.any_eq_true, decide_eq_true_eq, not_exists, not_and]
      intro p hp
      exact hr (file, pat, b) (by simp) p hp
    rw [List.map_cons, List.nodup_cons] at hnd
    rw [hset, ih (fun c hc => hg c (List.mem_cons_of_mem _ hc)) hnd.2]
    · rw [List.filterMap_cons]
      dsimp only
      cases t file <;> simp
    · intro c hc p hp
      rw [List.mem_append, List.mem_singleton] at hp
      rcases hp with hp | rfl
      · exact hr c (List.mem_cons_of_mem _ hc) p hp
      · intro he
        exact hnd.1 (List.mem_map.2 ⟨c, hc, he.symm⟩)

open Classical in
/-- The files in the directory which belong to the report on a topic model -/
noncomputable def ctmFolds (listing : List Str) (b : Bound) (K : Nat) : List Str :=
  listing.filter fun f => decide (∃ e, f = "ctm_".toList ++ boundName b ++ "_k_".toList ++ Nat.toDigits 10 K ++ e ∧ Ends e)

open Classical in
/-- The files in the directory which belong to the report on a model with features -/
noncomputable def stmFolds (listing : List Str) (b : Bound) (K P : Nat) : List Str :=
  listing.filter fun f =>
    decide (∃ e, f = "stm_yv_".toList ++ boundName b ++ "_k_".toList ++ Nat.toDigits 10 K ++ "_p_".toList ++ Nat.toDigits 10 P ++ e ∧ Ends e)

theorem ctmFolds_eq (listing : List Str) (b : Bound) (K : Nat) : listing.filter (reMatch (ctmPat b K)) = ctmFolds listing b K := by
  unfold ctmFolds
  apply List.filter_congr
  intro f _
  rw [Bool.eq_iff_iff, (pattern_spec b K 0 f).1]
  exact (@decide_eq_true_iff _ (Classical.propDecidable _)).symm

theorem stmFolds_eq (listing : List Str) (b : Bound) (K P : Nat) : listing.filter (reMatch (stmPat b K P)) = stmFolds listing b K P := by
  unfold stmFolds
  apply List.filter_congr
  intro f _
  rw [Bool.eq_iff_iff, (pattern_spec b K P f).2]
  exact (@decide_eq_true_iff _ (Classical.propDecidable _)).symm

/-- The names of the templates -/
def sheet (kind : Kind) (dataset : Str) : Str :=
  match kind with
  | .ctm => "CtmResultsSheet-Template.ipynb".toList
  | .stm => if dataset = "tweets".toList then "StmResultsSheet-Template.ipynb".toList else "StmResultsSheet-Nips-Template.ipynb".toList

theorem generate_spec (templates : Str → Str) (listing : List Str) (code out : Str) (kind : Kind) (b : Bound) (dataset : Str) (pat : List Pat) (fs : List Str)
    (hfs : listing.filter (reMatch pat) = fs) (text : Str)
    (ht : fs ≠ [] → substitute (values kind b code out fs) (templates (sheet kind dataset)) = .ok text) :
    generate templates listing code out kind b dataset pat = .ok (fs.length, if fs = [] then none else some text) := by
  unfold generate
  dsimp only
  rw [hfs]
  by_cases h : fs = []
  · subst h
    rfl
  · have hs : templateName kind dataset = sheet kind dataset := by cases kind <;> rfl
    rw [if_neg (by simpa using h), if_neg h, hs, ht h]
    rfl

/-- C294: reports on topic models: the result has the number of files of every report, and a report is written, from the template and these files, for
every bound and number of topics with at least one file. -/
theorem reports_ctm_partial (templates : Str → Str) (listing : List Str) (code out dir : Str) (bounds : List Bound) (topics : List Nat)
    (hb : bounds.Nodup) (ht : topics.Nodup) (text : Bound → Nat → Str)
    (htext : ∀ b ∈ bounds, ∀ K ∈ topics, ctmFolds listing b K ≠ [] →
      substitute (values .ctm b code out (ctmFolds listing b K)) (templates "CtmResultsSheet-Template.ipynb".toList) = .ok (text b K)) :
    reportsCtm templates listing code out dir bounds topics = .ok
      (bounds.flatMap fun b => topics.map fun K => (ctmReport dir b K, (ctmFolds listing b K).length),
        bounds.flatMap fun b => (topics.filter fun K => decide (ctmFolds listing b K ≠ [])).map fun K => (ctmReport dir b K, text b K)) := by
  classical
  have hinj : ∀ b b' K K', ctmReport dir b K = ctmReport dir b' K' → b = b' ∧ K = K' := fun b b' K K' h => (report_names dir b b' K K' 0 0).1.1 h
  -- read the configuration off the name of the file
  let conf : Str → Option (Bound × Nat) := fun f => if h : ∃ q : Bound × Nat, f = ctmReport dir q.1 q.2 then some h.choose else none
  have hconf : ∀ b K, conf (ctmReport dir b K) = some (b, K) := by
    intro b K
    have h : ∃ q : Bound × Nat, ctmReport dir b K = ctmReport dir q.1 q.2 := ⟨(b, K), rfl⟩
    simp only [conf]
    rw [dif_pos h]
    obtain ⟨h1, h2⟩ := hinj _ _ _ _ h.choose_spec
    rw [Option.some.injEq]
    exact Prod.ext h1.symm h2.symm
  unfold reportsCtm
  rw [generateAll_spec _ _ (fun f => match conf f with | none => 0 | some q => (ctmFolds listing q.1 q.2).length)
    (fun f => match conf f with | none => none | some q => if ctmFolds listing q.1 q.2 = [] then none else some (text q.1 q.2))]
  · congr 1
    rw [List.nil_append, List.nil_append, List.map_flatMap, List.filterMap_flatMap]
    refine Prod.ext ?_ ?_
    · refine congrArg (fun g => bounds.flatMap g) (funext fun b => ?_)
      rw [List.map_map]
      refine List.map_congr_left fun K _ => ?_
      simp only [Function.comp_apply, hconf]
    · refine congrArg (fun g => bounds.flatMap g) (funext fun b => ?_)
      rw [List.filterMap_map]
      induction topics with
      | nil => rfl
      | cons K ks ih =>
        rw [List.nodup_cons] at ht
        have ih := ih ht.2 (fun b hb K hK => htext b hb K (List.mem_cons_of_mem _ hK))
        rw [List.filterMap_cons, ih]
        simp only [Function.comp_apply, hconf]
        by_cases h : ctmFolds listing b K = []
        · simp [h]
        · simp [h]
  · intro c hc
    obtain ⟨b, hb', hc⟩ := List.mem_flatMap.1 hc
    obtain ⟨K, hK, rfl⟩ := List.mem_map.1 hc
    simp only [hconf]
    exact generate_spec templates listing code out .ctm b _ _ _ (ctmFolds_eq listing b K) (text b K) (htext b hb' K hK)
  · rw [List.map_flatMap]
    refine List.nodup_flatMap.2 ⟨fun b _ => ?_, ?_⟩
    · rw [List.map_map]
      exact ht.map fun K K' h => (hinj _ _ _ _ h).2
    · refine hb.imp fun {b b'} hne => ?_
      intro f h1 h2
      simp only [List.map_map, List.mem_map, Function.comp_apply] at h1 h2
      obtain ⟨K, -, rfl⟩ := h1
      obtain ⟨K', -, h⟩ := h2
      exact hne (hinj _ _ _ _ h).1.symm
  · simp

/-- C294: reports on models with features. -/
theorem reports_stm_partial (templates : Str → Str) (listing : List Str) (code out dir dataset : Str) (bounds : List Bound) (topics latents : List Nat)
    (hb : bounds.Nodup) (ht : topics.Nodup) (hl : latents.Nodup) (text : Bound → Nat → Nat → Str)
    (htext : ∀ b ∈ bounds, ∀ K ∈ topics, ∀ P ∈ latents, stmFolds listing b K P ≠ [] →
      substitute (values .stm b code out (stmFolds listing b K P)) (templates (if dataset = "tweets".toList then "StmResultsSheet-Template.ipynb".toList
        else "StmResultsSheet-Nips-Template.ipynb".toList)) = .ok (text b K P)) :
    reportsStm templates listing code out dir dataset bounds topics latents = .ok
      (bounds.flatMap fun b => topics.flatMap fun K => latents.map fun P => (stmReport dir b K P, (stmFolds listing b K P).length),
        bounds.flatMap fun b => topics.flatMap fun K => (latents.filter fun P => decide (stmFolds listing b K P ≠ [])).map fun P =>
          (stmReport dir b K P, text b K P)) := by
  classical
  have hinj : ∀ b b' K K' P P', stmReport dir b K P = stmReport dir b' K' P' → b = b' ∧ K = K' ∧ P = P' :=
    fun b b' K K' P P' h => (report_names dir b b' K K' P P').2.1.1 h
  let conf : Str → Option (Bound × Nat × Nat) := fun f =>
    if h : ∃ q : Bound × Nat × Nat, f = stmReport dir q.1 q.2.1 q.2.2 then some h.choose else none
  have hconf : ∀ b K P, conf (stmReport dir b K P) = some (b, K, P) := by
    intro b K P
    have h : ∃ q : Bound × Nat × Nat, stmReport dir b K P = stmReport dir q.1 q.2.1 q.2.2 := ⟨(b, K, P), rfl⟩
    simp only [conf]
    rw [dif_pos h]
    obtain ⟨h1, h2, h3⟩ := hinj _ _ _ _ _ _ h.choose_spec
    rw [Option.some.injEq]
    exact Prod.ext h1.symm (Prod.ext h2.symm h3.symm)
  unfold reportsStm
  rw [generateAll_spec _ _ (fun f => match conf f with | none => 0 | some q => (stmFolds listing q.1 q.2.1 q.2.2).length)
    (fun f => match conf f with | none => none | some q => if stmFolds listing q.1 q.2.1 q.2.2 = [] then none else some (text q.1 q.2.1 q.2.2))]
  · congr 1
    rw [List.nil_append, List.nil_append, List.map_flatMap, List.filterMap_flatMap]
    refine Prod.ext ?_ ?_
    · refine congrArg (fun g => bounds.flatMap g) (funext fun b => ?_)
      rw [List.map_flatMap]
      refine congrArg (fun g => topics.flatMap g) (funext fun K => ?_)
      rw [List.map_map]
      refine List.map_congr_left fun P _ => ?_
      simp only [Function.comp_apply, hconf]
    · refine congrArg (fun g => bounds.flatMap g) (funext fun b => ?_)
      rw [List.filterMap_flatMap]
      refine congrArg (fun g => topics.flatMap g) (funext fun K => ?_)
      rw [List.filterMap_map]
      clear hl htext
      induction latents with
      | nil => rfl
      | cons P ps ih =>
        rw [List.filterMap_cons, ih]
        simp only [Function.comp_apply, hconf]
        by_cases h : stmFolds listing b K P = []
        · simp [h]
        · simp [h]
  · intro c hc
    obtain ⟨b, hb', hc⟩ := List.mem_flatMap.1 hc
    obtain ⟨K, hK, hc⟩ := List.mem_flatMap.1 hc
    obtain ⟨P, hP, rfl⟩ := List.mem_map.1 hc
    simp only [hconf]
    exact generate_spec templates listing code out .stm b _ _ _ (stmFolds_eq listing b K P) (text b K P) (htext b hb' K hK P hP)
  · rw [List.map_flatMap]
    refine List.nodup_flatMap.2 ⟨fun b _ => ?_, ?_⟩
    · rw [List.map_flatMap]
      refine List.nodup_flatMap.2 ⟨fun K _ => ?_, ?_⟩
      · rw [List.map_map]
        exact hl.map fun P P' h => (hinj _ _ _ _ _ _ h).2.2
      · refine ht.imp fun {K K'} hne => ?_
        intro f h1 h2
        simp only [List.map_map, List.mem_map, Function.comp_apply] at h1 h2
        obtain ⟨P, -, rfl⟩ := h1
        obtain ⟨P', -, h⟩ := h2
        exact hne (hinj _ _ _ _ _ _ h).2.1.symm
    · refine hb.imp fun {b b'} hne => ?_
      intro f h1 h2
      simp only [List.map_flatMap, List.mem_flatMap, List.map_map, List.mem_map, Function.comp_apply] at h1 h2
      obtain ⟨K, -, P, -, rfl⟩ := h1
      obtain ⟨K', -, P', -, h⟩ := h2
      exact hne (hinj _ _ _ _ _ _ h).1.symm
  · simp

/-- C294: an error in one report is not counted as zero folds: it ends the generation of all of them. -/
theorem error_violation (templates : Str → Str) (listing : List Str) (code out dir dataset : Str) (b : Bound) (bounds : List Bound) (K P : Nat)
    (topics latents : List Nat) (hf : stmFolds listing b K P ≠ []) (e : PyErr)
    (he : substitute (values .stm b code out (stmFolds listing b K P)) (templates (if dataset = "tweets".toList then
      "StmResultsSheet-Template.ipynb".toList else "StmResultsSheet-Nips-Template.ipynb".toList)) = .error e) :
    reportsStm templates listing code out dir dataset (b :: bounds) (K :: topics) (P :: latents) = .error e := by
  unfold reportsStm
  rw [List.flatMap_cons, List.flatMap_cons, List.map_cons, List.cons_append, List.cons_append]
  unfold generateAll generate
  dsimp only
  rw [stmFolds_eq, if_neg (by simpa using hf)]
  have hs : templateName .stm dataset = if dataset = "tweets".toList then
      "StmResultsSheet-Template.ipynb".toList else "StmResultsSheet-Nips-Template.ipynb".toList := rfl
  rw [hs, he]
  rfl

/-- A directory with one file of a model with features and one of a topic model -/
def exListing : List Str := ["stm_yv_bohning_k_10_p_25_fold_3_20150301_1205.pkl".toList, "ctm_bohning_k_10_fold_3_20150301_1205.pkl".toList]

theorem exFolds : stmFolds exListing .bohning 10 25 = ["stm_yv_bohning_k_10_p_25_fold_3_20150301_1205.pkl".toList] ∧
    stmFolds exListing .bouchard 10 25 = [] ∧ ctmFolds exListing .bohning 10 = ["ctm_bohning_k_10_fold_3_20150301_1205.pkl".toList] := by
  rw [← stmFolds_eq, ← stmFolds_eq, ← ctmFolds_eq]
  decide +kernel

example : reportsStm (fun _ => "$bound bound".toList) exListing [] "out".toList "rep".toList "nips".toList [.bouchard, .bohning] [10] [25] =
    .ok ([("rep/stm_yv_bouchard_k_10_p_25.ipynb".toList, 0), ("rep/stm_yv_bohning_k_10_p_25.ipynb".toList, 1)],
      [("rep/stm_yv_bohning_k_10_p_25.ipynb".toList, "Bohning bound".toList)]) := by
  rw [reports_stm_partial _ _ _ _ _ _ _ _ _ (by decide) (by decide) (by decide) (fun _ _ _ => "Bohning bound".toList) (by
    intro b _ K hK P hP hne
    obtain rfl : K = 10 := by simpa using hK
    obtain rfl : P = 25 := by simpa using hP
    cases b with
    | bohning =>
      rw [exFolds.1]
      decide +kernel
    | bouchard => exact absurd exFolds.2.1 hne)]
  simp only [List.flatMap_cons, List.flatMap_nil, List.map_cons, List.map_nil, List.filter_cons, List.filter_nil, exFolds.1, exFolds.2.1]
  decide +kernel

example : reportsCtm (fun _ => "$bound bound".toList) exListing [] "out".toList "rep".toList [.bohning] [10] =
    .ok ([("rep/ctm_bohning_k_10.ipynb".toList, 1)], [("rep/ctm_bohning_k_10.ipynb".toList, "Bohning bound".toList)]) := by
  rw [reports_ctm_partial _ _ _ _ _ _ _ (by decide) (by decide) (fun _ _ => "Bohning bound".toList) (by
    intro b hb K hK hne
    obtain rfl : K = 10 := by simpa using hK
    obtain rfl : b = .bohning := by simpa using hb
    rw [exFolds.2.2]
    decide +kernel)]
  simp only [List.flatMap_cons, List.flatMap_nil, List.map_cons, List.map_nil, List.filter_cons, List.filter_nil, exFolds.2.2]
  decide +kernel

example : reportsStm (fun _ => "$folds folds".toList) exListing [] "out".toList "rep".toList "nips".toList [.bohning, .bouchard] [10, 20] [25] =
    .error .keyError :=
  error_violation _ _ _ _ _ _ _ _ _ _ _ _ (by rw [exFolds.1]; simp) _ (by rw [exFolds.1]; decide +kernel)

end Verif.Props.Reports
