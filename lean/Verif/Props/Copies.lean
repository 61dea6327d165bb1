import Verif.Model.Copies

/-!
# Copies of models and datasets share nothing that changes
-/

namespace Verif.Props.Copies

open Verif Verif.Copies

/-! ## What can be seen of a model -/

/-- What a program sees of a value: nothing, a number, or the numbers of an array -/
inductive Seen where
  | none
  | num (q : ℚ)
  | arr (l : List ℚ)
  deriving DecidableEq

/-- What is seen of a value in a memory -/
def see (h : Heap) : Val → Seen
  | .none => .none
  | .num q => .num q
  | .ref l => .arr (h.arr l)

/-- What is seen of all fields of a model -/
def seeAll (h : Heap) (s : State) : List (String × Seen) := s.map fun p => (p.1, see h p.2)

/-- The arrays of a model -/
def refs (s : State) : List Nat := s.filterMap fun p => match p.2 with | .ref l => some l | _ => none

theorem mem_refs (s : State) (l : Nat) : l ∈ refs s ↔ ∃ n, (n, Val.ref l) ∈ s := by
  unfold refs
  rw [List.mem_filterMap]
  constructor
  · rintro ⟨⟨n, v⟩, hm, he⟩
    cases v with
    | none => simp at he
    | num q => simp at he
    | ref k =>
      simp only [Option.some.injEq] at he
      subst he
      exact ⟨n, hm⟩
  · rintro ⟨n, hm⟩
    exact ⟨_, hm, rfl⟩

/-- Numbers written into arrays, one array after the other -/
def write (h : Heap) : List (Nat × List ℚ) → Heap
  | [] => h
  | (l, x) :: ws => write { h with arr := fun i => if i = l then x else h.arr i } ws

theorem write_other (ws : List (Nat × List ℚ)) (h : Heap) (i : Nat) (hi : ∀ w ∈ ws, w.1 ≠ i) : (write h ws).arr i = h.arr i := by
  induction ws generalizing h with
  | nil => rfl
  | cons w ws ih =>
    obtain ⟨l, x⟩ := w
    show (write _ ws).arr i = _
    rw [ih _ (fun w hw => hi w (List.mem_cons_of_mem _ hw))]
    exact if_neg (fun h => hi (l, x) (by simp) h.symm)

theorem see_write (ws : List (Nat × List ℚ)) (h : Heap) (s : State) (hs : ∀ w ∈ ws, w.1 ∉ refs s) : seeAll (write h ws) s = seeAll h s := by
  unfold seeAll
  apply List.map_congr_left
  rintro ⟨n, v⟩ hm
  cases v with
  | none => rfl
  | num q => rfl
  | ref l =>
    show (n, Seen.arr _) = (n, Seen.arr _)
    rw [write_other ws h l (fun w hw he => hs w hw ((mem_refs s w.1).mpr ⟨n, by rw [he]; exact hm⟩))]

/-! ## Copying -/

theorem lookup_of_mem (s : State) (hn : (s.map (·.1)).Nodup) (n : String) (v : Val) (h : (n, v) ∈ s) : s.lookup n = some v := by
  induction s with
  | nil => simp at h
  | cons p s ih =>
    obtain ⟨m, w⟩ := p
    rw [List.map_cons, List.nodup_cons] at hn
    rw [List.mem_cons] at h
    rcases h with h | h
    · cases h
      simp [List.lookup]
    · have hne : n ≠ m := by
        rintro rfl
        exact hn.1 (List.mem_map.mpr ⟨_, h, rfl⟩)
      rw [List.lookup_cons, beq_false_of_ne hne]
      exact ih hn.2 h

theorem mem_of_lookup (s : State) (n : String) (v : Val) (h : s.lookup n = some v) : (n, v) ∈ s := by
  induction s with
  | nil => simp at h
  | cons p s ih =>
    obtain ⟨m, w⟩ := p
    rw [List.lookup_cons] at h
    by_cases hm : n = m
    · subst hm
      simp at h
      subst h
      simp
    · rw [beq_false_of_ne hm] at h
      exact List.mem_cons_of_mem _ (ih h)

/-- All arrays of a model have been made -/
def Made (h : Heap) (s : State) : Prop := ∀ l ∈ refs s, l < h.next

/-- What copying one value does -/
theorem copyVal_spec (h h' : Heap) (v w : Val) (hc : copyVal h v = .ok (h', w)) :
    w = .ref h.next ∧ h'.next = h.next + 1 ∧ (∀ i, i < h.next → h'.arr i = h.arr i) ∧ (∀ l, v = .ref l → h'.arr h.next = h.arr l) ∧ ∃ l, v = .ref l := by
  cases v with
  | none => simp [copyVal] at hc
  | num q => simp [copyVal] at hc
  | ref l =>
    simp only [copyVal, Except.ok.injEq, Prod.mk.injEq] at hc
    obtain ⟨rfl, rfl⟩ := hc
    refine ⟨rfl, rfl, fun i hi => if_neg (by omega), ?_, l, rfl⟩
    rintro l' ⟨⟩
    exact if_pos rfl

/-- The rule of a field says to share it -/
def Shares (rules : List (String × Rule)) (n : String) : Prop := (n, Rule.share) ∈ rules

/-- A field is copied from itself or shared -/
def Own (rules : List (String × Rule)) : Prop := ∀ p ∈ rules, ∀ src, p.2 = .copyOr src → src = p.1

/-- The test of `Own` for one field -/
def ownField (p : String × Rule) : Bool :=
  match p.2 with
  | .copyOr src => src == p.1
  | _ => true

instance (rules : List (String × Rule)) : Decidable (Own rules) :=
  decidable_of_iff (∀ p ∈ rules, ownField p = true) (by
    constructor
    · intro h p hp src hs
      have := h p hp
      unfold ownField at this
      rw [hs] at this
      simpa using this
    · intro h p hp
      unfold ownField
      cases hr : p.2 with
      | share => rfl
      | copy => rfl
      | copyOr src => simpa using h p hp src hr)

theorem copyField_spec (s : State) (h h' : Heap) (n : String) (r : Rule) (w : Val) (hc : copyField s h n r = .ok (h', w)) :
    h.next ≤ h'.next ∧ (∀ i, i < h.next → h'.arr i = h.arr i) ∧ (∀ l, w = .ref l → (h.next ≤ l ∧ l < h'.next) ∨ (r = .share ∧ s.lookup n = some (.ref l)))
    ∧ ((∀ src, r = .copyOr src → src = n) → ∃ v, s.lookup n = some v ∧ see h' w = see h v) := by
  cases r with
  | share =>
    simp only [copyField, getField, bind, Except.bind, pure, Except.pure] at hc
    cases hl : s.lookup n with
    | none => rw [hl] at hc; simp at hc
    | some v =>
      rw [hl] at hc
      simp only [Except.ok.injEq, Prod.mk.injEq] at hc
      obtain ⟨rfl, rfl⟩ := hc
      exact ⟨le_refl _, fun _ _ => rfl, fun l hw => Or.inr ⟨rfl, by rw [hw]⟩, fun _ => ⟨v, rfl, rfl⟩⟩
  | copy =>
    simp only [copyField, getField, bind, Except.bind] at hc
    cases hl : s.lookup n with
    | none => rw [hl] at hc; simp at hc
    | some v =>
      rw [hl] at hc
      simp only at hc
      obtain ⟨rfl, h1, h2, h3, l, rfl⟩ := copyVal_spec h h' v w hc
      refine ⟨by omega, h2, ?_, fun _ => ⟨_, rfl, ?_⟩⟩
      · rintro l' ⟨⟩
        exact Or.inl ⟨le_refl _, by omega⟩
      · show Seen.arr _ = Seen.arr _
        rw [h3 l rfl]
  | copyOr src =>
    simp only [copyField, getField, bind, Except.bind, pure, Except.pure] at hc
    cases hl : s.lookup n with
    | none => rw [hl] at hc; simp at hc
    | some v =>
      rw [hl] at hc
      simp only at hc
      have main : ∀ u, (match s.lookup src with | some v => (.ok v : Py Val) | none => .error .attributeError) = .ok u → copyVal h u = .ok (h', w) → v ≠ .none →
          h.next ≤ h'.next ∧ (∀ i, i < h.next → h'.arr i = h.arr i) ∧ (∀ l, w = .ref l → (h.next ≤ l ∧ l < h'.next) ∨ (Rule.copyOr src = .share ∧ some v = some (.ref l)))
          ∧ ((∀ src', Rule.copyOr src = .copyOr src' → src' = n) → ∃ v', some v = some v' ∧ see h' w = see h v') := by
        intro u hu hcv _
        obtain ⟨rfl, h1, h2, h3, l, rfl⟩ := copyVal_spec h h' u w hcv
        refine ⟨by omega, h2, ?_, ?_⟩
        · rintro l' ⟨⟩
          exact Or.inl ⟨le_refl _, by omega⟩
        · intro hsrc
          have := hsrc src rfl
          subst this
          rw [hl] at hu
          simp only [Except.ok.injEq] at hu
          refine ⟨v, rfl, ?_⟩
          rw [hu]
          show Seen.arr _ = Seen.arr _
          rw [h3 l rfl]
      cases v with
      | none =>
        simp only [Except.ok.injEq, Prod.mk.injEq] at hc
        obtain ⟨rfl, rfl⟩ := hc
        exact ⟨le_refl _, fun _ _ => rfl, fun l hw => by simp at hw, fun _ => ⟨_, rfl, rfl⟩⟩
      | num q =>
        simp only at hc
        cases hu : s.lookup src with
        | none => rw [hu] at hc; simp at hc
        | some u => rw [hu] at hc; exact main u (by rw [hu]) hc (by simp)
      | ref l =>
        simp only at hc
        cases hu : s.lookup src with
        | none => rw [hu] at hc; simp at hc
        | some u => rw [hu] at hc; exact main u (by rw [hu]) hc (by simp)

theorem copyState_spec (s : State) (rules : List (String × Rule)) (h h' : Heap) (hm : Made h s) (c : State) (hc : copyState s rules h = .ok (h', c)) :
    h.next ≤ h'.next ∧ (∀ i, i < h.next → h'.arr i = h.arr i) ∧ c.map (·.1) = rules.map (·.1)
    ∧ (∀ l ∈ refs c, (h.next ≤ l ∧ l < h'.next) ∨ ∃ n, Shares rules n ∧ s.lookup n = some (.ref l))
    ∧ (Own rules → ∀ n w, (n, w) ∈ c → ∃ v, s.lookup n = some v ∧ see h' w = see h v) := by
  induction rules generalizing h c with
  | nil =>
    simp only [copyState, Except.ok.injEq, Prod.mk.injEq] at hc
    obtain ⟨rfl, rfl⟩ := hc
    exact ⟨le_refl _, fun _ _ => rfl, rfl, by simp [refs], by simp⟩
  | cons p rs ih =>
    obtain ⟨n, r⟩ := p
    simp only [copyState, bind, Except.bind, pure, Except.pure] at hc
    cases hf : copyField s h n r with
    | error e => rw [hf] at hc; simp at hc
    | ok q =>
      obtain ⟨h1, w⟩ := q
      rw [hf] at hc
      simp only at hc
      cases hs : copyState s rs h1 with
      | error e => rw [hs] at hc; simp at hc
      | ok q =>
        obtain ⟨h2, vs⟩ := q
        rw [hs] at hc
        simp only [Except.ok.injEq, Prod.mk.injEq] at hc
        obtain ⟨rfl, rfl⟩ := hc
        obtain ⟨f1, f2, f3, f4⟩ := copyField_spec s h h1 n r w hf
        have hm1 : Made h1 s := fun l hl => lt_of_lt_of_le (hm l hl) f1
        obtain ⟨g1, g2, g3, g4, g5⟩ := ih h1 hm1 vs hs
        have old : ∀ i, i < h.next → h2.arr i = h.arr i := fun i hi => by rw [g2 i (lt_of_lt_of_le hi f1), f2 i hi]
        refine ⟨le_trans f1 g1, old, by simp [g3], ?_, ?_⟩
        · intro l hl
          rw [mem_refs] at hl
          obtain ⟨m, hl⟩ := hl
          rw [List.mem_cons] at hl
          rcases hl with hl | hl
          · simp only [Prod.mk.injEq] at hl
            rcases f3 l hl.2.symm with hx | ⟨rfl, hx⟩
            · exact Or.inl ⟨hx.1, lt_of_lt_of_le hx.2 g1⟩
            · exact Or.inr ⟨n, by simp [Shares], hx⟩
          · rcases g4 l ((mem_refs vs l).mpr ⟨m, hl⟩) with hx | ⟨k, hk, hx⟩
            · exact Or.inl ⟨le_trans f1 hx.1, hx.2⟩
            · exact Or.inr ⟨k, List.mem_cons_of_mem _ hk, hx⟩
        · intro hown m u hu
          rw [List.mem_cons] at hu
          rcases hu with hu | hu
          · simp only [Prod.mk.injEq] at hu
            obtain ⟨rfl, rfl⟩ := hu
            obtain ⟨v, hv, hsee⟩ := f4 (fun src hs => hown (m, r) (by simp) src hs)
            refine ⟨v, hv, ?_⟩
            rw [← hsee]
            cases u with
            | none => rfl
            | num q => rfl
            | ref l =>
              show Seen.arr _ = Seen.arr _
              congr 1
              apply g2
              rcases f3 l rfl with hx | ⟨_, hx⟩
              · exact hx.2
              · exact hm1 l ((mem_refs s l).mpr ⟨m, mem_of_lookup s m _ hx⟩)
          · obtain ⟨v, hv, hsee⟩ := g5 (fun p hp => hown p (List.mem_cons_of_mem _ hp)) m u hu
            refine ⟨v, hv, ?_⟩
            rw [hsee]
            cases v with
            | none => rfl
            | num q => rfl
            | ref l =>
              show Seen.arr _ = Seen.arr _
              rw [f2 l (hm l ((mem_refs s l).mpr ⟨m, mem_of_lookup s m _ hv⟩))]

/-- A model is of the shape of its module: its fields are those of the table, in order -/
def Shaped (rules : List (String × Rule)) (s : State) : Prop := s.map (·.1) = rules.map (·.1)

theorem seeAll_eq (h h' : Heap) (s c : State) (hn : (s.map (·.1)).Nodup) (hk : c.map (·.1) = s.map (·.1))
    (he : ∀ n w, (n, w) ∈ c → ∃ v, s.lookup n = some v ∧ see h' w = see h v) : seeAll h' c = seeAll h s := by
  unfold seeAll
  apply List.ext_getElem
  · have := congrArg List.length hk
    simpa using this
  · intro i h1 h2
    simp only [List.length_map] at h1 h2
    rw [List.getElem_map, List.getElem_map]
    have hname : c[i].1 = s[i].1 := by
      have h3 : (c.map (·.1))[i]'(by simpa using h1) = (s.map (·.1))[i]'(by simpa using h2) := by
        simp only [hk]
      simpa using h3
    obtain ⟨v, hv, hs⟩ := he c[i].1 c[i].2 (List.getElem_mem h1)
    have : s.lookup s[i].1 = some s[i].2 := lookup_of_mem s hn _ _ (List.getElem_mem h2)
    rw [hname, this] at hv
    simp only [Option.some.injEq] at hv
    rw [hs, ← hv, hname]

/-- A copy looks like the original, and the original as before -/
theorem copy_equal_partial (rules : List (String × Rule)) (hown : Own rules) (hnd : (rules.map (·.1)).Nodup) (s : State) (hs : Shaped rules s) (h h' : Heap)
    (hm : Made h s) (c : State) (hc : copyState s rules h = .ok (h', c)) : seeAll h' c = seeAll h s ∧ seeAll h' s = seeAll h s := by
  obtain ⟨h1, h2, h3, h4, h5⟩ := copyState_spec s rules h h' hm c hc
  refine ⟨seeAll_eq h h' s c (by rw [hs]; exact hnd) (by rw [h3, hs]) (h5 hown), ?_⟩
  unfold seeAll
  apply List.map_congr_left
  rintro ⟨n, v⟩ hv
  cases v with
  | none => rfl
  | num q => rfl
  | ref l =>
    show (n, Seen.arr _) = (n, Seen.arr _)
    rw [h2 l (hm l ((mem_refs s l).mpr ⟨n, hv⟩))]

/-- A copy fails only when an array that is always copied is not there -/
theorem copy_succeeds (rules : List (String × Rule)) (hown : Own rules) (s : State)
    (hs : ∀ p ∈ rules, ∃ v, s.lookup p.1 = some v ∧ (p.2 = .copy → ∃ l, v = .ref l) ∧ (p.2 ≠ .share → v = .none ∨ ∃ l, v = .ref l)) (h : Heap) :
    ∃ h' c, copyState s rules h = .ok (h', c) := by
  induction rules generalizing h with
  | nil => exact ⟨h, [], rfl⟩
  | cons p rs ih =>
    obtain ⟨n, r⟩ := p
    obtain ⟨v, hv, h1, h2⟩ := hs (n, r) (by simp)
    have hf : ∃ h1 w, copyField s h n r = .ok (h1, w) := by
      cases r with
      | share => exact ⟨h, v, by simp only [copyField, getField, hv, bind, Except.bind, pure, Except.pure]⟩
      | copy =>
        obtain ⟨l, rfl⟩ := h1 rfl
        exact ⟨_, _, by simp only [copyField, getField, hv, bind, Except.bind]; rfl⟩
      | copyOr src =>
        have hsrc : src = n := hown (n, .copyOr src) (by simp) src rfl
        subst hsrc
        rcases h2 (by simp) with rfl | ⟨l, rfl⟩
        · exact ⟨h, .none, by simp only [copyField, getField, hv, bind, Except.bind, pure, Except.pure]⟩
        · exact ⟨_, _, by simp only [copyField, getField, hv, bind, Except.bind]; rfl⟩
    obtain ⟨h1', w, hf⟩ := hf
    obtain ⟨h2', c, hc⟩ := ih (fun p hp => hown p (List.mem_cons_of_mem _ hp)) (fun p hp => hs p (List.mem_cons_of_mem _ hp)) h1'
    exact ⟨h2', (n, w) :: c, by simp only [copyState, hf, hc, bind, Except.bind, pure, Except.pure]⟩

/-- **Independence.** If no shared field holds an array, writing into arrays of the copy, or into arrays made later, does not change the original, and writing
into arrays of the original does not change the copy -/
theorem copy_independent_partial (rules : List (String × Rule)) (s : State) (hshare : ∀ n, Shares rules n → ∀ l, s.lookup n ≠ some (.ref l)) (h h' : Heap)
    (hm : Made h s) (c : State) (hc : copyState s rules h = .ok (h', c)) :
    (∀ ws : List (Nat × List ℚ), (∀ w ∈ ws, w.1 ∈ refs c ∨ h'.next ≤ w.1) → seeAll (write h' ws) s = seeAll h s)
    ∧ ∀ ws : List (Nat × List ℚ), (∀ w ∈ ws, w.1 ∈ refs s ∨ h'.next ≤ w.1) → seeAll (write h' ws) c = seeAll h' c := by
  obtain ⟨h1, h2, h3, h4, _⟩ := copyState_spec s rules h h' hm c hc
  have hnew : ∀ l ∈ refs c, h.next ≤ l ∧ l < h'.next := by
    intro l hl
    rcases h4 l hl with hx | ⟨n, hn, hx⟩
    · exact hx
    · exact absurd hx (hshare n hn l)
  have hold : seeAll h' s = seeAll h s := by
    unfold seeAll
    apply List.map_congr_left
    rintro ⟨n, v⟩ hv
    cases v with
    | none => rfl
    | num q => rfl
    | ref l =>
      show (n, Seen.arr _) = (n, Seen.arr _)
      rw [h2 l (hm l ((mem_refs s l).mpr ⟨n, hv⟩))]
  constructor
  · intro ws hws
    rw [see_write ws h' s, hold]
    intro w hw hmem
    have := hm w.1 hmem
    rcases hws w hw with hx | hx
    · have := (hnew _ hx).1; omega
    · omega
  · intro ws hws
    rw [see_write ws h' c]
    intro w hw hmem
    have hx := hnew w.1 hmem
    rcases hws w hw with hy | hy
    · have := hm w.1 hy; omega
    · omega

/-- A shared array is the same array in the copy; writing one through the other is seen in both -/
theorem copy_shares (rules : List (String × Rule)) (n : String) (hn : Shares rules n) (hnd : (rules.map (·.1)).Nodup) (s : State) (l : Nat)
    (hl : s.lookup n = some (.ref l)) (h h' : Heap) (c : State) (hc : copyState s rules h = .ok (h', c)) :
    (n, Val.ref l) ∈ c ∧ ∀ x, h'.arr l ≠ x → seeAll (write h' [(l, x)]) s ≠ seeAll h' s := by
  have hmem : (n, Val.ref l) ∈ c := by
    induction rules generalizing h c with
    | nil => simp [Shares] at hn
    | cons p rs ih =>
      obtain ⟨m, r⟩ := p
      simp only [copyState, bind, Except.bind, pure, Except.pure] at hc
      cases hf : copyField s h m r with
      | error e => rw [hf] at hc; simp at hc
      | ok q =>
        obtain ⟨h1, w⟩ := q
        rw [hf] at hc
        simp only at hc
        cases hs : copyState s rs h1 with
        | error e => rw [hs] at hc; simp at hc
        | ok q =>
          obtain ⟨h2, vs⟩ := q
          rw [hs] at hc
          simp only [Except.ok.injEq, Prod.mk.injEq] at hc
          obtain ⟨rfl, rfl⟩ := hc
          rw [List.map_cons, List.nodup_cons] at hnd
          rcases List.mem_cons.mp hn with hx | hx
          · cases hx
            simp only [copyField, getField, hl, bind, Except.bind, pure, Except.pure, Except.ok.injEq, Prod.mk.injEq] at hf
            rw [← hf.2]
            simp
          · exact List.mem_cons_of_mem _ (ih hx hnd.2 h1 vs hs)
  refine ⟨hmem, ?_⟩
  intro x hx he
  have hm := mem_of_lookup s n _ hl
  obtain ⟨i, hi, hget⟩ := List.getElem_of_mem hm
  have h1 := congrArg (fun z => z[i]?) he
  simp only [seeAll, List.getElem?_map, List.getElem?_eq_getElem hi, hget, Option.map_some, Option.some.injEq, Prod.mk.injEq, true_and] at h1
  simp only [see, Seen.arr.injEq] at h1
  apply hx
  rw [← h1]
  simp [write]

/-! ## The modules -/

/-- The tables of the modules, except that of the second-order collapsed model -/
def tables : List (List (String × Rule)) :=
  [ctmRules, bohningRules, dmrRules, cvb0Rules, gibbsRules, vbRules, vbPythonRules, momEmRules, momGibbsRules, mtmRules, mtm2Rules, mtm3Rules, rtmRules,
    vecYRules, stmRules, stmBohningRules]

theorem tables_own : ∀ rules ∈ tables, Own rules ∧ (rules.map (·.1)).Nodup := by decide +kernel

/-- The copies of all models but the second-order collapsed one look like the originals -/
theorem modules_copy_equal (rules : List (String × Rule)) (hr : rules ∈ tables) (s : State) (hs : Shaped rules s) (h h' : Heap) (hm : Made h s) (c : State)
    (hc : copyState s rules h = .ok (h', c)) : seeAll h' c = seeAll h s :=
  (copy_equal_partial rules (tables_own rules hr).1 (tables_own rules hr).2 s hs h h' hm c hc).1

/-- Fields which hold a number, a text, a type or a flag, whatever the module -/
def plain : List String :=
  ["K", "T", "Q", "F", "P", "dtype", "name", "numSamples", "processed", "trained", "pseudoNegCount", "regularizer", "tv", "ltv", "fv", "lfv", "outDocCov"]

/-- The modules whose shared fields are plain or the prior of the words -/
def deepTables : List (List (String × Rule)) :=
  [ctmRules, bohningRules, dmrRules, cvb0Rules, cvbRules, gibbsRules, vbRules, vbPythonRules, mtm2Rules, mtm3Rules, rtmRules, vecYRules, stmRules,
    stmBohningRules]

theorem deep_shared : ∀ rules ∈ deepTables, ∀ p ∈ rules, p.2 = .share → p.1 ∈ "vocabPrior" :: plain := by decide +kernel

/-- Copies of the models of these modules are independent of the original if the prior of the words is a number -/
theorem modules_independent_partial (rules : List (String × Rule)) (hr : rules ∈ deepTables) (s : State)
    (hp : ∀ n ∈ "vocabPrior" :: plain, ∀ l, s.lookup n ≠ some (.ref l)) (h h' : Heap) (hm : Made h s) (c : State)
    (hc : copyState s rules h = .ok (h', c)) :
    (∀ ws : List (Nat × List ℚ), (∀ w ∈ ws, w.1 ∈ refs c ∨ h'.next ≤ w.1) → seeAll (write h' ws) s = seeAll h s)
    ∧ ∀ ws : List (Nat × List ℚ), (∀ w ∈ ws, w.1 ∈ refs s ∨ h'.next ≤ w.1) → seeAll (write h' ws) c = seeAll h' c :=
  copy_independent_partial rules s (fun n hn l => hp n (deep_shared rules hr _ hn rfl) l) h h' hm c hc

/-! ### The fields of the models -/

/-- The fields of the models as the modules declare them, and the tables that copy them -/
def declared : List (List String × List (String × Rule)) :=
  [(["K", "topicMean", "sigT", "vocab", "vocabPrior", "dtype", "name"], ctmRules),
   (["K", "topicMean", "sigT", "vocab", "vocabPrior", "A", "dtype", "name"], bohningRules),
   (["K", "T", "weights", "topicPrior", "vocabPrior", "n_dk_samples", "topicSum", "vocabSum", "numSamples", "dtype", "name"], dmrRules),
   (["K", "topicPrior", "vocabPrior", "n_dk", "n_kt", "n_k", "dtype", "name"], cvb0Rules),
   (["K", "topicPrior", "vocabPrior", "n_dk", "n_kt", "n_k", "v_dk", "v_kt", "v_k", "dtype", "name"], cvbRules),
   (["K", "T", "topicPrior", "vocabPrior", "topicSum", "vocabSum", "numSamples", "processed", "dtype", "name"], gibbsRules),
   (["K", "topicPrior", "vocabPrior", "wordDists", "dtype", "name"], vbRules),
   (["K", "topicPrior", "vocabPrior", "wordDists", "processed", "dtype", "name"], vbPythonRules),
   (["K", "topicPrior", "vocabPrior", "wordDistParam", "corpusTopicDistParam", "processed", "dtype", "name"], momEmRules),
   (["K", "topicPrior", "vocabPrior", "wordDists", "processed", "dtype", "name"], momGibbsRules),
   (["K", "Q", "topicPrior", "vocabPrior", "wordDists", "topicCov", "dtype", "name"], mtmRules),
   (["K", "topicMean", "topicCov", "vocab", "A", "dtype", "name"], mtm2Rules),
   (["K", "topicMean", "topicCov", "outDocCov", "vocab", "A", "trained", "dtype", "name"], mtm3Rules),
   (["K", "topicPrior", "vocabPrior", "wordDists", "weights", "pseudoNegCount", "regularizer", "dtype", "name"], rtmRules),
   (["K", "A", "U", "Y", "V", "covA", "tv", "ltv", "fv", "lfv", "vocab", "vocabPrior", "dtype", "name"], vecYRules),
   (["F", "P", "K", "A", "R_A", "fv", "Y", "R_Y", "lfv", "V", "sigT", "vocab", "vocabPrior", "dtype", "name"], stmRules),
   (["F", "P", "K", "A", "R_A", "fv", "Y", "R_Y", "lfv", "V", "sigT", "vocab", "vocabPrior", "Ab", "dtype", "name"], stmBohningRules)]

/-- Every module fills every field that it declares, in the order declared -/
theorem declared_filled : ∀ p ∈ declared, p.2.map (·.1) = p.1 := by decide +kernel

theorem declared_tables : ∀ p ∈ declared, p.2 = cvbRules ∨ p.2 ∈ tables := by decide +kernel

theorem declared_plain : ∀ p ∈ declared, ∀ q ∈ p.2, q.1 ∈ "vocabPrior" :: plain → q.2 = .share := by decide +kernel

/-- A model which has the declared fields, and arrays in those that are no plain ones, can be copied; the copy has the declared fields, and looks like the
original unless the model is the second-order collapsed one -/
theorem declared_copied (fields : List String) (rules : List (String × Rule)) (hr : (fields, rules) ∈ declared) (s : State) (hs : s.map (·.1) = fields)
    (h : Heap) (hm : Made h s) (ha : ∀ n v, (n, v) ∈ s → n ∉ "vocabPrior" :: plain → ∃ l, v = .ref l) :
    ∃ h' c, copyState s rules h = .ok (h', c) ∧ c.map (·.1) = fields ∧ (rules ≠ cvbRules → seeAll h' c = seeAll h s) := by
  have hf : rules.map (·.1) = fields := declared_filled _ hr
  have hnd : ∀ p ∈ declared, p.1.Nodup := by decide +kernel
  have hsn : (s.map (·.1)).Nodup := by rw [hs]; exact hnd _ hr
  have hin : ∀ p ∈ declared, ∀ q ∈ p.2, ∀ src, q.2 = .copyOr src → src ∈ p.1 ∧ src ∉ "vocabPrior" :: plain := by
    have : ∀ p ∈ declared, ∀ q ∈ p.2, (match q.2 with | .copyOr src => decide (src ∈ p.1 ∧ src ∉ "vocabPrior" :: plain) | _ => true) = true := by
      decide +kernel
    intro p hp q hq src hsrc
    have := this p hp q hq
    rw [hsrc] at this
    simpa using this
  have hget : ∀ n ∈ fields, ∃ v, s.lookup n = some v ∧ (n ∉ "vocabPrior" :: plain → ∃ l, v = .ref l) := by
    intro n hn
    rw [← hs, List.mem_map] at hn
    obtain ⟨⟨m, v⟩, hmem, rfl⟩ := hn
    exact ⟨v, lookup_of_mem s hsn _ _ hmem, ha _ _ hmem⟩
  have hok : ∀ rs : List (String × Rule), (∀ q ∈ rs, q ∈ rules) → ∀ h : Heap, ∃ h' c, copyState s rs h = .ok (h', c) := by
    intro rs
    induction rs with
    | nil => exact fun _ h => ⟨h, [], rfl⟩
    | cons q rs ih =>
      intro hsub h
      obtain ⟨n, r⟩ := q
      have hq : (n, r) ∈ rules := hsub _ (by simp)
      obtain ⟨v, hv, hl⟩ := hget n (by rw [← hf]; exact List.mem_map.mpr ⟨_, hq, rfl⟩)
      have hf' : ∃ h1 w, copyField s h n r = .ok (h1, w) := by
        cases r with
        | share => exact ⟨h, v, by simp only [copyField, getField, hv, bind, Except.bind, pure, Except.pure]⟩
        | copy =>
          obtain ⟨l, rfl⟩ := hl (fun hp => by have := declared_plain _ hr _ hq hp; simp at this)
          exact ⟨_, _, by simp only [copyField, getField, hv, bind, Except.bind]; rfl⟩
        | copyOr src =>
          obtain ⟨l, rfl⟩ := hl (fun hp => by have := declared_plain _ hr _ hq hp; simp at this)
          obtain ⟨i1, i2⟩ := hin _ hr _ hq src rfl
          obtain ⟨u, hu, hl'⟩ := hget src i1
          obtain ⟨l', rfl⟩ := hl' i2
          exact ⟨_, _, by simp only [copyField, getField, hv, hu, bind, Except.bind]; rfl⟩
      obtain ⟨h1, w, hw⟩ := hf'
      obtain ⟨h2, c, hc⟩ := ih (fun q hq => hsub q (List.mem_cons_of_mem _ hq)) h1
      exact ⟨h2, (n, w) :: c, by simp only [copyState, hw, hc, bind, Except.bind, pure, Except.pure]⟩
  obtain ⟨h', c, hc⟩ := hok rules (fun _ h => h) h
  refine ⟨h', c, hc, ?_, ?_⟩
  · rw [(copyState_spec s rules h h' hm c hc).2.2.1, hf]
  · intro hne
    rcases declared_tables _ hr with hx | hx
    · exact absurd hx hne
    · exact modules_copy_equal rules hx s (by rw [Shaped, hs, hf]) h h' hm c hc

/-- A field which a model does not have cannot be read -/
theorem missing_field (s : State) (n : String) (hn : n ∉ s.map (·.1)) : getField s n = .error .attributeError := by
  have : s.lookup n = none := by
    cases hl : s.lookup n with
    | none => rfl
    | some v => exact absurd (List.mem_map.mpr ⟨_, mem_of_lookup s n v hl, rfl⟩) hn
  simp only [getField, this]

/-- A memory and a mixture model with its two priors and its two parameters -/
def exHeap : Heap := ⟨4, fun i => if i = 0 then [1, 1] else if i = 1 then [1 / 10, 1 / 10, 1 / 10] else if i = 2 then [3, 2, 1, 1, 1, 1] else [2, 3]⟩

/-- (mom_em.py:110) -/
def exMom : State :=
  [("K", .num 2), ("topicPrior", .ref 0), ("vocabPrior", .ref 1), ("wordDistParam", .ref 2), ("corpusTopicDistParam", .ref 3), ("processed", .num 0),
    ("dtype", .num 0), ("name", .num 0)]

theorem exMom_made : Made exHeap exMom := by
  intro l hl
  simp [refs, exMom] at hl
  rcases hl with rfl | rfl | rfl | rfl <;> simp [exHeap]

/-- The copies of both mixture models and of the matrix topic model share an array with the original -/
theorem modules_share :
    (∃ h' c, copyState exMom momEmRules exHeap = .ok (h', c) ∧ seeAll (write h' [(0, [5, 5])]) exMom ≠ seeAll h' exMom ∧ 0 ∈ refs c)
    ∧ (∀ rules ∈ [momEmRules, momGibbsRules], Shares rules "topicPrior") ∧ Shares mtmRules "topicCov"
    ∧ ∀ rules ∈ tables, (∃ r, ("vocabPrior", r) ∈ rules) → Shares rules "vocabPrior" := by
  refine ⟨?_, ?_, ?_, ?_⟩
  · obtain ⟨h', c, hc⟩ := copy_succeeds momEmRules (tables_own _ (by simp [tables])).1 exMom (by
      intro p hp
      simp only [momEmRules, List.mem_cons, List.not_mem_nil, or_false] at hp
      rcases hp with rfl | rfl | rfl | rfl | rfl | rfl | rfl | rfl
      · exact ⟨.num 2, rfl, by simp, by simp⟩
      · exact ⟨.ref 0, rfl, by simp, by simp⟩
      · exact ⟨.ref 1, rfl, by simp, by simp⟩
      · exact ⟨.ref 2, rfl, by simp, by simp⟩
      · exact ⟨.ref 3, rfl, by simp, by simp⟩
      · exact ⟨.num 0, rfl, by simp, by simp⟩
      · exact ⟨.num 0, rfl, by simp, by simp⟩
      · exact ⟨.num 0, rfl, by simp, by simp⟩) exHeap
    obtain ⟨h1, h2⟩ := copy_shares momEmRules "topicPrior" (by simp [Shares, momEmRules]) (tables_own _ (by simp [tables])).2 exMom 0 rfl exHeap h' c hc
    refine ⟨h', c, hc, h2 _ ?_, (mem_refs c 0).mpr ⟨_, h1⟩⟩
    rw [(copyState_spec exMom momEmRules exHeap h' exMom_made c hc).2.1 0 (by simp [exHeap])]
    simp [exHeap]
  · intro rules hr
    simp only [List.mem_cons, List.not_mem_nil, or_false] at hr
    rcases hr with rfl | rfl
    · simp [Shares, momEmRules]
    · simp [Shares, momGibbsRules]
  · simp [Shares, mtmRules]
  · intro rules hr hv
    have key : ∀ rules ∈ tables, ∀ p ∈ rules, p.1 = "vocabPrior" → p.2 = .share := by decide +kernel
    obtain ⟨r, hr'⟩ := hv
    have := key rules hr _ hr' rfl
    simp only at this
    subst this
    exact hr'

/-- The copied variances of the second-order collapsed model are its counts -/
theorem cvb_copy_wrong (s : State) (h h' : Heap) (hm : Made h s) (c : State) (hc : copyState s cvbRules h = .ok (h', c)) (l l' : Nat)
    (hv : s.lookup "v_k" = some (.ref l)) (hn : s.lookup "n_k" = some (.ref l')) : ∃ w, ("v_k", w) ∈ c ∧ see h' w = .arr (h.arr l') := by
  -- the last three rules
  have step : ∀ (rules : List (String × Rule)) (h h' : Heap) (c : State), Made h s → copyState s rules h = .ok (h', c) → ("v_k", Rule.copyOr "n_k") ∈ rules →
      ∃ w, ("v_k", w) ∈ c ∧ see h' w = .arr (h.arr l') := by
    intro rules
    induction rules with
    | nil => intro h h' c _ _ hmem; simp at hmem
    | cons p rs ih =>
      intro h h' c hm hc hmem
      obtain ⟨m, r⟩ := p
      simp only [copyState, bind, Except.bind, pure, Except.pure] at hc
      cases hf : copyField s h m r with
      | error e => rw [hf] at hc; simp at hc
      | ok q =>
        obtain ⟨h1, w⟩ := q
        rw [hf] at hc
        simp only at hc
        cases hs : copyState s rs h1 with
        | error e => rw [hs] at hc; simp at hc
        | ok q =>
          obtain ⟨h2, vs⟩ := q
          rw [hs] at hc
          simp only [Except.ok.injEq, Prod.mk.injEq] at hc
          obtain ⟨rfl, rfl⟩ := hc
          obtain ⟨f1, f2, _, _⟩ := copyField_spec s h h1 m r w hf
          have hm1 : Made h1 s := fun l hl => lt_of_lt_of_le (hm l hl) f1
          have hl' : l' < h.next := hm l' ((mem_refs s l').mpr ⟨_, mem_of_lookup s _ _ hn⟩)
          rcases List.mem_cons.mp hmem with hx | hx
          · cases hx
            simp only [copyField, getField, hv, hn, bind, Except.bind] at hf
            obtain ⟨rfl, e1, e2, e3, _⟩ := copyVal_spec h h1 _ w hf
            refine ⟨Val.ref h.next, by simp, ?_⟩
            obtain ⟨_, g2, _, _, _⟩ := copyState_spec s rs h1 h2 hm1 vs hs
            show Seen.arr _ = Seen.arr _
            rw [g2 h.next (by omega), e3 l' rfl]
          · obtain ⟨w', hw', he⟩ := ih h1 h2 vs hm1 hs hx
            exact ⟨w', List.mem_cons_of_mem _ hw', by rw [he, f2 l' hl']⟩
  exact step cvbRules h h' c hm hc (by simp [cvbRules])

example : ∃ h' c, copyState exMom momEmRules exHeap = .ok (h', c) ∧ seeAll h' c = seeAll exHeap exMom := by
  obtain ⟨⟨h', c, hc, _, _⟩, _⟩ := modules_share
  exact ⟨h', c, hc, modules_copy_equal momEmRules (by simp [tables]) exMom (by simp [Shaped, exMom, momEmRules]) exHeap h' exMom_made c hc⟩

/-- A variational model whose prior of words is a number -/
def exVb : State := [("K", .num 2), ("topicPrior", .ref 0), ("vocabPrior", .num (1 / 10)), ("wordDists", .ref 2), ("dtype", .num 0), ("name", .num 0)]

example : ∃ h' c, copyState exVb vbRules exHeap = .ok (h', c) ∧ ∀ ws : List (Nat × List ℚ), (∀ w ∈ ws, w.1 ∈ refs c ∨ h'.next ≤ w.1) →
    seeAll (write h' ws) exVb = seeAll exHeap exVb := by
  obtain ⟨h', c, hc⟩ := copy_succeeds vbRules (tables_own _ (by simp [tables])).1 exVb (by
    intro p hp
    simp only [vbRules, List.mem_cons, List.not_mem_nil, or_false] at hp
    rcases hp with rfl | rfl | rfl | rfl | rfl | rfl
    · exact ⟨.num 2, rfl, by simp, by simp⟩
    · exact ⟨.ref 0, rfl, by simp, by simp⟩
    · exact ⟨.num (1 / 10), rfl, by simp, by simp⟩
    · exact ⟨.ref 2, rfl, by simp, by simp⟩
    · exact ⟨.num 0, rfl, by simp, by simp⟩
    · exact ⟨.num 0, rfl, by simp, by simp⟩) exHeap
  refine ⟨h', c, hc, (modules_independent_partial vbRules (by simp [deepTables]) exVb ?_ exHeap h' ?_ c hc).1⟩
  · intro n hn l hl
    have key : ∀ n ∈ "vocabPrior" :: plain, ∀ v, exVb.lookup n = some v → ∃ q, v = .num q := by
      have : ∀ n ∈ "vocabPrior" :: plain, (match exVb.lookup n with | some (.ref _) => false | some .none => false | _ => true) = true := by decide +kernel
      intro n hn v hv
      have := this n hn
      rw [hv] at this
      cases v with
      | none => simp at this
      | num q => exact ⟨q, rfl⟩
      | ref l => simp at this
    obtain ⟨q, hq⟩ := key n hn _ hl
    cases hq
  · intro l hl
    simp [refs, exVb] at hl
    rcases hl with rfl | rfl <;> simp [exHeap]

example : ∃ h' c, copyState exVb vbRules exHeap = .ok (h', c) ∧ c.map (·.1) = ["K", "topicPrior", "vocabPrior", "wordDists", "dtype", "name"]
    ∧ (vbRules ≠ cvbRules → seeAll h' c = seeAll exHeap exVb) := by
  apply declared_copied _ vbRules (show (["K", "topicPrior", "vocabPrior", "wordDists", "dtype", "name"], vbRules) ∈ declared by decide +kernel) exVb rfl exHeap
  · intro l hl
    simp [refs, exVb] at hl
    rcases hl with rfl | rfl <;> simp [exHeap]
  · intro n v hv hn
    simp only [exVb, List.mem_cons, Prod.mk.injEq, List.not_mem_nil, or_false] at hv
    rcases hv with ⟨rfl, rfl⟩ | ⟨rfl, rfl⟩ | ⟨rfl, rfl⟩ | ⟨rfl, rfl⟩ | ⟨rfl, rfl⟩ | ⟨rfl, rfl⟩
    all_goals first | exact ⟨_, rfl⟩ | exact absurd (by decide +kernel) hn

/-- A wrapper is made exactly when its kind is given -/
theorem wrapper_made (args : State) : (∃ w, construct args = .ok w) ↔ "kind" ∈ args.map (·.1) := by
  unfold construct
  cases hl : args.lookup "kind" with
  | none =>
    simp only [reduceCtorEq, exists_false, false_iff]
    intro hm
    obtain ⟨⟨n, v⟩, hmem, hn⟩ := List.mem_map.mp hm
    simp only at hn
    subst hn
    have : ∀ (l : State), ("kind", v) ∈ l → l.lookup "kind" ≠ none := by
      intro l
      induction l with
      | nil => simp
      | cons p l ih =>
        intro hp
        obtain ⟨m, w⟩ := p
        rw [List.lookup_cons]
        by_cases hk : "kind" = m
        · subst hk; simp
        · rw [beq_false_of_ne hk]
          rcases List.mem_cons.mp hp with hx | hx
          · cases hx; exact absurd rfl hk
          · exact ih hx
    exact this args hmem hl
  | some v =>
    simp only [Except.ok.injEq, exists_eq', true_iff]
    exact List.mem_map.mpr ⟨_, mem_of_lookup args _ v hl, rfl⟩

/-- A wrapper cannot be copied -/
theorem wrapper_copy_raises (s : State) : wrapperCopy s = .error .typeError := rfl

/-! ## Datasets -/

/-- What is seen of a dataset -/
def seeData (h : Heap) (d : Data) : List Seen := [.arr (h.arr d.words), see h d.feats, see h d.links, see h d.wordDict, see h d.categories, see h d.order]

/-- All arrays of a dataset have been made -/
def DataMade (h : Heap) (d : Data) : Prop := d.words < h.next ∧ ∀ v ∈ [d.feats, d.links, d.wordDict, d.categories, d.order], ∀ l, v = .ref l → l < h.next

/-- A deep copy is never made; a copy holds the very arrays of the original -/
theorem data_copy (d : Data) : dataCopy d true = .error .typeError ∧ dataCopy d false = .ok d := ⟨rfl, rfl⟩

theorem see_same (h h' : Heap) (v : Val) (hv : ∀ l, v = .ref l → h'.arr l = h.arr l) : see h' v = see h v := by
  cases v with
  | none => rfl
  | num q => rfl
  | ref l => exact congrArg Seen.arr (hv l rfl)

theorem seeData_old (h h' : Heap) (d : Data) (hd : DataMade h d) (hold : ∀ i, i < h.next → h'.arr i = h.arr i) : seeData h' d = seeData h d := by
  obtain ⟨h1, h2⟩ := hd
  unfold seeData
  rw [hold _ h1, see_same h h' d.feats (fun l hl => hold l (h2 _ (by simp) l hl)), see_same h h' d.links (fun l hl => hold l (h2 _ (by simp) l hl)),
    see_same h h' d.wordDict (fun l hl => hold l (h2 _ (by simp) l hl)), see_same h h' d.categories (fun l hl => hold l (h2 _ (by simp) l hl)),
    see_same h h' d.order (fun l hl => hold l (h2 _ (by simp) l hl))]

theorem castVal_spec (h : Heap) (f : ℚ → ℚ) (v : Val) : h.next ≤ (castVal h f v).1.next ∧ ∀ i, i < h.next → (castVal h f v).1.arr i = h.arr i := by
  cases v with
  | none => exact ⟨le_refl _, fun _ _ => rfl⟩
  | num q => exact ⟨le_refl _, fun _ _ => rfl⟩
  | ref l => exact ⟨Nat.le_succ _, fun i hi => if_neg (by omega)⟩

/-- Changing the element types or the direction of the links of a copy leaves the original alone -/
theorem data_changes_partial (h : Heap) (d c : Data) (hd : DataMade h d) (hc : dataCopy d false = .ok c) :
    (∀ fw ff fl, seeData (convertToDtypes h c fw ff fl).1 d = seeData h d)
    ∧ ∀ add h' c', convertToUndirected h c add = .ok (h', c') → seeData h' d = seeData h d := by
  simp only [dataCopy, Bool.false_eq_true, if_false, Except.ok.injEq] at hc
  subst hc
  constructor
  · intro fw ff fl
    apply seeData_old h _ d hd
    intro i hi
    unfold convertToDtypes
    simp only
    set h1 : Heap := ⟨h.next + 1, fun i => if i = h.next then (h.arr d.words).map fw else h.arr i⟩ with hh1
    have e1 : h1.next = h.next + 1 := rfl
    obtain ⟨a1, a2⟩ := castVal_spec h1 ff d.feats
    obtain ⟨b1, b2⟩ := castVal_spec (castVal h1 ff d.feats).1 fl d.links
    rw [b2 i (by omega), a2 i (by omega)]
    exact if_neg (by omega)
  · intro add h' c' he
    unfold convertToUndirected at he
    split at he
    · simp only [Except.ok.injEq, Prod.mk.injEq] at he
      obtain ⟨rfl, rfl⟩ := he
      exact seeData_old h _ d hd (fun i hi => if_neg (by omega))
    · simp at he

/-- A dataset of two documents with a link that counts three -/
def exData : Data := ⟨0, .none, .ref 1, .none, .none, .ref 2⟩

/-- Its memory -/
def exDataHeap : Heap := ⟨3, fun i => if i = 0 then [1, 2] else if i = 1 then [3] else [0, 1]⟩

/-- Making the links of a copy binary makes those of the original binary, for every dataset with links -/
theorem data_binary_violation (h : Heap) (d c : Data) (l : Nat) (hl : d.links = .ref l) (hc : dataCopy d false = .ok c) :
    ∃ h', convertToBinary h c = .ok h' ∧ see h' d.links = .arr ((h.arr l).map fun _ => 1) := by
  simp only [dataCopy, Bool.false_eq_true, if_false, Except.ok.injEq] at hc
  subst hc
  refine ⟨_, by unfold convertToBinary; rw [hl], ?_⟩
  rw [hl]
  simp [see]

example : ∃ h', convertToBinary exDataHeap exData = .ok h' ∧ seeData h' exData ≠ seeData exDataHeap exData := by
  obtain ⟨h', h1, h2⟩ := data_binary_violation exDataHeap exData exData 1 rfl rfl
  refine ⟨h', h1, ?_⟩
  intro he
  have := congrArg (fun z => z[2]?) he
  simp only [seeData, List.getElem?_cons_succ, List.getElem?_cons_zero, Option.some.injEq] at this
  rw [h2] at this
  simp [see, exData, exDataHeap] at this

example : DataMade exDataHeap exData := by
  refine ⟨by simp [exData, exDataHeap], ?_⟩
  intro v hv l hl
  simp [exData] at hv
  rcases hv with rfl | rfl | rfl | rfl <;> first | (cases hl; done) | (cases hl; simp [exDataHeap])

/-- A copy with changes has the changed components and the others of the original -/
theorem data_with_changes (d : Data) (words : Option Nat) (feats links wordDict categories : Val) :
    let c := copyWithChanges d words feats links wordDict categories
    (∀ w, words = some w → c.words = w) ∧ (words = none → c.words = d.words) ∧ (feats ≠ .none → c.feats = feats) ∧ (feats = .none → c.feats = d.feats)
    ∧ (links ≠ .none → c.links = links) ∧ (links = .none → c.links = d.links) ∧ (wordDict ≠ .none → c.wordDict = wordDict)
    ∧ (wordDict = .none → c.wordDict = d.wordDict) ∧ (categories ≠ .none → c.categories = categories) ∧ (categories = .none → c.categories = d.categories)
    ∧ c.order = d.order := by
  refine ⟨?_, ?_, ?_, ?_, ?_, ?_, ?_, ?_, ?_, ?_, rfl⟩
  · rintro w rfl; rfl
  · rintro rfl; rfl
  all_goals intro hx; simp [copyWithChanges, hx]

end Verif.Props.Copies
