import Mathlib.Algebra.BigOperators.Group.Finset.Basic
import Mathlib.Algebra.BigOperators.Group.Finset.Piecewise
import Mathlib.Algebra.Order.BigOperators.Group.Finset
import Mathlib.Tactic.Ring
import Mathlib.Tactic.Linarith
import Verif.Model.RunTools
import Verif.Props.CombineMap

/-!
# Selecting users (C34, C35, C36)
-/

namespace Verif.Props.SelectUsers

open Verif Verif.RunTools

/-! ## Contributions of groups (C34) -/

/-- What holds throughout: nothing is lost, only exhausted groups have left the list of
candidates. -/
structure Inv (n : Nat) (T : Nat → Nat) (s : Balance) : Prop where
  split : ∀ g, s.contribs g + s.counts g = T g
  nodup : s.candidates.Nodup
  lt : ∀ g ∈ s.candidates, g < n
  done : ∀ g, g < n → g ∉ s.candidates → s.counts g = 0
  assigned : s.assigned = ∑ g ∈ Finset.range n, s.contribs g

theorem pass_inv (n : Nat) (T : Nat → Nat) (gt : Nat) (fuel : Nat) : ∀ i (s : Balance), Inv n T s →
    Inv n T (balancePass gt fuel i s) ∧ s.assigned ≤ (balancePass gt fuel i s).assigned ∧
    (balancePass gt fuel i s).candidates.length ≤ s.candidates.length ∧
    (balancePass gt fuel i s).assigned ≤ s.assigned + fuel * gt ∧
    (0 < gt → 0 < fuel → i < s.candidates.length →
      (balancePass gt fuel i s).candidates.length + s.assigned <
        s.candidates.length + (balancePass gt fuel i s).assigned) := by
  induction fuel with
  | zero =>
    intro i s h
    refine ⟨h, le_rfl, le_rfl, by simp [balancePass], fun _ h0 => absurd h0 (lt_irrefl 0)⟩
  | succ fuel ih =>
    intro i s h
    unfold balancePass
    rcases hg : s.candidates[i]? with _ | g
    · refine ⟨h, le_rfl, le_rfl, Nat.le_add_right _ _, ?_⟩
      intro _ _ hi
      rw [List.getElem?_eq_getElem hi] at hg
      cases hg
    · simp only
      generalize hgive : (if s.counts g < gt then s.counts g else gt) = give
      have hgm : g ∈ s.candidates := List.mem_of_getElem? hg
      have hgn : g < n := h.lt g hgm
      have hgive_le : give ≤ s.counts g := by rw [← hgive]; split <;> omega
      have hgive_gt : give ≤ gt := by rw [← hgive]; split <;> omega
      have hgive_pos : 0 < gt → 0 < s.counts g → 0 < give := by
        intro h1 h2; rw [← hgive]; split <;> omega
      generalize hs' : (⟨fun h => if h = g then s.counts g - give else s.counts h,
        fun h => if h = g then s.contribs h + give else s.contribs h,
        if s.counts g - give = 0 then s.candidates.erase g else s.candidates,
        s.assigned + give⟩ : Balance) = s'
      have hinv : Inv n T s' := by
        subst hs'
        refine ⟨?_, ?_, ?_, ?_, ?_⟩
        · intro x
          by_cases hx : x = g
          · subst hx
            simp only [if_true]
            have := h.split x
            omega
          · simp only [hx, if_false]; exact h.split x
        · simp only
          split
          · exact h.nodup.erase g
          · exact h.nodup
        · intro x hx
          simp only at hx
          split at hx
          · exact h.lt x (List.mem_of_mem_erase hx)
          · exact h.lt x hx
        · intro x hxn hx
          simp only at hx ⊢
          by_cases hxg : x = g
          · subst hxg
            simp only [if_true]
            by_contra h0
            rw [if_neg h0] at hx
            exact hx hgm
          · simp only [hxg, if_false]
            apply h.done x hxn
            intro hm
            apply hx
            split
            · exact (List.mem_erase_of_ne hxg).mpr hm
            · exact hm
        · simp only
          rw [h.assigned]
          have : ∀ x ∈ Finset.range n, (if x = g then s.contribs x + give else s.contribs x) =
              s.contribs x + (if x = g then give else 0) := by
            intro x _; split <;> simp
          rw [Finset.sum_congr rfl this, Finset.sum_add_distrib, Finset.sum_ite_eq',
            if_pos (Finset.mem_range.mpr hgn)]
      have hass : s'.assigned = s.assigned + give := by subst hs'; rfl
      have hcand : s'.candidates.length ≤ s.candidates.length := by
        subst hs'
        simp only
        split
        · exact List.length_erase_le
        · exact le_rfl
      have hstrict : 0 < gt → s'.candidates.length + s.assigned < s.candidates.length + s'.assigned := by
        intro hgt
        rcases Nat.eq_zero_or_pos (s.counts g) with h0 | h0
        · have hl : s'.candidates.length = s.candidates.length - 1 := by
            subst hs'
            simp only
            rw [if_pos (by omega)]
            exact List.length_erase_of_mem hgm
          have := List.length_pos_of_mem hgm
          omega
        · have := hgive_pos hgt h0
          omega
      obtain ⟨e1, e2, e3, e4, _⟩ := ih (i + 1) s' hinv
      refine ⟨e1, by omega, by omega, ?_, ?_⟩
      · rw [Nat.add_mul]; omega
      · intro hgt _ _
        have := hstrict hgt
        omega

theorem loop_inv (n : Nat) (T : Nat → Nat) (target : Nat) (fuel : Nat) : ∀ s : Balance, Inv n T s →
    s.candidates.length ≤ n → s.assigned ≤ target + n →
    (target - s.assigned) + s.candidates.length < fuel →
    (∃ t, balanceLoop target fuel s = some (.ok t) ∧ Inv n T t ∧ target ≤ t.assigned ∧
      t.assigned ≤ target + n) ∨
    (balanceLoop target fuel s = some (.error .zeroDivisionError) ∧
      ∑ g ∈ Finset.range n, T g < target) := by
  induction fuel with
  | zero => intro s _ _ _ h; omega
  | succ fuel ih =>
    intro s h hcn hub hm
    unfold balanceLoop
    by_cases ha : s.assigned < target
    · rw [if_pos ha]
      by_cases hc : s.candidates.length = 0
      · rw [if_pos hc]
        right
        refine ⟨rfl, ?_⟩
        have hnil : s.candidates = [] := List.length_eq_zero_iff.mp hc
        have : ∀ g ∈ Finset.range n, T g = s.contribs g := by
          intro g hg
          have h1 := h.split g
          have h2 := h.done g (Finset.mem_range.mp hg) (by rw [hnil]; simp)
          omega
        rw [Finset.sum_congr rfl this, ← h.assigned]
        exact ha
      · rw [if_neg hc]
        simp only
        generalize hgt : 1 + (target - s.assigned) / s.candidates.length = gt
        obtain ⟨e1, e2, e3, e4, e5⟩ := pass_inv n T gt s.candidates.length 0 s h
        have h5 := e5 (by rw [← hgt]; exact Nat.add_pos_left Nat.one_pos _) (by omega) (by omega)
        have hmul : s.candidates.length * gt ≤ s.candidates.length + (target - s.assigned) := by
          rw [← hgt, Nat.mul_add, Nat.mul_one]
          have := Nat.mul_div_le (target - s.assigned) s.candidates.length
          omega
        apply ih _ e1 (by omega)
        · omega
        · omega
    · rw [if_neg ha]
      left
      exact ⟨s, rfl, h, by omega, hub⟩

theorem minCount_le (totals : List Nat) : (∀ t ∈ totals, minCount totals ≤ t) ∧ minCount totals ≤ 3000000000 := by
  unfold minCount
  suffices H : ∀ m, (∀ t ∈ totals, totals.foldl (fun m t => if t < m then t else m) m ≤ t) ∧
      totals.foldl (fun m t => if t < m then t else m) m ≤ m from H _
  induction totals with
  | nil => intro m; exact ⟨fun t ht => absurd ht (by simp), le_rfl⟩
  | cons a l ih =>
    intro m
    rw [List.foldl_cons]
    obtain ⟨h1, h2⟩ := ih (if a < m then a else m)
    refine ⟨?_, ?_⟩
    · intro t ht
      rcases List.mem_cons.mp ht with rfl | ht
      · refine h2.trans ?_
        split <;> omega
      · exact h1 t ht
    · refine h2.trans ?_
      split <;> omega

theorem sum_getD (totals : List Nat) :
    ∑ g ∈ Finset.range totals.length, totals.getD g 0 = totals.sum := by
  induction totals with
  | nil => rfl
  | cons a l ih =>
    rw [List.length_cons, Finset.sum_range_succ', List.sum_cons]
    simp only [List.getD_cons_succ, List.getD_cons_zero]
    rw [ih]; omega

theorem sum_ge (l : List Nat) (c : Nat) (h : ∀ t ∈ l, c ≤ t) : l.length * c ≤ l.sum := by
  induction l with
  | nil => simp
  | cons a l ih =>
    rw [List.length_cons, List.sum_cons, Nat.add_mul]
    have h1 := ih (fun t ht => h t (List.mem_cons_of_mem _ ht))
    have h2 := h a (by simp)
    omega

/-- the balancing path is taken -/
def Balances (totals : List Nat) (target : Nat) : Prop :=
  ¬ (target / totals.length < 3000000000 ∧ ∀ t ∈ totals, target / totals.length < t)

theorem early_iff (totals : List Nat) (target : Nat) :
    target / totals.length < minCount totals ↔ ¬ Balances totals target := by
  unfold Balances
  rw [not_not]
  constructor
  · intro h
    obtain ⟨h1, h2⟩ := minCount_le totals
    exact ⟨by omega, fun t ht => by have := h1 t ht; omega⟩
  · rintro ⟨h1, h2⟩
    generalize target / totals.length = c at h1 h2
    unfold minCount
    suffices H : ∀ m, c < m → c < totals.foldl (fun m t => if t < m then t else m) m from H _ h1
    clear h1
    induction totals with
    | nil => intro m hm; exact hm
    | cons a l ih =>
      intro m hm
      rw [List.foldl_cons]
      apply ih (fun t ht => h2 t (List.mem_cons_of_mem _ ht))
      have := h2 a (by simp)
      split <;> omega

/-- C34: the call fails with a division by zero when there are no groups or less than the target is
available; otherwise it returns. -/
theorem contribs_returns_iff (totals : List Nat) (target : Nat) :
    ((∃ f, selectContribs totals target = some (.ok f)) ↔ totals ≠ [] ∧ target ≤ totals.sum) ∧
    (¬ (totals ≠ [] ∧ target ≤ totals.sum) →
      selectContribs totals target = some (.error .zeroDivisionError)) := by
  unfold selectContribs
  by_cases h0 : totals.length = 0
  · rw [if_pos h0]
    have : totals = [] := List.length_eq_zero_iff.mp h0
    refine ⟨⟨?_, fun h => absurd this h.1⟩, fun _ => rfl⟩
    rintro ⟨f, hf⟩; cases hf
  rw [if_neg h0]
  have hne : totals ≠ [] := fun h => h0 (by rw [h]; rfl)
  by_cases he : target / totals.length < minCount totals
  · rw [if_pos he]
    have hsum : target ≤ totals.sum := by
      have h1 := sum_ge totals (target / totals.length + 1) (fun t ht => by
        have := (minCount_le totals).1 t ht; omega)
      have h2 := Nat.div_add_mod target totals.length
      have h3 := Nat.mod_lt target (Nat.pos_of_ne_zero h0)
      rw [Nat.mul_add, Nat.mul_one] at h1
      omega
    exact ⟨⟨fun _ => ⟨hne, hsum⟩, fun _ => ⟨_, rfl⟩⟩, fun h => absurd ⟨hne, hsum⟩ h⟩
  · rw [if_neg he]
    have hinit : Inv totals.length (fun g => totals.getD g 0)
        ⟨fun g => totals.getD g 0, fun _ => 0, List.range totals.length, 0⟩ :=
      ⟨fun g => by simp, List.nodup_range, fun g hg => List.mem_range.mp hg,
        fun g hg hn => absurd (List.mem_range.mpr hg) hn, by simp⟩
    rcases loop_inv totals.length _ target (target + totals.length + 1) _ hinit (by simp) (by simp)
      (by simp) with ⟨t, e1, e2, e3, _⟩ | ⟨e1, e2⟩
    · rw [e1]
      have hs : target ≤ totals.sum := by
        rw [← sum_getD totals]
        refine e3.trans ?_
        rw [e2.assigned]
        apply Finset.sum_le_sum
        intro g _
        have := e2.split g
        omega
      exact ⟨⟨fun _ => ⟨hne, hs⟩, fun _ => ⟨_, rfl⟩⟩, fun h => absurd ⟨hne, hs⟩ h⟩
    · rw [e1]
      rw [sum_getD] at e2
      refine ⟨⟨?_, fun h => absurd h.2 (by omega)⟩, fun _ => rfl⟩
      rintro ⟨f, hf⟩; cases hf

/-- C34: no group contributes more than it has; the contributions miss the target by fewer than one per group and
exceed it by at most one per group; on the balancing path they reach it. -/
theorem contribs_bounds (totals : List Nat) (target : Nat) (f : Nat → Nat)
    (h : selectContribs totals target = some (.ok f)) :
    (∀ g (hg : g < totals.length), f g ≤ totals[g]) ∧
    target < ∑ g ∈ Finset.range totals.length, f g + totals.length ∧
    ∑ g ∈ Finset.range totals.length, f g ≤ target + totals.length ∧
    (Balances totals target → target ≤ ∑ g ∈ Finset.range totals.length, f g) := by
  unfold selectContribs at h
  by_cases h0 : totals.length = 0
  · rw [if_pos h0] at h; cases h
  rw [if_neg h0] at h
  by_cases he : target / totals.length < minCount totals
  · rw [if_pos he] at h
    cases h
    have h2 := Nat.div_add_mod target totals.length
    have h3 := Nat.mod_lt target (Nat.pos_of_ne_zero h0)
    refine ⟨?_, ?_, ?_, fun hb => absurd hb ((early_iff totals target).mp he)⟩
    · intro g hg
      have := (minCount_le totals).1 totals[g] (List.getElem_mem hg)
      simp only
      omega
    · rw [Finset.sum_const, Finset.card_range, smul_eq_mul]; omega
    · rw [Finset.sum_const, Finset.card_range, smul_eq_mul]; omega
  · rw [if_neg he] at h
    have hinit : Inv totals.length (fun g => totals.getD g 0)
        ⟨fun g => totals.getD g 0, fun _ => 0, List.range totals.length, 0⟩ :=
      ⟨fun g => by simp, List.nodup_range, fun g hg => List.mem_range.mp hg,
        fun g hg hn => absurd (List.mem_range.mpr hg) hn, by simp⟩
    rcases loop_inv totals.length _ target (target + totals.length + 1) _ hinit (by simp) (by simp)
      (by simp) with ⟨t, e1, e2, e3, e4⟩ | ⟨e1, _⟩
    · rw [e1] at h
      cases h
      rw [← e2.assigned]
      refine ⟨?_, by omega, e4, fun _ => e3⟩
      intro g hg
      have := e2.split g
      rw [List.getD_eq_getElem?_getD, List.getElem?_eq_getElem hg, Option.getD_some] at this
      simp only
      omega
    · rw [e1] at h; cases h

/-- Three groups, the smallest of which cannot deliver its share: the balancing path; one group is
skipped by the iterator after a removal and served in the next pass. -/
example : (selectContribs [1, 20, 5] 15).map (fun r => r.map (fun f => (f 0, f 1, f 2))) =
    some (.ok (1, 10, 5)) := by decide

example : Balances [1, 20, 5] 15 := by unfold Balances; decide

/-! ## Users of a group (C35) -/

theorem takeUsers_spec (contrib : Int) (l : List (List Char × Int)) : ∀ acc,
    ∃ k, k ≤ l.length ∧ takeUsers contrib acc l = l.take k ∧
      (contrib ≤ acc + ((l.take k).map Prod.snd).sum ∨ k = l.length) ∧
      (∀ j, j < k → acc + ((l.take j).map Prod.snd).sum < contrib) := by
  induction l with
  | nil => intro acc; exact ⟨0, le_rfl, rfl, .inr rfl, fun j hj => absurd hj (Nat.not_lt_zero j)⟩
  | cons u l ih =>
    intro acc
    unfold takeUsers
    by_cases hc : acc < contrib
    · rw [if_pos hc]
      obtain ⟨k, h1, h2, h3, h4⟩ := ih (acc + u.2)
      refine ⟨k + 1, by simpa using h1, by rw [h2, List.take_succ_cons], ?_, ?_⟩
      · rw [List.take_succ_cons, List.map_cons, List.sum_cons]
        rcases h3 with h | h
        · left; omega
        · right; rw [h]; rfl
      · intro j hj
        rcases j with _ | j
        · simpa using hc
        · rw [List.take_succ_cons, List.map_cons, List.sum_cons]
          have := h4 j (by omega)
          omega
    · rw [if_neg hc]
      exact ⟨0, Nat.zero_le _, rfl, .inl (by simp; omega), fun j hj => absurd hj (Nat.not_lt_zero j)⟩

theorem mapM_ok_mem {β γ : Type} (l : List β) (f : β → Py γ) (res : List γ) (h : l.mapM f = .ok res) :
    List.Forall₂ (fun x y => f x = .ok y) l res := by
  induction l generalizing res with
  | nil => cases h; exact .nil
  | cons x xs ih =>
    rw [List.mapM_cons] at h
    rcases hx : f x with e | y
    · rw [hx] at h; cases h
    · rw [hx] at h
      rcases hxs : xs.mapM f with e | ys
      · simp only [hxs] at h; cases h
      · simp only [hxs] at h
        cases h
        exact .cons hx (ih ys hxs)

/-- C35: for every group, in order, the chosen users are the last `k` users of the group; their tweets
reach the contribution unless the whole group is chosen, and fewer users would fall short. -/
theorem users_cover_minimally (counts : UserCounts) (contribs : List (List Char × Int))
    (res : List (List Char × List (List Char × Int)))
    (h : selectUsers counts contribs = .ok res) :
    List.Forall₂ (fun (gc : List Char × Int) (r : List Char × List (List Char × Int)) =>
      r.1 = gc.1 ∧ ∃ us, (gc.1, us) ∈ counts ∧ ∃ k, k ≤ us.length ∧ r.2 = us.reverse.take k ∧
        (gc.2 ≤ (r.2.map Prod.snd).sum ∨ k = us.length) ∧
        ∀ j, j < k → ((us.reverse.take j).map Prod.snd).sum < gc.2) contribs res := by
  have := mapM_ok_mem _ _ _ h
  refine List.Forall₂.imp ?_ this
  intro gc r hr
  rcases hf : counts.find? (fun p => p.1 = gc.1) with _ | p
  · rw [hf] at hr; cases hr
  · rw [hf] at hr
    cases hr
    obtain ⟨k, h1, h2, h3, h4⟩ := takeUsers_spec gc.2 p.2.reverse 0
    refine ⟨rfl, p.2, ?_, k, by simpa using h1, h2, ?_, ?_⟩
    · have hm := List.mem_of_find?_eq_some hf
      have he := List.find?_some hf
      have : p.1 = gc.1 := by simpa using he
      rw [← this]; exact hm
    · rw [h2]; simpa using h3
    · intro j hj; simpa using h4 j hj

/-- C35: the call fails exactly when a group is unknown. -/
theorem users_fail_iff (counts : UserCounts) (contribs : List (List Char × Int)) :
    (∃ res, selectUsers counts contribs = .ok res) ↔ ∀ gc ∈ contribs, ∃ us, (gc.1, us) ∈ counts := by
  constructor
  · rintro ⟨res, h⟩ gc hgc
    have := users_cover_minimally counts contribs res h
    clear h
    induction this with
    | nil => cases hgc
    | cons hr _ ih =>
      rcases List.mem_cons.mp hgc with rfl | hgc'
      · obtain ⟨_, us, hm, _⟩ := hr; exact ⟨us, hm⟩
      · exact ih hgc'
  · intro hall
    unfold selectUsers
    refine ⟨_, CombineMap.mapM_ok _ _ (fun gc => match counts.find? (fun p => p.1 = gc.1) with
      | none => (gc.1, [])
      | some p => (gc.1, takeUsers gc.2 0 p.2.reverse)) ?_⟩
    intro gc hgc
    rcases hf : counts.find? (fun p => p.1 = gc.1) with _ | p
    · obtain ⟨us, hm⟩ := hall gc hgc
      have := List.find?_eq_none.mp hf _ hm
      simp at this
    · rw [hf]

example : selectUsers [("g".toList, [("a".toList, 5), ("b".toList, 3), ("c".toList, 4)])] [("g".toList, 6)] =
    .ok [("g".toList, [("c".toList, 4), ("b".toList, 3)])] := by decide

/-! ## Reading counts (C36) -/

/-- total of a user's lines in a group -/
def userTotal (lines : List Line) (g u : List Char) : Int :=
  ((lines.filter (fun l => l.2.1 = g ∧ userName l.2.2 = u)).map (fun l => l.1)).sum

/-- the user has a line in the group -/
def HasLine (lines : List Line) (g u : List Char) : Prop := ∃ l ∈ lines, l.2.1 = g ∧ userName l.2.2 = u

theorem userTotal_append (lines : List Line) (l : Line) (g u : List Char) :
    userTotal (lines ++ [l]) g u =
      userTotal lines g u + if l.2.1 = g ∧ userName l.2.2 = u then l.1 else 0 := by
  unfold userTotal
  rw [List.filter_append, List.map_append, List.sum_append]
  congr 1
  by_cases h : l.2.1 = g ∧ userName l.2.2 = u
  · simp [h]
  · rw [if_neg h, List.filter_cons_of_neg (by simpa using h)]; rfl

theorem userTotal_none (lines : List Line) (g u : List Char) (h : ¬ HasLine lines g u) :
    userTotal lines g u = 0 := by
  unfold userTotal
  rw [List.filter_eq_nil_iff.mpr]
  · rfl
  · intro l hl hc
    exact h ⟨l, hl, by simpa using hc⟩

theorem hasLine_append (lines : List Line) (l : Line) (g u : List Char) :
    HasLine (lines ++ [l]) g u ↔ HasLine lines g u ∨ (l.2.1 = g ∧ userName l.2.2 = u) := by
  unfold HasLine
  constructor
  · rintro ⟨x, hx, h⟩
    rcases List.mem_append.mp hx with h1 | h1
    · exact .inl ⟨x, h1, h⟩
    · rw [List.mem_singleton] at h1; subst h1; exact .inr h
  · rintro (⟨x, hx, h⟩ | h)
    · exact ⟨x, List.mem_append.mpr (.inl hx), h⟩
    · exact ⟨l, by simp, h⟩

/-- what `addCount` does -/
theorem addCount_mem {κ : Type} [DecidableEq κ] (d : List (κ × Int)) (hnd : (d.map Prod.fst).Nodup) (u : κ) (c : Int) :
    ((addCount d u c).map Prod.fst).Nodup ∧
    ∀ x t, (x, t) ∈ addCount d u c ↔
      if x = u then (∃ t', (u, t') ∈ d ∧ t = t' + c) ∨ ((∀ t', (u, t') ∉ d) ∧ t = c) else (x, t) ∈ d := by
  unfold addCount
  by_cases ha : d.any (fun p => p.1 = u)
  · rw [if_pos ha]
    rw [List.any_eq_true] at ha
    obtain ⟨⟨u', t0⟩, hm, he⟩ := ha
    have he : u' = u := by simpa using he
    subst he
    constructor
    · rw [List.map_map]
      have : (Prod.fst ∘ fun p : κ × Int => if p.1 = u' then (p.1, p.2 + c) else p) = Prod.fst := by
        funext p; simp only [Function.comp]; split <;> rfl
      rw [this]; exact hnd
    · intro x t
      rw [List.mem_map]
      by_cases hx : x = u'
      · subst hx
        rw [if_pos rfl]
        constructor
        · rintro ⟨⟨y, s⟩, hp, heq⟩
          by_cases hy : y = x
          · subst hy
            rw [if_pos rfl] at heq
            cases heq
            exact .inl ⟨s, hp, rfl⟩
          · rw [if_neg hy] at heq; cases heq; exact absurd rfl hy
        · rintro (⟨t', hp, rfl⟩ | ⟨hno, _⟩)
          · exact ⟨(x, t'), hp, by simp⟩
          · exact absurd hm (hno t0)
      · rw [if_neg hx]
        constructor
        · rintro ⟨⟨y, s⟩, hp, heq⟩
          by_cases hy : y = u'
          · rw [if_pos hy] at heq; cases heq; exact absurd hy hx
          · rw [if_neg hy] at heq; cases heq; exact hp
        · intro hp; exact ⟨(x, t), hp, by simp [hx]⟩
  · rw [if_neg ha]
    have hno : ∀ t', (u, t') ∉ d := by
      intro t' hm
      apply ha
      rw [List.any_eq_true]
      exact ⟨_, hm, by simp⟩
    constructor
    · rw [List.map_append, List.nodup_append]
      refine ⟨hnd, by simp, ?_⟩
      intro a ha' b hb
      obtain ⟨⟨y, s⟩, hp, rfl⟩ := List.mem_map.mp ha'
      simp only [List.map_cons, List.map_nil, List.mem_singleton] at hb
      subst hb
      rintro rfl
      exact hno s hp
    · intro x t
      rw [List.mem_append, List.mem_singleton]
      by_cases hx : x = u
      · subst hx
        rw [if_pos rfl]
        constructor
        · rintro (h | h)
          · exact absurd h (hno t)
          · cases h; exact .inr ⟨hno, rfl⟩
        · rintro (⟨t', hp, _⟩ | ⟨_, rfl⟩)
          · exact absurd hp (hno t')
          · exact .inr rfl
      · rw [if_neg hx]
        constructor
        · rintro (h | h)
          · exact h
          · cases h; exact absurd rfl hx
        · exact .inl

/-- What the dictionary holds after some lines. -/
structure Holds (lines : List Line) (counts : UserCounts) : Prop where
  nodup : (counts.map Prod.fst).Nodup
  groups : ∀ g, g ∈ counts.map Prod.fst ↔ ∃ l ∈ lines, l.2.1 = g
  unodup : ∀ p ∈ counts, (p.2.map Prod.fst).Nodup
  users : ∀ p ∈ counts, ∀ u t, (u, t) ∈ p.2 ↔ HasLine lines p.1 u ∧ t = userTotal lines p.1 u

theorem users_step (lines : List Line) (l : Line) (g : List Char) (hg : l.2.1 = g)
    (us : List (List Char × Int)) (hnd : (us.map Prod.fst).Nodup)
    (h : ∀ u t, (u, t) ∈ us ↔ HasLine lines g u ∧ t = userTotal lines g u) (u : List Char) (t : Int) :
    (u, t) ∈ addCount us (userName l.2.2) l.1 ↔
      HasLine (lines ++ [l]) g u ∧ t = userTotal (lines ++ [l]) g u := by
  rw [(addCount_mem us hnd _ _).2, hasLine_append, userTotal_append]
  by_cases hu : u = userName l.2.2
  · rw [if_pos hu, if_pos ⟨hg, hu.symm⟩]
    subst hu
    constructor
    · rintro (⟨t', hm, rfl⟩ | ⟨hno, rfl⟩)
      · exact ⟨.inr ⟨hg, rfl⟩, by rw [((h _ _).mp hm).2]⟩
      · refine ⟨.inr ⟨hg, rfl⟩, ?_⟩
        have : ¬ HasLine lines g (userName l.2.2) := fun hl => hno _ ((h _ _).mpr ⟨hl, rfl⟩)
        rw [userTotal_none _ _ _ this, zero_add]
    · rintro ⟨_, rfl⟩
      by_cases hl : HasLine lines g (userName l.2.2)
      · exact .inl ⟨_, (h _ _).mpr ⟨hl, rfl⟩, rfl⟩
      · right
        refine ⟨fun t' hm => hl ((h _ _).mp hm).1, ?_⟩
        rw [userTotal_none _ _ _ hl, zero_add]
  · rw [if_neg hu, if_neg (fun hc => hu hc.2.symm), add_zero, h]
    constructor
    · rintro ⟨h1, h2⟩; exact ⟨.inl h1, h2⟩
    · rintro ⟨h1 | h1, h2⟩
      · exact ⟨h1, h2⟩
      · exact absurd h1.2.symm hu

theorem holds_step (lines : List Line) (counts : UserCounts) (l : Line) (h : Holds lines counts) :
    Holds (lines ++ [l]) (readLine counts l) := by
  obtain ⟨c, g, file⟩ := l
  unfold readLine
  simp only
  have hgroups : ∀ x, (∃ l ∈ lines ++ [(c, g, file)], l.2.1 = x) ↔ (∃ l ∈ lines, l.2.1 = x) ∨ g = x := by
    intro x
    constructor
    · rintro ⟨y, hy, rfl⟩
      rcases List.mem_append.mp hy with h1 | h1
      · exact .inl ⟨y, h1, rfl⟩
      · rw [List.mem_singleton] at h1; subst h1; exact .inr rfl
    · rintro (⟨y, hy, rfl⟩ | rfl)
      · exact ⟨y, List.mem_append.mpr (.inl hy), rfl⟩
      · exact ⟨_, List.mem_append.mpr (.inr (List.mem_singleton.mpr rfl)), rfl⟩
  have hother : ∀ x, x ≠ g → ∀ u t, (HasLine (lines ++ [(c, g, file)]) x u ∧
      t = userTotal (lines ++ [(c, g, file)]) x u) ↔ (HasLine lines x u ∧ t = userTotal lines x u) := by
    intro x hx u t
    rw [hasLine_append, userTotal_append, if_neg (fun hc => hx hc.1.symm), add_zero]
    constructor
    · rintro ⟨h1 | h1, h2⟩
      · exact ⟨h1, h2⟩
      · exact absurd h1.1.symm hx
    · rintro ⟨h1, h2⟩; exact ⟨.inl h1, h2⟩
  by_cases ha : counts.any (fun p => p.1 = g)
  · rw [if_pos ha]
    have hkeys : (counts.map (fun p => if p.1 = g then (p.1, addCount p.2 (userName file) c) else p)).map
        Prod.fst = counts.map Prod.fst := by
      rw [List.map_map]
      apply List.map_congr_left
      intro p _
      simp only [Function.comp]
      split <;> rfl
    have hgin : ∃ l ∈ lines, l.2.1 = g := by
      rw [← h.groups g]
      rw [List.any_eq_true] at ha
      obtain ⟨p, hp, he⟩ := ha
      exact List.mem_map.mpr ⟨p, hp, by simpa using he⟩
    refine ⟨by rw [hkeys]; exact h.nodup, ?_, ?_, ?_⟩
    · intro x
      rw [hkeys, h.groups, hgroups]
      constructor
      · exact .inl
      · rintro (h1 | rfl)
        · exact h1
        · exact hgin
    · intro p hp
      obtain ⟨q, hq, rfl⟩ := List.mem_map.mp hp
      by_cases hqg : q.1 = g
      · rw [if_pos hqg]; exact (addCount_mem q.2 (h.unodup q hq) _ _).1
      · rw [if_neg hqg]; exact h.unodup q hq
    · intro p hp u t
      obtain ⟨q, hq, rfl⟩ := List.mem_map.mp hp
      by_cases hqg : q.1 = g
      · rw [if_pos hqg]
        simp only
        exact users_step lines (c, g, file) q.1 hqg.symm q.2 (h.unodup q hq) (h.users q hq) u t
      · rw [if_neg hqg, hother q.1 hqg u t]
        exact h.users q hq u t
  · rw [if_neg ha]
    have hgno : ¬ ∃ l ∈ lines, l.2.1 = g := by
      rw [← h.groups g]
      intro hm
      obtain ⟨p, hp, he⟩ := List.mem_map.mp hm
      apply ha
      rw [List.any_eq_true]
      exact ⟨p, hp, by simpa using he⟩
    have hno : ∀ u, ¬ HasLine lines g u := by
      rintro u ⟨l, hl, h1, _⟩; exact hgno ⟨l, hl, h1⟩
    refine ⟨?_, ?_, ?_, ?_⟩
    · rw [List.map_append, List.nodup_append]
      refine ⟨h.nodup, by simp, ?_⟩
      intro a ha' b hb
      simp only [List.map_cons, List.map_nil, List.mem_singleton] at hb
      subst hb
      rintro rfl
      exact hgno ((h.groups _).mp ha')
    · intro x
      rw [List.map_append, List.mem_append, h.groups, hgroups]
      simp only [List.map_cons, List.map_nil, List.mem_singleton, eq_comm]
    · intro p hp
      rcases List.mem_append.mp hp with h1 | h1
      · exact h.unodup p h1
      · rw [List.mem_singleton] at h1
        subst h1
        exact (addCount_mem [] (by simp) _ _).1
    · intro p hp u t
      rcases List.mem_append.mp hp with h1 | h1
      · have hpg : p.1 ≠ g := by
          intro he
          exact hgno ((h.groups g).mp (List.mem_map.mpr ⟨p, h1, he⟩))
        rw [hother p.1 hpg u t]
        exact h.users p h1 u t
      · rw [List.mem_singleton] at h1
        subst h1
        simp only
        refine users_step lines (c, g, file) g rfl [] (by simp) ?_ u t
        intro u t
        constructor
        · intro hm; cases hm
        · intro hm; exact absurd hm.1 (hno u)

theorem holds_all (lines : List Line) : Holds lines (lines.foldl readLine []) := by
  induction lines using List.reverseRecOn with
  | nil => exact ⟨by simp, by simp, by simp, by simp⟩
  | append_singleton ls l ih =>
    rw [List.foldl_append]
    exact holds_step ls _ l ih

/-- C36: the groups of the result are those of the lines, each once; within a group every user occurs at
most once, and a user is present with count `t` exactly when they have a line in that group, their lines add up
to `t`, and `t` lies strictly between the bounds. -/
theorem read_counts_spec (lines : List Line) (lo hi : Int) :
    ((readCounts lines lo hi).map Prod.fst).Nodup ∧
    (∀ g, (∃ us, (g, us) ∈ readCounts lines lo hi) ↔ ∃ l ∈ lines, l.2.1 = g) ∧
    ∀ g us, (g, us) ∈ readCounts lines lo hi → (us.map Prod.fst).Nodup ∧
      ∀ u t, (u, t) ∈ us ↔
        HasLine lines g u ∧ t = userTotal lines g u ∧ lo < t ∧ t < hi := by
  have h := holds_all lines
  have hkeys : (readCounts lines lo hi).map Prod.fst = (lines.foldl readLine []).map Prod.fst := by
    unfold readCounts; rw [List.map_map]; rfl
  refine ⟨by rw [hkeys]; exact h.nodup, ?_, ?_⟩
  · intro g
    rw [← h.groups g, ← hkeys, List.mem_map]
    constructor
    · rintro ⟨us, hm⟩; exact ⟨_, hm, rfl⟩
    · rintro ⟨⟨g', us⟩, hm, rfl⟩; exact ⟨us, hm⟩
  · intro g us hm
    unfold readCounts at hm
    obtain ⟨p, hp, he⟩ := List.mem_map.mp hm
    cases he
    refine ⟨(h.unodup p hp).sublist (List.filter_sublist.map _), ?_⟩
    intro u t
    rw [List.mem_filter, h.users p hp]
    simp only [decide_eq_true_eq]
    constructor
    · rintro ⟨⟨h1, h2⟩, h3, h4⟩; exact ⟨h1, h2, h3, h4⟩
    · rintro ⟨h1, h2, h3, h4⟩; exact ⟨⟨h1, h2⟩, h3, h4⟩

/-- Two files of the same user in one group; another user is below the bound. -/
example : readCounts [(5, "g".toList, "ann.1.txt\n".toList), (2, "g".toList, "bob.txt\n".toList),
      (6, "g".toList, "ann.1.log\n".toList), (9, "h".toList, "bob\n".toList)] 4 20 =
    [("g".toList, [("ann.1".toList, 11)]), ("h".toList, [("bob".toList, 9)])] := by decide

/-- The white space of the ASCII characters -/
def White (c : Char) : Prop := c = ' ' ∨ c = '\t' ∨ c = '\n' ∨ c = '\r' ∨ c = '\x0b' ∨ c = '\x0c'

theorem isSpace_iff (c : Char) : isSpace c = true ↔ White c := by
  unfold isSpace White
  simp [or_assoc]

theorem isSpace_false (c : Char) : isSpace c = false ↔ ¬ White c := by
  rw [← isSpace_iff]
  simp

/-- `strip` removes white space from both ends, and nothing else. -/
theorem strip_spec (s : List Char) :
    (∃ l r, s = l ++ strip s ++ r ∧ (∀ c ∈ l, White c) ∧ ∀ c ∈ r, White c) ∧
    (∀ c, (strip s).head? = some c → ¬ White c) ∧ ∀ c, (strip s).getLast? = some c → ¬ White c := by
  simp only [← isSpace_iff, Bool.not_eq_true]
  have h1 : s = s.takeWhile isSpace ++ s.dropWhile isSpace := List.takeWhile_append_dropWhile.symm
  set a := s.dropWhile isSpace with ha
  have h2 : a = strip s ++ (a.reverse.takeWhile isSpace).reverse := by
    have := congrArg List.reverse (List.takeWhile_append_dropWhile (p := isSpace) (l := a.reverse)).symm
    rw [List.reverse_reverse, List.reverse_append] at this
    exact this
  have hlast : ∀ c, (strip s).getLast? = some c → isSpace c = false := by
    intro c hc
    have : strip s = (a.reverse.dropWhile isSpace).reverse := rfl
    rw [this, List.getLast?_reverse] at hc
    have h := List.head?_dropWhile_not isSpace a.reverse
    rw [hc] at h
    exact h
  refine ⟨⟨s.takeWhile isSpace, (a.reverse.takeWhile isSpace).reverse, ?_, ?_, ?_⟩, ?_, hlast⟩
  · rw [List.append_assoc, ← h2, ← h1]
  · exact fun c hc => List.all_eq_true.mp List.all_takeWhile c hc
  · exact fun c hc => List.all_eq_true.mp List.all_takeWhile c (List.mem_reverse.mp hc)
  · intro c hc
    have : a.head? = some c := by
      rw [h2, List.head?_append, hc]
      rfl
    have h := List.head?_dropWhile_not isSpace s
    rw [← ha, this] at h
    exact h

/-- C36: the user name is what precedes the last dot of the file name, without surrounding white space; the whole name if there is no
dot. -/
theorem user_name_spec :
    (∀ stem ext : List Char, '.' ∉ ext → userName (stem ++ '.' :: ext) = strip stem) ∧
    (∀ name : List Char, '.' ∉ name → userName name = strip name) := by
  constructor
  · intro stem ext h
    unfold userName
    rw [if_pos (by simp), List.reverse_append, List.reverse_cons, List.append_assoc, List.dropWhile_append_of_pos]
    · simp
    · intro c hc
      have : c ≠ '.' := fun he => h (he ▸ List.mem_reverse.mp hc)
      simpa using this
  · intro name h
    unfold userName
    rw [if_neg h]

example : userName "ann.1.txt".toList = strip "ann.1".toList := user_name_spec.1 "ann.1".toList "txt".toList (by decide)

end Verif.Props.SelectUsers
