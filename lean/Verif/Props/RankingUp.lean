import Verif.Props.Ranking

/-!
# Predicting a link more strongly never lowers the scores (C309)
-/

namespace Verif.Props.RankingUp

open Verif Verif.Evals
open Verif.Props.Evals Verif.Props.Ranking

/-- One step: an expected link moves up by one place. -/
inductive Up (E : Finset Nat) : List Nat → List Nat → Prop
  | step (pre post : List Nat) (x e : Nat) (he : e ∈ E) : Up E (pre ++ x :: e :: post) (pre ++ e :: x :: post)

theorem sum_swap {l : List Nat} (hl : l.Nodup) (f g : Nat → ℚ) (x e : Nat) (hxe : x ≠ e) (he : e ∈ l) (h : ∀ y ∈ l, y ≠ x → y ≠ e → f y = g y)
    (h1 : x ∈ l → f x + f e ≤ g x + g e) (h2 : x ∉ l → f e ≤ g e) : (l.map f).sum ≤ (l.map g).sum := by
  rw [← List.sum_toFinset f hl, ← List.sum_toFinset g hl]
  have he' : e ∈ l.toFinset := List.mem_toFinset.2 he
  rw [← Finset.add_sum_erase _ f he', ← Finset.add_sum_erase _ g he']
  by_cases hx : x ∈ l
  · have hx' : x ∈ l.toFinset.erase e := Finset.mem_erase.2 ⟨hxe, List.mem_toFinset.2 hx⟩
    rw [← Finset.add_sum_erase _ f hx', ← Finset.add_sum_erase _ g hx']
    have h3 : ∑ y ∈ (l.toFinset.erase e).erase x, f y = ∑ y ∈ (l.toFinset.erase e).erase x, g y :=
      Finset.sum_congr rfl fun y hy => by
        rw [Finset.mem_erase, Finset.mem_erase, List.mem_toFinset] at hy
        exact h y hy.2.2 hy.1 hy.2.1
    have := h1 hx
    linarith
  · have h3 : ∑ y ∈ l.toFinset.erase e, f y = ∑ y ∈ l.toFinset.erase e, g y :=
      Finset.sum_congr rfl fun y hy => by
        rw [Finset.mem_erase, List.mem_toFinset] at hy
        exact h y hy.2 (fun h4 => hx (h4 ▸ hy.2)) hy.1
    have := h2 hx
    linarith

/-! ## Positions -/

theorem findPos_append (y : Nat) (pre l : List Nat) (h : y ∉ pre) : findPos y (pre ++ l) = pre.length + findPos y l := by
  induction pre with
  | nil => simp
  | cons a pre ih =>
    rw [List.mem_cons, not_or] at h
    show (if a ≠ y then findPos y (pre ++ l) + 1 else 0) = _
    rw [if_pos (fun h1 => h.1 h1.symm), ih h.2, List.length_cons]
    omega

/-- The links up to and including `y` -/
def upTo (recv : List Nat) (y : Nat) : Finset Nat := (recv.take (findPos y recv + 1)).toFinset

theorem upTo_append (y : Nat) (pre l : List Nat) (h : y ∉ pre) : upTo (pre ++ l) y = pre.toFinset ∪ upTo l y := by
  unfold upTo
  rw [findPos_append y pre l h, show pre.length + findPos y l + 1 = pre.length + (findPos y l + 1) by omega, List.take_length_add_append,
    List.toFinset_append]

theorem upTo_here (y : Nat) (l : List Nat) : upTo (y :: l) y = {y} := by
  unfold upTo
  simp [findPos]

theorem upTo_later (y a : Nat) (l : List Nat) (h : a ≠ y) : upTo (a :: l) y = insert a (upTo l y) := by
  unfold upTo
  simp [findPos, h]

theorem upTo_other (pre post : List Nat) (x e y : Nat) (hx : y ≠ x) (he : y ≠ e) :
    upTo (pre ++ x :: e :: post) y = upTo (pre ++ e :: x :: post) y := by
  by_cases hp : y ∈ pre
  · unfold upTo
    rw [findPos_prefix y _ _ hp, findPos_prefix y _ _ hp, List.take_append_of_le_length (by have := (findPos_take y pre hp).1; omega),
      List.take_append_of_le_length (by have := (findPos_take y pre hp).1; omega)]
  · rw [upTo_append y _ _ hp, upTo_append y _ _ hp, upTo_later _ _ _ hx.symm, upTo_later _ _ _ he.symm, upTo_later _ _ _ he.symm, upTo_later _ _ _ hx.symm,
      Finset.insert_comm]

theorem precTerm_eq (recv : List Nat) (E : Finset Nat) (y : Nat) : precTerm recv E y = ((upTo recv y ∩ E).card : ℚ) / (upTo recv y).card := rfl

/-! ## One step up -/

variable {E : Finset Nat} {recv recv' : List Nat}

theorem ap_up (h : Up E recv recv') (hn : recv.Nodup) {l : List Nat} (hl : l.Nodup) (hE : l.toFinset = E) :
    (l.map (precTerm recv E)).sum ≤ (l.map (precTerm recv' E)).sum := by
  cases h with
  | step pre post x e he =>
    have hxe : x ≠ e := by
      have := (List.nodup_append.1 hn).2.1
      rw [List.nodup_cons] at this
      exact fun h => this.1 (by simp [h])
    have hxp : x ∉ pre := fun h => (List.nodup_append.1 hn).2.2 x h x (by simp) rfl
    have hep : e ∉ pre := fun h => (List.nodup_append.1 hn).2.2 e h e (by simp) rfl
    have u1 : upTo (pre ++ x :: e :: post) x = pre.toFinset ∪ {x} := by rw [upTo_append _ _ _ hxp, upTo_here]
    have u2 : upTo (pre ++ x :: e :: post) e = pre.toFinset ∪ {x, e} := by rw [upTo_append _ _ _ hep, upTo_later _ _ _ hxe, upTo_here]
    have v1 : upTo (pre ++ e :: x :: post) e = pre.toFinset ∪ {e} := by rw [upTo_append _ _ _ hep, upTo_here]
    have v2 : upTo (pre ++ e :: x :: post) x = pre.toFinset ∪ {x, e} := by
      rw [upTo_append _ _ _ hxp, upTo_later _ _ _ hxe.symm, upTo_here, Finset.pair_comm]
    refine sum_swap hl _ _ x e hxe (by rw [← List.mem_toFinset, hE]; exact he) (fun y _ hx he => ?_) (fun hx => ?_) (fun hx => ?_)
    · rw [precTerm_eq, precTerm_eq, upTo_other _ _ _ _ _ hx he]
    · have hxE : x ∈ E := by rw [← hE, List.mem_toFinset]; exact hx
      have hc : ∀ a, a ∉ pre → a ∈ E → (((pre.toFinset ∪ {a}) ∩ E).card : ℚ) / (pre.toFinset ∪ {a}).card
          = ((pre.toFinset ∩ E).card + 1 : ℚ) / (pre.toFinset.card + 1) := by
        intro a ha haE
        rw [Finset.union_inter_distrib_right, Finset.singleton_inter_of_mem haE, Finset.card_union_of_disjoint, Finset.card_union_of_disjoint,
          Finset.card_singleton]
        · push_cast
          rfl
        · rw [Finset.disjoint_singleton_right, List.mem_toFinset]
          exact ha
        · rw [Finset.disjoint_singleton_right, Finset.mem_inter, List.mem_toFinset]
          exact fun h => ha h.1
      rw [precTerm_eq, precTerm_eq, precTerm_eq, precTerm_eq, u1, u2, v1, v2, hc x hxp hxE, hc e hep he]
      linarith
    · have hxE : x ∉ E := by rw [← hE, List.mem_toFinset]; exact hx
      have h1 : ((pre.toFinset ∪ {x, e}) ∩ E).card = (pre.toFinset ∩ E).card + 1 := by
        have : (pre.toFinset ∪ {x, e}) ∩ E = (pre.toFinset ∩ E) ∪ {e} := by
          ext a
          simp only [Finset.mem_inter, Finset.mem_union, List.mem_toFinset, Finset.mem_insert, Finset.mem_singleton]
          constructor
          · rintro ⟨h1 | h1 | h1, h2⟩
            · exact Or.inl ⟨h1, h2⟩
            · exact absurd (h1 ▸ h2) hxE
            · exact Or.inr h1
          · rintro (h1 | h1)
            · exact ⟨Or.inl h1.1, h1.2⟩
            · exact ⟨Or.inr (Or.inr h1), h1 ▸ he⟩
        rw [this, Finset.card_union_of_disjoint, Finset.card_singleton]
        rw [Finset.disjoint_singleton_right, Finset.mem_inter, List.mem_toFinset]
        exact fun h => hep h.1
      have h2 : ((pre.toFinset ∪ {e}) ∩ E).card = (pre.toFinset ∩ E).card + 1 := by
        rw [Finset.union_inter_distrib_right, Finset.singleton_inter_of_mem he, Finset.card_union_of_disjoint, Finset.card_singleton]
        rw [Finset.disjoint_singleton_right, Finset.mem_inter, List.mem_toFinset]
        exact fun h => hep h.1
      rw [precTerm_eq, precTerm_eq, u2, v1, h1, h2]
      apply div_le_div_of_nonneg_left
      · positivity
      · have : 0 < (pre.toFinset ∪ {e}).card := Finset.card_pos.2 ⟨e, by simp⟩
        exact_mod_cast this
      · have : (pre.toFinset ∪ {e}).card ≤ (pre.toFinset ∪ {x, e}).card := by
          apply Finset.card_le_card
          intro a
          simp only [Finset.mem_union, List.mem_toFinset, Finset.mem_insert, Finset.mem_singleton]
          tauto
        exact_mod_cast this

theorem up_perm (h : Up E recv recv') : recv'.Perm recv := by
  cases h with
  | step pre post x e he => exact (List.Perm.swap x e post).append_left pre

theorem recips_up (h : Up E recv recv') (hn : recv.Nodup) {l : List Nat} (hl : l.Nodup) (hE : l.toFinset = E) :
    (recips recv l).sum ≤ (recips recv' l).sum ∧ (recips recv' l).length = (recips recv l).length := by
  have hf : (fun a => decide (a ∈ recv')) = fun a => decide (a ∈ recv) := by
    funext a
    rw [Bool.eq_iff_iff, decide_eq_true_eq, decide_eq_true_eq, (up_perm h).mem_iff]
  unfold recips
  rw [hf]
  refine ⟨?_, by rw [List.length_map, List.length_map]⟩
  cases h with
  | step pre post x e he =>
    have hxe : x ≠ e := by
      have := (List.nodup_append.1 hn).2.1
      rw [List.nodup_cons] at this
      exact fun h => this.1 (by simp [h])
    have hxp : x ∉ pre := fun h => (List.nodup_append.1 hn).2.2 x h x (by simp) rfl
    have hep : e ∉ pre := fun h => (List.nodup_append.1 hn).2.2 e h e (by simp) rfl
    have i1 : (pre ++ x :: e :: post).idxOf x = pre.length := by rw [List.idxOf_append_of_notMem hxp, List.idxOf_cons_self]; rfl
    have i2 : (pre ++ x :: e :: post).idxOf e = pre.length + 1 := by
      rw [List.idxOf_append_of_notMem hep, List.idxOf_cons_ne _ hxe, List.idxOf_cons_self]
    have j1 : (pre ++ e :: x :: post).idxOf e = pre.length := by rw [List.idxOf_append_of_notMem hep, List.idxOf_cons_self]; rfl
    have j2 : (pre ++ e :: x :: post).idxOf x = pre.length + 1 := by
      rw [List.idxOf_append_of_notMem hxp, List.idxOf_cons_ne _ hxe.symm, List.idxOf_cons_self]
    refine sum_swap (hl.filter _) _ _ x e hxe ?_ (fun y _ hx he => ?_) (fun _ => ?_) (fun _ => ?_)
    · rw [List.mem_filter, decide_eq_true_eq]
      exact ⟨by rw [← List.mem_toFinset, hE]; exact he, by simp⟩
    · by_cases hp : y ∈ pre
      · rw [List.idxOf_append_of_mem hp, List.idxOf_append_of_mem hp]
      · rw [List.idxOf_append_of_notMem hp, List.idxOf_append_of_notMem hp, List.idxOf_cons_ne _ hx.symm, List.idxOf_cons_ne _ he.symm,
          List.idxOf_cons_ne _ he.symm, List.idxOf_cons_ne _ hx.symm]
    · rw [i1, i2, j1, j2]
      linarith
    · rw [i2, j1]
      apply one_div_le_one_div_of_le
      · positivity
      · push_cast
        linarith

theorem hits_up (h : Up E recv recv') (hn : recv.Nodup) (k : Nat) : ((recv.take k).toFinset ∩ E).card ≤ ((recv'.take k).toFinset ∩ E).card := by
  cases h with
  | step pre post x e he =>
    have hep : e ∉ pre := fun h => (List.nodup_append.1 hn).2.2 e h e (by simp) rfl
    rcases Nat.lt_or_ge pre.length k with hk | hk
    · obtain ⟨n, rfl⟩ : ∃ n, k = pre.length + (n + 1) := ⟨k - pre.length - 1, by omega⟩
      rw [List.take_length_add_append, List.take_length_add_append, List.toFinset_append, List.toFinset_append]
      cases n with
      | zero =>
        have h2 : ((pre.toFinset ∪ {e}) ∩ E).card = (pre.toFinset ∩ E).card + 1 := by
          rw [Finset.union_inter_distrib_right, Finset.singleton_inter_of_mem he, Finset.card_union_of_disjoint, Finset.card_singleton]
          rw [Finset.disjoint_singleton_right, Finset.mem_inter, List.mem_toFinset]
          exact fun h => hep h.1
        have h1 : ((pre.toFinset ∪ {x}) ∩ E).card ≤ (pre.toFinset ∩ E).card + 1 := by
          rw [Finset.union_inter_distrib_right]
          refine (Finset.card_union_le _ _).trans ?_
          have : ({x} ∩ E).card ≤ 1 := (Finset.card_le_card Finset.inter_subset_left).trans (by simp)
          omega
        show ((pre.toFinset ∪ {x}) ∩ E).card ≤ ((pre.toFinset ∪ {e}) ∩ E).card
        omega
      | succ n =>
        apply le_of_eq
        congr 3
        show (x :: e :: post.take n).toFinset = (e :: x :: post.take n).toFinset
        exact List.toFinset_eq_of_perm _ _ (List.Perm.swap _ _ _)
    · rw [List.take_append_of_le_length hk, List.take_append_of_le_length hk]

/-! ## Raising a score -/

/-- Any number of steps up -/
abbrev Ups (E : Finset Nat) : List Nat → List Nat → Prop := Relation.ReflTransGen (Up E)

theorem ups_move (pre mid post : List Nat) (e : Nat) (he : e ∈ E) : Ups E (pre ++ (mid ++ e :: post)) (pre ++ (e :: (mid ++ post))) := by
  induction mid generalizing pre with
  | nil => exact Relation.ReflTransGen.refl
  | cons a mid ih =>
    have h1 := ih (pre ++ [a])
    simp only [List.append_assoc, List.singleton_append] at h1
    exact Relation.ReflTransGen.tail h1 (Up.step pre (mid ++ post) a e he)

theorem ups_perm (h : Ups E recv recv') : recv'.Perm recv := by
  induction h with
  | refl => exact List.Perm.refl _
  | tail _ h ih => exact (up_perm h).trans ih

/-- The score of an expected link is raised from `s` to `s'`; no two scores of the document are equal, before and after. -/
structure Raised (d d' : Doc) : Prop where
  expected : d'.expected = d.expected
  stored : ∃ a b e s s', e ∈ d.expected ∧ s ≤ s' ∧ d.stored = a ++ (e, s) :: b ∧ d'.stored = a ++ (e, s') :: b
  distinct : ∀ p ∈ d.stored, ∀ q ∈ d.stored, p.2 = q.2 → p = q
  distinct' : ∀ p ∈ d'.stored, ∀ q ∈ d'.stored, p.2 = q.2 → p = q
  once : d.expected.Nodup
  ids : (d.stored.map Prod.fst).Nodup

variable {rank : List (Nat × ℚ) → List (Nat × ℚ)} {d d' : Doc}

theorem split_at (l : List (Nat × ℚ)) (hs : l.Pairwise (fun a b => b.2 ≤ a.2)) (t : ℚ) :
    ∃ a b, l = a ++ b ∧ (∀ p ∈ a, t < p.2) ∧ ∀ p ∈ b, p.2 ≤ t := by
  induction l with
  | nil => exact ⟨[], [], rfl, by simp, by simp⟩
  | cons p l ih =>
    obtain ⟨a, b, h1, h2, h3⟩ := ih (List.pairwise_cons.1 hs).2
    rcases lt_or_ge t p.2 with h | h
    · refine ⟨p :: a, b, by rw [h1]; rfl, fun q hq => ?_, h3⟩
      rcases List.mem_cons.1 hq with rfl | hq
      · exact h
      · exact h2 q hq
    · refine ⟨[], p :: l, rfl, by simp, fun q hq => ?_⟩
      rcases List.mem_cons.1 hq with rfl | hq
      · exact h
      · exact ((List.pairwise_cons.1 hs).1 q hq).trans h

/-- Raising a score moves the link up and leaves the order of the others alone. -/
theorem raised_ups (hr : IsRanking rank) (h : Raised d d') : Ups d.expected.toFinset (recvIndices rank d) (recvIndices rank d') := by
  obtain ⟨a, b, e, s, s', he, hs, h1, h2⟩ := h.stored
  have hp := (hr d.stored).1
  have hsorted := (hr d.stored).2
  have hmem : (e, s) ∈ rank d.stored := hp.mem_iff.2 (by rw [h1]; simp)
  obtain ⟨u, v, huv⟩ := List.append_of_mem hmem
  rw [huv] at hsorted hp
  have hu := (List.pairwise_append.1 hsorted).1
  have hv := (List.pairwise_cons.1 (List.pairwise_append.1 hsorted).2.1)
  have huv' := (List.pairwise_append.1 hsorted).2.2
  obtain ⟨u1, u2, hu12, hgt, hle⟩ := split_at u hu s'
  have hperm : (u ++ v).Perm (a ++ b) := by
    have : (u ++ (e, s) :: v).Perm (a ++ (e, s) :: b) := by rw [← h1]; exact hp
    exact (List.perm_cons (e, s)).1 ((List.perm_middle.symm.trans this).trans List.perm_middle)
  have hrank : rank d'.stored = u1 ++ (e, s') :: (u2 ++ v) := by
    have hnew : (u1 ++ (e, s') :: (u2 ++ v)).Perm d'.stored := by
      rw [h2]
      refine List.perm_middle.trans ((List.Perm.cons _ ?_).trans List.perm_middle.symm)
      rw [← List.append_assoc, ← hu12]
      exact hperm
    apply List.Perm.eq_of_pairwise (le := fun a b => b.2 ≤ a.2)
    · intro p q hp' hq h3 h4
      exact h.distinct' p ((hr _).1.mem_iff.1 hp') q (hnew.mem_iff.1 hq) (le_antisymm h4 h3)
    · exact (hr _).2
    · rw [List.pairwise_append]
      rw [hu12, List.pairwise_append] at hu
      refine ⟨hu.1, List.pairwise_cons.2 ⟨fun q hq => ?_, List.pairwise_append.2 ⟨hu.2.1, hv.2, fun p hp' q hq => ?_⟩⟩, fun p hp' q hq => ?_⟩
      · rcases List.mem_append.1 hq with hq | hq
        · exact hle q hq
        · exact (hv.1 q hq).trans hs
      · exact huv' p (by rw [hu12]; simp [hp']) q (by simp [hq])
      · rcases List.mem_cons.1 hq with rfl | hq
        · exact (hgt p hp').le
        · rcases List.mem_append.1 hq with hq | hq
          · exact hu.2.2 p hp' q hq
          · exact huv' p (by rw [hu12]; simp [hp']) q (by simp [hq])
    · exact (hr _).1.trans hnew.symm
  unfold recvIndices
  rw [hrank, huv, hu12]
  simp only [List.map_append, List.map_cons, List.append_assoc]
  exact ups_move _ _ _ e (List.mem_toFinset.2 he)

theorem ap_raised (hr : IsRanking rank) (h : Raised d d') : ap rank d ≤ ap rank d' := by
  have hu := raised_ups hr h
  have hn := recv_nodup hr d h.ids
  have key : (d.expected.map (precTerm (recvIndices rank d) d.expected.toFinset)).sum
      ≤ (d.expected.map (precTerm (recvIndices rank d') d.expected.toFinset)).sum := by
    generalize recvIndices rank d' = recv' at hu
    induction hu with
    | refl => exact le_refl _
    | tail h1 h2 ih => exact ih.trans (ap_up h2 ((ups_perm h1).nodup_iff.2 hn) h.once rfl)
  unfold ap
  rw [h.expected]
  split
  · exact le_refl _
  · exact div_le_div_of_nonneg_right key (by positivity)

theorem recips_raised (hr : IsRanking rank) (h : Raised d d') :
    (recips (recvIndices rank d) d.expected).sum ≤ (recips (recvIndices rank d') d'.expected).sum
      ∧ (recips (recvIndices rank d') d'.expected).length = (recips (recvIndices rank d) d.expected).length := by
  have hu := raised_ups hr h
  have hn := recv_nodup hr d h.ids
  rw [h.expected]
  generalize recvIndices rank d' = recv' at hu
  induction hu with
  | refl => exact ⟨le_refl _, rfl⟩
  | tail h1 h2 ih =>
    have h3 := recips_up h2 ((ups_perm h1).nodup_iff.2 hn) h.once rfl
    exact ⟨ih.1.trans h3.1, h3.2.trans ih.2⟩

theorem hits_raised (hr : IsRanking rank) (h : Raised d d') (m : Nat) : hits rank d m ≤ hits rank d' m := by
  have hu := raised_ups hr h
  have hn := recv_nodup hr d h.ids
  unfold hits
  rw [h.expected]
  generalize recvIndices rank d' = recv' at hu
  induction hu with
  | refl => exact le_refl _
  | tail h1 h2 ih => exact ih.trans (hits_up h2 ((ups_perm h1).nodup_iff.2 hn) _)

theorem stored_nil (h : Raised d d') : d.stored ≠ [] ∧ d'.stored ≠ [] := by
  obtain ⟨a, b, e, s, s', _, _, h1, h2⟩ := h.stored
  rw [h1, h2]
  simp

/-- **C309**: raising the score of an expected link never lowers mean average precision. -/
theorem map_up (hr : IsRanking rank) (h : Raised d d') (pre post : List Doc) (r : ℚ) (hm : meanAveragePrec rank (pre ++ d :: post) = .ok r) :
    ∃ r', meanAveragePrec rank (pre ++ d' :: post) = .ok r' ∧ r ≤ r' := by
  obtain ⟨hne, hall⟩ := (map_defined_iff rank hr _).1.1 ⟨r, hm⟩
  have hall' : ∀ c ∈ pre ++ d' :: post, c.expected ≠ [] → c.stored ≠ [] := by
    intro c hc
    rcases List.mem_append.1 hc with hc | hc
    · exact hall c (by simp [hc])
    · rcases List.mem_cons.1 hc with rfl | hc
      · exact fun _ => (stored_nil h).2
      · exact hall c (by simp [hc])
  rw [map_ok rank _ hne fun c hc h1 h2 => hall c hc h1 ((recv_nil hr c).1 h2)] at hm
  refine ⟨_, map_ok rank _ (by simp) fun c hc h1 h2 => hall' c hc h1 ((recv_nil hr c).1 h2), ?_⟩
  rw [← Except.ok.inj hm]
  simp only [List.map_append, List.map_cons, List.sum_append, List.sum_cons, List.length_append, List.length_cons]
  apply div_le_div_of_nonneg_right
  · have := ap_raised hr h
    linarith
  · positivity

/-- **C309**: raising the score of an expected link never lowers the mean reciprocal rank. -/
theorem mrr_up (hr : IsRanking rank) (h : Raised d d') (pre post : List Doc)
    (hn : ∀ c ∈ pre ++ post, c.expected.Nodup ∧ (c.stored.map Prod.fst).Nodup) (r : ℚ)
    (hm : meanReciprocalRank rank (pre ++ d :: post) = .ok r) : ∃ r', meanReciprocalRank rank (pre ++ d' :: post) = .ok r' ∧ r ≤ r' := by
  have hids : (d'.stored.map Prod.fst).Nodup := by
    obtain ⟨a, b, e, s, s', _, _, h1, h2⟩ := h.stored
    have := h.ids
    rw [h1] at this
    rw [h2]
    simpa using this
  have hN : ∀ c ∈ pre ++ d :: post, c.expected.Nodup ∧ (c.stored.map Prod.fst).Nodup := by
    intro c hc
    rcases List.mem_append.1 hc with hc | hc
    · exact hn c (by simp [hc])
    · rcases List.mem_cons.1 hc with rfl | hc
      · exact ⟨h.once, h.ids⟩
      · exact hn c (by simp [hc])
  have hN' : ∀ c ∈ pre ++ d' :: post, c.expected.Nodup ∧ (c.stored.map Prod.fst).Nodup := by
    intro c hc
    rcases List.mem_append.1 hc with hc | hc
    · exact hn c (by simp [hc])
    · rcases List.mem_cons.1 hc with rfl | hc
      · exact ⟨h.expected ▸ h.once, hids⟩
      · exact hn c (by simp [hc])
  obtain ⟨a1, a2, _⟩ := mrr_mean rank hr _ hN
  obtain ⟨b1, _, _⟩ := mrr_mean rank hr _ hN'
  obtain ⟨h1, h2⟩ := recips_raised hr h
  have hlen : (allRecips rank (pre ++ d' :: post)).length = (allRecips rank (pre ++ d :: post)).length := by
    unfold allRecips
    simp only [List.flatMap_append, List.flatMap_cons, List.length_append, h2]
  have hsum : (allRecips rank (pre ++ d :: post)).sum ≤ (allRecips rank (pre ++ d' :: post)).sum := by
    unfold allRecips
    simp only [List.flatMap_append, List.flatMap_cons, List.sum_append]
    linarith
  by_cases he : allRecips rank (pre ++ d :: post) = []
  · rw [a2 he] at hm
    cases hm
  · rw [a1 he] at hm
    refine ⟨_, b1 fun h3 => he (List.length_eq_zero_iff.1 (by rw [← hlen, h3]; rfl)), ?_⟩
    rw [← Except.ok.inj hm, hlen]
    exact div_le_div_of_nonneg_right hsum (by positivity)

/-- **C309**: raising the score of an expected link never lowers precision and recall, at any cut-off and in any group. -/
theorem prec_rec_up (hr : IsRanking rank) (h : Raised d d') (pre post : List Doc) (ms : List Nat) (hms : ∀ m ∈ ms, 0 < m)
    (groups : Option (List Group))
    (hg : ∀ c ∈ pre ++ d :: post, c.expected ≠ [] → (firstGroup (usedGroups groups) c.expected.length).isSome) :
    ∃ R R', meanPrecRecAt rank (pre ++ d :: post) ms groups = .ok R ∧ meanPrecRecAt rank (pre ++ d' :: post) ms groups = .ok R'
      ∧ R'.counts = R.counts ∧ ∀ g i, i < ms.length → R.precs g i ≤ R'.precs g i ∧ R.recs g i ≤ R'.recs g i := by
  have hg' : ∀ c ∈ pre ++ d' :: post, c.expected ≠ [] → (firstGroup (usedGroups groups) c.expected.length).isSome := by
    intro c hc
    rcases List.mem_append.1 hc with hc | hc
    · exact hg c (by simp [hc])
    · rcases List.mem_cons.1 hc with rfl | hc
      · rw [h.expected]
        exact hg d (by simp)
      · exact hg c (by simp [hc])
  obtain ⟨R, e1, e2, e3, e4⟩ := prec_rec_closed rank ms hms groups _ hg
  obtain ⟨R', f1, f2, f3, f4⟩ := prec_rec_closed rank ms hms groups _ hg'
  have key : ∀ g, ∃ p q c c', members (usedGroups groups) (pre ++ d :: post) g = p ++ c ++ q ∧ members (usedGroups groups) (pre ++ d' :: post) g = p ++ c' ++ q
      ∧ ((c = [] ∧ c' = []) ∨ (c = [d] ∧ c' = [d'])) := by
    intro g
    unfold members
    rw [List.filter_append, List.filter_append, List.filter_cons, List.filter_cons, h.expected]
    split
    · exact ⟨_, _, [d], [d'], (List.append_cons _ _ _), (List.append_cons _ _ _), Or.inr ⟨rfl, rfl⟩⟩
    · refine ⟨_, _, [], [], congrArg (· ++ _) (List.append_nil _).symm, congrArg (· ++ _) (List.append_nil _).symm, Or.inl ⟨rfl, rfl⟩⟩
  have mean : ∀ g (f : Doc → ℚ), f d ≤ f d' → meanOver (members (usedGroups groups) (pre ++ d :: post) g) f
      ≤ meanOver (members (usedGroups groups) (pre ++ d' :: post) g) f := by
    intro g f hf
    obtain ⟨p, q, c, c', h1, h2, h3⟩ := key g
    rw [h1, h2]
    unfold meanOver
    rcases h3 with ⟨rfl, rfl⟩ | ⟨rfl, rfl⟩
    · exact le_refl _
    · simp only [List.map_append, List.map_cons, List.map_nil, List.sum_append, List.sum_cons, List.sum_nil, List.length_append, List.length_cons,
        List.length_nil]
      apply div_le_div_of_nonneg_right
      · linarith
      · positivity
  refine ⟨R, R', e1, f1, ?_, fun g i hi => ⟨?_, ?_⟩⟩
  · funext g
    obtain ⟨p, q, c, c', h1, h2, h3⟩ := key g
    rw [e2, f2, h1, h2]
    rcases h3 with ⟨rfl, rfl⟩ | ⟨rfl, rfl⟩ <;> simp
  · rw [e3 g i ms[i] (List.getElem?_eq_getElem hi), f3 g i ms[i] (List.getElem?_eq_getElem hi)]
    refine mean g (fun d => (hits rank d ms[i] : ℚ) / (ms[i] : ℚ)) (div_le_div_of_nonneg_right ?_ (by positivity))
    exact_mod_cast hits_raised hr h _
  · rw [e4 g i ms[i] (List.getElem?_eq_getElem hi), f4 g i ms[i] (List.getElem?_eq_getElem hi)]
    refine mean g (fun d => (hits rank d ms[i] : ℚ) / (d.expected.toFinset.card : ℚ)) ?_
    rw [h.expected]
    refine div_le_div_of_nonneg_right ?_ (by positivity)
    exact_mod_cast hits_raised hr h _

/-! ## Example -/

/-- The expected link 4 is raised from the last to the second place. -/
theorem ex_raised : Raised ⟨[4, 7], [(7, 2), (1, 3), (4, 1), (2, 9)]⟩ ⟨[4, 7], [(7, 2), (1, 3), (4, 5), (2, 9)]⟩ :=
  ⟨rfl, ⟨[(7, 2), (1, 3)], [(2, 9)], 4, 1, 5, by decide, by norm_num, rfl, rfl⟩, by decide +kernel, by decide +kernel, by decide, by decide +kernel⟩

example : meanAveragePrec sortRank [⟨[4, 7], [(7, 2), (1, 3), (4, 1), (2, 9)]⟩] = .ok (5 / 12)
    ∧ meanAveragePrec sortRank [⟨[4, 7], [(7, 2), (1, 3), (4, 5), (2, 9)]⟩] = .ok (1 / 2)
    ∧ meanReciprocalRank sortRank [⟨[4, 7], [(7, 2), (1, 3), (4, 1), (2, 9)]⟩] = .ok (7 / 24)
    ∧ meanReciprocalRank sortRank [⟨[4, 7], [(7, 2), (1, 3), (4, 5), (2, 9)]⟩] = .ok (3 / 8) := by decide +kernel

example : ∃ r', meanAveragePrec sortRank [⟨[4, 7], [(7, 2), (1, 3), (4, 5), (2, 9)]⟩] = .ok r' ∧ (5 / 12 : ℚ) ≤ r' :=
  map_up sortRank_isRanking ex_raised [] [] _ (by decide +kernel)

end Verif.Props.RankingUp
