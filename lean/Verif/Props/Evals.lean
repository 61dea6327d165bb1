import Mathlib.Tactic.Ring
import Mathlib.Tactic.FieldSimp
import Mathlib.Tactic.Linarith
import Mathlib.Tactic.Positivity
import Mathlib.Data.List.Sort
import Verif.Model.Evals

/-!
# Mean average precision (C22, C23, C84)
-/

namespace Verif.Props.Evals

open Verif Verif.Evals

/-- What `argsort` (reversed) guarantees: a rearrangement by descending score, ties in any order. -/
def IsRanking (rank : List (Nat × ℚ) → List (Nat × ℚ)) : Prop :=
  ∀ l, (rank l).Perm l ∧ (rank l).Pairwise (fun a b => b.2 ≤ a.2)

theorem recv_mem {rank : List (Nat × ℚ) → List (Nat × ℚ)} (hr : IsRanking rank) (d : Doc) (x : Nat) :
    x ∈ recvIndices rank d ↔ ∃ s, (x, s) ∈ d.stored := by
  unfold recvIndices
  rw [List.mem_map]
  constructor
  · rintro ⟨⟨y, s⟩, hm, rfl⟩
    exact ⟨s, (hr d.stored).1.mem_iff.mp hm⟩
  · rintro ⟨s, hm⟩
    exact ⟨(x, s), (hr d.stored).1.mem_iff.mpr hm, rfl⟩

theorem recv_nil {rank : List (Nat × ℚ) → List (Nat × ℚ)} (hr : IsRanking rank) (d : Doc) :
    recvIndices rank d = [] ↔ d.stored = [] := by
  unfold recvIndices
  rw [List.map_eq_nil_iff]
  constructor
  · intro h; have := (hr d.stored).1; rw [h] at this; exact this.symm.eq_nil
  · intro h; have := (hr d.stored).1; rw [h] at this ⊢; exact this.eq_nil

/-! ## The precision terms -/

/-- the share of expected ids among the first `m + 1` received -/
def precTerm (recv : List Nat) (expt : Finset Nat) (e : Nat) : ℚ :=
  ((recv.take (findPos e recv + 1)).toFinset ∩ expt).card / (recv.take (findPos e recv + 1)).toFinset.card

theorem take_nonempty {recv : List Nat} (h : recv ≠ []) (n : Nat) :
    (recv.take (n + 1)).toFinset.card ≠ 0 := by
  cases recv with
  | nil => exact absurd rfl h
  | cons x xs => simp [Finset.card_eq_zero, List.take_succ_cons]

theorem apStep_ok (recv : List Nat) (expt : Finset Nat) (sum : ℚ) (e : Nat) (h : recv ≠ []) :
    apStep recv expt sum e = .ok (sum + precTerm recv expt e) := by
  unfold apStep
  simp only
  rw [if_neg (take_nonempty h _)]
  rfl

theorem apFold_ok (recv : List Nat) (expt : Finset Nat) (l : List Nat) (h : recv ≠ []) :
    ∀ s, l.foldlM (apStep recv expt) s = .ok (s + (l.map (precTerm recv expt)).sum) := by
  induction l with
  | nil => intro s; simp only [List.foldlM_nil, List.map_nil, List.sum_nil, add_zero]; rfl
  | cons e l ih =>
    intro s
    rw [List.foldlM_cons, apStep_ok recv expt s e h]
    change (l.foldlM (apStep recv expt) (s + precTerm recv expt e) : Py ℚ) = _
    rw [ih, List.map_cons, List.sum_cons, add_assoc]

theorem apFold_err (expt : Finset Nat) (l : List Nat) (hl : l ≠ []) (s : ℚ) :
    l.foldlM (apStep [] expt) s = .error .zeroDivisionError := by
  cases l with
  | nil => exact absurd rfl hl
  | cons e l => rfl

/-- average precision of one document -/
def ap (rank : List (Nat × ℚ) → List (Nat × ℚ)) (d : Doc) : ℚ :=
  if d.expected = [] then 0
  else (d.expected.map (precTerm (recvIndices rank d) d.expected.toFinset)).sum / d.expected.length

theorem apDoc_ok (rank : List (Nat × ℚ) → List (Nat × ℚ)) (d : Doc)
    (h : d.expected ≠ [] → recvIndices rank d ≠ []) (s : ℚ) : apDoc rank s d = .ok (s + ap rank d) := by
  unfold apDoc ap
  by_cases he : d.expected = []
  · rw [if_pos (by simp [he]), if_pos he, add_zero]
  · rw [if_neg (by simpa using he), if_neg he, apFold_ok _ _ _ (h he)]
    change Except.ok _ = _
    rw [zero_add]

theorem apDoc_err (rank : List (Nat × ℚ) → List (Nat × ℚ)) (d : Doc)
    (h : d.expected ≠ []) (h2 : recvIndices rank d = []) (s : ℚ) :
    apDoc rank s d = .error .zeroDivisionError := by
  unfold apDoc
  rw [if_neg (by simpa using h), h2, apFold_err _ _ h]
  rfl

theorem apDocs_ok (rank : List (Nat × ℚ) → List (Nat × ℚ)) (docs : List Doc)
    (h : ∀ d ∈ docs, d.expected ≠ [] → recvIndices rank d ≠ []) :
    ∀ s, docs.foldlM (apDoc rank) s = .ok (s + (docs.map (ap rank)).sum) := by
  induction docs with
  | nil => intro s; simp only [List.foldlM_nil, List.map_nil, List.sum_nil, add_zero]; rfl
  | cons d docs ih =>
    intro s
    rw [List.foldlM_cons, apDoc_ok rank d (h d List.mem_cons_self) s]
    change (docs.foldlM (apDoc rank) (s + ap rank d) : Py ℚ) = _
    rw [ih (fun d hd => h d (List.mem_cons_of_mem _ hd)), List.map_cons, List.sum_cons, add_assoc]

theorem apDocs_err (rank : List (Nat × ℚ) → List (Nat × ℚ)) (docs : List Doc)
    (h : ∃ d ∈ docs, d.expected ≠ [] ∧ recvIndices rank d = []) :
    ∀ s, docs.foldlM (apDoc rank) s = .error .zeroDivisionError := by
  induction docs with
  | nil => obtain ⟨d, hd, _⟩ := h; cases hd
  | cons d docs ih =>
    intro s
    rw [List.foldlM_cons]
    by_cases hd : d.expected ≠ [] ∧ recvIndices rank d = []
    · rw [apDoc_err rank d hd.1 hd.2]; rfl
    · rw [apDoc_ok rank d (fun h1 h2 => hd ⟨h1, h2⟩)]
      obtain ⟨d', hd', h'⟩ := h
      rcases List.mem_cons.mp hd' with rfl | hm
      · exact absurd h' hd
      · exact ih ⟨d', hm, h'⟩ _

theorem map_ok (rank : List (Nat × ℚ) → List (Nat × ℚ)) (docs : List Doc) (h0 : docs ≠ [])
    (h : ∀ d ∈ docs, d.expected ≠ [] → recvIndices rank d ≠ []) :
    meanAveragePrec rank docs = .ok ((docs.map (ap rank)).sum / docs.length) := by
  unfold meanAveragePrec
  rw [apDocs_ok rank docs h, zero_add]
  change (if docs.length = 0 then _ else _ : Py ℚ) = _
  rw [if_neg (by simpa using h0)]
  rfl

/-- C22, definedness: the score is undefined (division by zero) exactly when there are no documents
or some document with expected links received an empty ranking. -/
theorem map_defined_iff (rank : List (Nat × ℚ) → List (Nat × ℚ)) (hr : IsRanking rank) (docs : List Doc) :
    ((∃ r, meanAveragePrec rank docs = .ok r) ↔
      docs ≠ [] ∧ ∀ d ∈ docs, d.expected ≠ [] → d.stored ≠ []) ∧
    ((¬ ∃ r, meanAveragePrec rank docs = .ok r) →
      meanAveragePrec rank docs = .error .zeroDivisionError) := by
  by_cases h0 : docs = []
  · subst h0
    refine ⟨⟨?_, fun h => absurd rfl h.1⟩, fun _ => rfl⟩
    rintro ⟨r, h⟩; cases h
  by_cases h : ∃ d ∈ docs, d.expected ≠ [] ∧ recvIndices rank d = []
  · have : meanAveragePrec rank docs = .error .zeroDivisionError := by
      unfold meanAveragePrec; rw [apDocs_err rank docs h]; rfl
    refine ⟨⟨?_, ?_⟩, fun _ => this⟩
    · rintro ⟨r, hr⟩; rw [this] at hr; cases hr
    · rintro ⟨_, h2⟩
      obtain ⟨d, hd, h3, h4⟩ := h
      exact absurd ((recv_nil hr d).mp h4) (h2 d hd h3)
  · have hok := map_ok rank docs h0 (fun d hd h1 h2 => h ⟨d, hd, h1, h2⟩)
    refine ⟨⟨fun _ => ⟨h0, fun d hd h1 h2 => h ⟨d, hd, h1, (recv_nil hr d).mpr h2⟩⟩, fun _ => ⟨_, hok⟩⟩, ?_⟩
    intro hn; exact absurd ⟨_, hok⟩ hn

theorem precTerm_nonneg (recv : List Nat) (expt : Finset Nat) (e : Nat) : 0 ≤ precTerm recv expt e := by
  unfold precTerm; positivity

theorem precTerm_le_one (recv : List Nat) (expt : Finset Nat) (e : Nat) : precTerm recv expt e ≤ 1 := by
  unfold precTerm
  apply div_le_one_of_le₀
  · exact_mod_cast Finset.card_le_card Finset.inter_subset_left
  · positivity

theorem sum_bounds {β : Type} (l : List β) (f : β → ℚ) (h : ∀ x ∈ l, 0 ≤ f x ∧ f x ≤ 1) :
    0 ≤ (l.map f).sum ∧ (l.map f).sum ≤ l.length := by
  induction l with
  | nil => simp
  | cons x l ih =>
    obtain ⟨h1, h2⟩ := ih (fun y hy => h y (List.mem_cons_of_mem _ hy))
    obtain ⟨h3, h4⟩ := h x List.mem_cons_self
    rw [List.map_cons, List.sum_cons, List.length_cons]
    push_cast
    constructor <;> linarith

theorem mean_bounds {β : Type} (l : List β) (f : β → ℚ) (h : ∀ x ∈ l, 0 ≤ f x ∧ f x ≤ 1) :
    0 ≤ (l.map f).sum / l.length ∧ (l.map f).sum / l.length ≤ 1 := by
  obtain ⟨h1, h2⟩ := sum_bounds l f h
  exact ⟨by positivity, div_le_one_of_le₀ h2 (by positivity)⟩

theorem ap_bounds (rank : List (Nat × ℚ) → List (Nat × ℚ)) (d : Doc) : 0 ≤ ap rank d ∧ ap rank d ≤ 1 := by
  unfold ap
  split
  · exact ⟨le_rfl, zero_le_one⟩
  · exact mean_bounds _ _ (fun e _ => ⟨precTerm_nonneg _ _ e, precTerm_le_one _ _ e⟩)

/-- C22, range. -/
theorem map_range (rank : List (Nat × ℚ) → List (Nat × ℚ)) (hr : IsRanking rank) (docs : List Doc) (r : ℚ)
    (h : meanAveragePrec rank docs = .ok r) : 0 ≤ r ∧ r ≤ 1 := by
  have hd := ((map_defined_iff rank hr docs).1).mp ⟨r, h⟩
  have hok := map_ok rank docs hd.1 (fun d hm h1 h2 => hd.2 d hm h1 ((recv_nil hr d).mp h2))
  rw [h] at hok
  cases hok
  exact mean_bounds _ _ (fun d _ => ap_bounds rank d)

theorem findPos_take (e : Nat) (l : List Nat) (h : e ∈ l) :
    findPos e l < l.length ∧ e ∈ l.take (findPos e l + 1) := by
  induction l with
  | nil => cases h
  | cons x l ih =>
    unfold findPos
    by_cases hx : x = e
    · subst hx; simp
    · rw [if_pos hx]
      have := ih (by rcases List.mem_cons.mp h with rfl | h; exact absurd rfl hx; exact h)
      refine ⟨by simpa using this.1, ?_⟩
      rw [List.take_succ_cons]
      exact List.mem_cons_of_mem _ this.2

/-- everything at or before the position of `e` scores at least as high as (some occurrence of) `e` -/
theorem take_scores (e : Nat) (l : List (Nat × ℚ)) (hs : l.Pairwise (fun a b => b.2 ≤ a.2))
    (x : Nat) (h : x ∈ (l.map Prod.fst).take (findPos e (l.map Prod.fst) + 1)) (he : e ∈ l.map Prod.fst) :
    ∃ s t, (x, s) ∈ l ∧ (e, t) ∈ l ∧ t ≤ s := by
  induction l with
  | nil => cases he
  | cons a l ih =>
    rw [List.map_cons] at h he
    unfold findPos at h
    by_cases hx : a.1 = e
    · rw [if_neg (not_not.mpr hx)] at h
      simp only [Nat.zero_add, List.take_succ_cons, List.take_zero, List.mem_cons, List.not_mem_nil,
        or_false] at h
      exact ⟨a.2, a.2, by rw [h]; exact List.mem_cons_self, by rw [← hx]; exact List.mem_cons_self, le_rfl⟩
    · rw [if_pos hx, List.take_succ_cons] at h
      have he' : e ∈ l.map Prod.fst := by
        rcases List.mem_cons.mp he with h | h
        · exact absurd h.symm hx
        · exact h
      rcases List.mem_cons.mp h with hxa | h
      · rw [List.mem_map] at he'
        obtain ⟨⟨y, t⟩, hm, rfl⟩ := he'
        exact ⟨a.2, t, by rw [hxa]; exact List.mem_cons_self, List.mem_cons_of_mem _ hm,
          (List.pairwise_cons.mp hs).1 _ hm⟩
      · obtain ⟨s, t, h1, h2, h3⟩ := ih (List.pairwise_cons.mp hs).2 h he'
        exact ⟨s, t, List.mem_cons_of_mem _ h1, List.mem_cons_of_mem _ h2, h3⟩

/-- C22, perfect score: if there are documents, all have expected links, all of which are scored, and in
every document each expected link scores strictly higher than every other link, the score is one. -/
theorem map_perfect (rank : List (Nat × ℚ) → List (Nat × ℚ)) (hr : IsRanking rank) (docs : List Doc)
    (h0 : docs ≠ []) (he : ∀ d ∈ docs, d.expected ≠ [])
    (hs : ∀ d ∈ docs, ∀ e ∈ d.expected, ∃ s, (e, s) ∈ d.stored)
    (ho : ∀ d ∈ docs, ∀ x s e t, (x, s) ∈ d.stored → (e, t) ∈ d.stored → e ∈ d.expected →
      x ∉ d.expected → s < t) :
    meanAveragePrec rank docs = .ok 1 := by
  have hrecv : ∀ d ∈ docs, recvIndices rank d ≠ [] := by
    intro d hd h
    obtain ⟨e, hm⟩ := List.exists_mem_of_ne_nil _ (he d hd)
    obtain ⟨s, hs⟩ := hs d hd e hm
    rw [(recv_nil hr d).mp h] at hs
    cases hs
  rw [map_ok rank docs h0 (fun d hd _ => hrecv d hd)]
  have hap : ∀ d ∈ docs, ap rank d = 1 := by
    intro d hd
    unfold ap
    rw [if_neg (he d hd)]
    have hp : ∀ e ∈ d.expected, precTerm (recvIndices rank d) d.expected.toFinset e = 1 := by
      intro e hem
      have hsub : ((recvIndices rank d).take (findPos e (recvIndices rank d) + 1)).toFinset
          ⊆ d.expected.toFinset := by
        intro x hx
        rw [List.mem_toFinset] at hx ⊢
        by_contra hxe
        obtain ⟨s, t, h1, h2, h3⟩ := take_scores e (rank d.stored) (hr d.stored).2 x hx
          ((recv_mem hr d e).mpr (hs d hd e hem))
        have := ho d hd x s e t ((hr d.stored).1.mem_iff.mp h1) ((hr d.stored).1.mem_iff.mp h2) hem hxe
        exact absurd h3 (not_le.mpr this)
      unfold precTerm
      rw [Finset.inter_eq_left.mpr hsub]
      exact div_self (by exact_mod_cast take_nonempty (hrecv d hd) _)
    rw [List.map_congr_left hp]
    simp only [List.map_const', List.sum_replicate, nsmul_eq_mul, mul_one]
    exact div_self (by exact_mod_cast fun h => he d hd (List.eq_nil_of_length_eq_zero h))
  rw [List.map_congr_left hap]
  simp only [List.map_const', List.sum_replicate, nsmul_eq_mul, mul_one]
  rw [div_self (by exact_mod_cast fun h => h0 (List.eq_nil_of_length_eq_zero h))]

/-- a ranking function for examples -/
def sortRank (l : List (Nat × ℚ)) : List (Nat × ℚ) := l.insertionSort (fun a b => b.2 ≤ a.2)

theorem sortRank_isRanking : IsRanking sortRank := by
  intro l
  refine ⟨List.perm_insertionSort _ l, ?_⟩
  have : Std.Total (fun a b : Nat × ℚ => b.2 ≤ a.2) := ⟨fun a b => le_total b.2 a.2⟩
  have : IsTrans (Nat × ℚ) (fun a b => b.2 ≤ a.2) := ⟨fun a b c h1 h2 => le_trans h2 h1⟩
  exact List.pairwise_insertionSort _ l

/-- two documents, the second with its two expected links ranked first and third -/
def exDocs : List Doc := [⟨[3, 1], [(1, 5), (2, 1), (3, 4)]⟩, ⟨[4, 7], [(7, 2), (1, 3), (4, 9), (2, 0)]⟩]

example : IsRanking sortRank ∧ meanAveragePrec sortRank exDocs = .ok (11 / 12) ∧
    meanAveragePrec sortRank [⟨[3, 1], [(1, 5), (2, 1), (3, 4)]⟩] = .ok 1 ∧
    meanAveragePrec sortRank [⟨[3, 1], []⟩] = .error .zeroDivisionError :=
  ⟨sortRank_isRanking, by decide +kernel, by decide +kernel, by decide +kernel⟩

/-! ## Thresholding (C23) -/

theorem findPos_prefix (e : Nat) (a b : List Nat) (h : e ∈ a) : findPos e (a ++ b) = findPos e a := by
  induction a with
  | nil => cases h
  | cons x a ih =>
    rw [List.cons_append]
    unfold findPos
    by_cases hx : x = e
    · simp [hx]
    · rw [if_pos hx, if_pos hx, ih]
      rcases List.mem_cons.mp h with rfl | h
      · exact absurd rfl hx
      · exact h

theorem precTerm_prefix (a b : List Nat) (expt : Finset Nat) (e : Nat) (h : e ∈ a) :
    precTerm (a ++ b) expt e = precTerm a expt e := by
  unfold precTerm
  rw [findPos_prefix e a b h, List.take_append_of_le_length (by have := (findPos_take e a h).1; omega)]

theorem filter_prefix (l : List (Nat × ℚ)) (t : ℚ) (hs : l.Pairwise (fun a b => b.2 ≤ a.2)) :
    ∃ b, l = l.filter (fun p => t ≤ p.2) ++ b := by
  induction l with
  | nil => exact ⟨[], rfl⟩
  | cons p l ih =>
    rw [List.pairwise_cons] at hs
    by_cases hp : t ≤ p.2
    · obtain ⟨b, hb⟩ := ih hs.2
      refine ⟨b, ?_⟩
      rw [List.filter_cons_of_pos (by simpa using hp), List.cons_append, ← hb]
    · refine ⟨p :: l, ?_⟩
      rw [List.filter_eq_nil_iff.mpr, List.nil_append]
      intro q hq
      rcases List.mem_cons.mp hq with rfl | hq
      · simpa using hp
      · have := hs.1 q hq
        simp only [decide_eq_true_eq, not_le] at *
        linarith

/-- the document after dropping the scores below its threshold `t d` -/
def dropBelow (t : Doc → ℚ) (d : Doc) : Doc := ⟨d.expected, d.stored.filter (fun p => t d ≤ p.2)⟩

theorem rank_filter {rank : List (Nat × ℚ) → List (Nat × ℚ)} (hr : IsRanking rank) (l : List (Nat × ℚ))
    (hd : ∀ p ∈ l, ∀ q ∈ l, p.2 = q.2 → p = q) (t : ℚ) :
    rank (l.filter (fun p => t ≤ p.2)) = (rank l).filter (fun p => t ≤ p.2) := by
  apply List.Perm.eq_of_pairwise (le := fun a b => b.2 ≤ a.2)
  · intro a b ha hb h1 h2
    apply hd
    · exact List.mem_of_mem_filter ((hr _).1.mem_iff.mp ha)
    · exact (hr l).1.mem_iff.mp (List.mem_of_mem_filter hb)
    · exact le_antisymm h2 h1
  · exact (hr _).2
  · exact (hr l).2.filter _
  · exact (hr _).1.trans ((hr l).1.filter _).symm

/-- C23.  With pairwise distinct scores and every expected link scored, dropping all links scoring
below a per-document threshold that no expected link falls below (for instance the lowest score of an
expected link) leaves mean average precision unchanged. -/
theorem map_threshold (rank : List (Nat × ℚ) → List (Nat × ℚ)) (hr : IsRanking rank) (docs : List Doc)
    (t : Doc → ℚ)
    (hdist : ∀ d ∈ docs, ∀ p ∈ d.stored, ∀ q ∈ d.stored, p.2 = q.2 → p = q)
    (hall : ∀ d ∈ docs, ∀ e ∈ d.expected, ∃ s, (e, s) ∈ d.stored ∧ t d ≤ s) :
    meanAveragePrec rank (docs.map (dropBelow t)) = meanAveragePrec rank docs := by
  by_cases h0 : docs = []
  · subst h0; rfl
  have key : ∀ d ∈ docs, ∃ b, recvIndices rank d = recvIndices rank (dropBelow t d) ++ b := by
    intro d hd
    obtain ⟨b, hb⟩ := filter_prefix (rank d.stored) (t d) (hr _).2
    refine ⟨b.map Prod.fst, ?_⟩
    unfold recvIndices dropBelow
    simp only
    rw [rank_filter hr d.stored (hdist d hd), ← List.map_append, ← hb]
  have hmem : ∀ d ∈ docs, ∀ e ∈ d.expected, e ∈ recvIndices rank (dropBelow t d) := by
    intro d hd e he
    obtain ⟨s, h1, h2⟩ := hall d hd e he
    exact (recv_mem hr _ e).mpr ⟨s, List.mem_filter.mpr ⟨h1, by simpa using h2⟩⟩
  have hne : ∀ d ∈ docs, d.expected ≠ [] → recvIndices rank (dropBelow t d) ≠ [] := by
    intro d hd he h
    obtain ⟨e, hm⟩ := List.exists_mem_of_ne_nil _ he
    have := hmem d hd e hm
    rw [h] at this; cases this
  have hap : ∀ d ∈ docs, ap rank (dropBelow t d) = ap rank d := by
    intro d hd
    unfold ap
    change (if d.expected = [] then _ else _) = _
    split
    · rfl
    · change (List.map (precTerm (recvIndices rank (dropBelow t d)) d.expected.toFinset) d.expected).sum
        / (d.expected.length : ℚ) = _
      congr 2
      apply List.map_congr_left
      intro e he
      obtain ⟨b, hb⟩ := key d hd
      rw [hb, precTerm_prefix _ _ _ _ (hmem d hd e he)]
  rw [map_ok rank docs h0, map_ok rank (docs.map (dropBelow t)) (by simpa using h0)]
  · rw [List.map_map, List.length_map]
    congr 3
    exact List.map_congr_left hap
  · intro d hd he
    rw [List.mem_map] at hd
    obtain ⟨d', hd', rfl⟩ := hd
    exact hne d' hd' he
  · intro d hd he h
    obtain ⟨b, hb⟩ := key d hd
    rw [h] at hb
    exact hne d hd he (List.append_eq_nil_iff.mp hb.symm).1

example : exDocs.map (dropBelow (fun d => if d.expected = [3, 1] then 4 else 2)) =
    [⟨[3, 1], [(1, 5), (3, 4)]⟩, ⟨[4, 7], [(7, 2), (1, 3), (4, 9)]⟩] ∧
    meanAveragePrec sortRank (exDocs.map (dropBelow (fun d => if d.expected = [3, 1] then 4 else 2)))
      = .ok (11 / 12) := by
  constructor <;> decide +kernel

/-- Ties do matter: a ranking may break a tie differently once a lower-scored entry has gone. -/
theorem map_threshold_ties : ∃ rank, IsRanking rank ∧ ∃ (docs : List Doc) (t : Doc → ℚ),
    (∀ d ∈ docs, ∀ e ∈ d.expected, ∃ s, (e, s) ∈ d.stored ∧ t d ≤ s) ∧
    meanAveragePrec rank (docs.map (dropBelow t)) ≠ meanAveragePrec rank docs := by
  refine ⟨fun l => if l.length = 2 then sortRank l.reverse else sortRank l, ?_,
    [⟨[1], [(1, 5), (2, 5), (3, 1)]⟩], fun _ => 5, ?_, ?_⟩
  · intro l
    simp only
    split
    · exact ⟨(sortRank_isRanking _).1.trans (List.reverse_perm l), (sortRank_isRanking _).2⟩
    · exact sortRank_isRanking l
  · intro d hd e he
    simp only [List.mem_singleton] at hd
    subst hd
    simp only [List.mem_singleton] at he
    subst he
    exact ⟨5, by simp, le_rfl⟩
  · decide +kernel

/-! ## Missing links (C84) -/

/-- C84 is violated: a link which is not in the ranking at all counts like one found at its end.
Here one of two expected links is never returned, and the score is perfect. -/
theorem map_missing_link_perfect :
    meanAveragePrec sortRank [⟨[1, 2], [(1, 5)]⟩] = .ok 1 := by decide +kernel

/-- Exact behaviour: an absent expected link contributes the share of expected links in the
whole ranking. -/
theorem map_missing_link (recv : List Nat) (expt : Finset Nat) (e : Nat) (h : e ∉ recv) :
    precTerm recv expt e = (recv.toFinset ∩ expt).card / recv.toFinset.card := by
  have : findPos e recv = recv.length := by
    induction recv with
    | nil => rfl
    | cons x l ih =>
      unfold findPos
      rw [if_pos (fun hx => h (by rw [hx]; exact List.mem_cons_self)),
        ih (fun hm => h (List.mem_cons_of_mem _ hm)), List.length_cons]
  unfold precTerm
  rw [this, List.take_of_length_le (by omega)]

/-- What holds of C84: the score is strictly below one when a document with expected links was
returned some link which is not expected, ahead of everything else. -/
theorem map_missing_partial (rank : List (Nat × ℚ) → List (Nat × ℚ)) (hr : IsRanking rank) (docs : List Doc)
    (d : Doc) (hd : d ∈ docs) (he : d.expected ≠ []) (x : Nat) (hx : x ∉ d.expected)
    (hfirst : (recvIndices rank d).head? = some x) (r : ℚ) (h : meanAveragePrec rank docs = .ok r) : r < 1 := by
  have hdf := ((map_defined_iff rank hr docs).1).mp ⟨r, h⟩
  have hok := map_ok rank docs hdf.1 (fun d hm h1 h2 => hdf.2 d hm h1 ((recv_nil hr d).mp h2))
  rw [h] at hok
  cases hok
  have hlt : ap rank d < 1 := by
    unfold ap
    rw [if_neg he]
    have hp : ∀ e ∈ d.expected, precTerm (recvIndices rank d) d.expected.toFinset e < 1 := by
      intro e _
      cases hrec : recvIndices rank d with
      | nil => rw [hrec] at hfirst; cases hfirst
      | cons y ys =>
        rw [hrec] at hfirst
        simp only [List.head?_cons, Option.some.injEq] at hfirst
        subst hfirst
        unfold precTerm
        rw [div_lt_one]
        · exact_mod_cast Finset.card_lt_card (Finset.ssubset_iff_subset_ne.mpr ⟨Finset.inter_subset_left,
            fun heq => hx (by
              have : y ∈ (List.take (findPos e (y :: ys) + 1) (y :: ys)).toFinset := by
                rw [List.mem_toFinset, List.take_succ_cons]; exact List.mem_cons_self
              rw [← heq, Finset.mem_inter, List.mem_toFinset] at this
              exact List.mem_toFinset.mp this.2)⟩)
        · have := take_nonempty (recv := y :: ys) (by simp) (findPos e (y :: ys))
          exact_mod_cast Nat.pos_of_ne_zero this
    have hlen : (0 : ℚ) < d.expected.length := by
      exact_mod_cast List.length_pos_of_ne_nil he
    rw [div_lt_one hlen]
    have : ∀ l : List Nat, l ≠ [] → (∀ e ∈ l, precTerm (recvIndices rank d) d.expected.toFinset e < 1) →
        (l.map (precTerm (recvIndices rank d) d.expected.toFinset)).sum < l.length := by
      intro l
      induction l with
      | nil => intro h; exact absurd rfl h
      | cons e l ih =>
        intro _ hl
        rw [List.map_cons, List.sum_cons, List.length_cons]
        push_cast
        have h1 := hl e List.mem_cons_self
        rcases l with _ | ⟨f, l⟩
        · simpa using h1
        · have := ih (by simp) (fun e he => hl e (List.mem_cons_of_mem _ he))
          linarith
    exact this _ he hp
  have hlen : (0 : ℚ) < docs.length := by exact_mod_cast List.length_pos_of_mem hd
  rw [div_lt_one hlen]
  obtain ⟨a, b, rfl⟩ := List.append_of_mem hd
  have h1 := sum_bounds a (ap rank) (fun d _ => ap_bounds rank d)
  have h2 := sum_bounds b (ap rank) (fun d _ => ap_bounds rank d)
  simp only [List.map_append, List.map_cons, List.sum_append, List.sum_cons, List.length_append,
    List.length_cons]
  push_cast
  linarith [h1.2, h2.2]

example : meanAveragePrec sortRank [⟨[1, 2], [(1, 5), (3, 6)]⟩] = .ok (1 / 2) ∧
    (recvIndices sortRank ⟨[1, 2], [(1, 5), (3, 6)]⟩).head? = some 3 := by
  constructor <;> decide +kernel

end Verif.Props.Evals
