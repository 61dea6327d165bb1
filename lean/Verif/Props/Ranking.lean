import Verif.Props.Evals

/-!
# Mean reciprocal rank, precision and recall at m (C24-C27)
-/

namespace Verif.Props.Ranking

open Verif Verif.Evals Verif.Props.Evals

/-! ## Mean reciprocal rank -/

theorem inner_not_mem (x : Nat) (fuel : Nat) : ∀ e (l : List Nat) (hits : Nat), x ∉ l →
    mrrInner x fuel e l hits = (l, hits) := by
  induction fuel with
  | zero => intros; rfl
  | succ fuel ih =>
    intro e l hits hx
    unfold mrrInner
    split
    · rename_i h
      rw [if_neg (fun heq => hx (by rw [heq]; exact List.getElem_mem h))]
      exact ih _ _ _ hx
    · rfl

theorem inner_spec (x : Nat) (suf : List Nat) : ∀ (pre : List Nat) (fuel hits : Nat), x ∉ pre →
    (pre ++ suf).Nodup → suf.length ≤ fuel →
    mrrInner x fuel pre.length (pre ++ suf) hits =
      ((pre ++ suf).erase x, hits + if x ∈ suf then 1 else 0) := by
  induction suf with
  | nil =>
    intro pre fuel hits hx hn hf
    rw [List.append_nil, inner_not_mem x fuel _ _ _ hx, List.erase_of_not_mem hx]
    simp
  | cons y ys ih =>
    intro pre fuel hits hx hn hf
    cases fuel with
    | zero => simp at hf
    | succ fuel =>
      unfold mrrInner
      rw [dif_pos (by simp)]
      have hget : (pre ++ y :: ys)[pre.length]'(by simp) = y := by simp
      rw [hget]
      by_cases hxy : x = y
      · subst hxy
        rw [if_pos rfl]
        have he : (pre ++ x :: ys).eraseIdx pre.length = pre ++ ys := by
          rw [List.eraseIdx_append_of_length_le le_rfl, Nat.sub_self]; rfl
        have hys : x ∉ ys := by
          rw [List.nodup_append] at hn
          exact (List.nodup_cons.mp hn.2.1).1
        rw [he, inner_not_mem _ _ _ _ _ (by simp [hx, hys]), List.erase_append_right _ hx]
        simp
      · rw [if_neg hxy]
        have := ih (pre ++ [y]) fuel hits (by simp [hx, hxy]) (by simpa using hn) (by simpa using hf)
        simp only [List.length_append, List.length_singleton, List.append_assoc, List.singleton_append] at this
        rw [this]
        simp [hxy]

/-- the reciprocal ranks of the expected ids found in a ranking -/
def recips (recv expt : List Nat) : List ℚ :=
  (expt.filter (· ∈ recv)).map (fun e => 1 / ((recv.idxOf e : ℚ) + 1))

theorem outer_spec (recv : List Nat) : ∀ (r : Nat) (expt : List Nat) (sum : ℚ) (count : Nat),
    expt.Nodup → recv.Nodup →
    mrrOuter r recv expt (sum, count) =
      (sum + ((expt.filter (· ∈ recv)).map (fun e => 1 / (((r + recv.idxOf e : Nat) : ℚ) + 1))).sum,
        count + (expt.filter (· ∈ recv)).length) := by
  induction recv with
  | nil => intro r expt sum count _ _; simp [mrrOuter]
  | cons x recv ih =>
    intro r expt sum count he hr
    rw [List.nodup_cons] at hr
    unfold mrrOuter
    split
    · have hi := inner_spec x expt [] expt.length 0 (by simp) (by simpa using he) le_rfl
      simp only [List.length_nil, List.nil_append, Nat.zero_add] at hi
      rw [hi]
      simp only
      rw [ih (r + 1) (expt.erase x) _ _ (he.erase x) hr.2]
      have hcongr : ((expt.erase x).filter (· ∈ recv)).map
            (fun e => 1 / (((r + 1 + recv.idxOf e : Nat) : ℚ) + 1)) =
          ((expt.erase x).filter (· ∈ x :: recv)).map
            (fun e => 1 / (((r + (x :: recv).idxOf e : Nat) : ℚ) + 1)) := by
        have hf : (expt.erase x).filter (· ∈ recv) = (expt.erase x).filter (· ∈ x :: recv) := by
          apply List.filter_congr
          intro e hem
          have : e ≠ x := fun h => by
            rw [h] at hem; exact (List.Nodup.not_mem_erase he) hem
          simp [this]
        rw [hf]
        apply List.map_congr_left
        intro e hem
        have : e ≠ x := fun h => by
          have := List.mem_of_mem_filter hem
          rw [h] at this; exact (List.Nodup.not_mem_erase he) this
        rw [List.idxOf_cons_ne _ (Ne.symm this)]
        have hidx : r + 1 + recv.idxOf e = r + (recv.idxOf e + 1) := by omega
        rw [hidx]
      have hlen : ((expt.erase x).filter (· ∈ recv)).length =
          ((expt.erase x).filter (· ∈ x :: recv)).length := by
        have := congrArg List.length hcongr
        simpa only [List.length_map] using this
      rw [hcongr, hlen]
      by_cases hx : x ∈ expt
      · have hp : expt.Perm (x :: expt.erase x) := List.perm_cons_erase hx
        have hpf := hp.filter (· ∈ x :: recv)
        rw [List.filter_cons_of_pos (by simp)] at hpf
        rw [(hpf.map _).sum_eq, hpf.length_eq, List.map_cons, List.sum_cons, List.idxOf_cons_self,
          List.length_cons, if_pos hx, Nat.add_zero]
        simp only [Prod.mk.injEq]
        constructor
        · push_cast; ring
        · omega
      · rw [List.erase_of_not_mem hx, if_neg hx]
        simp
    · rename_i h
      have : expt = [] := List.eq_nil_of_length_eq_zero (by omega)
      subst this
      simp

theorem outer_zero (recv expt : List Nat) (acc : ℚ × Nat) (he : expt.Nodup) (hr : recv.Nodup) :
    mrrOuter 0 recv expt acc = (acc.1 + (recips recv expt).sum, acc.2 + (recips recv expt).length) := by
  obtain ⟨s, c⟩ := acc
  rw [outer_spec recv 0 expt s c he hr]
  unfold recips
  simp

/-- all reciprocal ranks of all documents -/
def allRecips (rank : List (Nat × ℚ) → List (Nat × ℚ)) (docs : List Doc) : List ℚ :=
  docs.flatMap (fun d => recips (recvIndices rank d) d.expected)

theorem recv_nodup {rank : List (Nat × ℚ) → List (Nat × ℚ)} (hr : IsRanking rank) (d : Doc)
    (h : (d.stored.map Prod.fst).Nodup) : (recvIndices rank d).Nodup :=
  (((hr d.stored).1.map Prod.fst).nodup_iff).mpr h

theorem mrr_fold (rank : List (Nat × ℚ) → List (Nat × ℚ)) (hr : IsRanking rank) (docs : List Doc)
    (hn : ∀ d ∈ docs, d.expected.Nodup ∧ (d.stored.map Prod.fst).Nodup) : ∀ acc : ℚ × Nat,
    docs.foldl (fun acc d =>
      if d.expected.length = 0 then acc
      else mrrOuter 0 (recvIndices rank d) d.expected acc) acc =
    (acc.1 + (allRecips rank docs).sum, acc.2 + (allRecips rank docs).length) := by
  induction docs with
  | nil => intro acc; simp [allRecips]
  | cons d docs ih =>
    intro acc
    obtain ⟨h1, h2⟩ := hn d List.mem_cons_self
    rw [List.foldl_cons, ih (fun d hd => hn d (List.mem_cons_of_mem _ hd))]
    have hstep : (if d.expected.length = 0 then acc else mrrOuter 0 (recvIndices rank d) d.expected acc) =
        (acc.1 + (recips (recvIndices rank d) d.expected).sum,
          acc.2 + (recips (recvIndices rank d) d.expected).length) := by
      split
      · rename_i h
        rw [List.eq_nil_of_length_eq_zero h]
        simp [recips]
      · exact outer_zero _ _ _ h1 (recv_nodup hr d h2)
    rw [hstep]
    unfold allRecips
    rw [List.flatMap_cons, List.sum_append, List.length_append]
    simp only [Prod.mk.injEq]
    exact ⟨by ring, by omega⟩

/-- C24.  With no repeated ids, mean reciprocal rank is the mean of one over the position in the ranking
(counted from one), over all expected links of all documents which occur in the ranking; it is
undefined exactly when there is none. -/
theorem mrr_mean (rank : List (Nat × ℚ) → List (Nat × ℚ)) (hr : IsRanking rank) (docs : List Doc)
    (hn : ∀ d ∈ docs, d.expected.Nodup ∧ (d.stored.map Prod.fst).Nodup) :
    (allRecips rank docs ≠ [] →
      meanReciprocalRank rank docs = .ok ((allRecips rank docs).sum / (allRecips rank docs).length)) ∧
    (allRecips rank docs = [] → meanReciprocalRank rank docs = .error .zeroDivisionError) ∧
    (allRecips rank docs = [] ↔ ∀ d ∈ docs, ∀ e ∈ d.expected, ∀ s, (e, s) ∉ d.stored) := by
  have hrun : meanReciprocalRank rank docs =
      if (allRecips rank docs).length = 0 then .error .zeroDivisionError
      else .ok ((allRecips rank docs).sum / (allRecips rank docs).length) := by
    unfold meanReciprocalRank
    rw [mrr_fold rank hr docs hn (0, 0)]
    simp only [zero_add]
  refine ⟨?_, ?_, ?_⟩
  · intro h; rw [hrun, if_neg (by simpa using h)]
  · intro h; rw [hrun, if_pos (by rw [h]; rfl)]
  · unfold allRecips recips
    rw [List.flatMap_eq_nil_iff]
    constructor
    · intro h d hd e he s hs
      have := h d hd
      rw [List.map_eq_nil_iff, List.filter_eq_nil_iff] at this
      exact this e he (by simpa using (recv_mem hr d e).mpr ⟨s, hs⟩)
    · intro h d hd
      rw [List.map_eq_nil_iff, List.filter_eq_nil_iff]
      intro e he hm
      obtain ⟨s, hs⟩ := (recv_mem hr d e).mp (by simpa using hm)
      exact h d hd e he s hs

/-- C24, range: when defined, mean reciprocal rank lies in (0, 1]. -/
theorem mrr_range (rank : List (Nat × ℚ) → List (Nat × ℚ)) (hr : IsRanking rank) (docs : List Doc)
    (hn : ∀ d ∈ docs, d.expected.Nodup ∧ (d.stored.map Prod.fst).Nodup) (r : ℚ)
    (h : meanReciprocalRank rank docs = .ok r) : 0 < r ∧ r ≤ 1 := by
  obtain ⟨h1, h2, _⟩ := mrr_mean rank hr docs hn
  by_cases h0 : allRecips rank docs = []
  · rw [h2 h0] at h; cases h
  · rw [h1 h0] at h
    cases h
    have hb : ∀ q ∈ allRecips rank docs, 0 < q ∧ q ≤ 1 := by
      intro q hq
      unfold allRecips recips at hq
      rw [List.mem_flatMap] at hq
      obtain ⟨d, _, hq⟩ := hq
      rw [List.mem_map] at hq
      obtain ⟨e, _, rfl⟩ := hq
      refine ⟨by positivity, ?_⟩
      rw [div_le_one (by positivity)]
      have : (0 : ℚ) ≤ ((recvIndices rank d).idxOf e : ℚ) := by positivity
      linarith
    have hlen : (0 : ℚ) < (allRecips rank docs).length := by exact_mod_cast List.length_pos_of_ne_nil h0
    have hpos : ∀ l : List ℚ, l ≠ [] → (∀ q ∈ l, 0 < q ∧ q ≤ 1) → 0 < l.sum ∧ l.sum ≤ l.length := by
      intro l
      induction l with
      | nil => intro h; exact absurd rfl h
      | cons q l ih =>
        intro _ hl
        have hq := hl q List.mem_cons_self
        rw [List.sum_cons, List.length_cons]
        push_cast
        rcases l with _ | ⟨q', l⟩
        · simp only [List.sum_nil, List.length_nil]; push_cast
          constructor <;> linarith [hq.1, hq.2]
        · have := ih (by simp) (fun e he => hl e (List.mem_cons_of_mem _ he))
          constructor <;> linarith [hq.1, hq.2, this.1, this.2]
    obtain ⟨p1, p2⟩ := hpos _ h0 hb
    exact ⟨div_pos p1 hlen, (div_le_one hlen).mpr p2⟩

/-- C24: an expected link absent from the ranking does not change the score. -/
theorem mrr_absent_ignored (rank : List (Nat × ℚ) → List (Nat × ℚ)) (hr : IsRanking rank) (pre post : List Doc)
    (d : Doc) (e : Nat) (hn : ∀ d' ∈ pre ++ [⟨e :: d.expected, d.stored⟩] ++ post,
      d'.expected.Nodup ∧ (d'.stored.map Prod.fst).Nodup)
    (he : ∀ s, (e, s) ∉ d.stored) :
    meanReciprocalRank rank (pre ++ [⟨e :: d.expected, d.stored⟩] ++ post) =
      meanReciprocalRank rank (pre ++ [d] ++ post) := by
  have hn' : ∀ d' ∈ pre ++ [d] ++ post, d'.expected.Nodup ∧ (d'.stored.map Prod.fst).Nodup := by
    intro d' hd'
    simp only [List.mem_append, List.mem_singleton] at hd' hn
    rcases hd' with (h | rfl) | h
    · exact hn d' (Or.inl (Or.inl h))
    · have := hn _ (Or.inl (Or.inr rfl))
      exact ⟨(List.nodup_cons.mp this.1).2, this.2⟩
    · exact hn d' (Or.inr h)
  have heq : allRecips rank (pre ++ [⟨e :: d.expected, d.stored⟩] ++ post) =
      allRecips rank (pre ++ [d] ++ post) := by
    unfold allRecips
    simp only [List.flatMap_append, List.flatMap_singleton]
    congr 2
    have hrv : recvIndices rank ⟨e :: d.expected, d.stored⟩ = recvIndices rank d := rfl
    unfold recips
    rw [hrv, List.filter_cons_of_neg]
    simp only [decide_eq_true_eq]
    intro hm
    obtain ⟨s, hs⟩ := (recv_mem hr d e).mp hm
    exact he s hs
  obtain ⟨a1, a2, _⟩ := mrr_mean rank hr _ hn
  obtain ⟨b1, b2, _⟩ := mrr_mean rank hr _ hn'
  rw [heq] at a1 a2
  by_cases h0 : allRecips rank (pre ++ [d] ++ post) = []
  · rw [a2 h0, b2 h0]
  · rw [a1 h0, b1 h0]

example : (∀ d ∈ exDocs, d.expected.Nodup ∧ (d.stored.map Prod.fst).Nodup) ∧
    allRecips sortRank exDocs = [1 / 2, 1, 1, 1 / 3] ∧
    meanReciprocalRank sortRank exDocs = .ok (17 / 24) ∧
    meanReciprocalRank sortRank [⟨[5], [(1, 2)]⟩, ⟨[], [(1, 2)]⟩] = .error .zeroDivisionError :=
  ⟨by decide, by decide +kernel, by decide +kernel, by decide +kernel⟩

/-! ## Precision and recall at m -/

/-- The requested range a document with `n` links belongs to: the first containing `n` (ranges starting
at -1 are not requested ranges). -/
def firstGroup (groups : List Group) (n : Nat) : Option Group :=
  groups.find? (fun g => g.1 ≠ -1 ∧ g.1 ≤ (n : Int) ∧ (n : Int) ≤ g.2)

theorem findGroup_spec (n : Nat) (groups : List Group) :
    findGroup n groups = match firstGroup groups n with
      | some g => .ok g
      | none => .error .indexError := by
  induction groups with
  | nil => rfl
  | cons g gs ih =>
    unfold findGroup firstGroup
    rw [List.find?_cons]
    by_cases h : g.1 ≠ -1 ∧ g.1 ≤ (n : Int) ∧ (n : Int) ≤ g.2
    · rw [if_neg (by simp only [allGroups]; omega)]
      simp only [h, decide_true, not_false_eq_true, and_self, ne_eq]
    · rw [if_pos (by simp only [allGroups]; omega), ih]
      unfold firstGroup
      rw [decide_eq_false h]

theorem firstGroup_ne_all {groups : List Group} {n : Nat} {g : Group} (h : firstGroup groups n = some g) :
    g ≠ allGroups := by
  have := List.find?_some h
  simp only [ne_eq, decide_eq_true_eq] at this
  intro he
  exact this.1 (by rw [he]; rfl)

/-- number of distinct expected links among the first `m + 1` of the ranking -/
def hits (rank : List (Nat × ℚ) → List (Nat × ℚ)) (d : Doc) (m : Nat) : Nat :=
  (((recvIndices rank d).take (m + 1)).toFinset ∩ d.expected.toFinset).card

/-- what a document adds to the sum for group `h` at list position `i`, per cut-off -/
def addends (l : List (Nat × Nat)) (f : Nat → ℚ) (i : Nat) : ℚ :=
  ((l.filter (fun p => p.1 = i)).map (fun p => f p.2)).sum

theorem bump2 (f : Group → Nat → ℚ) (g : Group) (hg : g ≠ allGroups) (i : Nat) (v : ℚ) (h : Group) (j : Nat) :
    bump (bump f g i v) allGroups i v h j =
      f h j + if (h = g ∨ h = allGroups) ∧ j = i then v else 0 := by
  unfold bump
  by_cases h1 : h = allGroups
  · subst h1
    by_cases h2 : j = i
    · simp [h2, Ne.symm hg]
    · simp [h2]
  · by_cases h3 : h = g
    · subst h3
      by_cases h2 : j = i <;> simp [h1, h2]
    · simp [h1, h3]

theorem cut_fold (rank : List (Nat × ℚ) → List (Nat × ℚ)) (d : Doc) (g : Group) (hg : g ≠ allGroups)
    (l : List (Nat × Nat)) (hl : ∀ p ∈ l, 0 < p.2) : ∀ s : PrecRec,
    ∃ s', l.foldlM (cutStep g (recvIndices rank d) d.expected.toFinset) s = .ok s' ∧
      s'.counts = s.counts ∧
      (∀ h i, s'.precs h i = s.precs h i +
        if h = g ∨ h = allGroups then addends l (fun m => hits rank d m / m) i else 0) ∧
      (∀ h i, s'.recs h i = s.recs h i +
        if h = g ∨ h = allGroups then addends l (fun m => hits rank d m / d.expected.toFinset.card) i else 0) := by
  induction l with
  | nil =>
    intro s
    refine ⟨s, rfl, rfl, ?_, ?_⟩ <;> intro h i <;> simp [addends]
  | cons p l ih =>
    intro s
    have hp := hl p List.mem_cons_self
    have hstep : ∃ s1, cutStep g (recvIndices rank d) d.expected.toFinset s p = .ok s1 ∧
        s1.counts = s.counts ∧
        (∀ h i, s1.precs h i = s.precs h i +
          if (h = g ∨ h = allGroups) ∧ i = p.1 then (hits rank d p.2 : ℚ) / p.2 else 0) ∧
        (∀ h i, s1.recs h i = s.recs h i +
          if (h = g ∨ h = allGroups) ∧ i = p.1 then (hits rank d p.2 : ℚ) / d.expected.toFinset.card else 0) := by
      unfold cutStep
      by_cases hz : (((recvIndices rank d).take (p.2 + 1)).toFinset).card = 0
      · simp only
        rw [if_pos hz]
        have h0 : hits rank d p.2 = 0 := by
          unfold hits
          rw [Finset.card_eq_zero.mp hz, Finset.empty_inter, Finset.card_empty]
        refine ⟨s, rfl, rfl, ?_, ?_⟩ <;> intro h i <;> rw [h0] <;> simp
      · simp only
        rw [if_neg hz, if_neg (by omega)]
        refine ⟨_, rfl, rfl, ?_, ?_⟩
        · intro h i; exact bump2 _ g hg _ _ h i
        · intro h i; exact bump2 _ g hg _ _ h i
    obtain ⟨s1, e1, e2, e3, e4⟩ := hstep
    obtain ⟨s', f1, f2, f3, f4⟩ := ih (fun p hp => hl p (List.mem_cons_of_mem _ hp)) s1
    have hadd : ∀ (f : Nat → ℚ) i, addends (p :: l) f i = (if i = p.1 then f p.2 else 0) + addends l f i := by
      intro f i
      unfold addends
      by_cases h : p.1 = i
      · rw [List.filter_cons_of_pos (by simpa using h), List.map_cons, List.sum_cons, if_pos h.symm]
      · rw [List.filter_cons_of_neg (by simpa using h), if_neg (fun h' => h h'.symm), zero_add]
    refine ⟨s', ?_, by rw [f2, e2], ?_, ?_⟩
    · rw [List.foldlM_cons, e1]; exact f1
    · intro h i
      rw [f3, e3, hadd]
      by_cases hh : h = g ∨ h = allGroups
      · simp only [hh, true_and, if_true]; ring
      · simp only [hh, false_and, if_false]; ring
    · intro h i
      rw [f4, e4, hadd]
      by_cases hh : h = g ∨ h = allGroups
      · simp only [hh, true_and, if_true]; ring
      · simp only [hh, false_and, if_false]; ring

/-- The documents counted for group `h`: those with links whose first containing range is `h`, and for
the overall group all documents with links. -/
def members (groups : List Group) (docs : List Doc) (h : Group) : List Doc :=
  docs.filter (fun d => d.expected ≠ [] ∧
    (h = allGroups ∨ firstGroup groups d.expected.length = some h))

theorem docs_fold (rank : List (Nat × ℚ) → List (Nat × ℚ)) (ms : List Nat) (hms : ∀ m ∈ ms, 0 < m)
    (groups : List Group) (docs : List Doc)
    (hg : ∀ d ∈ docs, d.expected ≠ [] → (firstGroup groups d.expected.length).isSome) : ∀ s : PrecRec,
    ∃ s', docs.foldlM (docStep rank ms groups) s = .ok s' ∧
      (∀ h, s'.counts h = s.counts h + (members groups docs h).length) ∧
      (∀ h i, s'.precs h i = s.precs h i + ((members groups docs h).map (fun d =>
        addends ((List.range ms.length).zip ms) (fun m => hits rank d m / m) i)).sum) ∧
      (∀ h i, s'.recs h i = s.recs h i + ((members groups docs h).map (fun d =>
        addends ((List.range ms.length).zip ms) (fun m => hits rank d m / d.expected.toFinset.card) i)).sum) := by
  induction docs with
  | nil =>
    intro s
    refine ⟨s, rfl, ?_, ?_, ?_⟩ <;> intros <;> simp [members]
  | cons d docs ih =>
    intro s
    have hg' : ∀ d ∈ docs, d.expected ≠ [] → (firstGroup groups d.expected.length).isSome :=
      fun d hd => hg d (List.mem_cons_of_mem _ hd)
    by_cases he : d.expected = []
    · obtain ⟨s', f1, f2, f3, f4⟩ := ih hg' s
      have hm : ∀ h, members groups (d :: docs) h = members groups docs h := by
        intro h
        unfold members
        rw [List.filter_cons_of_neg (by simp [he])]
      refine ⟨s', ?_, ?_, ?_, ?_⟩
      · rw [List.foldlM_cons]
        have : docStep rank ms groups s d = .ok s := by
          unfold docStep; rw [if_pos (by simp [he])]
        rw [this]; exact f1
      · intro h; rw [hm]; exact f2 h
      · intro h i; rw [hm]; exact f3 h i
      · intro h i; rw [hm]; exact f4 h i
    · obtain ⟨g, hgs⟩ := Option.isSome_iff_exists.mp (hg d List.mem_cons_self he)
      have hga := firstGroup_ne_all hgs
      obtain ⟨s1, e1, e2, e3, e4⟩ := cut_fold rank d g hga ((List.range ms.length).zip ms)
        (fun p hp => hms _ (List.of_mem_zip hp).2) s
      have hstep : docStep rank ms groups s d = .ok { s1 with counts := fun h =>
          let c := if h = g then s1.counts h + 1 else s1.counts h
          if h = allGroups then c + 1 else c } := by
        unfold docStep
        rw [if_neg (by simpa using he), findGroup_spec, hgs]
        change (do
          let s ← List.foldlM _ _ _
          return _ : Py PrecRec) = _
        rw [e1]
        rfl
      obtain ⟨s', f1, f2, f3, f4⟩ := ih hg' { s1 with counts := fun h =>
          let c := if h = g then s1.counts h + 1 else s1.counts h
          if h = allGroups then c + 1 else c }
      have hm : ∀ h, members groups (d :: docs) h =
          if h = g ∨ h = allGroups then d :: members groups docs h else members groups docs h := by
        intro h
        unfold members
        by_cases hh : h = g ∨ h = allGroups
        · rw [if_pos hh, List.filter_cons_of_pos]
          simp only [decide_eq_true_eq, hgs, Option.some.injEq]
          exact ⟨he, by rcases hh with h | h; right; exact h.symm; left; exact h⟩
        · rw [if_neg hh, List.filter_cons_of_neg]
          simp only [decide_eq_true_eq, hgs, Option.some.injEq]
          rintro ⟨_, h | h⟩
          · exact hh (Or.inr h)
          · exact hh (Or.inl h.symm)
      refine ⟨s', ?_, ?_, ?_, ?_⟩
      · rw [List.foldlM_cons, hstep]; exact f1
      · intro h
        rw [f2, hm]
        simp only [e2]
        by_cases h1 : h = g
        · have h2 : h ≠ allGroups := by rw [h1]; exact hga
          simp only [h1, hga, if_true, if_false, true_or, List.length_cons]; omega
        · by_cases h2 : h = allGroups
          · simp only [h2, Ne.symm hga, if_true, if_false, or_true, List.length_cons]; omega
          · simp only [h1, h2, if_false, or_self]
      · intro h i
        rw [f3, hm]
        simp only [e3]
        by_cases hh : h = g ∨ h = allGroups
        · simp only [hh, if_true, List.map_cons, List.sum_cons]; ring
        · simp only [hh, if_false]; ring
      · intro h i
        rw [f4, hm]
        simp only [e4]
        by_cases hh : h = g ∨ h = allGroups
        · simp only [hh, if_true, List.map_cons, List.sum_cons]; ring
        · simp only [hh, if_false]; ring

theorem addends_at (ms : List Nat) (f : Nat → ℚ) (i m : Nat) (h : ms[i]? = some m) :
    addends ((List.range ms.length).zip ms) f i = f m := by
  unfold addends
  have hi : i < ms.length := (List.getElem?_eq_some_iff.mp h).1
  have hmi : ms[i] = m := (List.getElem?_eq_some_iff.mp h).2
  have : ((List.range ms.length).zip ms).filter (fun p => p.1 = i) = [(i, m)] := by
    have hz : (List.range ms.length).zip ms = (List.range ms.length).map (fun j => (j, ms.getD j 0)) := by
      apply List.ext_getElem
      · simp
      · intro k h1 h2
        have hk : k < ms.length := by simpa using h2
        simp [List.getElem?_eq_getElem hk]
    rw [hz, List.filter_map]
    have hf : (List.range ms.length).filter ((fun p : Nat × Nat => decide (p.1 = i)) ∘ fun j => (j, ms.getD j 0)) = [i] := by
      have : ((fun p : Nat × Nat => decide (p.1 = i)) ∘ fun j => (j, ms.getD j 0)) = fun j => decide (j = i) := rfl
      rw [this]
      have hp : (List.range ms.length).filter (fun j => decide (j = i)) =
          List.replicate ((List.range ms.length).count i) i := by
        rw [← List.filter_beq]
        rfl
      rw [hp, List.count_eq_one_of_mem List.nodup_range (List.mem_range.mpr hi)]
      rfl
    rw [hf]
    simp [h]
  rw [this]
  simp

/-- mean of `f` over a list of documents, zero for none -/
def meanOver (l : List Doc) (f : Doc → ℚ) : ℚ := (l.map f).sum / (max 1 l.length : Nat)

/-- Precision, recall and counts in closed form: means over the members of each group.  (C25, C26 and
C27 are read off this.) -/
theorem prec_rec_closed (rank : List (Nat × ℚ) → List (Nat × ℚ)) (ms : List Nat) (hms : ∀ m ∈ ms, 0 < m)
    (groups : Option (List Group)) (docs : List Doc)
    (hg : ∀ d ∈ docs, d.expected ≠ [] → (firstGroup (usedGroups groups) d.expected.length).isSome) :
    ∃ R, meanPrecRecAt rank docs ms groups = .ok R ∧
      (∀ h, R.counts h = (members (usedGroups groups) docs h).length) ∧
      (∀ h i m, ms[i]? = some m → R.precs h i =
        meanOver (members (usedGroups groups) docs h) (fun d => hits rank d m / m)) ∧
      (∀ h i m, ms[i]? = some m → R.recs h i =
        meanOver (members (usedGroups groups) docs h) (fun d => hits rank d m / d.expected.toFinset.card)) := by
  obtain ⟨s, e1, e2, e3, e4⟩ := docs_fold rank ms hms (usedGroups groups) docs hg
    ⟨fun _ _ => 0, fun _ _ => 0, fun _ => 0⟩
  refine ⟨⟨fun g i => s.precs g i / (max 1 (s.counts g) : Nat),
    fun g i => s.recs g i / (max 1 (s.counts g) : Nat), s.counts⟩, ?_, ?_, ?_, ?_⟩
  · unfold meanPrecRecAt; rw [e1]; rfl
  · intro h; simp only [e2]; omega
  · intro h i m hi
    simp only [e2, e3, zero_add]
    unfold meanOver
    congr 2
    apply List.map_congr_left
    intro d _
    exact addends_at ms _ i m hi
  · intro h i m hi
    simp only [e2, e4, zero_add]
    unfold meanOver
    congr 2
    apply List.map_congr_left
    intro d _
    exact addends_at ms _ i m hi

theorem meanOver_bounds (l : List Doc) (f : Doc → ℚ) (b : ℚ) (hb : 0 ≤ b) (h : ∀ d ∈ l, 0 ≤ f d ∧ f d ≤ b) :
    0 ≤ meanOver l f ∧ meanOver l f ≤ b := by
  unfold meanOver
  have hs : 0 ≤ (l.map f).sum ∧ (l.map f).sum ≤ l.length * b := by
    induction l with
    | nil => simp
    | cons d l ih =>
      obtain ⟨h1, h2⟩ := ih (fun d hd => h d (List.mem_cons_of_mem _ hd))
      obtain ⟨h3, h4⟩ := h d List.mem_cons_self
      rw [List.map_cons, List.sum_cons, List.length_cons]
      push_cast
      constructor <;> linarith
  have hpos : (0 : ℚ) < (max 1 l.length : Nat) := by
    exact_mod_cast Nat.lt_of_lt_of_le Nat.zero_lt_one (Nat.le_max_left 1 l.length)
  refine ⟨div_nonneg hs.1 hpos.le, ?_⟩
  rw [div_le_iff₀ hpos]
  have hle : (l.length : ℚ) ≤ (max 1 l.length : Nat) := by exact_mod_cast Nat.le_max_right 1 l.length
  calc (l.map f).sum ≤ l.length * b := hs.2
    _ ≤ (max 1 l.length : Nat) * b := mul_le_mul_of_nonneg_right hle hb
    _ = b * (max 1 l.length : Nat) := mul_comm _ _

theorem meanOver_mono (l : List Doc) (f g : Doc → ℚ) (h : ∀ d ∈ l, f d ≤ g d) : meanOver l f ≤ meanOver l g := by
  unfold meanOver
  have hs : (l.map f).sum ≤ (l.map g).sum := by
    induction l with
    | nil => simp
    | cons d l ih =>
      rw [List.map_cons, List.sum_cons, List.map_cons, List.sum_cons]
      exact add_le_add (h d List.mem_cons_self) (ih (fun d hd => h d (List.mem_cons_of_mem _ hd)))
  gcongr

theorem members_expected {groups : List Group} {docs : List Doc} {h : Group} {d : Doc}
    (hd : d ∈ members groups docs h) : d ∈ docs ∧ d.expected ≠ [] := by
  unfold members at hd
  rw [List.mem_filter] at hd
  simp only [decide_eq_true_eq] at hd
  exact ⟨hd.1, hd.2.1⟩

theorem hits_mono (rank : List (Nat × ℚ) → List (Nat × ℚ)) (d : Doc) {m n : Nat} (h : m ≤ n) :
    hits rank d m ≤ hits rank d n := by
  unfold hits
  apply Finset.card_le_card
  apply Finset.inter_subset_inter_right
  intro x hx
  rw [List.mem_toFinset] at hx ⊢
  exact (List.take_subset_take_left _ (by omega)) hx

theorem hits_le_expected (rank : List (Nat × ℚ) → List (Nat × ℚ)) (d : Doc) (m : Nat) :
    hits rank d m ≤ d.expected.toFinset.card := Finset.card_le_card Finset.inter_subset_right

theorem hits_le (rank : List (Nat × ℚ) → List (Nat × ℚ)) (d : Doc) (m : Nat) : hits rank d m ≤ m + 1 := by
  unfold hits
  calc _ ≤ (((recvIndices rank d).take (m + 1)).toFinset).card := Finset.card_le_card Finset.inter_subset_left
    _ ≤ ((recvIndices rank d).take (m + 1)).length := List.toFinset_card_le _
    _ ≤ m + 1 := List.length_take_le _ _

/-- C25.  Whenever the evaluation succeeds on positive cut-offs, recall lies in [0, 1] for every
group and cut-off, does not decrease from one cut-off to a larger one, and is one for a group with members
when every member's ranking contains all its expected links and the cut-off is at least its length. -/
theorem recall_spec (rank : List (Nat × ℚ) → List (Nat × ℚ)) (hr : IsRanking rank) (ms : List Nat)
    (hms : ∀ m ∈ ms, 0 < m) (groups : Option (List Group)) (docs : List Doc)
    (hg : ∀ d ∈ docs, d.expected ≠ [] → (firstGroup (usedGroups groups) d.expected.length).isSome) :
    ∃ R, meanPrecRecAt rank docs ms groups = .ok R ∧
      (∀ h i, i < ms.length → 0 ≤ R.recs h i ∧ R.recs h i ≤ 1) ∧
      (∀ h i j m n, ms[i]? = some m → ms[j]? = some n → m ≤ n → R.recs h i ≤ R.recs h j) ∧
      (∀ h i m, ms[i]? = some m → members (usedGroups groups) docs h ≠ [] →
        (∀ d ∈ members (usedGroups groups) docs h, d.stored.length ≤ m ∧
          ∀ e ∈ d.expected, ∃ s, (e, s) ∈ d.stored) → R.recs h i = 1) := by
  obtain ⟨R, e1, _, _, e4⟩ := prec_rec_closed rank ms hms groups docs hg
  refine ⟨R, e1, ?_, ?_, ?_⟩
  · intro h i hi
    rw [e4 h i ms[i] (List.getElem?_eq_getElem hi)]
    apply meanOver_bounds _ _ 1 zero_le_one
    intro d _
    refine ⟨by positivity, div_le_one_of_le₀ (by exact_mod_cast hits_le_expected rank d _) (by positivity)⟩
  · intro h i j m n hi hj hmn
    rw [e4 h i m hi, e4 h j n hj]
    apply meanOver_mono
    intro d _
    have : (hits rank d m : ℚ) ≤ hits rank d n := by exact_mod_cast hits_mono rank d hmn
    gcongr
  · intro h i m hi hne hall
    rw [e4 h i m hi]
    have h1 : ∀ d ∈ members (usedGroups groups) docs h,
        (hits rank d m : ℚ) / d.expected.toFinset.card = 1 := by
      intro d hd
      obtain ⟨hlen, hs⟩ := hall d hd
      have hex := (members_expected hd).2
      have hl : (recvIndices rank d).length = d.stored.length := by
        unfold recvIndices; rw [List.length_map, (hr d.stored).1.length_eq]
      have : hits rank d m = d.expected.toFinset.card := by
        unfold hits
        rw [List.take_of_length_le (by omega), Finset.inter_eq_right.mpr]
        intro e he
        rw [List.mem_toFinset] at he ⊢
        exact (recv_mem hr d e).mpr (hs e he)
      rw [this]
      apply div_self
      have : d.expected.toFinset.card ≠ 0 := by
        rw [Finset.card_ne_zero]
        obtain ⟨e, he⟩ := List.exists_mem_of_ne_nil _ hex
        exact ⟨e, List.mem_toFinset.mpr he⟩
      exact_mod_cast this
    unfold meanOver
    rw [List.map_congr_left h1]
    simp only [List.map_const', List.sum_replicate, nsmul_eq_mul, mul_one]
    have hpos := List.length_pos_of_ne_nil hne
    rw [Nat.max_eq_right hpos]
    apply div_self
    exact_mod_cast (Nat.pos_iff_ne_zero.mp hpos)

/-- C26, exact behaviour: precision at `m` divides the number of expected links among the first `m + 1`
by `m`; it is at most `(m + 1) / m`. -/
theorem precision_exact (rank : List (Nat × ℚ) → List (Nat × ℚ)) (ms : List Nat)
    (hms : ∀ m ∈ ms, 0 < m) (groups : Option (List Group)) (docs : List Doc)
    (hg : ∀ d ∈ docs, d.expected ≠ [] → (firstGroup (usedGroups groups) d.expected.length).isSome) :
    ∃ R, meanPrecRecAt rank docs ms groups = .ok R ∧ ∀ h i m, ms[i]? = some m →
      R.precs h i = meanOver (members (usedGroups groups) docs h) (fun d => hits rank d m / m) ∧
      0 ≤ R.precs h i ∧ R.precs h i ≤ (m + 1) / m := by
  obtain ⟨R, e1, _, e3, _⟩ := prec_rec_closed rank ms hms groups docs hg
  refine ⟨R, e1, ?_⟩
  intro h i m hi
  refine ⟨e3 h i m hi, ?_⟩
  rw [e3 h i m hi]
  apply meanOver_bounds _ _ _ (by positivity)
  intro d _
  have : (hits rank d m : ℚ) ≤ m + 1 := by exact_mod_cast hits_le rank d m
  refine ⟨by positivity, ?_⟩
  gcongr

/-- C26, what holds: if no member document is given more than `m` links, precision at `m` is the
mean of (expected links found) / `m`, hence at most one. -/
theorem precision_partial (rank : List (Nat × ℚ) → List (Nat × ℚ)) (hr : IsRanking rank) (ms : List Nat)
    (hms : ∀ m ∈ ms, 0 < m) (groups : Option (List Group)) (docs : List Doc)
    (hg : ∀ d ∈ docs, d.expected ≠ [] → (firstGroup (usedGroups groups) d.expected.length).isSome) :
    ∃ R, meanPrecRecAt rank docs ms groups = .ok R ∧ ∀ h i m, ms[i]? = some m →
      (∀ d ∈ members (usedGroups groups) docs h, d.stored.length ≤ m) →
      R.precs h i = meanOver (members (usedGroups groups) docs h) (fun d =>
        (((recvIndices rank d).take m).toFinset ∩ d.expected.toFinset).card / m) ∧
      R.precs h i ≤ 1 := by
  obtain ⟨R, e1, _, e3, _⟩ := prec_rec_closed rank ms hms groups docs hg
  refine ⟨R, e1, ?_⟩
  intro h i m hi hlen
  have hm : 0 < m := hms m (List.mem_of_getElem? hi)
  have hh : ∀ d ∈ members (usedGroups groups) docs h, (hits rank d m : ℚ) / m =
      (((recvIndices rank d).take m).toFinset ∩ d.expected.toFinset).card / m := by
    intro d hd
    have hl : (recvIndices rank d).length = d.stored.length := by
      unfold recvIndices; rw [List.length_map, (hr d.stored).1.length_eq]
    have := hlen d hd
    unfold hits
    rw [List.take_of_length_le (by omega), List.take_of_length_le (by omega)]
  have heq : R.precs h i = meanOver (members (usedGroups groups) docs h) (fun d =>
        (((recvIndices rank d).take m).toFinset ∩ d.expected.toFinset).card / m) := by
    rw [e3 h i m hi]
    unfold meanOver
    rw [List.map_congr_left hh]
  refine ⟨heq, ?_⟩
  rw [heq]
  refine (meanOver_bounds _ _ 1 zero_le_one ?_).2
  intro d _
  refine ⟨by positivity, div_le_one_of_le₀ ?_ (by positivity)⟩
  have : (((recvIndices rank d).take m).toFinset ∩ d.expected.toFinset).card ≤ m :=
    calc _ ≤ (((recvIndices rank d).take m).toFinset).card := Finset.card_le_card Finset.inter_subset_left
      _ ≤ ((recvIndices rank d).take m).length := List.toFinset_card_le _
      _ ≤ m := List.length_take_le _ _
  exact_mod_cast this

/-- C26 is violated: precision at 1 is two. -/
theorem precision_exceeds_one :
    (meanPrecRecAt sortRank [⟨[3, 1], [(1, 5), (2, 1), (3, 4)]⟩] [1] (some [(0, 3)])).map
      (fun R => R.precs allGroups 0) = .ok 2 := by decide +kernel

theorem fold_err (rank : List (Nat × ℚ) → List (Nat × ℚ)) (ms : List Nat) (hms : ∀ m ∈ ms, 0 < m)
    (groups : List Group) (docs : List Doc)
    (hbad : ∃ d ∈ docs, d.expected ≠ [] ∧ firstGroup groups d.expected.length = none) : ∀ s : PrecRec,
    docs.foldlM (docStep rank ms groups) s = .error .indexError := by
  induction docs with
  | nil => obtain ⟨d, hd, _⟩ := hbad; cases hd
  | cons d docs ih =>
    intro s
    by_cases hd : d.expected ≠ [] ∧ firstGroup groups d.expected.length = none
    · rw [List.foldlM_cons]
      have : docStep rank ms groups s d = .error .indexError := by
        unfold docStep
        rw [if_neg (by simpa using hd.1), findGroup_spec, hd.2]
        rfl
      rw [this]; rfl
    · obtain ⟨s1, e1, _⟩ := docs_fold rank ms hms groups [d] (by
        intro d' hd' he
        rw [List.mem_singleton] at hd'
        subst hd'
        rw [Option.isSome_iff_ne_none]
        exact fun h => hd ⟨he, h⟩) s
      rw [List.foldlM_cons] at e1
      rw [List.foldlM_cons]
      have : docStep rank ms groups s d = .ok s1 := by
        cases hc : docStep rank ms groups s d with
        | error e => rw [hc] at e1; cases e1
        | ok v => rw [hc] at e1; cases e1; rfl
      rw [this]
      obtain ⟨d', hd', h'⟩ := hbad
      rcases List.mem_cons.mp hd' with rfl | hm
      · exact absurd h' hd
      · exact ih ⟨d', hm, h'⟩ s1

/-- C27, failure: a document with links outside all requested ranges makes the evaluation fail. -/
theorem groups_outside_fail (rank : List (Nat × ℚ) → List (Nat × ℚ)) (ms : List Nat) (hms : ∀ m ∈ ms, 0 < m)
    (groups : Option (List Group)) (docs : List Doc)
    (hbad : ∃ d ∈ docs, d.expected ≠ [] ∧ firstGroup (usedGroups groups) d.expected.length = none) :
    meanPrecRecAt rank docs ms groups = .error .indexError := by
  unfold meanPrecRecAt
  rw [fold_err rank ms hms (usedGroups groups) docs hbad]
  rfl

/-- C27: with the default grouping the evaluation fails as soon as any document has a link. -/
theorem groups_default_fail (rank : List (Nat × ℚ) → List (Nat × ℚ)) (ms : List Nat) (hms : ∀ m ∈ ms, 0 < m)
    (docs : List Doc) (h : ∃ d ∈ docs, d.expected ≠ []) :
    meanPrecRecAt rank docs ms none = .error .indexError := by
  apply groups_outside_fail rank ms hms
  obtain ⟨d, hd, he⟩ := h
  refine ⟨d, hd, he, ?_⟩
  rfl

theorem indicator_sum (l : List Group) (hl : l.Nodup) (g : Group) (hg : g ∈ l) :
    (l.map (fun h => if h = g then 1 else 0)).sum = 1 := by
  induction l with
  | nil => cases hg
  | cons h l ih =>
    rw [List.nodup_cons] at hl
    rw [List.map_cons, List.sum_cons]
    by_cases hh : h = g
    · subst hh
      rw [if_pos rfl]
      have : (l.map (fun k => if k = h then 1 else 0)) = l.map (fun _ => 0) := by
        apply List.map_congr_left
        intro k hk
        rw [if_neg (fun e => hl.1 (by rw [← e]; exact hk))]
      rw [this]; simp
    · rw [if_neg hh, Nat.zero_add]
      exact ih hl.2 (by rcases List.mem_cons.mp hg with h' | h'; exact absurd h'.symm hh; exact h')

theorem count_partition (l : List Group) (hl : l.Nodup) (f : Doc → Option Group) (docs : List Doc)
    (hf : ∀ d ∈ docs, ∃ g ∈ l, f d = some g) :
    (l.map (fun g => (docs.filter (fun d => f d = some g)).length)).sum = docs.length := by
  induction docs with
  | nil => simp
  | cons d docs ih =>
    obtain ⟨g, hg, hfg⟩ := hf d List.mem_cons_self
    have ih' := ih (fun d hd => hf d (List.mem_cons_of_mem _ hd))
    have : ∀ h, ((d :: docs).filter (fun d => f d = some h)).length =
        (if h = g then 1 else 0) + (docs.filter (fun d => f d = some h)).length := by
      intro h
      by_cases hh : h = g
      · rw [List.filter_cons_of_pos (by simp [hfg, hh]), List.length_cons, if_pos hh, Nat.add_comm]
      · rw [List.filter_cons_of_neg (by simp [hfg, Ne.symm hh]), if_neg hh, Nat.zero_add]
    simp only [this]
    rw [List.sum_map_add, ih', List.length_cons]
    rw [indicator_sum l hl g hg, Nat.add_comm]

theorem firstGroup_used (groups : List Group) (n : Nat) :
    firstGroup (usedGroups (some groups)) n = firstGroup groups n := by
  unfold usedGroups
  simp only
  split
  · rfl
  · unfold firstGroup
    rw [List.find?_append]
    have : [allGroups].find? (fun g => g.1 ≠ -1 ∧ g.1 ≤ (n : Int) ∧ (n : Int) ≤ g.2) = none := rfl
    rw [this, Option.or_none]

/-- C27, completeness.  When every document's link count falls in one of the requested ranges, the overall
count is the number of documents with links, the count of a range is the number of those whose first
containing range it is, and the counts of the distinct ranges add up to the overall count. -/
theorem groups_complete (rank : List (Nat × ℚ) → List (Nat × ℚ)) (ms : List Nat) (hms : ∀ m ∈ ms, 0 < m)
    (groups : List Group) (docs : List Doc)
    (hg : ∀ d ∈ docs, d.expected ≠ [] → (firstGroup groups d.expected.length).isSome) :
    ∃ R, meanPrecRecAt rank docs ms (some groups) = .ok R ∧
      R.counts allGroups = (docs.filter (fun d => d.expected ≠ [])).length ∧
      (∀ g, g ≠ allGroups → R.counts g =
        (docs.filter (fun d => d.expected ≠ [] ∧ firstGroup groups d.expected.length = some g)).length) ∧
      ((groups.dedup.filter (· ≠ allGroups)).map R.counts).sum = R.counts allGroups := by
  obtain ⟨R, e1, e2, _, _⟩ := prec_rec_closed rank ms hms (some groups) docs
    (by intro d hd he; rw [firstGroup_used]; exact hg d hd he)
  have hall : R.counts allGroups = (docs.filter (fun d => d.expected ≠ [])).length := by
    rw [e2]; unfold members
    congr 1
    apply List.filter_congr
    intro d _; simp
  have hgrp : ∀ g, g ≠ allGroups → R.counts g =
      (docs.filter (fun d => d.expected ≠ [] ∧ firstGroup groups d.expected.length = some g)).length := by
    intro g hne
    rw [e2]; unfold members
    congr 1
    apply List.filter_congr
    intro d _; simp [hne, firstGroup_used]
  refine ⟨R, e1, hall, hgrp, ?_⟩
  rw [hall]
  rw [← count_partition (groups.dedup.filter (· ≠ allGroups)) ((List.nodup_dedup groups).filter _)
    (fun d => firstGroup groups d.expected.length) (docs.filter (fun d => d.expected ≠ []))]
  · congr 1
    apply List.map_congr_left
    intro g hgm
    have hne : g ≠ allGroups := by simpa using (List.mem_filter.mp hgm).2
    rw [hgrp g hne, List.filter_filter]
    congr 1
    apply List.filter_congr
    intro d _
    simp [Bool.and_comm]
  · intro d hd
    rw [List.mem_filter] at hd
    obtain ⟨g, hgs⟩ := Option.isSome_iff_exists.mp (hg d hd.1 (by simpa using hd.2))
    refine ⟨g, List.mem_filter.mpr ⟨?_, by simpa using firstGroup_ne_all hgs⟩, hgs⟩
    rw [List.mem_dedup]
    exact List.mem_of_find?_eq_some hgs

/-- The links found before a cut-off: a document with five links and one with two. -/
def exGroupDocs : List Doc :=
  [⟨[1, 2, 3, 4, 5], [(1, 9), (2, 8), (7, 7)]⟩, ⟨[], [(1, 2)]⟩, ⟨[2, 3], [(1, 9), (2, 8), (3, 7)]⟩]

example : (∀ m ∈ [1, 3], 0 < m) ∧
    (∀ d ∈ exGroupDocs, d.expected ≠ [] →
      (firstGroup [(0, 3), (3, 10)] d.expected.length).isSome) ∧
    (meanPrecRecAt sortRank exGroupDocs [1, 3] (some [(0, 3), (3, 10)])).map
      (fun R => [R.counts (0, 3), R.counts (3, 10), R.counts allGroups]) = .ok [1, 1, 2] ∧
    (meanPrecRecAt sortRank exGroupDocs [1, 3] (some [(0, 3), (3, 10)])).map
      (fun R => [R.recs (0, 3) 0, R.recs (0, 3) 1, R.recs allGroups 1, R.precs allGroups 1]) =
        .ok [1 / 2, 1, 7 / 10, 2 / 3] ∧
    (meanPrecRecAt sortRank exGroupDocs [1, 3] (some [(0, 3)])).map (fun R => R.counts allGroups) =
      .error .indexError :=
  ⟨by decide, by decide, by decide +kernel, by decide +kernel, by decide +kernel⟩

end Verif.Props.Ranking
