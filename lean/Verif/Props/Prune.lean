import Verif.Lemmas.Prune

/-!
# C12, C13, C14, C82: pruning and shuffling

`Reordered src o dst` (in `Verif/Lemmas/Prune.lean`) is the specification: row `i` of every
component of `dst` is row `o[i]` of the component of `src`, and square link matrices have
their columns moved in the same way.
-/

namespace Verif.Props.Prune

open Verif Verif.DataSet Verif.Props.DataSetSplit

variable {κ : Type}

/-- A shuffle rearranges its argument. -/
def IsShuffle (f : List Nat → List Nat) : Prop := ∀ l, (f l).Perm l

/-- Documents with at least `minU` distinct words. -/
def Eligible (ds : DataSet κ) (minU : ℚ) (d : Nat) : Prop :=
  d < ds.docCount ∧ minU ≤ ((List.range ds.words.cols).countP (fun j => ds.words.get d j ≠ 0) : Nat)

theorem goodRows_mem (ds : DataSet κ) (minU : ℚ) (d : Nat) :
    d ∈ goodRows ds.words minU ↔ Eligible ds minU d := by
  unfold goodRows Eligible docCount
  split
  · simp [Mat.rowNnz]
  · rename_i h
    simp only [List.any_eq_true, List.mem_range, decide_eq_true_eq, not_exists, not_and,
      not_lt] at h
    simp only [List.mem_range]
    exact ⟨fun hd => ⟨hd, h d hd⟩, fun hd => hd.1⟩

theorem goodRows_nodup (w : Mat ℚ) (minU : ℚ) : (goodRows w minU).Nodup := by
  unfold goodRows
  split
  · exact List.Nodup.filter _ List.nodup_range
  · exact List.nodup_range

/-- first half of `prune_and_shuffle`: the shuffled eligible rows are selected -/
theorem shuffle_step (ds : DataSet κ) (minU : ℚ) (sh : List Nat → List Nat) (hr : Rows ds)
    (hsh : IsShuffle sh) :
    ∃ ds', ({ ds with order := sh (goodRows ds.words minU) } : DataSet κ).reorder
          (sh (goodRows ds.words minU)) = (ds', .ok ()) ∧
      Reordered ds ds'.order ds' ∧ ds'.order.Nodup ∧
      (∀ d, d ∈ ds'.order ↔ Eligible ds minU d) := by
  have hmem : ∀ d, d ∈ sh (goodRows ds.words minU) ↔ Eligible ds minU d := fun d =>
    ((hsh _).mem_iff).trans (goodRows_mem ds minU d)
  obtain ⟨ds', h1, h2, h3⟩ := reorder_ok { ds with order := sh (goodRows ds.words minU) }
    (sh (goodRows ds.words minU)) ⟨hr.feats, hr.links, hr.cats⟩
    (fun d hd => ((hmem d).mp hd).1)
  refine ⟨ds', h1, ?_, ?_, ?_⟩
  · rw [h3]; exact ⟨h2.words, h2.feats, h2.cats, h2.links, h2.dict⟩
  · rw [h3]; exact (hsh _).nodup_iff.mpr (goodRows_nodup _ _)
  · rw [h3]; exact hmem

/-- **C12** Without a link minimum (or without links): the call succeeds, the returned order
lists exactly the documents with enough unique words, each once, and every component is
re-ordered by that order. -/
theorem prune_coherent_no_links (ds : DataSet κ) (minU minL : ℚ) (sh : List Nat → List Nat)
    (hr : Rows ds) (hsh : IsShuffle sh) (h0 : minL = 0 ∨ ds.links = none) :
    ∃ ds', ds.pruneAndShuffle minU minL sh = some (ds', .ok ()) ∧
      ds'.order.Nodup ∧ (∀ d, d ∈ ds'.order ↔ Eligible ds minU d) ∧
      Reordered ds ds'.order ds' := by
  obtain ⟨ds', h1, h2, h3, h4⟩ := shuffle_step ds minU sh hr hsh
  refine ⟨ds', ?_, h3, h4, h2⟩
  unfold pruneAndShuffle
  simp only [h1]
  rcases hl : ds'.links with _ | m
  · rfl
  · rcases h0 with h0 | h0
    · simp [h0]
    · have := h2.links
      rw [h0, hl] at this
      exact absurd this id

/-- **C12, C13** With a square link matrix and any link minimum: the call terminates and
succeeds; the result is coherent; every remaining document has at least the minimum of links
into the remaining set; and for non-negative links the remaining set contains every set of
eligible documents with that property, i.e. it is the largest one. -/
theorem prune_links_largest (ds : DataSet κ) (L : Mat ℚ) (minU minL : ℚ)
    (sh : List Nat → List Nat) (hr : Rows ds) (hL : ds.links = some L) (hsq : L.rows = L.cols)
    (hnn : ∀ d e, 0 ≤ L.get d e) (hsh : IsShuffle sh) :
    ∃ ds', ds.pruneAndShuffle minU minL sh = some (ds', .ok ()) ∧
      ds'.order.Nodup ∧ Reordered ds ds'.order ds' ∧
      (∀ d ∈ ds'.order, Eligible ds minU d) ∧
      SelfSufficient L minL ds'.order.toFinset ∧
      (∀ T : Finset Nat, (∀ d ∈ T, Eligible ds minU d) → SelfSufficient L minL T →
        ∀ d ∈ T, d ∈ ds'.order) := by
  obtain ⟨ds1, h1, h2, h3, h4⟩ := shuffle_step ds minU sh hr hsh
  obtain ⟨m, hm⟩ : ∃ m, ds1.links = some m := by
    rcases h : ds1.links with _ | m
    · have := h2.links; rw [hL, h] at this; exact absurd this id
    · exact ⟨m, rfl⟩
  by_cases h0 : minL = 0
  · refine ⟨ds1, ?_, h3, h2, fun d hd => (h4 d).mp hd, ?_, fun T hT _ d hd => (h4 d).mpr (hT d hd)⟩
    · unfold pruneAndShuffle
      simp only [h1, hm, h0, if_true]
    · intro d _
      rw [h0]
      exact Finset.sum_nonneg (fun e _ => hnn d e)
  · obtain ⟨ds', hl, hre, hnd, hsub, hsuf, hmax⟩ :=
      linkLoop_spec ds L hL hsq hr minL (m.rows + 1) ds1 m hm (by omega) h2 h3
    refine ⟨ds', ?_, hnd, hre, fun d hd => (h4 d).mp (hsub d hd), hsuf, ?_⟩
    · unfold pruneAndShuffle
      simp only [h1, hm, h0, if_false]
      exact hl
    · intro T hT hTs
      exact hmax hnn T (fun d hd => (h4 d).mpr (hT d hd)) hTs

/-- **C13** The set of remaining documents does not depend on the shuffle. -/
theorem prune_set_shuffle_independent (ds : DataSet κ) (L : Mat ℚ) (minU minL : ℚ)
    (sh₁ sh₂ : List Nat → List Nat) (hr : Rows ds) (hL : ds.links = some L)
    (hsq : L.rows = L.cols) (hnn : ∀ d e, 0 ≤ L.get d e) (h₁ : IsShuffle sh₁)
    (h₂ : IsShuffle sh₂) (r₁ r₂ : DataSet κ)
    (e₁ : ds.pruneAndShuffle minU minL sh₁ = some (r₁, .ok ()))
    (e₂ : ds.pruneAndShuffle minU minL sh₂ = some (r₂, .ok ())) :
    r₁.order.Perm r₂.order := by
  obtain ⟨a, ha, hna, _, hea, hsa, hma⟩ := prune_links_largest ds L minU minL sh₁ hr hL hsq hnn h₁
  obtain ⟨b, hb, hnb, _, heb, hsb, hmb⟩ := prune_links_largest ds L minU minL sh₂ hr hL hsq hnn h₂
  rw [ha] at e₁; rw [hb] at e₂
  cases e₁; cases e₂
  rw [List.perm_ext_iff_of_nodup hna hnb]
  intro d
  constructor
  · intro hd
    exact hmb _ (fun x hx => hea x (List.mem_toFinset.mp hx)) hsa d (List.mem_toFinset.mpr hd)
  · intro hd
    exact hma _ (fun x hx => heb x (List.mem_toFinset.mp hx)) hsb d (List.mem_toFinset.mpr hd)

/-! ## C14: failure leaves the dataset half re-ordered -/

/-- **C14** (what happens) Without an array of categories, re-ordering always raises a
`TypeError`, after having replaced the words but none of the other components. -/
theorem reorder_fails_half_way (ds : DataSet κ) (o : List Nat) (h : ∀ d ∈ o, d < ds.words.rows)
    (hc : ∀ l, ds.cats ≠ .array l) :
    ∃ w, MatRows ds.words o w ∧ ds.reorder o = ({ ds with words := w }, .error .typeError) := by
  obtain ⟨w, hw, hw'⟩ := matRows_sel ds.words o h
  refine ⟨w, hw', ?_⟩
  have hs : ds.cats.sel o = .error .typeError := by
    rcases hh : ds.cats with _ | l | l
    · rfl
    · rfl
    · exact absurd hh (hc l)
  simp only [DataSet.reorder, hw, hs]

/-- **C14** (what happens) Pruning a dataset without an array of categories always raises a
`TypeError`; the words have then been pruned and shuffled, features and links have not. -/
theorem prune_fails_half_way (ds : DataSet κ) (minU minL : ℚ) (sh : List Nat → List Nat)
    (hsh : IsShuffle sh) (hc : ∀ l, ds.cats ≠ .array l) :
    ∃ ds', ds.pruneAndShuffle minU minL sh = some (ds', .error .typeError) ∧
      MatRows ds.words (sh (goodRows ds.words minU)) ds'.words ∧
      ds'.feats = ds.feats ∧ ds'.links = ds.links ∧ ds'.cats = ds.cats := by
  obtain ⟨w, hw, hre⟩ := reorder_fails_half_way
    { ds with order := sh (goodRows ds.words minU) } (sh (goodRows ds.words minU))
    (fun d hd => ((goodRows_mem ds minU d).mp ((hsh _).mem_iff.mp hd)).1) hc
  refine ⟨{ ds with order := sh (goodRows ds.words minU), words := w }, ?_, hw, rfl, rfl, rfl⟩
  unfold pruneAndShuffle
  simp only [hre]

/-- **C14** (violation) A dataset with features but without categories: pruning raises and leaves
one word row but three feature rows. -/
theorem prune_not_atomic :
    ∃ (ds : DataSet Unit) (ds' : DataSet Unit),
      Valid ds ∧ ds.pruneAndShuffle 2 0 id = some (ds', .error .typeError) ∧
      ds'.words.rows = 1 ∧ (∃ f, ds'.feats = some f ∧ f.rows = 3) := by
  let ds : DataSet Unit :=
    { words := ⟨3, 2, fun i j => if i = 1 then 1 else if j = 0 then 1 else 0⟩
      feats := some ⟨3, 1, fun _ _ => 1⟩, links := none, wordDict := none, cats := .none
      order := [0, 1, 2] }
  obtain ⟨ds', h1, h2, h3, _⟩ := prune_fails_half_way ds 2 0 id (fun l => List.Perm.refl l)
    (by intro l h; cases h)
  refine ⟨ds, ds', ⟨by decide, ?_, ?_, ?_, rfl⟩, h1, ?_, ?_⟩
  · rintro m h; cases h; rfl
  · rintro m h; cases h
  · rintro k h; cases h
  · rw [h2.1]
    have : goodRows ds.words 2 = [1] := by decide +kernel
    simp [this]
  · exact ⟨_, h3, rfl⟩

/-- **C14** (partial) With an array of categories re-ordering never fails for existing rows. -/
theorem reorder_total_partial (ds : DataSet κ) (o : List Nat) (hr : Rows ds)
    (h : ∀ d ∈ o, d < ds.words.rows) :
    ∃ ds', ds.reorder o = (ds', .ok ()) ∧ Reordered ds o ds' := by
  obtain ⟨ds', h1, h2, _⟩ := reorder_ok ds o hr h
  exact ⟨ds', h1, h2⟩

/-! ## C82: rectangular link matrices -/

/-- outcome of a call reduced to: order and number of link columns, if it succeeded -/
def outcome (r : Option (DataSet κ × Py Unit)) : Option (List Nat × Option Nat) :=
  match r with
  | some (ds, .ok ()) => some (ds.order, ds.links.map (·.cols))
  | _ => none

theorem outcome_some {r : Option (DataSet κ × Py Unit)} {o : List Nat} {c : Nat}
    (h : outcome r = some (o, some c)) :
    ∃ ds' L', r = some (ds', .ok ()) ∧ ds'.order = o ∧ ds'.links = some L' ∧ L'.cols = c := by
  rcases r with _ | ⟨ds, e | u⟩
  · simp [outcome] at h
  · simp [outcome] at h
  · simp only [outcome, Option.some.injEq, Prod.mk.injEq, Option.map_eq_some_iff] at h
    obtain ⟨h1, L', h2, h3⟩ := h
    exact ⟨ds, L', rfl, h1, h2, h3⟩

/-- **C82** (violation) Pruning can drop columns of a link matrix whose columns are not
documents: as soon as the number of remaining documents equals the number of columns, the matrix
is taken to be square and its columns are re-ordered along with its rows.  Here 3 documents link
to 2 external targets; document 2 has no words and is pruned first, then document 1 has too few links; the
remaining document has lost its link to target 1. -/
theorem rectangular_links_lose_columns :
    ∃ (ds ds' : DataSet String) (L L' : Mat ℚ), Rows ds ∧ ds.links = some L ∧
      L.rows = 3 ∧ L.cols = 2 ∧ L.get 0 1 = 7 ∧
      ds.pruneAndShuffle (1/2) 1 id = some (ds', .ok ()) ∧ ds'.order = [0] ∧
      ds'.links = some L' ∧ L'.cols = 1 := by
  let L : Mat ℚ := ⟨3, 2, fun i j => if i = 0 then (if j = 0 then 5 else 7) else 0⟩
  let ds : DataSet String :=
    { words := ⟨3, 1, fun i _ => if i = 2 then 0 else 1⟩
      feats := none, links := some L, wordDict := none
      cats := .array ["a", "b", "c"], order := [0, 1, 2] }
  have hrun : outcome (ds.pruneAndShuffle (1/2) 1 id) = some ([0], some 1) := by decide +kernel
  obtain ⟨ds', L', h1, h2, h3, h4⟩ := outcome_some hrun
  refine ⟨ds, ds', L, L', ⟨?_, ?_, ?_⟩, rfl, rfl, rfl, by decide +kernel, h1, h2, h3, h4⟩
  · rintro m h; cases h
  · rintro m h; cases h; rfl
  · exact ⟨_, rfl, rfl⟩

/-! ## Non-vacuity -/

/-- a chain of four documents in which pruning cascades: only {0,1} survive a minimum of 1 -/
def chain : DataSet String :=
  { words := ⟨4, 1, fun _ _ => 1⟩
    feats := none
    links := some ⟨4, 4, fun i j =>
      if (i = 0 ∧ j = 1) ∨ (i = 1 ∧ j = 0) ∨ (i = 2 ∧ j = 3) then 1 else 0⟩
    wordDict := none
    cats := .array ["a", "b", "c", "d"]
    order := [0, 1, 2, 3] }

example : Rows chain := by
  refine ⟨?_, ?_, ⟨_, rfl, rfl⟩⟩
  · rintro m h; cases h
  · rintro m h; cases h; rfl
example : IsShuffle List.reverse := fun l => List.reverse_perm l
example : outcome (chain.pruneAndShuffle (1/2) 1 List.reverse) = some ([1, 0], some 2) := by
  decide +kernel
example : outcome (chain.pruneAndShuffle (1/2) 0 List.reverse) = some ([3, 2, 1, 0], some 4) := by
  decide +kernel

end Verif.Props.Prune
