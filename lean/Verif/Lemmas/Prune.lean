import Mathlib.Algebra.BigOperators.Group.Finset.Basic
import Mathlib.Algebra.Order.BigOperators.Group.Finset
import Verif.Props.DataSetSplit

/-! Specification of re-ordering and lemmas about the pruning loop. -/

namespace Verif.Props.Prune

open Verif Verif.DataSet Verif.Props.DataSetSplit

variable {κ : Type}

/-- Links after re-ordering: rows are moved; in a square matrix columns are moved too. -/
def LinkRows (a : Option (Mat ℚ)) (o : List Nat) (b : Option (Mat ℚ)) : Prop :=
  match a, b with
  | none, none => True
  | some a, some b =>
    b.rows = o.length ∧
    (a.rows = a.cols → b.cols = o.length ∧
      ∀ i j d e : Nat, o[i]? = some d → o[j]? = some e → b.get i j = a.get d e) ∧
    (a.rows ≠ a.cols → b.cols = a.cols ∧
      ∀ i d : Nat, o[i]? = some d → ∀ j, b.get i j = a.get d j)
  | _, _ => False

/-- `dst` is `src` with documents (rows) `o`, coherently in every component. -/
structure Reordered (src : DataSet κ) (o : List Nat) (dst : DataSet κ) : Prop where
  words : MatRows src.words o dst.words
  feats : OptRows src.feats o dst.feats
  cats : CatRows src.cats o dst.cats
  links : LinkRows src.links o dst.links
  dict : dst.wordDict = src.wordDict

/-- Every component has one row per document; categories are an array (the only case in which
re-ordering works). -/
structure Rows (ds : DataSet κ) : Prop where
  feats : ∀ m, ds.feats = some m → m.rows = ds.words.rows
  links : ∀ m, ds.links = some m → m.rows = ds.words.rows
  cats : ∃ l, ds.cats = .array l ∧ l.length = ds.words.rows

theorem LinkRows.rows {a b : Option (Mat ℚ)} {o : List Nat} (h : LinkRows a o b) :
    ∀ m, b = some m → m.rows = o.length := by
  rintro m rfl
  rcases a with _ | a
  · exact absurd h id
  · exact h.1

theorem Reordered.rows' {src dst : DataSet κ} {o : List Nat} (h : Reordered src o dst)
    (hs : Rows src) : Rows dst := by
  refine ⟨?_, ?_, ?_⟩
  · rw [h.words.1]; exact h.feats.rows
  · rw [h.words.1]; exact h.links.rows
  · obtain ⟨l, hl, hlen⟩ := hs.cats
    have hc := h.cats
    rw [hl] at hc
    rcases hd : dst.cats with _ | b | b
    · rw [hd] at hc; exact absurd hc id
    · rw [hd] at hc; exact absurd hc id
    · rw [hd] at hc
      exact ⟨b, rfl, by rw [hc.1, h.words.1]⟩

theorem linkRows_sel (m : Option (Mat ℚ)) (o : List Nat) (n : Nat)
    (hm : ∀ x, m = some x → x.rows = n) (h : ∀ d ∈ o, d < n) :
    ∃ b, reorderLinks m o = .ok b ∧ LinkRows m o b := by
  rcases m with _ | m
  · exact ⟨none, rfl, trivial⟩
  have hr : ∀ d ∈ o, d < m.rows := by rw [hm m rfl]; exact h
  unfold reorderLinks
  by_cases hsq : m.rows = m.cols
  · simp only [hsq, if_true]
    rw [selRows_ok m o hr]
    refine ⟨some ⟨o.length, o.length, fun i j => m.get (o.getD i 0) (o.getD j 0)⟩, ?_, ?_⟩
    · change (do let r ← Mat.selCols _ o; pure (some r)) = _
      rw [selCols_ok _ o (by simpa [← hsq] using hr)]
      rfl
    · refine ⟨rfl, fun _ => ⟨rfl, ?_⟩, fun h => absurd hsq h⟩
      intro i j d e hi hj
      simp only [getD_of_getElem? hi, getD_of_getElem? hj]
  · simp only [hsq, if_false]
    rw [selRows_ok m o hr]
    refine ⟨some _, rfl, rfl, fun h => absurd h hsq, fun _ => ⟨rfl, ?_⟩⟩
    intro i d hi j
    simp only [getD_of_getElem? hi]

theorem reorder_ok (ds : DataSet κ) (o : List Nat) (hr : Rows ds)
    (h : ∀ d ∈ o, d < ds.words.rows) :
    ∃ ds', ds.reorder o = (ds', .ok ()) ∧ Reordered ds o ds' ∧ ds'.order = ds.order := by
  obtain ⟨w, hw, hw'⟩ := matRows_sel ds.words o h
  obtain ⟨f, hf, hf'⟩ := optRows_sel ds.feats o _ hr.feats h
  obtain ⟨l, hl, hl'⟩ := linkRows_sel ds.links o _ hr.links h
  obtain ⟨cl, hc, hclen⟩ := hr.cats
  obtain ⟨c, hcs, hc'⟩ := listRows_sel cl o (by rw [hclen]; exact h)
  refine ⟨{ ds with words := w, cats := .array c, feats := f, links := l }, ?_, ?_, rfl⟩
  · have hs : ds.cats.sel o = .ok (.array c) := by
      rw [hc]; simp only [Cats.sel, hcs]; rfl
    simp only [DataSet.reorder, hw, hs, hf, hl]
  · refine ⟨hw', hf', ?_, hl', rfl⟩
    rw [hc]; exact hc'

theorem MatRows.comp {a b c : Mat ℚ} {o s o' : List Nat} (h1 : MatRows a o b) (h2 : MatRows b s c)
    (h : ListRows o s o') : MatRows a o' c := by
  refine ⟨by rw [h2.1, h.1], by rw [h2.2.1, h1.2.1], ?_⟩
  intro i d hi
  have hlt : i < s.length := by
    rw [← h.1]
    exact (List.getElem?_eq_some_iff.mp hi).1
  have hs : s[i]? = some s[i] := List.getElem?_eq_getElem hlt
  have h3 := (h.2 i _ hs).2
  rw [hi] at h3
  have h4 := h1.2.2 _ _ h3.symm
  have h5 := h2.2.2 _ _ hs
  exact ⟨h4.1, fun j => (h5.2 j).trans (h4.2 j)⟩

theorem ListRows.comp {α : Type} {a b c : List α} {o s o' : List Nat} (h1 : ListRows a o b)
    (h2 : ListRows b s c) (h : ListRows o s o') : ListRows a o' c := by
  refine ⟨by rw [h2.1, h.1], ?_⟩
  intro i d hi
  have hlt : i < s.length := by
    rw [← h.1]
    exact (List.getElem?_eq_some_iff.mp hi).1
  have hs : s[i]? = some s[i] := List.getElem?_eq_getElem hlt
  have h3 := (h.2 i _ hs).2
  rw [hi] at h3
  have h4 := h1.2 _ _ h3.symm
  have h5 := h2.2 _ _ hs
  exact ⟨h4.1, h5.2.trans h4.2⟩

theorem OptRows.comp {a b c : Option (Mat ℚ)} {o s o' : List Nat} (h1 : OptRows a o b)
    (h2 : OptRows b s c) (h : ListRows o s o') : OptRows a o' c := by
  rcases a with _ | a <;> rcases b with _ | b <;> rcases c with _ | c <;>
    simp only [OptRows] at h1 h2 ⊢
  exact MatRows.comp h1 h2 h

theorem CatRows.comp {a b c : Cats κ} {o s o' : List Nat} (h1 : CatRows a o b)
    (h2 : CatRows b s c) (h : ListRows o s o') : CatRows a o' c := by
  rcases a with _ | a | a <;> rcases b with _ | b | b <;> rcases c with _ | c | c <;>
    simp only [CatRows] at h1 h2 ⊢
  exact ListRows.comp h1 h2 h

theorem LinkRows.comp {a b c : Option (Mat ℚ)} {o s o' : List Nat}
    (hsq : ∀ m, a = some m → m.rows = m.cols) (h1 : LinkRows a o b)
    (h2 : LinkRows b s c) (h : ListRows o s o') : LinkRows a o' c := by
  rcases a with _ | a <;> rcases b with _ | b <;> rcases c with _ | c <;>
    simp only [LinkRows] at h1 h2 ⊢
  have ha := hsq a rfl
  obtain ⟨h1r, h1s, _⟩ := h1
  obtain ⟨h1c, h1g⟩ := h1s ha
  obtain ⟨h2r, h2s, _⟩ := h2
  obtain ⟨h2c, h2g⟩ := h2s (by rw [h1r, h1c])
  refine ⟨by rw [h2r, h.1], fun _ => ⟨by rw [h2c, h.1], ?_⟩, fun hne => absurd ha hne⟩
  intro i j d e hi hj
  have key : ∀ i d : Nat, o'[i]? = some d → ∃ k, s[i]? = some k ∧ o[k]? = some d := by
    intro i d hi
    have hlt : i < s.length := by
      rw [← h.1]
      exact (List.getElem?_eq_some_iff.mp hi).1
    have hs : s[i]? = some s[i] := List.getElem?_eq_getElem hlt
    have h3 := (h.2 i _ hs).2
    rw [hi] at h3
    exact ⟨_, hs, h3.symm⟩
  obtain ⟨k, hk, hk'⟩ := key i d hi
  obtain ⟨l, hl, hl'⟩ := key j e hj
  rw [h2g i j k l hk hl, h1g k l d e hk' hl']

theorem Reordered.comp {a b c : DataSet κ} {o s o' : List Nat}
    (hsq : ∀ m, a.links = some m → m.rows = m.cols) (h1 : Reordered a o b)
    (h2 : Reordered b s c) (h : ListRows o s o') : Reordered a o' c :=
  ⟨MatRows.comp h1.words h2.words h, OptRows.comp h1.feats h2.feats h,
   CatRows.comp h1.cats h2.cats h, LinkRows.comp hsq h1.links h2.links h,
   by rw [h2.dict, h1.dict]⟩

theorem nodup_of_listRows {o s o' : List Nat} (ho : o.Nodup) (hs : s.Nodup)
    (h : ListRows o s o') : o'.Nodup := by
  rw [List.nodup_iff_getElem?_ne_getElem?]
  intro i j hij hj heq
  have hj' : j < s.length := by rw [← h.1]; exact hj
  have hi' : i < s.length := by omega
  have h1 := h.2 i _ (List.getElem?_eq_getElem hi')
  have h2 := h.2 j _ (List.getElem?_eq_getElem hj')
  rw [h1.2, h2.2, List.getElem?_eq_getElem h1.1, List.getElem?_eq_getElem h2.1] at heq
  have heq' := Option.some.inj heq
  have := (List.Nodup.getElem_inj_iff ho).mp heq'
  have := (List.Nodup.getElem_inj_iff hs).mp this
  omega

theorem mem_of_listRows {o s o' : List Nat} (h : ListRows o s o') (d : Nat) :
    d ∈ o' ↔ ∃ i ∈ s, o[i]? = some d := by
  constructor
  · intro hd
    obtain ⟨i, hi⟩ := List.mem_iff_getElem?.mp hd
    have hlt : i < s.length := by
      rw [← h.1]
      exact (List.getElem?_eq_some_iff.mp hi).1
    have h1 := h.2 i _ (List.getElem?_eq_getElem hlt)
    exact ⟨s[i], List.getElem_mem hlt, by rw [← h1.2, hi]⟩
  · rintro ⟨i, hi, hd⟩
    obtain ⟨k, hk⟩ := List.mem_iff_getElem?.mp hi
    have := h.2 k i hk
    rw [hd] at this
    exact List.mem_of_getElem? this.2

/-- A set of documents in which each has at least `minL` links to members of the set. -/
def SelfSufficient (L : Mat ℚ) (minL : ℚ) (T : Finset Nat) : Prop :=
  ∀ d ∈ T, minL ≤ ∑ e ∈ T, L.get d e

/-- Row sums of a re-ordered square link matrix are sums over the documents kept. -/
theorem rowSum_reordered (L m : Mat ℚ) (o : List Nat) (hsq : L.rows = L.cols)
    (h : LinkRows (some L) o (some m)) (hnd : o.Nodup) (i d : Nat) (hi : o[i]? = some d) :
    m.rowSum i = ∑ e ∈ o.toFinset, L.get d e := by
  obtain ⟨_, h2, _⟩ := h
  obtain ⟨hc, hg⟩ := h2 hsq
  rw [List.sum_toFinset _ hnd]
  unfold Mat.rowSum
  congr 1
  apply List.ext_getElem
  · simp [hc]
  · intro j h1 h2
    simp only [List.getElem_map, List.getElem_range]
    have hj : j < o.length := by simpa using h2
    exact hg i j d o[j] hi (List.getElem?_eq_getElem hj)

/-- The loop, started in a coherent state with enough fuel. -/
theorem linkLoop_spec (ds0 : DataSet κ) (L : Mat ℚ) (hL : ds0.links = some L)
    (hsq : L.rows = L.cols) (hr0 : Rows ds0) (minL : ℚ) :
    ∀ (fuel : Nat) (ds : DataSet κ) (m : Mat ℚ), ds.links = some m → m.rows < fuel →
      Reordered ds0 ds.order ds → ds.order.Nodup →
      ∃ ds', linkLoop minL fuel ds = some (ds', .ok ()) ∧ Reordered ds0 ds'.order ds' ∧
        ds'.order.Nodup ∧ (∀ d ∈ ds'.order, d ∈ ds.order) ∧
        SelfSufficient L minL ds'.order.toFinset ∧
        ((∀ d e, 0 ≤ L.get d e) → ∀ T : Finset Nat, (∀ d ∈ T, d ∈ ds.order) →
          SelfSufficient L minL T → ∀ d ∈ T, d ∈ ds'.order) := by
  intro fuel
  induction fuel with
  | zero => intro ds m _ h; omega
  | succ fuel ih =>
    intro ds m hm hfuel hre hnd
    have hlr : LinkRows (some L) ds.order (some m) := by
      have := hre.links; rwa [hL, hm] at this
    have hmr : m.rows = ds.order.length := hlr.1
    have hsuffmem : ∀ i, i ∈ sufficientDocs m minL ↔ i < m.rows ∧ minL ≤ m.rowSum i := by
      intro i; simp [sufficientDocs]
    by_cases hlt : (sufficientDocs m minL).length < m.rows
    · have hrows := hre.rows' hr0
      obtain ⟨ds1, h1, h1', h1o⟩ := reorder_ok ds (sufficientDocs m minL) hrows (by
        intro d hd
        rw [← hrows.links m hm]
        exact ((hsuffmem d).mp hd).1)
      obtain ⟨o, ho, ho'⟩ := listRows_sel ds1.order (sufficientDocs m minL) (by
        intro d hd
        rw [h1o, ← hmr]
        exact ((hsuffmem d).mp hd).1)
      rw [h1o] at ho'
      have hre1 : Reordered ds0 o { ds1 with order := o } :=
        Reordered.comp (fun x hx => by rw [hL] at hx; cases hx; exact hsq) hre
          (c := { ds1 with order := o })
          ⟨h1'.words, h1'.feats, h1'.cats, h1'.links, h1'.dict⟩ ho'
      have hsn : (sufficientDocs m minL).Nodup := List.Nodup.filter _ List.nodup_range
      have hnd1 : o.Nodup := nodup_of_listRows hnd hsn ho'
      obtain ⟨m1, hm1⟩ : ∃ m1, ds1.links = some m1 := by
        rcases h : ds1.links with _ | m1
        · have := h1'.links; rw [hm, h] at this; exact absurd this id
        · exact ⟨m1, rfl⟩
      have hm1r : m1.rows = (sufficientDocs m minL).length := h1'.links.rows m1 hm1
      obtain ⟨ds', hl, hre', hnd', hsub, hsuf, hmax⟩ :=
        ih { ds1 with order := o } m1 hm1 (by omega) hre1 hnd1
      refine ⟨ds', ?_, hre', hnd', ?_, hsuf, ?_⟩
      · rw [linkLoop, hm]
        simp only [hlt, if_true, h1, ho]
        exact hl
      · intro d hd
        obtain ⟨i, _, hi⟩ := (mem_of_listRows ho' d).mp (hsub d hd)
        exact List.mem_of_getElem? hi
      · intro hnn T hT hTs
        refine hmax hnn T ?_ hTs
        intro d hd
        obtain ⟨i, hi⟩ := List.mem_iff_getElem?.mp (hT d hd)
        refine (mem_of_listRows ho' d).mpr ⟨i, ?_, hi⟩
        rw [hsuffmem]
        refine ⟨by rw [hmr]; exact (List.getElem?_eq_some_iff.mp hi).1, ?_⟩
        rw [rowSum_reordered L m _ hsq hlr hnd i d hi]
        refine le_trans (hTs d hd) ?_
        apply Finset.sum_le_sum_of_subset_of_nonneg
        · intro x hx; exact List.mem_toFinset.mpr (hT x hx)
        · intro x _ _; exact hnn d x
    · refine ⟨ds, ?_, hre, hnd, fun d hd => hd, ?_, fun _ T hT _ d hd => hT d hd⟩
      · rw [linkLoop, hm]
        simp only [hlt, if_false]
      · intro d hd
        obtain ⟨i, hi⟩ := List.mem_iff_getElem?.mp (List.mem_toFinset.mp hd)
        rw [← rowSum_reordered L m _ hsq hlr hnd i d hi]
        have hlen : (sufficientDocs m minL).length = (List.range m.rows).length := by
          have := List.length_filter_le (fun d => decide (minL ≤ m.rowSum d)) (List.range m.rows)
          unfold sufficientDocs at hlt ⊢
          simp only [List.length_range] at this ⊢
          omega
        have hall := List.length_filter_eq_length_iff.mp hlen
        have hir : i < m.rows := by
          rw [hmr]; exact (List.getElem?_eq_some_iff.mp hi).1
        simpa using hall i (List.mem_range.mpr hir)

end Verif.Props.Prune
