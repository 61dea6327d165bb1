import Verif.Lemmas.DataSet
import Verif.Props.CrossVal

/-!
# C03, C15: datasets produced by the constructor and by cross-validation

The specification talks about rows only: `MatRows a idx b` says that row `i` of `b` is row
`idx[i]` of `a`.
-/

namespace Verif.Props.DataSetSplit

open Verif Verif.DataSet

variable {κ : Type}

/-- Row `i` of `b` is row `idx[i]` of `a`. -/
def MatRows (a : Mat ℚ) (idx : List Nat) (b : Mat ℚ) : Prop :=
  b.rows = idx.length ∧ b.cols = a.cols ∧
    ∀ i d : Nat, idx[i]? = some d → d < a.rows ∧ ∀ j, b.get i j = a.get d j

/-- The same for an optional component, which must be present in both or in neither. -/
def OptRows (a : Option (Mat ℚ)) (idx : List Nat) (b : Option (Mat ℚ)) : Prop :=
  match a, b with
  | none, none => True
  | some a, some b => MatRows a idx b
  | _, _ => False

/-- Entry `i` of `b` is entry `idx[i]` of `a`. -/
def ListRows {α : Type} (a : List α) (idx : List Nat) (b : List α) : Prop :=
  b.length = idx.length ∧ ∀ i d : Nat, idx[i]? = some d → d < a.length ∧ b[i]? = a[d]?

/-- The same for categories. -/
def CatRows (a : Cats κ) (idx : List Nat) (b : Cats κ) : Prop :=
  match a, b with
  | .none, .none => True
  | .array a, .array b => ListRows a idx b
  | _, _ => False

/-- All components of `dst` are the rows `idx` of the components of `src`. -/
structure RowsOf (src : DataSet κ) (idx : List Nat) (dst : DataSet κ) : Prop where
  words : MatRows src.words idx dst.words
  feats : OptRows src.feats idx dst.feats
  links : OptRows src.links idx dst.links
  cats : CatRows src.cats idx dst.cats
  order : ListRows src.order idx dst.order
  dict : dst.wordDict = src.wordDict

/-- What the constructor guarantees (without a limit). -/
structure Valid (ds : DataSet κ) : Prop where
  pos : 0 < ds.words.rows
  feats : ∀ m, ds.feats = some m → m.rows = ds.words.rows
  links : ∀ m, ds.links = some m → m.rows = ds.words.rows
  cats : ∀ k, ds.cats.len? = some k → k = ds.words.rows
  order : ds.order.length = ds.words.rows

/-- categories are not a plain Python list (which does not support row selection) -/
def NotPyList (c : Cats κ) : Prop := ∀ l, c ≠ .pyList l

/-- **Constructor** accepts exactly the datasets whose components have one row per
document, and keeps the components as they are. -/
theorem constructor_ok_iff (words : Mat ℚ) (feats links : Option (Mat ℚ)) (dict) (cats : Cats κ)
    (order : Option (List Nat)) (limit : Nat) :
    (∃ ds, mk' words feats links dict cats order limit = .ok ds) ↔
      0 < words.rows ∧ (∀ m, feats = some m → m.rows = words.rows) ∧
      (∀ m, links = some m → m.rows = words.rows) ∧
      (∀ k, cats.len? = some k → k = words.rows) := by
  unfold mk' pyAssert
  by_cases h1 : 0 < words.rows
  swap
  · simp only [h1, decide_false, false_and, iff_false]
    rintro ⟨ds, h⟩; cases h
  by_cases h2 : (feats.all (fun m => m.rows = words.rows)) = true
  swap
  · simp only [h1, h2, decide_true, if_true]
    constructor
    · rintro ⟨ds, h⟩; cases h
    · rintro ⟨_, h, _⟩
      exact absurd (by simpa [Option.all_eq_true] using h) h2
  by_cases h3 : (links.all (fun m => m.rows = words.rows)) = true
  swap
  · simp only [h1, h2, h3, decide_true, if_true]
    constructor
    · rintro ⟨ds, h⟩; cases h
    · rintro ⟨_, _, h, _⟩
      exact absurd (by simpa [Option.all_eq_true] using h) h3
  by_cases h4 : (cats.len?.all (· = words.rows)) = true
  swap
  · simp only [h1, h2, h3, h4, decide_true, if_true]
    constructor
    · rintro ⟨ds, h⟩; cases h
    · rintro ⟨_, _, _, h⟩
      exact absurd (by simpa [Option.all_eq_true] using h) h4
  simp only [h1, h2, h3, h4, decide_true, if_true, true_and]
  refine ⟨fun _ => ?_, fun _ => ⟨_, rfl⟩⟩
  simp only [Option.all_eq_true, decide_eq_true_eq] at h2 h3 h4
  exact ⟨fun m h => h2 m h, fun m h => h3 m h, fun m h => h4 m h⟩

/-- The dataset built for valid components. -/
theorem mk'_ok (words : Mat ℚ) (feats links : Option (Mat ℚ)) (dict) (cats : Cats κ)
    (order : Option (List Nat)) (limit : Nat)
    (h1 : 0 < words.rows) (h2 : ∀ m, feats = some m → m.rows = words.rows)
    (h3 : ∀ m, links = some m → m.rows = words.rows)
    (h4 : ∀ k, cats.len? = some k → k = words.rows) :
    mk' words feats links dict cats order limit = .ok
      { words, feats, links, wordDict := dict, cats,
        order := if 0 < limit ∧ limit < words.rows then
            (match order with | none => List.range limit | some o => o.take limit)
          else (match order with | none => List.range words.rows | some o => o) } := by
  have h2' : (feats.all (fun m => m.rows = words.rows)) = true := by
    simpa [Option.all_eq_true] using h2
  have h3' : (links.all (fun m => m.rows = words.rows)) = true := by
    simpa [Option.all_eq_true] using h3
  have h4' : (cats.len?.all (· = words.rows)) = true := by
    simpa [Option.all_eq_true] using h4
  unfold mk' pyAssert
  simp only [h1, h2', h3', h4', decide_true, if_true]
  by_cases hl : 0 < limit ∧ limit < words.rows
  · simp only [hl, and_self, if_true]; rfl
  · simp only [hl, if_false]
    rcases order with _ | o <;> rfl

/-- **C15** (what the constructor really does) The number of documents is that of the word
matrix whatever the limit, and only the recorded order is cut. -/
theorem limit_effect (words : Mat ℚ) (feats links : Option (Mat ℚ)) (dict) (cats : Cats κ)
    (limit : Nat) (ds : DataSet κ)
    (h : mk' words feats links dict cats none limit = .ok ds) :
    ds.docCount = words.rows ∧ ds.words = words ∧
      ds.order.length = if 0 < limit then min limit words.rows else words.rows := by
  obtain ⟨h1, h2, h3, h4⟩ := (constructor_ok_iff words feats links dict cats none limit).mp ⟨ds, h⟩
  rw [mk'_ok words feats links dict cats none limit h1 h2 h3 h4] at h
  cases h
  refine ⟨rfl, rfl, ?_⟩
  by_cases hl : 0 < limit ∧ limit < words.rows
  · simp only [hl, and_self, if_true, List.length_range]
    omega
  · simp only [hl, if_false, List.length_range]
    by_cases hz : 0 < limit
    · rw [if_pos hz]; omega
    · rw [if_neg hz]

/-- **C15** (violation) For every limit strictly between zero and the number of documents the
dataset still has all documents, so it is not restricted, and the recorded order does
not have one entry per document. -/
theorem limit_not_applied (words : Mat ℚ) (limit : Nat) (h0 : 0 < limit) (h1 : limit < words.rows) :
    ∃ ds : DataSet κ, mk' words none none none Cats.none none limit = .ok ds ∧
      ds.docCount ≠ limit ∧ ds.order.length ≠ ds.docCount := by
  refine ⟨_, mk'_ok words none none none Cats.none none limit (by omega) (by simp) (by simp)
    (by simp [Cats.len?]), ?_, ?_⟩
  · change words.rows ≠ limit; omega
  · simp only [h0, h1, and_self, if_true, List.length_range, docCount]; omega

/-- **C15** (partial) Without an effective limit the constructor returns a valid dataset with one
order entry per document. -/
theorem limit_partial (words : Mat ℚ) (feats links : Option (Mat ℚ)) (dict) (cats : Cats κ)
    (limit : Nat) (ds : DataSet κ) (hl : limit = 0 ∨ words.rows ≤ limit)
    (h : mk' words feats links dict cats none limit = .ok ds) : Valid ds := by
  obtain ⟨h1, h2, h3, h4⟩ := (constructor_ok_iff words feats links dict cats none limit).mp ⟨ds, h⟩
  rw [mk'_ok words feats links dict cats none limit h1 h2 h3 h4] at h
  cases h
  refine ⟨h1, h2, h3, h4, ?_⟩
  have hl' : ¬ (0 < limit ∧ limit < words.rows) := by omega
  simp only [hl', if_false, List.length_range]

/-! ## Row selection -/

theorem matRows_sel (m : Mat ℚ) (idx : List Nat) (h : ∀ d ∈ idx, d < m.rows) :
    ∃ b, m.selRows idx = .ok b ∧ MatRows m idx b := by
  refine ⟨_, selRows_ok m idx h, rfl, rfl, ?_⟩
  intro i d hi
  refine ⟨h d (List.mem_of_getElem? hi), fun j => ?_⟩
  simp only [getD_of_getElem? hi]

theorem optRows_sel (m : Option (Mat ℚ)) (idx : List Nat) (n : Nat)
    (hm : ∀ x, m = some x → x.rows = n) (h : ∀ d ∈ idx, d < n) :
    ∃ b, selOptRows m idx = .ok b ∧ OptRows m idx b := by
  rcases m with _ | m
  · exact ⟨none, rfl, trivial⟩
  · obtain ⟨b, hb, hr⟩ := matRows_sel m idx (by rw [hm m rfl]; exact h)
    refine ⟨some b, ?_, hr⟩
    simp only [selOptRows, hb]; rfl

theorem listRows_sel {α : Type} (l : List α) (idx : List Nat) (h : ∀ d ∈ idx, d < l.length) :
    ∃ r, selList l idx = .ok r ∧ ListRows l idx r := by
  obtain ⟨r, hr, hm⟩ := selList_ok l idx h
  exact ⟨r, hr, selList_length hm, fun i d hi =>
    ⟨h d (List.mem_of_getElem? hi), selList_get hm i d hi⟩⟩

theorem catRows_sel (c : Cats κ) (idx : List Nat) (n : Nat) (hp : NotPyList c)
    (hc : ∀ k, c.len? = some k → k = n) (h : ∀ d ∈ idx, d < n) :
    ∃ b, c.selOpt idx = .ok b ∧ CatRows c idx b := by
  rcases c with _ | l | l
  · exact ⟨.none, rfl, trivial⟩
  · exact absurd rfl (hp l)
  · obtain ⟨r, hr, hm⟩ := listRows_sel l idx (by
      have := hc l.length rfl
      rw [this]; exact h)
    refine ⟨.array r, ?_, hm⟩
    simp only [Cats.selOpt, Cats.sel, hr]; rfl

theorem OptRows.rows {a b : Option (Mat ℚ)} {idx : List Nat} (h : OptRows a idx b) :
    ∀ m, b = some m → m.rows = idx.length := by
  rintro m rfl
  rcases a with _ | a
  · exact absurd h id
  · exact h.1

theorem CatRows.len {a b : Cats κ} {idx : List Nat} (h : CatRows a idx b) :
    ∀ k, b.len? = some k → k = idx.length := by
  intro k hk
  rcases a with _ | a | a <;> rcases b with _ | b | b <;> simp only [CatRows] at h
  · simp [Cats.len?] at hk
  · simp [Cats.len?] at hk
    rw [← hk]; exact h.1

/-- Selecting a non-empty list of existing rows of a valid dataset succeeds and returns those
rows of every component. -/
theorem subset_ok (ds : DataSet κ) (idx : List Nat) (hv : Valid ds) (hp : NotPyList ds.cats)
    (hne : idx ≠ []) (h : ∀ d ∈ idx, d < ds.words.rows) :
    ∃ r, ds.subset idx = .ok r ∧ RowsOf ds idx r ∧ Valid r := by
  obtain ⟨w, hw, hw'⟩ := matRows_sel ds.words idx h
  obtain ⟨f, hf, hf'⟩ := optRows_sel ds.feats idx _ hv.feats h
  obtain ⟨l, hl, hl'⟩ := optRows_sel ds.links idx _ hv.links h
  obtain ⟨c, hc, hc'⟩ := catRows_sel ds.cats idx _ hp hv.cats h
  obtain ⟨o, ho, ho'⟩ := listRows_sel ds.order idx (by rw [hv.order]; exact h)
  have hlen : 0 < idx.length := List.length_pos_iff.mpr hne
  have hmk := mk'_ok w f l ds.wordDict c (some o) 0 (by rw [hw'.1]; exact hlen)
    (by rw [hw'.1]; exact hf'.rows) (by rw [hw'.1]; exact hl'.rows)
    (by rw [hw'.1]; exact hc'.len)
  have hsub : ds.subset idx = mk' w f l ds.wordDict c (some o) 0 := by
    unfold DataSet.subset
    rw [hw, hf, hl, hc, ho]
    rfl
  refine ⟨_, hsub.trans hmk, ?_, ?_⟩
  · exact ⟨hw', hf', hl', hc', by simpa using ho', rfl⟩
  · refine ⟨by rw [hw'.1]; exact hlen, ?_, ?_, ?_, ?_⟩
    · rw [hw'.1]; exact hf'.rows
    · rw [hw'.1]; exact hl'.rows
    · rw [hw'.1]; exact hc'.len
    · simp [ho'.1, hw'.1]

theorem MatRows.total {a b : Mat ℚ} {idx : List Nat} (h : MatRows a idx b) :
    b.total = (idx.map a.rowSum).sum := by
  unfold Mat.total
  congr 1
  rw [h.1]
  apply List.ext_getElem
  · simp
  · intro i h1 h2
    simp only [List.getElem_map, List.getElem_range]
    have hi : i < idx.length := by simpa using h2
    have := (h.2.2 i idx[i] (List.getElem?_eq_getElem hi)).2
    unfold Mat.rowSum
    rw [h.2.1]
    congr 1
    apply List.map_congr_left
    intro j _
    exact this j

/-- **C03** Cross-validation keeps all components aligned: there are index lists `tr`, `qu`
partitioning all document positions such that the training dataset consists of the rows `tr`
and the query dataset of the rows `qu`, in every component at once.  The parts' word counts
add up to the whole, and both parts are valid datasets again. -/
theorem crossValidSplit_aligned (ds : DataSet κ) (fold folds : Int) (hv : Valid ds)
    (hp : NotPyList ds.cats) (h2 : 2 ≤ ds.docCount) (hfold : fold < folds) (hfolds : 1 < folds) :
    ∃ tr qu train query, ds.crossValidSplit fold folds = .ok (train, query) ∧
      (tr ++ qu).Perm (List.range ds.docCount) ∧
      RowsOf ds tr train ∧ RowsOf ds qu query ∧ Valid train ∧ Valid query ∧
      train.wordCount + query.wordCount = ds.wordCount := by
  obtain ⟨tr, qu, hidx, hpart, hlen⟩ :=
    CrossVal.crossValid_partition ds.docCount fold folds hfold hfolds
  have hlt : ∀ d, d ∈ tr ++ qu → d < ds.words.rows := by
    intro d hd
    have := hpart.mem_iff.mp hd
    simpa [docCount] using this
  have hsum : tr.length + qu.length = ds.docCount := by
    have := hpart.length_eq
    simpa using this
  have hq0 : 0 < qu.length := by
    have : (0 : Int) < qu.length := by
      rw [hlen]
      apply Int.ceil_pos.mpr
      apply div_pos
      · exact_mod_cast (by omega : 0 < ds.docCount)
      · exact_mod_cast (by omega : 0 < folds)
    omega
  have hq1 : qu.length < ds.docCount := by
    have : (qu.length : Int) < ds.docCount := by
      rw [hlen, ← CrossVal.ceil_eq _ _ (by omega)]
      rw [Int.ediv_lt_iff_lt_mul (by omega)]
      have : (2 : Int) ≤ ds.docCount := by exact_mod_cast h2
      nlinarith
    omega
  have htr : tr ≠ [] := by
    intro h; rw [h] at hsum; simp at hsum; omega
  have hqu : qu ≠ [] := by
    intro h; rw [h] at hq0; simp at hq0
  obtain ⟨t, ht, ht', htv⟩ := subset_ok ds tr hv hp htr
    (fun d hd => hlt d (List.mem_append_left _ hd))
  obtain ⟨q, hq, hq', hqv⟩ := subset_ok ds qu hv hp hqu
    (fun d hd => hlt d (List.mem_append_right _ hd))
  refine ⟨tr, qu, t, q, ?_, hpart, ht', hq', htv, hqv, ?_⟩
  · unfold crossValidSplit
    rw [hidx]
    change (do let train ← ds.subset tr; let query ← ds.subset qu; return (train, query)) = _
    rw [ht, hq]; rfl
  · unfold wordCount
    rw [ht'.words.total, hq'.words.total, ← List.sum_append, ← List.map_append]
    exact (hpart.map _).sum_eq

/-- **C03** (error cases) With categories held in a plain list the split raises a `TypeError`. -/
theorem crossValidSplit_pyList (ds : DataSet κ) (l : List κ) (fold folds : Int) (hv : Valid ds)
    (hc : ds.cats = .pyList l) (hfold : fold < folds) (hfolds : 1 < folds) :
    ds.crossValidSplit fold folds = .error .typeError := by
  obtain ⟨tr, qu, hidx, hpart, hlen⟩ :=
    CrossVal.crossValid_partition ds.docCount fold folds hfold hfolds
  have hlt : ∀ d, d ∈ tr → d < ds.words.rows := by
    intro d hd
    have := hpart.mem_iff.mp (List.mem_append_left _ hd)
    simpa [docCount] using this
  obtain ⟨w, hw, hw'⟩ := matRows_sel ds.words tr hlt
  obtain ⟨f, hf, hf'⟩ := optRows_sel ds.feats tr _ hv.feats hlt
  obtain ⟨k, hl, hl'⟩ := optRows_sel ds.links tr _ hv.links hlt
  have : ds.subset tr = .error .typeError := by
    unfold DataSet.subset
    rw [hw, hf, hl, hc]; rfl
  unfold crossValidSplit
  rw [hidx]
  change (do let train ← ds.subset tr; let query ← ds.subset qu; return (train, query)) = _
  rw [this]; rfl

/-- **C03** (error cases) A single document cannot be split: the training part would be empty. -/
theorem crossValidSplit_single (ds : DataSet κ) (fold folds : Int) (hv : Valid ds)
    (hp : NotPyList ds.cats) (h1 : ds.docCount = 1) (hfold : fold < folds) (hfolds : 1 < folds) :
    ds.crossValidSplit fold folds = .error .assertionError := by
  obtain ⟨tr, qu, hidx, hpart, hlen⟩ :=
    CrossVal.crossValid_partition ds.docCount fold folds hfold hfolds
  have hsum : tr.length + qu.length = ds.docCount := by
    have := hpart.length_eq
    simpa using this
  have hq0 : 0 < qu.length := by
    have : (0 : Int) < qu.length := by
      rw [hlen]
      apply Int.ceil_pos.mpr
      apply div_pos
      · exact_mod_cast (by omega : 0 < ds.docCount)
      · exact_mod_cast (by omega : 0 < folds)
    omega
  have htr : tr = [] := List.length_eq_zero_iff.mp (by omega)
  subst htr
  obtain ⟨f, hf, hf'⟩ := optRows_sel ds.feats [] _ hv.feats (by simp)
  obtain ⟨k, hl, hl'⟩ := optRows_sel ds.links [] _ hv.links (by simp)
  obtain ⟨c, hc, hc'⟩ := catRows_sel ds.cats [] _ hp hv.cats (by simp)
  have : ds.subset [] = .error .assertionError := by
    unfold DataSet.subset
    rw [selRows_ok _ _ (by simp), hf, hl, hc]
    rfl
  unfold crossValidSplit
  rw [hidx]
  change (do let train ← ds.subset []; let query ← ds.subset qu; return (train, query)) = _
  rw [this]; rfl

/-- **C15** (consequence) A dataset built with an effective limit cannot be cross-validated:
every split raises an `IndexError`, since the order has been cut but the matrices have not. -/
theorem limit_breaks_cross_validation (words : Mat ℚ) (dict) (limit : Nat) (fold folds : Int)
    (h0 : 0 < limit) (h1 : limit < words.rows) (hfold : fold < folds) (hfolds : 1 < folds)
    (ds : DataSet κ) (h : mk' words none none dict Cats.none none limit = .ok ds) :
    ds.crossValidSplit fold folds = .error .indexError := by
  rw [mk'_ok words none none dict Cats.none none limit (by omega) (by simp) (by simp)
    (by simp [Cats.len?])] at h
  cases h
  simp only [h0, h1, and_self, if_true]
  obtain ⟨tr, qu, hidx, hpart, hlen⟩ :=
    CrossVal.crossValid_partition words.rows fold folds hfold hfolds
  have hlt : ∀ d, d ∈ tr ++ qu → d < words.rows := by
    intro d hd
    have := hpart.mem_iff.mp hd
    simpa using this
  have hlast : (words.rows - 1) ∈ tr ++ qu := by
    apply hpart.mem_iff.mpr
    rw [List.mem_range]; omega
  set ds : DataSet κ := { words := words, feats := none, links := none, wordDict := dict,
                          cats := Cats.none, order := List.range limit } with hds
  have hbad : ∀ idx : List Nat, (∀ d ∈ idx, d < words.rows) → (words.rows - 1) ∈ idx →
      ds.subset idx = .error .indexError := by
    intro idx hi hm
    unfold DataSet.subset
    rw [selRows_ok ds.words idx hi]
    have := selList_err (List.range limit) idx _ hm (by simp; omega)
    change (do let order ← selList (List.range limit) idx; mk' _ _ _ _ _ (some order) 0) = _
    rw [this]; rfl
  unfold crossValidSplit
  rw [show ds.docCount = words.rows from rfl, hidx]
  change (do let train ← ds.subset tr; let query ← ds.subset qu; return (train, query)) = _
  by_cases hm : (words.rows - 1) ∈ tr
  · rw [hbad tr (fun d hd => hlt d (List.mem_append_left _ hd)) hm]; rfl
  · have hmq : (words.rows - 1) ∈ qu := (List.mem_append.mp hlast).resolve_left hm
    rcases ht : ds.subset tr with e | t
    · -- the training part can only fail with an IndexError as well
      have : e = .indexError := by
        by_cases hall : ∀ d ∈ tr, d < limit
        · exfalso
          obtain ⟨r, hr, hr'⟩ := listRows_sel (List.range limit) tr (by simpa using hall)
          have htr : tr ≠ [] := by
            intro h
            have hs := hpart.length_eq
            rw [h] at hs
            simp at hs
            have : (qu.length : Int) < words.rows := by
              rw [hlen, ← CrossVal.ceil_eq _ _ (by omega), Int.ediv_lt_iff_lt_mul (by omega)]
              have : (2 : Int) ≤ words.rows := by exact_mod_cast (by omega : 2 ≤ words.rows)
              nlinarith
            omega
          have hmk := mk'_ok (κ := κ) { rows := tr.length, cols := words.cols, get := fun i j => words.get (tr.getD i 0) j }
            none none dict Cats.none (some r) 0 (List.length_pos_iff.mpr htr) (by simp) (by simp)
            (by simp [Cats.len?])
          unfold DataSet.subset at ht
          rw [selRows_ok ds.words tr (fun d hd => hlt d (List.mem_append_left _ hd))] at ht
          change (do let order ← selList (List.range limit) tr; mk' _ _ _ _ _ (some order) 0) = _ at ht
          rw [hr] at ht
          change mk' _ _ _ _ _ (some r) 0 = _ at ht
          have hh := hmk.symm.trans ht
          cases hh
        · push Not at hall
          obtain ⟨d, hd, hdl⟩ := hall
          unfold DataSet.subset at ht
          rw [selRows_ok ds.words tr (fun d hd => hlt d (List.mem_append_left _ hd))] at ht
          change (do let order ← selList (List.range limit) tr; mk' _ _ _ _ _ (some order) 0) = _ at ht
          rw [selList_err (List.range limit) tr d hd (by simp; omega)] at ht
          cases ht; rfl
      subst this; rfl
    · change (do let query ← ds.subset qu; return (t, query)) = _
      rw [hbad qu (fun d hd => hlt d (List.mem_append_right _ hd)) hmq]; rfl

/-! ## Non-vacuity -/

/-- a small dataset: 3 documents, 2 words, features, links and categories present -/
def sample : DataSet String :=
  { words := ⟨3, 2, fun i j => (2 * i + j : Nat)⟩
    feats := some ⟨3, 1, fun i _ => (i : Nat)⟩
    links := some ⟨3, 3, fun i j => if i = j then 0 else 1⟩
    wordDict := none
    cats := .array ["a", "b", "c"]
    order := [7, 8, 9] }

example : Valid sample :=
  ⟨by decide, by rintro m h; cases h; rfl, by rintro m h; cases h; rfl,
   by rintro k h; cases h; rfl, rfl⟩
example : NotPyList sample.cats := by intro l h; cases h
example : 2 ≤ sample.docCount := by decide
example : (match sample.crossValidSplit 1 3 with
    | .ok (t, q) => t.order = [9, 7] ∧ q.order = [8] ∧ q.words.get 0 1 = 3 ∧
        t.words.get 0 1 = 5 ∧ t.words.rows = 2
    | .error _ => False) := by
  refine ⟨rfl, rfl, ?_, ?_, rfl⟩ <;> rfl

end Verif.Props.DataSetSplit
