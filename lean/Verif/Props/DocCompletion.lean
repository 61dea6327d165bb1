import Mathlib.Tactic.Linarith
import Mathlib.Tactic.NormNum
import Mathlib.Tactic.Push
import Verif.Model.DataSetOps
import Verif.Props.DataSetSplit

/-!
# C04, C05, C06: document completion
-/

namespace Verif.Props.DocCompletion

open Verif Verif.DataSet Verif.Props.DataSetSplit

variable {κ : Type}

/-! ## Rounding -/

theorem round_close (x : ℚ) : |(roundHalfEven x : ℚ) - x| ≤ 1/2 := by
  have h1 := Int.floor_le x
  have h2 := Int.lt_floor_add_one x
  unfold roundHalfEven
  simp only
  split_ifs <;> rw [abs_le] <;> push_cast <;> constructor <;> linarith

theorem round_int (z : ℤ) : roundHalfEven (z : ℚ) = z := by
  unfold roundHalfEven; simp

theorem round_mono_int (x : ℚ) (z : ℤ) (h : (z : ℚ) ≤ x) : z ≤ roundHalfEven x := by
  have h1 : z ≤ ⌊x⌋ := Int.le_floor.mpr h
  unfold roundHalfEven
  simp only
  split_ifs <;> omega

theorem round_mono_int' (x : ℚ) (z : ℤ) (h : x ≤ (z : ℚ)) : roundHalfEven x ≤ z := by
  have h0 := Int.floor_le x
  have h1 : ⌊x⌋ ≤ z := by
    have := Int.floor_le_floor h
    simpa using this
  rcases h1.lt_or_eq with h2 | h2
  · unfold roundHalfEven
    simp only
    split_ifs <;> omega
  · have h3 : x = z := le_antisymm h (by rw [← h2]; exact h0)
    rw [h3, round_int]

/-- rounding is below an integer exactly if the number is below by more than one half (or by
exactly one half, with an even integer underneath) -/
theorem round_neg_iff (x : ℚ) : roundHalfEven x < 0 ↔ x < -1/2 := by
  have h1 := Int.floor_le x
  have h2 := Int.lt_floor_add_one x
  constructor
  · intro h
    by_contra hc
    push Not at hc
    have hf : -1 ≤ ⌊x⌋ := Int.le_floor.mpr (by push_cast; linarith)
    unfold roundHalfEven at h
    simp only at h
    rcases lt_or_ge ⌊x⌋ 0 with h3 | h3
    · have h4 : ⌊x⌋ = -1 := by omega
      rw [h4] at h
      have h5 : ¬ (x - ((-1 : ℤ) : ℚ) < 1/2) := by push_cast; linarith
      rw [if_neg h5] at h
      split_ifs at h with h6 h7 <;> omega
    · split_ifs at h <;> omega
  · intro h
    have hf : ⌊x⌋ ≤ -1 := by
      have : ⌊x⌋ < 0 := Int.floor_lt.mpr (by push_cast; linarith)
      omega
    unfold roundHalfEven
    simp only
    rcases hf.lt_or_eq with h3 | h3
    · split_ifs <;> omega
    · rw [h3]
      have h5 : (x - ((-1 : ℤ) : ℚ) < 1/2) := by push_cast; linarith
      rw [if_pos h5]; omega

/-! ## C04 -/

theorem entry_add (w : Csr ℚ) (est : List ℚ) (h : est.length = w.data.length) (r c : Nat) :
    { w with data := est }.entry r c
      + { w with data := List.zipWith (· - ·) w.data est }.entry r c = w.entry r c := by
  unfold Csr.entry Csr.row Csr.pairs Csr.ptr
  simp only
  generalize w.indptr.getD r 0 = s
  generalize w.indptr.getD (r + 1) 0 - s = k
  -- reduce to lists of equal length
  have key : ∀ (ind : List Nat) (dat est : List ℚ), est.length = dat.length → ∀ s k : Nat,
      ((((ind.zip est).drop s |>.take k).filter (fun p => p.1 = c)).map Prod.snd).sum
      + ((((ind.zip (List.zipWith (· - ·) dat est)).drop s |>.take k).filter
          (fun p => p.1 = c)).map Prod.snd).sum
      = ((((ind.zip dat).drop s |>.take k).filter (fun p => p.1 = c)).map Prod.snd).sum := by
    intro ind
    induction ind with
    | nil => intro dat est _ s k; simp
    | cons a ind ih =>
      intro dat est hl s k
      rcases dat with _ | ⟨x, dat⟩
      · rw [List.length_nil, List.length_eq_zero_iff] at hl
        subst hl; simp
      rcases est with _ | ⟨y, est⟩
      · simp at hl
      have hl' : est.length = dat.length := by simpa using hl
      rcases s with _ | s
      · rcases k with _ | k
        · simp
        · have := ih dat est hl' 0 k
          simp only [List.drop_zero] at this
          simp only [List.zip_cons_cons, List.zipWith_cons_cons, List.drop_zero, List.take_succ_cons]
          by_cases hc : a = c
          · simp only [List.filter_cons, hc, decide_true, if_true, List.map_cons, List.sum_cons]
            linarith
          · simp only [List.filter_cons, hc, decide_false, Bool.false_eq_true, if_false]
            exact this
      · simp only [List.zip_cons_cons, List.zipWith_cons_cons, List.drop_succ_cons]
        exact ih dat est hl' s k
  exact key w.indices w.data est h s k

theorem estData_length (p : ℚ) (dat jit : List ℚ) (h : jit.length = dat.length) :
    (estData p dat jit).length = dat.length := by
  simp [estData, h]

/-- **C04** Without features and without a minimum, document completion succeeds on a valid
dataset for every jitter; the two halves have the shape and vocabulary of the original and
their counts add up to the original counts at every position. -/
theorem completion_conserves_counts (ds : DataSet κ) (w : Csr ℚ) (jit : List ℚ) (p : ℚ)
    (minU : Int) (hmin : minU ≤ 0) (hv : Valid ds) (hw : ds.words = w.toMat)
    (hf : ds.feats = none) (hj : jit.length = w.data.length) :
    ∃ a b, ds.docCompletionSplit w jit p minU = .ok (a, b) ∧
      a.words.rows = ds.words.rows ∧ a.words.cols = ds.words.cols ∧
      b.words.rows = ds.words.rows ∧ b.words.cols = ds.words.cols ∧
      (∀ d v, a.words.get d v + b.words.get d v = ds.words.get d v) ∧
      a.wordDict = ds.wordDict ∧ b.wordDict = ds.wordDict ∧
      a.links = ds.links ∧ b.links = ds.links ∧ a.cats = ds.cats ∧ b.cats = ds.cats := by
  have hpos : 0 < w.rows := by have := hv.pos; rwa [hw] at this
  have hl : ∀ m, ds.links = some m → m.rows = w.rows := by
    intro m hm; rw [hv.links m hm, hw]; rfl
  have hc : ∀ k, ds.cats.len? = some k → k = w.rows := by
    intro k hk; rw [hv.cats k hk, hw]; rfl
  have mk1 := mk'_ok (κ := κ) { w with data := estData p w.data jit }.toMat none ds.links ds.wordDict
    ds.cats none 0 hpos (by simp) hl hc
  have mk2 := mk'_ok (κ := κ)
    { w with data := List.zipWith (· - ·) w.data (estData p w.data jit) }.toMat none ds.links
    ds.wordDict ds.cats none 0 hpos (by simp) hl hc
  have hrun : ds.docCompletionSplit w jit p minU = (do
      let train ← mk' { w with data := estData p w.data jit }.toMat none ds.links ds.wordDict ds.cats none 0
      let query ← mk' { w with data := List.zipWith (· - ·) w.data (estData p w.data jit) }.toMat
        none ds.links ds.wordDict ds.cats none 0
      return (train, query)) := by
    unfold docCompletionSplit
    have hm : ¬ (0 < minU) := by omega
    simp only [hf, hm, if_false]
  rw [mk1, mk2] at hrun
  refine ⟨_, _, hrun, ?_, ?_, ?_, ?_, ?_, rfl, rfl, rfl, rfl, rfl, rfl⟩
  · rw [hw]; rfl
  · rw [hw]; rfl
  · rw [hw]; rfl
  · rw [hw]; rfl
  · intro d v
    rw [hw]
    exact entry_add w _ (estData_length p _ _ hj) d v

/-- **C04** With features both results are the unchanged dataset. -/
theorem completion_with_features (ds : DataSet κ) (w : Csr ℚ) (jit : List ℚ) (p : ℚ) (minU : Int)
    (f : Mat ℚ) (hf : ds.feats = some f) :
    ds.docCompletionSplit w jit p minU = .ok (ds, ds) := by
  unfold docCompletionSplit; rw [hf]

/-! ## C05 -/

/-- **C05** (exact condition) The estimation part of a stored count is negative exactly if the
jittered, scaled count is below minus one half. -/
theorem estimated_negative_iff (p dat jit : ℚ) :
    estimated p dat jit < 0 ↔ (dat + jit) * p < -1/2 := by
  unfold estimated
  rw [← round_neg_iff]
  exact_mod_cast Iff.rfl

/-- **C05** (partial) If the jitter lies in `[-count, count·(1/p - 1)]` for an integral count and a
proportion `p > 0`, both parts of the count are non-negative and at most the count. -/
theorem parts_in_range_partial (p jit : ℚ) (dat : ℕ) (hp : 0 < p) (h1 : -(dat : ℚ) ≤ jit)
    (h2 : (dat + jit) * p ≤ dat) :
    0 ≤ estimated p dat jit ∧ estimated p dat jit ≤ dat ∧
      0 ≤ (dat : ℚ) - estimated p dat jit ∧ (dat : ℚ) - estimated p dat jit ≤ dat := by
  have a : (0 : ℤ) ≤ roundHalfEven (((dat : ℚ) + jit) * p) :=
    round_mono_int _ 0 (by push_cast; exact mul_nonneg (by linarith) hp.le)
  have b : roundHalfEven (((dat : ℚ) + jit) * p) ≤ (dat : ℤ) :=
    round_mono_int' _ dat (by exact_mod_cast h2)
  have a' : (0 : ℚ) ≤ (roundHalfEven (((dat : ℚ) + jit) * p) : ℚ) := by exact_mod_cast a
  have b' : (roundHalfEven (((dat : ℚ) + jit) * p) : ℚ) ≤ dat := by exact_mod_cast b
  unfold estimated
  exact ⟨a', b', by linarith, by linarith⟩

/-- one document with one occurrence of one word -/
def one : Csr ℚ := ⟨1, 1, [0, 1], [0], [1]⟩

def oneDs : DataSet Unit :=
  { words := one.toMat, feats := none, links := none, wordDict := none, cats := .none, order := [0] }

/-- **C05** (violation) With a jitter of `-5` (five standard deviations are not excluded by a normal
distribution) a count of 1 is split into `-2` and `3`. -/
theorem completion_negative_count :
    ∃ a b : DataSet Unit, oneDs.docCompletionSplit one [-5] (1/2) 0 = .ok (a, b) ∧
      a.words.get 0 0 = -2 ∧ b.words.get 0 0 = 3 := by
  refine ⟨_, _, rfl, ?_, ?_⟩ <;> decide +kernel

example : estimated (1/2) 3 (1/10) = 2 ∧ estimated (1/2) 1 (-5) = -2 := by decide +kernel
example : (0 : ℚ) < 1/2 ∧ -((3 : ℕ) : ℚ) ≤ 1/10 ∧ (((3 : ℕ) : ℚ) + 1/10) * (1/2) ≤ (3 : ℕ) := by
  norm_num

/-! ## C06 -/

/-- **C06** (what happens) With a positive minimum the call raises a `TypeError` exactly if some
document falls below the minimum in one of the halves; otherwise the minimum has no effect. -/
theorem completion_with_minimum_partial (ds : DataSet κ) (w : Csr ℚ) (jit : List ℚ) (p : ℚ)
    (minU : Int) (hmin : 0 < minU) (hf : ds.feats = none) :
    ((∀ d, d < w.rows →
        minU ≤ (({ w with data := estData p w.data jit }.toMat.rowNnz d : Nat) : Int) ∧
        minU ≤ (({ w with data := List.zipWith (· - ·) w.data (estData p w.data jit) }.toMat.rowNnz d
          : Nat) : Int)) →
      ds.docCompletionSplit w jit p minU = ds.docCompletionSplit w jit p 0) ∧
    (¬ (∀ d, d < w.rows →
        minU ≤ (({ w with data := estData p w.data jit }.toMat.rowNnz d : Nat) : Int) ∧
        minU ≤ (({ w with data := List.zipWith (· - ·) w.data (estData p w.data jit) }.toMat.rowNnz d
          : Nat) : Int)) →
      ds.docCompletionSplit w jit p minU = .error .typeError) := by
  unfold docCompletionSplit
  simp only [hf, hmin, if_true]
  set wt := { w with data := estData p w.data jit }.toMat with hwt
  set wq := { w with data := List.zipWith (· - ·) w.data (estData p w.data jit) }.toMat with hwq
  have hrows : wt.rows = w.rows := rfl
  have hlen : ((List.range wt.rows).filter (fun d =>
        minU ≤ (wt.rowNnz d : Int) ∧ minU ≤ (wq.rowNnz d : Int))).length = wt.rows ↔
      ∀ d, d < w.rows → minU ≤ (wt.rowNnz d : Int) ∧ minU ≤ (wq.rowNnz d : Int) := by
    have h := @List.length_filter_eq_length_iff _ (fun d =>
        decide (minU ≤ (wt.rowNnz d : Int) ∧ minU ≤ (wq.rowNnz d : Int))) (List.range wt.rows)
    rw [List.length_range] at h
    rw [h, hrows]
    simp only [List.mem_range, decide_eq_true_eq]
  constructor
  · intro h
    have := hlen.mpr h
    simp only [this, ne_eq, not_true_eq_false, if_false, lt_irrefl]
  · intro h
    have hne := fun e => h (hlen.mp e)
    rw [if_pos hne]
    rfl

/-- **C06** (violation) A request that should drop one short document fails instead. -/
theorem completion_minimum_fails :
    oneDs.docCompletionSplit one [0] (1/2) 1 = .error .typeError := by
  apply (completion_with_minimum_partial oneDs one [0] (1/2) 1 (by decide) rfl).2
  intro h
  have := (h 0 (by decide)).1
  revert this
  decide +kernel

/-! ## Non-vacuity -/

/-- two documents over two words -/
def two : Csr ℚ := ⟨2, 2, [0, 2, 3], [0, 1, 1], [3, 4, 8]⟩
def twoDs : DataSet Unit :=
  { words := two.toMat, feats := none, links := none, wordDict := none, cats := .none, order := [0, 1] }

example : Valid twoDs := by
  refine ⟨by decide, ?_, ?_, ?_, rfl⟩
  · rintro m h; cases h
  · rintro m h; cases h
  · rintro m h; cases h
example : (match twoDs.docCompletionSplit two [1/10, -1/5, 2] (1/2) 0 with
    | .ok (a, b) => (a.words.get 0 0, b.words.get 0 0, a.words.get 1 1, b.words.get 1 1)
    | .error _ => (0, 0, 0, 0)) = (2, 1, 5, 3) := by decide +kernel
example : ∀ d, d < two.rows →
    1 ≤ (({ two with data := estData (1/2) two.data [1/10, -1/5, 2] }.toMat.rowNnz d : Nat) : Int) := by
  decide +kernel

end Verif.Props.DocCompletion
