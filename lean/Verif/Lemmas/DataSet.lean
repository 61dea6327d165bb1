import Mathlib.Data.List.Perm.Subperm
import Mathlib.Data.List.Range
import Mathlib.Data.List.Nodup
import Mathlib.Algebra.BigOperators.Group.List.Basic
import Mathlib.Tactic.Linarith
import Verif.Model.DataSet

/-! Lemmas about row selection, re-ordering and construction of datasets. -/

namespace Verif

variable {κ : Type}

theorem all_lt_iff (idx : List Nat) (n : Nat) :
    (idx.all (· < n)) = true ↔ ∀ d ∈ idx, d < n := by simp

theorem selRows_ok {α : Type} (m : Mat α) (idx : List Nat) (h : ∀ d ∈ idx, d < m.rows) :
    m.selRows idx =
      .ok { rows := idx.length, cols := m.cols, get := fun i j => m.get (idx.getD i 0) j } := by
  unfold Mat.selRows
  rw [if_pos ((all_lt_iff _ _).mpr h)]

theorem selCols_ok {α : Type} (m : Mat α) (idx : List Nat) (h : ∀ d ∈ idx, d < m.cols) :
    m.selCols idx =
      .ok { rows := m.rows, cols := idx.length, get := fun i j => m.get i (idx.getD j 0) } := by
  unfold Mat.selCols
  rw [if_pos ((all_lt_iff _ _).mpr h)]

theorem selRows_err {α : Type} (m : Mat α) (idx : List Nat) (d : Nat) (hd : d ∈ idx)
    (h : ¬ d < m.rows) : m.selRows idx = .error .indexError := by
  unfold Mat.selRows
  rw [if_neg]
  rw [all_lt_iff]
  exact fun hh => h (hh d hd)

theorem getD_of_getElem? {l : List Nat} {i d : Nat} (h : l[i]? = some d) : l.getD i 0 = d := by
  simp [List.getD, h]

theorem selList_ok {α : Type} (l : List α) (idx : List Nat) (h : ∀ d ∈ idx, d < l.length) :
    ∃ r, selList l idx = .ok r ∧ r.map some = idx.map (fun i => l[i]?) := by
  induction idx with
  | nil => exact ⟨[], rfl, rfl⟩
  | cons a t ih =>
    obtain ⟨r, hr, hr'⟩ := ih (fun d hd => h d (List.mem_cons_of_mem _ hd))
    have ha := h a List.mem_cons_self
    refine ⟨l[a] :: r, ?_, ?_⟩
    · unfold selList at hr ⊢
      rw [List.mapM_cons, List.getElem?_eq_getElem ha]
      simp only [hr]
      rfl
    · simp [hr', List.getElem?_eq_getElem ha]

theorem selList_err {α : Type} (l : List α) (idx : List Nat) (d : Nat) (hd : d ∈ idx)
    (h : ¬ d < l.length) : selList l idx = .error .indexError := by
  induction idx with
  | nil => simp at hd
  | cons a t ih =>
    unfold selList at ih ⊢
    rw [List.mapM_cons]
    by_cases ha : a < l.length
    · rw [List.getElem?_eq_getElem ha]
      have : d ∈ t := by
        rcases List.mem_cons.mp hd with rfl | h'
        · exact absurd ha h
        · exact h'
      have := ih this
      simp only [this]
      rfl
    · rw [List.getElem?_eq_none (by omega)]
      rfl

theorem selList_length {α : Type} {l : List α} {idx : List Nat} {r : List α}
    (h : r.map some = idx.map (fun i => l[i]?)) : r.length = idx.length := by
  have := congrArg List.length h
  simpa using this

theorem selList_get {α : Type} {l : List α} {idx : List Nat} {r : List α}
    (h : r.map some = idx.map (fun i => l[i]?)) (i d : Nat) (hi : idx[i]? = some d) :
    r[i]? = l[d]? := by
  have h1 := congrArg (fun x => x[i]?) h
  simp only [List.getElem?_map, hi, Option.map_some] at h1
  rcases hr : r[i]? with _ | x
  · rw [hr] at h1; simp at h1
  · rw [hr] at h1
    simp at h1
    rw [h1]

end Verif
