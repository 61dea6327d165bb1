import Mathlib.Algebra.BigOperators.Group.Finset.Basic
import Mathlib.Algebra.BigOperators.Fin
import Mathlib.Analysis.SpecialFunctions.Log.Basic
import Verif.Model.SparseKernels
import Verif.Props.VecTrans

/-!
# Sparse element-wise kernels and CSR coordinates (C44, C45, C46)
-/

namespace Verif.Props.SparseKernels

open Verif Verif.SparseKernels

variable {α : Type}

theorem zip_some {β γ : Type} {a : List β} {b : List γ} {k : Nat} {x : β} {y : γ} (h1 : a[k]? = some x)
    (h2 : b[k]? = some y) : (a.zip b)[k]? = some (x, y) :=
  List.getElem?_zip_eq_some.mpr ⟨h1, h2⟩

/-! ## Coordinates -/

theorem csrIndices_loop (A : Csr α) (h : A.WF) (n : Nat) (hn : n ≤ A.rows) :
    ∃ rows : List Nat, (List.range n).foldl (fun (s : List Nat × Nat) r =>
        let elemCount := A.indptr.getD (r + 1) 0 - A.indptr.getD r 0
        let rows := if 0 < elemCount then
            s.1.take s.2 ++ List.replicate elemCount r ++ s.1.drop (s.2 + elemCount)
          else s.1
        (rows, s.2 + elemCount)) (List.replicate A.indices.length 0, 0) = (rows, A.ptr n) ∧
      rows.length = A.indices.length ∧
      ∀ r, r < n → ∀ k, A.ptr r ≤ k → k < A.ptr (r + 1) → rows[k]? = some r := by
  induction n with
  | zero =>
    refine ⟨_, by rw [h.zero]; rfl, by simp, by intros; omega⟩
  | succ n ih =>
    obtain ⟨rows, e1, e2, e3⟩ := ih (by omega)
    have hm := h.mono n (by omega)
    have hle := Csr.ptr_le_length A h (a := n + 1) hn
    have hc : A.indptr.getD (n + 1) 0 - A.indptr.getD n 0 = A.ptr (n + 1) - A.ptr n := rfl
    rw [List.range_succ, List.foldl_append, e1]
    simp only [List.foldl_cons, List.foldl_nil, hc]
    refine ⟨_, by rw [Nat.add_sub_cancel' hm], ?_, ?_⟩
    · split
      · simp only [List.length_append, List.length_take, List.length_replicate, List.length_drop, e2]
        omega
      · exact e2
    · intro r hr k h1 h2
      split
      · rename_i hpos
        rcases Nat.lt_or_ge k (A.ptr n) with hk | hk
        · have hrn : r < n := by
            by_contra hc
            have : r = n := by omega
            subst this; omega
          rw [List.append_assoc, List.getElem?_append_left (by rw [List.length_take]; omega),
            List.getElem?_take_of_lt hk]
          exact e3 r hrn k h1 h2
        · have hrn : r = n := by
            by_contra hc
            have := Csr.ptr_le A h (a := r + 1) (b := n) (by omega) (by omega)
            omega
          subst hrn
          rw [List.append_assoc, List.getElem?_append_right (by rw [List.length_take]; omega),
            List.getElem?_append_left (by rw [List.length_take, List.length_replicate]; omega),
            List.getElem?_replicate]
          rw [if_pos (by rw [List.length_take]; omega)]
      · have hrn : r < n := by
          by_contra hc
          have : r = n := by omega
          subst this; omega
        exact e3 r hrn k h1 h2

/-- C44.  For every stored entry of a well-formed CSR matrix the listing gives its row and column:
entry `k` in the pointer range of row `r` is listed as `(r, indices[k])`; there is one pair per
stored entry. -/
theorem csr_indices_spec (A : Csr α) (h : A.WF) :
    (csrIndices A.indptr A.indices).1.length = A.indices.length ∧
    (csrIndices A.indptr A.indices).2 = A.indices ∧
    (∀ r, r < A.rows → ∀ k, A.ptr r ≤ k → k < A.ptr (r + 1) →
      (csrIndices A.indptr A.indices).1[k]? = some r) ∧
    ∀ k, k < A.indices.length → ∃! r, r < A.rows ∧ A.ptr r ≤ k ∧ k < A.ptr (r + 1) := by
  have hlen : A.indptr.length - 1 = A.rows := by rw [h.len]; rfl
  obtain ⟨rows, e1, e2, e3⟩ := csrIndices_loop A h A.rows le_rfl
  have : (csrIndices A.indptr A.indices).1 = rows := by
    unfold csrIndices
    simp only [hlen]
    simp only at e1
    rw [e1]
  rw [this]
  refine ⟨e2, rfl, e3, ?_⟩
  intro k hk
  obtain ⟨r, hr, h1, h2⟩ := Csr.exists_row A h k hk
  exact ⟨r, ⟨hr, h1, h2⟩, fun s hs => Csr.row_unique A h hs.1 hr hs.2.1 hs.2.2 h1 h2⟩

/-- The listing reconstructs the stored triples, row by row. -/
theorem csr_indices_triples (A : Csr α) (h : A.WF) :
    (csrIndices A.indptr A.indices).1.zip A.pairs =
      (List.range A.rows).flatMap (fun r => (A.row r).map (fun e => (r, e))) := by
  obtain ⟨e1, _, e3, _⟩ := csr_indices_spec A h
  rw [List.flatMap_def]
  apply Csr.eq_flatten A h
  · intro r hr; rw [List.length_map, Csr.row_length A h r hr]
  · rw [List.length_zip, e1, Csr.pairs_length A h, Nat.min_self]
  · intro r hr k h1 h2
    rw [List.getElem?_map, Csr.row_getElem? A r k h1 h2]
    have hk : k < A.pairs.length := by
      rw [Csr.pairs_length A h]
      have := Csr.ptr_le_length A h (a := r + 1) hr
      omega
    rw [zip_some (e3 r hr k h1 h2) (List.getElem?_eq_getElem hk), List.getElem?_eq_getElem hk]
    rfl

example : VecTrans.exCsr.WF ∧ csrIndices VecTrans.exCsr.indptr VecTrans.exCsr.indices =
    ([1, 1, 3, 3], [2, 0, 1, 1]) := ⟨VecTrans.exCsr_wf, by decide⟩

/-! ## Kernels -/

theorem elems_spec (A : Csr α) (val : α → Nat → Nat → α) (d : α) (b : Nat) (n : Nat) :
    ∀ i (out : List α), i + n ≤ out.length →
      ∃ o, elems A val d b n (i, out) = (i + n, o) ∧ o.length = out.length ∧
        (∀ k, i ≤ k → k < i + n → o[k]? = some (val (A.data.getD k d) b (A.indices.getD k 0))) ∧
        ∀ k, (k < i ∨ i + n ≤ k) → o[k]? = out[k]? := by
  induction n with
  | zero =>
    intro i out _
    exact ⟨out, rfl, rfl, by intros; omega, fun k _ => rfl⟩
  | succ n ih =>
    intro i out hlen
    obtain ⟨o, e1, e2, e3, e4⟩ := ih (i + 1)
      (out.set i (val (A.data.getD i d) b (A.indices.getD i 0))) (by rw [List.length_set]; omega)
    refine ⟨o, ?_, by rw [e2, List.length_set], ?_, ?_⟩
    · unfold elems
      rw [e1]
      congr 1
      omega
    · intro k h1 h2
      rcases Nat.eq_or_lt_of_le h1 with h | h
      · subst h
        rw [e4 i (by omega), List.getElem?_set_self (by omega)]
      · exact e3 k (by omega) (by omega)
    · intro k hk
      rw [e4 k (by omega), List.getElem?_set_ne (by omega)]

/-- What the kernel computes for a row range: the slot `k` of the output belongs to row `r` of
the range, but reads the data of slot `k` of the *whole* matrix. -/
theorem kernelLoop_spec (A : Csr α) (h : A.WF) (val : α → Nat → Nat → α) (d : α) (start : Nat)
    (out : List α) (n : Nat) (hn : start + n ≤ A.rows)
    (hlen : A.ptr (start + n) - A.ptr start ≤ out.length) :
    ∃ o, kernelLoop A val d start (start + n) out = (A.ptr (start + n) - A.ptr start, n, o) ∧
      o.length = out.length ∧
      ∀ r, r < n → ∀ k, A.ptr (start + r) ≤ A.ptr start + k → A.ptr start + k < A.ptr (start + r + 1) →
        o[k]? = some (val (A.data.getD k d) r (A.indices.getD k 0)) := by
  induction n with
  | zero =>
    refine ⟨out, ?_, rfl, by intros; omega⟩
    unfold kernelLoop
    have : ∀ m, m ≤ start → (List.range m).foldl (fun (s : Nat × Nat × List α) aRow =>
        let elemCount := A.ptr (aRow + 1) - A.ptr aRow
        if start ≤ aRow then
          let (i, o) := elems A val d s.2.1 elemCount (s.1, s.2.2)
          (i, s.2.1 + 1, o)
        else s) (0, 0, out) = (0, 0, out) := by
      intro m hm
      induction m with
      | zero => rfl
      | succ m ih =>
        rw [List.range_succ, List.foldl_append, ih (by omega)]
        simp only [List.foldl_cons, List.foldl_nil]
        rw [if_neg (by omega)]
    rw [Nat.add_zero, Nat.sub_self]
    exact this start le_rfl
  | succ n ih =>
    have hm := h.mono (start + n) (by omega)
    have hm0 := Csr.ptr_le A h (a := start) (b := start + n) (by omega) (by omega)
    have hlen' : A.ptr (start + n + 1) - A.ptr start ≤ out.length := hlen
    obtain ⟨o, e1, e2, e3⟩ := ih (by omega) (by omega)
    obtain ⟨o', f1, f2, f3, f4⟩ := elems_spec A val d n (A.ptr (start + n + 1) - A.ptr (start + n))
      (A.ptr (start + n) - A.ptr start) o (by omega)
    refine ⟨o', ?_, by rw [f2, e2], ?_⟩
    · unfold kernelLoop at e1 ⊢
      rw [← Nat.add_assoc, List.range_succ, List.foldl_append, e1]
      simp only [List.foldl_cons, List.foldl_nil]
      rw [if_pos (by omega), f1]
      simp only [Prod.mk.injEq, and_true]
      omega
    · intro r hr k h1 h2
      by_cases hrn : r = n
      · subst hrn
        exact f3 k (by omega) (by omega)
      · have := Csr.ptr_le A h (a := start + r + 1) (b := start + n) (by omega) (by omega)
        rw [f4 k (by omega)]
        exact e3 r (by omega) k h1 h2

/-- The kernel over rows whose data starts at slot zero: every row of the result is the row of
`A` with each value combined with its (local) row and column. -/
theorem kernel_rows (A : Csr α) (h : A.WF) (val : α → Nat → Nat → α) (d : α) (start stop : Nat)
    (hs : start ≤ stop) (hst : stop ≤ A.rows) (h0 : A.ptr start = 0) (r : Nat) (hr : r < stop - start) :
    (kernel A val d start stop).row r = (A.row (start + r)).map (fun e => (e.1, val e.2 r e.1)) := by
  obtain ⟨n, rfl⟩ : ∃ n, stop = start + n := ⟨stop - start, by omega⟩
  have hple := Csr.ptr_le_length A h (a := start + n) hst
  have hdl := h.data
  have hoLen : (sliceRows A start (start + n)).data.length = A.ptr (start + n) := by
    simp only [sliceRows, h0, List.drop_zero, Nat.sub_zero, List.length_take]; omega
  obtain ⟨o, e1, e2, e3⟩ := kernelLoop_spec A h val d start (sliceRows A start (start + n)).data n hst
    (by rw [hoLen, h0]; omega)
  have hrn : r < n := by omega
  have hptr : ∀ q, q ≤ n → (kernel A val d start (start + n)).ptr q = A.ptr (start + q) := by
    intro q hq
    unfold kernel Csr.ptr sliceRows
    simp only
    rw [List.getD_eq_getElem?_getD, List.getElem?_map, List.getElem?_range (by omega)]
    simp only [Option.map_some, Option.getD_some, h0, Nat.sub_zero]
    rfl
  have hdat : (kernel A val d start (start + n)).data = o := by
    unfold kernel
    simp only [e1]
  have hind : (kernel A val d start (start + n)).indices = A.indices.take (A.ptr (start + n)) := by
    unfold kernel sliceRows
    simp only [h0, List.drop_zero, Nat.sub_zero]
  have hm := h.mono (start + r) (by omega)
  have hle2 := Csr.ptr_le A h (a := start + r + 1) (b := start + n) (by omega) hst
  apply List.ext_getElem?
  intro j
  rcases Nat.lt_or_ge j (A.ptr (start + r + 1) - A.ptr (start + r)) with hj | hj
  · have a1 := Csr.row_getElem? (kernel A val d start (start + n)) r (A.ptr (start + r) + j)
      (by rw [hptr r (by omega)]; omega) (by rw [hptr (r + 1) (by omega), ← Nat.add_assoc]; omega)
    have a2 := Csr.row_getElem? A (start + r) (A.ptr (start + r) + j) (by omega) (by omega)
    rw [hptr r (by omega), Nat.add_sub_cancel_left] at a1
    rw [Nat.add_sub_cancel_left] at a2
    rw [a1, List.getElem?_map, a2]
    unfold Csr.pairs
    rw [hdat, hind]
    have b1 := e3 r hrn (A.ptr (start + r) + j) (by omega) (by omega)
    have hi : A.ptr (start + r) + j < A.indices.length := by omega
    have hd' : A.ptr (start + r) + j < A.data.length := by omega
    rw [zip_some ((List.getElem?_take_of_lt (by omega)).trans (List.getElem?_eq_getElem hi)) b1,
      zip_some (List.getElem?_eq_getElem hi) (List.getElem?_eq_getElem hd')]
    rw [List.getD_eq_getElem?_getD, List.getElem?_eq_getElem hd', List.getD_eq_getElem?_getD,
      List.getElem?_eq_getElem hi]
    rfl
  · rw [List.getElem?_eq_none, List.getElem?_eq_none]
    · rw [List.length_map, Csr.row_length A h _ (by omega)]; exact hj
    · unfold Csr.row
      rw [List.length_take, hptr r (by omega), hptr (r + 1) (by omega), ← Nat.add_assoc]
      omega

theorem sliceRows_all (A : Csr α) (h : A.WF) : sliceRows A 0 A.rows = A := by
  obtain ⟨rows, cols, indptr, indices, data⟩ := A
  have h0 := h.zero
  have hl := h.last
  have hd := h.data
  simp only at hl hd
  unfold sliceRows
  simp only [h0, hl, Nat.sub_zero, List.drop_zero, Nat.zero_add, Csr.mk.injEq, true_and]
  refine ⟨?_, by simp, by rw [List.take_of_length_le (by omega)]⟩
  apply List.ext_getElem?
  intro k
  have hlen : indptr.length = rows + 1 := h.len
  rcases Nat.lt_or_ge k (rows + 1) with hk | hk
  · rw [List.getElem?_map, List.getElem?_range hk]
    unfold Csr.ptr
    simp only [Option.map_some]
    rw [List.getD_eq_getElem?_getD, List.getElem?_eq_getElem (by omega)]
    rfl
  · rw [List.getElem?_eq_none (by simpa using hk), List.getElem?_eq_none (by omega)]

/-- The sparsity pattern is untouched by a whole-matrix kernel. -/
theorem kernel_pattern (A : Csr α) (h : A.WF) (val : α → Nat → Nat → α) (d : α) :
    (kernel A val d 0 A.rows).rows = A.rows ∧ (kernel A val d 0 A.rows).cols = A.cols ∧
    (kernel A val d 0 A.rows).indptr = A.indptr ∧ (kernel A val d 0 A.rows).indices = A.indices := by
  unfold kernel
  rw [sliceRows_all A h]
  exact ⟨rfl, rfl, rfl, rfl⟩

/-- The shape of the result for a range of rows is that of the rows: one pointer for each of them and one more, as many columns as before. -/
theorem kernel_shape (A : Csr α) (val : α → Nat → Nat → α) (d : α) (start n : Nat) :
    (kernel A val d start (start + n)).rows = n ∧ (kernel A val d start (start + n)).cols = A.cols ∧
    (kernel A val d start (start + n)).indptr.length = n + 1 ∧
    ∀ r, r ≤ n → (kernel A val d start (start + n)).ptr r = A.ptr (start + r) - A.ptr start := by
  unfold kernel sliceRows
  refine ⟨by simp, rfl, by simp, ?_⟩
  intro r hr
  show List.getD _ r _ = _
  rw [List.getD_eq_getElem?_getD, List.getElem?_map, List.getElem?_range (by omega)]
  rfl

/-! ### The documented products -/

/-- entry `(r, c)` of the matrix product `B C` -/
def prodEntry [NonUnitalNonAssocSemiring α] (B C : Mat α) (r c : Nat) : α :=
  ∑ i ∈ Finset.range B.cols, B.get r i * C.get i c

theorem foldl_sum [AddCommMonoid α] (f : Nat → α) (n : Nat) :
    (List.range n).foldl (fun acc i => acc + f i) 0 = ∑ i ∈ Finset.range n, f i := by
  induction n with
  | zero => rfl
  | succ n ih =>
    rw [List.range_succ, List.foldl_append, ih, Finset.sum_range_succ]
    rfl

theorem dotProduct_eq [NonUnitalNonAssocSemiring α] (B C : Mat α) (r c : Nat) :
    dotProduct B C r c = prodEntry B C r c := foldl_sum _ _

/-- `X` has the sparsity pattern of `A` and its stored values are `f value row column`. -/
def MapsEntries (A X : Csr α) (f : α → Nat → Nat → α) : Prop :=
  X.rows = A.rows ∧ X.cols = A.cols ∧ X.indptr = A.indptr ∧ X.indices = A.indices ∧
    ∀ r, r < A.rows → X.row r = (A.row r).map (fun e => (e.1, f e.2 r e.1))

theorem kernel_maps (A : Csr α) (h : A.WF) (val : α → Nat → Nat → α) (d : α) :
    MapsEntries A (kernel A val d 0 A.rows) val := by
  obtain ⟨h1, h2, h3, h4⟩ := kernel_pattern A h val d
  refine ⟨h1, h2, h3, h4, ?_⟩
  intro r hr
  have := kernel_rows A h val d 0 A.rows (by omega) le_rfl h.zero r (by omega)
  rwa [Nat.zero_add] at this

/-- C45, division: `A / (B C)` at the stored entries. -/
theorem quotient_of_dot_spec {K : Type} [Field K] (A : Csr K) (h : A.WF) (B C : Mat K) :
    MapsEntries A (quotientOfDot A B C 0 A.rows) (fun v r c => v / prodEntry B C r c) := by
  have := kernel_maps A h (fun v r c => v / dotProduct B C r c) 0
  simpa only [quotientOfDot, dotProduct_eq] using this

/-- C45, product: `A * (B C)` at the stored entries. -/
theorem product_of_dot_spec {K : Type} [Field K] (A : Csr K) (h : A.WF) (B C : Mat K) :
    MapsEntries A (productOfDot A B C) (fun v r c => v * prodEntry B C r c) := by
  have := kernel_maps A h (fun v r c => v * dotProduct B C r c) 0
  simpa only [productOfDot, dotProduct_eq] using this

/-- C45, division by the normalised product: each inner index `i` is divided by `d[i]`. -/
theorem quotient_of_normed_dot_spec {K : Type} [Field K] (A : Csr K) (h : A.WF) (B C : Mat K) (d : Nat → K) :
    MapsEntries A (quotientOfNormedDot A B C d)
      (fun v r c => v / ∑ i ∈ Finset.range B.cols, B.get r i * C.get i c / d i) := by
  have := kernel_maps A h (fun v r c => v / dotProductNormed B C d r c) 0
  have e : ∀ r c, dotProductNormed B C d r c = ∑ i ∈ Finset.range B.cols, B.get r i * C.get i c / d i :=
    fun r c => foldl_sum _ _
  simpa only [quotientOfNormedDot, e] using this

/-- C45, `A * log(B C)` at the stored entries; inner products not above the smallest positive
float are replaced by it. -/
theorem product_of_safe_ln_dot_spec (A : Csr ℝ) (h : A.WF) (B C : Mat ℝ) (tiny : ℝ) :
    MapsEntries A (productOfSafeLnDot tiny A B C 0 A.rows)
      (fun v r c => v * Real.log (max (prodEntry B C r c) tiny)) := by
  have := kernel_maps A h (fun v r c => v * safeLn tiny (dotProduct B C r c)) 0
  have e : ∀ x : ℝ, safeLn tiny x = Real.log (max x tiny) := by
    intro x
    unfold safeLn
    split
    · rename_i hx; rw [max_eq_left hx.le]
    · rename_i hx; rw [max_eq_right (not_lt.mp hx)]
  simpa only [productOfSafeLnDot, dotProduct_eq, e] using this

/-- C46, the provable part: the row range `start … stop-1` gives `A[start:stop] / (B C)` (with the
rows of `B` numbered from the start of the range) when no entry is stored before the range, in
particular for `start = 0`. -/
theorem quotient_of_dot_range_partial {K : Type} [Field K] (A : Csr K) (h : A.WF) (B C : Mat K)
    (start stop : Nat) (hs : start ≤ stop) (hst : stop ≤ A.rows) (h0 : A.ptr start = 0)
    (r : Nat) (hr : r < stop - start) :
    (quotientOfDot A B C start stop).row r =
      (A.row (start + r)).map (fun e => (e.1, e.2 / prodEntry B C r e.1)) := by
  have := kernel_rows A h (fun v r c => v / dotProduct B C r c) 0 start stop hs hst h0 r hr
  simpa only [quotientOfDot, dotProduct_eq] using this

/-- C46, the provable part for the logarithm kernel. -/
theorem product_of_safe_ln_dot_range_partial (A : Csr ℝ) (h : A.WF) (B C : Mat ℝ) (tiny : ℝ)
    (start stop : Nat) (hs : start ≤ stop) (hst : stop ≤ A.rows) (h0 : A.ptr start = 0)
    (r : Nat) (hr : r < stop - start) :
    (productOfSafeLnDot tiny A B C start stop).row r =
      (A.row (start + r)).map (fun e => (e.1, e.2 * safeLn tiny (prodEntry B C r e.1))) := by
  have := kernel_rows A h (fun v r c => v * safeLn tiny (dotProduct B C r c)) 0 start stop hs hst h0 r hr
  simpa only [productOfSafeLnDot, dotProduct_eq] using this

/-- C46, exact behaviour for every range: slot `k` of the result is computed from slot `k` of the whole
matrix, i.e. from the first rows of `A` instead of those of the range. -/
theorem quotient_of_dot_range_reads {K : Type} [Field K] (A : Csr K) (h : A.WF) (B C : Mat K)
    (start n : Nat) (hst : start + n ≤ A.rows) (r : Nat) (hr : r < n) (k : Nat)
    (h1 : A.ptr (start + r) ≤ A.ptr start + k) (h2 : A.ptr start + k < A.ptr (start + r + 1)) :
    (quotientOfDot A B C start (start + n)).data[k]? =
      some (A.data.getD k 0 / prodEntry B C r (A.indices.getD k 0)) := by
  have hle := Csr.ptr_le_length A h (a := start + n) hst
  have hdl := h.data
  obtain ⟨o, e1, e2, e3⟩ := kernelLoop_spec A h (fun v r c => v / dotProduct B C r c) 0 start
    (sliceRows A start (start + n)).data n hst (by
      simp only [sliceRows, List.length_take, List.length_drop]; omega)
  have := e3 r hr k h1 h2
  simp only [dotProduct_eq] at this
  rw [← this]
  unfold quotientOfDot kernel
  simp only [e1]

/-- a 2×2 matrix with rows `[1, 2]` and `[5, 7]` -/
def exA : Csr ℚ := ⟨2, 2, [0, 2, 4], [0, 1, 0, 1], [1, 2, 5, 7]⟩
/-- factors of inner dimension one with product one everywhere -/
def exB : Mat ℚ := ⟨1, 1, fun _ _ => 1⟩
/-- see `exB` -/
def exC : Mat ℚ := ⟨1, 2, fun _ _ => 1⟩

theorem exA_wf : exA.WF := by
  refine ⟨by decide, by decide, ?_, by decide, by decide, by decide⟩
  intro r hr
  have hr' : r < 2 := hr
  rcases r with _ | _ | r
  · decide
  · decide
  · omega

/-- C46 is violated: asking for row 1 of `A / 1` returns row 0. -/
theorem quotient_of_dot_range_wrong :
    exA.WF ∧ (quotientOfDot exA exB exC 1 2).row 0 = [(0, 1), (1, 2)] ∧ exA.row 1 = [(0, 5), (1, 7)] :=
  ⟨exA_wf, by decide +kernel, by decide +kernel⟩

example : VecTrans.exCsr.WF ∧ VecTrans.exCsr.ptr 1 = 0 ∧
    (quotientOfDot VecTrans.exCsr ⟨3, 2, fun r i => r + i + 1⟩ ⟨2, 3, fun i c => i + c + 1⟩ 1 4).row 0 =
      [(2, 5 / 11), (0, 7 / 5)] ∧
    (productOfDot VecTrans.exCsr ⟨4, 2, fun r i => r + i⟩ ⟨2, 3, fun i c => i + c⟩).row 3 =
      [(1, 3 * 11), (1, 4 * 11)] ∧
    (quotientOfNormedDot VecTrans.exCsr ⟨4, 2, fun r i => r + i⟩ ⟨2, 3, fun i c => i + c⟩ (fun i => i + 1)).row 3 =
      [(1, 3 / 7), (1, 4 / 7)] :=
  ⟨VecTrans.exCsr_wf, by decide, by decide +kernel, by decide +kernel, by decide +kernel⟩

end Verif.Props.SparseKernels
