import Verif.Model.LogUtils
import Verif.Props.SparseKernels
import Mathlib.Analysis.SpecialFunctions.Log.NegMulLog
import Mathlib.Analysis.Complex.ExponentialBounds

/-!
# The entropy of a product, and where the sparse products put their results
-/

namespace Verif.Props.SparseOut

open Verif Verif.LogUtils Verif.Props.SparseKernels
open scoped BigOperators

variable {α : Type}

/-! ## Entropy -/

theorem foldl_some (step : Nat → Option ℝ → Option ℝ) (g : Nat → ℝ) (n : Nat) (h : ∀ i, i < n → ∀ a, step i (some a) = some (a + g i)) (a : ℝ) :
    (List.range n).foldl (fun acc i => step i acc) (some a) = some (a + ∑ i ∈ Finset.range n, g i) := by
  induction n with
  | zero => simp
  | succ n ih =>
    rw [List.range_succ, List.foldl_append, ih (fun i hi => h i (by omega))]
    simp only [List.foldl_cons, List.foldl_nil]
    rw [h n (by omega), Finset.sum_range_succ, add_assoc]

theorem foldl_none (step : Nat → Option ℝ → Option ℝ) (n : Nat) (h : ∀ i, step i none = none) :
    (List.range n).foldl (fun acc i => step i acc) none = none := by
  induction n with
  | zero => rfl
  | succ n ih =>
    rw [List.range_succ, List.foldl_append, ih]
    simp [h]

theorem foldl_hit (step : Nat → Option ℝ → Option ℝ) (n i : Nat) (hi : i < n) (h : ∀ i, step i none = none) (hit : ∀ a, step i a = none)
    (a : Option ℝ) : (List.range n).foldl (fun acc i => step i acc) a = none := by
  induction n with
  | zero => omega
  | succ n ih =>
    rw [List.range_succ, List.foldl_append]
    simp only [List.foldl_cons, List.foldl_nil]
    rcases Nat.lt_or_ge i n with hlt | hge
    · rw [ih hlt, h]
    · obtain rfl : i = n := by omega
      exact hit _

/-- the share of topic `k` in document `d` -/
noncomputable def share (K : Nat) (topics : Nat → Nat → ℝ) (d k : Nat) : ℝ := topics d k / ∑ j ∈ Finset.range K, topics d j

/-- The compiled loop adds up `-z log z` over the whole tensor `z = share × vocabulary` -/
theorem entropy_of_dot_eq (D K T : Nat) (topics vocab : Nat → Nat → ℝ) (ht : ∀ d < D, ∀ k < K, 0 < topics d k) (hv : ∀ k < K, ∀ t < T, 0 < vocab k t) :
    entropyOfDot D K T topics vocab
      = some (∑ d ∈ Finset.range D, ∑ k ∈ Finset.range K, ∑ t ∈ Finset.range T, Real.negMulLog (share K topics d k * vocab k t)) := by
  unfold entropyOfDot
  rw [foldl_some _ (fun d => ∑ k ∈ Finset.range K, ∑ t ∈ Finset.range T, Real.negMulLog (share K topics d k * vocab k t)), zero_add]
  intro d hd a
  simp only [foldl_sum]
  rw [foldl_some _ (fun k => ∑ t ∈ Finset.range T, Real.negMulLog (share K topics d k * vocab k t))]
  intro k hk a
  rw [foldl_some _ (fun t => Real.negMulLog (share K topics d k * vocab k t))]
  intro t htT a
  have hs : 0 < ∑ j ∈ Finset.range K, topics d j :=
    Finset.sum_pos (fun j hj => ht d hd j (Finset.mem_range.mp hj)) ⟨k, Finset.mem_range.mpr hk⟩
  have hz : 0 < topics d k / (∑ j ∈ Finset.range K, topics d j) * vocab k t := mul_pos (div_pos (ht d hd k hk) hs) (hv k hk t htT)
  simp only [subZLogZ]
  rw [if_pos hz]
  simp only [Real.negMulLog, share]
  congr 1
  ring

/-- The entropy of a distribution over `n` outcomes -/
noncomputable def entropy (n : Nat) (p : Nat → ℝ) : ℝ := ∑ i ∈ Finset.range n, Real.negMulLog (p i)

/-- When the rows of the vocabulary are distributions the value is the entropy of the topics plus the expected entropy of the words, as the chain rule
for entropies has it -/
theorem entropy_of_dot_chain_partial (D K T : Nat) (topics vocab : Nat → Nat → ℝ) (ht : ∀ d < D, ∀ k < K, 0 < topics d k)
    (hv : ∀ k < K, ∀ t < T, 0 < vocab k t) (hone : ∀ k < K, ∑ t ∈ Finset.range T, vocab k t = 1) :
    entropyOfDot D K T topics vocab = some (∑ d ∈ Finset.range D,
      (entropy K (share K topics d) + ∑ k ∈ Finset.range K, share K topics d k * entropy T (vocab k))) := by
  rw [entropy_of_dot_eq D K T topics vocab ht hv]
  congr 1
  refine Finset.sum_congr rfl fun d _ => ?_
  unfold entropy
  rw [← Finset.sum_add_distrib]
  refine Finset.sum_congr rfl fun k hk => ?_
  have : ∀ t, Real.negMulLog (share K topics d k * vocab k t) = vocab k t * Real.negMulLog (share K topics d k)
      + share K topics d k * Real.negMulLog (vocab k t) := fun t => Real.negMulLog_mul _ _
  simp only [this]
  rw [Finset.sum_add_distrib, ← Finset.sum_mul, ← Finset.mul_sum, hone k (Finset.mem_range.mp hk), one_mul]

/-- … and is never negative -/
theorem entropy_of_dot_nonneg (D K T : Nat) (topics vocab : Nat → Nat → ℝ) (ht : ∀ d < D, ∀ k < K, 0 < topics d k)
    (hv : ∀ k < K, ∀ t < T, 0 < vocab k t) (hone : ∀ k < K, ∑ t ∈ Finset.range T, vocab k t = 1) :
    ∃ h, entropyOfDot D K T topics vocab = some h ∧ 0 ≤ h := by
  refine ⟨_, entropy_of_dot_eq D K T topics vocab ht hv, ?_⟩
  refine Finset.sum_nonneg fun d hd => Finset.sum_nonneg fun k hk => Finset.sum_nonneg fun t htm => ?_
  have hd := Finset.mem_range.mp hd
  have hk' := Finset.mem_range.mp hk
  have hs : 0 < ∑ j ∈ Finset.range K, topics d j :=
    Finset.sum_pos (fun j hj => ht d hd j (Finset.mem_range.mp hj)) ⟨k, hk⟩
  have h1 : share K topics d k ≤ 1 := by
    unfold share
    rw [div_le_one hs]
    exact Finset.single_le_sum (fun j hj => (ht d hd j (Finset.mem_range.mp hj)).le) hk
  have h0 : 0 ≤ share K topics d k := div_nonneg (ht d hd k hk').le hs.le
  have h2 : vocab k t ≤ 1 := by
    rw [← hone k hk']
    exact Finset.single_le_sum (f := vocab k) (fun j hj => (hv k hk' j (Finset.mem_range.mp hj)).le) htm
  exact Real.negMulLog_nonneg (mul_nonneg h0 (hv k hk' t (Finset.mem_range.mp htm)).le) (mul_le_one₀ h1 (hv k hk' t (Finset.mem_range.mp htm)).le h2)

/-- One probability which is zero turns the whole result into NaN: the entropy of a distribution with an impossible outcome is not available -/
theorem entropy_of_dot_nan (D K T : Nat) (topics vocab : Nat → Nat → ℝ) (d k t : Nat) (hd : d < D) (hk : k < K) (ht : t < T)
    (h0 : topics d k = 0 ∨ vocab k t = 0) : entropyOfDot D K T topics vocab = none := by
  have hstep : ∀ (z : ℝ), subZLogZ z none = none := fun z => rfl
  have hin : ∀ d k, (List.range T).foldl (fun acc t => subZLogZ (topics d k / (List.range K).foldl (fun s k => s + topics d k) 0 * vocab k t) acc) none = none :=
    fun d k => foldl_none (fun t acc => subZLogZ (topics d k / (List.range K).foldl (fun s k => s + topics d k) 0 * vocab k t) acc) T (fun t => rfl)
  have hmid : ∀ d, (List.range K).foldl (fun acc k => (List.range T).foldl (fun acc t =>
      subZLogZ (topics d k / (List.range K).foldl (fun s k => s + topics d k) 0 * vocab k t) acc) acc) none = none :=
    fun d => foldl_none (fun k acc => (List.range T).foldl (fun acc t =>
      subZLogZ (topics d k / (List.range K).foldl (fun s k => s + topics d k) 0 * vocab k t) acc) acc) K (fun k => hin d k)
  unfold entropyOfDot
  refine foldl_hit (fun d acc => (List.range K).foldl (fun acc k => (List.range T).foldl (fun acc t =>
      subZLogZ (topics d k / (List.range K).foldl (fun s k => s + topics d k) 0 * vocab k t) acc) acc) acc) D d hd (fun d => hmid d) ?_ _
  intro a
  refine foldl_hit (fun k acc => (List.range T).foldl (fun acc t =>
      subZLogZ (topics d k / (List.range K).foldl (fun s k => s + topics d k) 0 * vocab k t) acc) acc) K k hk (fun k => hin d k) ?_ _
  intro a
  refine foldl_hit (fun t acc => subZLogZ (topics d k / (List.range K).foldl (fun s k => s + topics d k) 0 * vocab k t) acc) T t ht (fun t => rfl) ?_ _
  intro a
  have hz : ¬ 0 < topics d k / (List.range K).foldl (fun s k => s + topics d k) 0 * vocab k t := by
    rcases h0 with h | h <;> simp [h]
  cases a with
  | none => rfl
  | some r => simp only [subZLogZ]; rw [if_neg hz]

/-- two topics over two words -/
noncomputable def exVocab (k t : Nat) : ℝ := if k = 0 then (if t = 0 then 1 / 4 else 3 / 4) else 1 / 2

example : ∃ h, entropyOfDot 1 2 2 (fun _ _ => 1) exVocab = some h ∧ 0 ≤ h := by
  refine entropy_of_dot_nonneg 1 2 2 _ _ (fun _ _ _ _ => one_pos) ?_ ?_
  · intro k _ t _
    unfold exVocab
    split
    · split <;> norm_num
    · norm_num
  · intro k hk
    unfold exVocab
    split <;> norm_num [Finset.sum_range_succ]

/-- The fallback for the other element types uses the wrong element of the vocabulary and returns another number -/
theorem entropy_py_wrong : ∃ a b : ℝ, entropyOfDot 1 2 2 (fun _ _ => 1) exVocab = some a ∧ entropyOfDotPy 1 2 2 (fun _ _ => 1) exVocab = .ok b ∧ a < b := by
  have hv : ∀ k < 2, ∀ t < 2, 0 < exVocab k t := by
    intro k _ t _
    unfold exVocab
    split
    · split <;> norm_num
    · norm_num
  have h := entropy_of_dot_eq 1 2 2 (fun _ _ => 1) exVocab (fun _ _ _ _ => one_pos) hv
  refine ⟨_, -(1 / 2 * Real.log (1 / 8)) - 1 / 2 * Real.log (3 / 8), h, ?_, ?_⟩
  · unfold entropyOfDotPy
    have h1 : (0 : ℝ) < 1 / (0 + 1 + 1) * exVocab 0 0 := by norm_num [exVocab]
    have h2 : (0 : ℝ) < 1 / (0 + 1 + 1) * exVocab 0 1 := by norm_num [exVocab]
    have r1 : List.range 1 = [0] := rfl
    have r2 : List.range 2 = [0, 1] := rfl
    simp only [r1, r2, List.foldlM_cons, List.foldlM_nil, List.foldl_cons, List.foldl_nil, h1, h2, if_true]
    norm_num [exVocab]
    simp only [bind, Except.bind, Except.ok.injEq]
    ring
  · simp only [Finset.sum_range_succ, Finset.sum_range_zero, Real.negMulLog, share, exVocab]
    norm_num
    have e1 : Real.log (1 / 8) = -3 * Real.log 2 := by
      rw [show (1 / 8 : ℝ) = (2 ^ 3)⁻¹ by norm_num, Real.log_inv, Real.log_pow]; push_cast; ring
    have e2 : Real.log (3 / 8) = Real.log 3 - 3 * Real.log 2 := by
      rw [Real.log_div (by norm_num) (by norm_num), show (8 : ℝ) = 2 ^ 3 by norm_num, Real.log_pow]; push_cast; ring
    have e3 : Real.log (1 / 4) = -2 * Real.log 2 := by
      rw [show (1 / 4 : ℝ) = (2 ^ 2)⁻¹ by norm_num, Real.log_inv, Real.log_pow]; push_cast; ring
    have e4 : Real.log 3 < 4 * Real.log 2 := by
      have : Real.log 3 < Real.log (2 ^ 4) := Real.log_lt_log (by norm_num) (by norm_num)
      rw [Real.log_pow] at this
      push_cast at this
      exact this
    rw [e1, e2, e3]
    linarith

/-- With more documents than topics the fallback reads past the end of the vocabulary -/
theorem entropy_py_index (D K T : Nat) (topics vocab : Nat → Nat → ℝ) (hK : 0 < K) (hT : 0 < T) (hD : K < D) :
    ∃ e, entropyOfDotPy D K T topics vocab = .error e := by
  have hstep : ∀ a d, K ≤ d → (List.range K).foldlM (fun acc k => (List.range T).foldlM (fun acc t =>
      if K ≤ d ∨ T ≤ k then (.error .indexError : Py ℝ)
      else if 0 < topics d k / (List.range K).foldl (fun s k => s + topics d k) 0 * vocab d k then
        .ok (acc - topics d k / (List.range K).foldl (fun s k => s + topics d k) 0 * vocab k t
          * Real.log (topics d k / (List.range K).foldl (fun s k => s + topics d k) 0 * vocab d k))
      else .error .valueError) acc) a = .error .indexError := by
    intro a d hd
    obtain ⟨K', rfl⟩ : ∃ K', K = K' + 1 := ⟨K - 1, by omega⟩
    obtain ⟨T', rfl⟩ : ∃ T', T = T' + 1 := ⟨T - 1, by omega⟩
    rw [List.range_succ_eq_map (n := K'), List.range_succ_eq_map (n := T')]
    simp only [List.foldlM_cons]
    rw [if_pos (Or.inl hd)]
    rfl
  obtain ⟨D', rfl⟩ : ∃ D', D = D' + 1 := ⟨D - 1, by omega⟩
  unfold entropyOfDotPy
  rw [List.range_succ, List.foldlM_append]
  generalize (List.range D').foldlM (m := Py) _ (0 : ℝ) = r
  cases r with
  | error e => exact ⟨e, rfl⟩
  | ok a =>
    refine ⟨.indexError, ?_⟩
    have := hstep a D' (by omega)
    simp only [List.foldlM_cons, List.foldlM_nil]
    simp only [bind, Except.bind] at this ⊢
    rw [this]

example : ∃ e, entropyOfDotPy 3 2 4 (fun _ _ => 1) (fun _ _ => 1 / 4) = .error e := entropy_py_index 3 2 4 _ _ (by omega) (by omega) (by omega)

/-! ## The output argument -/

theorem loop_ext (A : Csr α) (h : A.WF) (val : α → Nat → Nat → α) (d : α) (o o' : List α) (ho : o.length = A.data.length) (ho' : o'.length = A.data.length) :
    (SparseKernels.kernelLoop A val d 0 A.rows o).2.2 = (SparseKernels.kernelLoop A val d 0 A.rows o').2.2 := by
  have hl : A.ptr (0 + A.rows) - A.ptr 0 = A.data.length := by rw [Nat.zero_add, h.zero, h.last, h.data]; rfl
  obtain ⟨p, e1, l1, v1⟩ := kernelLoop_spec A h val d 0 o A.rows (by omega) (by omega)
  obtain ⟨p', e2, l2, v2⟩ := kernelLoop_spec A h val d 0 o' A.rows (by omega) (by omega)
  rw [Nat.zero_add] at e1 e2
  rw [e1, e2]
  show p = p'
  apply List.ext_getElem?
  intro k
  rcases Nat.lt_or_ge k A.data.length with hk | hk
  · obtain ⟨r, hr, h1, h2⟩ := Csr.exists_row A h k (by rw [← h.data]; exact hk)
    rw [v1 r hr k (by rw [h.zero]; simpa using h1) (by rw [h.zero]; simpa using h2),
      v2 r hr k (by rw [h.zero]; simpa using h1) (by rw [h.zero]; simpa using h2)]
  · rw [List.getElem?_eq_none (by omega), List.getElem?_eq_none (by omega)]

/-- The quotient fills the buffer it is given, whatever was in it, and returns that buffer -/
theorem quotient_into_spec {K : Type} [Field K] (dt : DType) (hdt : dt ≠ .int) (A : Csr K) (h : A.WF) (B C : Mat K) (o : List K)
    (ho : o.length = A.data.length) :
    ∃ w, quotientInto dt A (fun v r c => v / SparseKernels.dotProduct B C r c) 0 A.rows (some o) = .ok w ∧ w.same = true ∧ w.buffer = some w.returned
      ∧ w.returned = (SparseKernels.quotientOfDot A B C 0 A.rows).data := by
  have hlen : (SparseKernels.sliceRows A 0 A.rows).data.length = A.data.length := by rw [sliceRows_all A h]
  cases dt with
  | int => exact absurd rfl hdt
  | f8 => exact ⟨_, rfl, rfl, rfl, loop_ext A h _ 0 o _ ho hlen⟩
  | f4 => exact ⟨_, rfl, rfl, rfl, loop_ext A h _ 0 o _ ho hlen⟩

/-- The logarithmic product in single precision does so too -/
theorem safe_ln_into_single_partial (dtB dtC : DType) (tiny : ℝ) (A : Csr ℝ) (h : A.WF) (B C : Mat ℝ) (o : List ℝ) (ho : o.length = A.data.length) :
    ∃ w, safeLnInto .f4 dtB dtC A (fun v r c => v * SparseKernels.safeLn tiny (SparseKernels.dotProduct B C r c)) 0 A.rows (some o) = .ok w ∧ w.same = true
      ∧ w.buffer = some w.returned ∧ w.returned = (SparseKernels.productOfSafeLnDot tiny A B C 0 A.rows).data := by
  have hlen : (SparseKernels.sliceRows A 0 A.rows).data.length = A.data.length := by rw [sliceRows_all A h]
  exact ⟨_, rfl, rfl, rfl, loop_ext A h _ 0 o _ ho hlen⟩

/-- In double precision the values are returned in a new matrix and the buffer keeps what it held -/
theorem safe_ln_into_double (dtB dtC : DType) (tiny : ℝ) (A : Csr ℝ) (h : A.WF) (B C : Mat ℝ) (o : List ℝ) :
    ∃ w, safeLnInto .f8 dtB dtC A (fun v r c => v * SparseKernels.safeLn tiny (SparseKernels.dotProduct B C r c)) 0 A.rows (some o) = .ok w ∧ w.same = false
      ∧ w.buffer = some o ∧ w.returned = (SparseKernels.productOfSafeLnDot tiny A B C 0 A.rows).data := by
  refine ⟨⟨_, _, _⟩, ?_, rfl, rfl, rfl⟩
  simp only [safeLnInto, and_self, if_true]
  rw [SparseKernels.productOfSafeLnDot, SparseKernels.kernel, sliceRows_all A h]

/-- a matrix with one entry -/
def exOne : Csr ℝ := ⟨1, 1, [0, 1], [0], [2]⟩

theorem exOne_wf : exOne.WF := ⟨rfl, rfl, by intro r hr; have : r = 0 := by simpa [exOne] using hr
                                             subst this; decide, rfl, rfl, by simp [exOne]⟩

/-- … so a caller who reads the buffer afterwards finds stale numbers -/
theorem safe_ln_out_not_written : ∃ w : Written ℝ, safeLnInto .f8 .f8 .f8 exOne
    (fun v r c => v * SparseKernels.safeLn (1 / 2) (SparseKernels.dotProduct ⟨1, 1, fun _ _ => 1⟩ ⟨1, 1, fun _ _ => 1⟩ r c)) 0 1 (some [7]) = .ok w
      ∧ w.returned = [0] ∧ w.buffer = some [7] := by
  refine ⟨⟨_, _, _⟩, rfl, ?_, rfl⟩
  norm_num [SparseKernels.kernelLoop, SparseKernels.elems, exOne, Csr.ptr, SparseKernels.safeLn, SparseKernels.dotProduct, List.range_succ]

example : ∃ w, quotientInto .f8 exOne (fun v r c => v / SparseKernels.dotProduct ⟨1, 1, fun _ _ => 1⟩ ⟨1, 1, fun _ _ => 1⟩ r c) 0 exOne.rows (some [7]) = .ok w
    ∧ w.same = true ∧ w.buffer = some w.returned
    ∧ w.returned = (SparseKernels.quotientOfDot exOne ⟨1, 1, fun _ _ => 1⟩ ⟨1, 1, fun _ _ => 1⟩ 0 exOne.rows).data :=
  quotient_into_spec .f8 (by decide) exOne exOne_wf _ _ _ rfl

/-! ## Integer matrices -/

/-- Every call of the quotient and of the logarithmic product on a matrix of integers ends in an exception -/
theorem int_quotient_and_log_raise [Zero α] (dtB dtC : DType) (A : Csr α) (val : α → Nat → Nat → α) (start stop : Nat) (out : Option (List α)) :
    quotientInto .int A val start stop out = .error .valueError ∧
      (safeLnInto .int dtB dtC A val start stop out = .error .valueError ∨
        dtB = .int ∧ dtC = .int ∧ safeLnInto .int dtB dtC A val start stop out = .error .typeError) := by
  refine ⟨rfl, ?_⟩
  simp only [safeLnInto]
  split
  · rename_i h
    exact .inr ⟨h.1, h.2.1, rfl⟩
  · exact .inl rfl

/-- The product of an integer matrix with integer factors is exact -/
theorem int_product_spec_partial (A : Csr Int) (h : A.WF) (B C : Mat Int) (hB : A.rows ≤ B.rows) (hC : A.cols ≤ C.cols) (hK : B.cols = C.rows) :
    ∃ X, productOfDotInt false A B C = .ok X ∧ MapsEntries A X (fun v r c => v * prodEntry B C r c) := by
  obtain ⟨l1, c2, v3, u4⟩ := csr_indices_spec A h
  have hbound : ((SparseKernels.csrIndices A.indptr A.indices).1.zip (SparseKernels.csrIndices A.indptr A.indices).2).any
      (fun p => decide (B.rows ≤ p.1 ∨ C.cols ≤ p.2)) = false := by
    rw [List.any_eq_false]
    intro p hp
    obtain ⟨k, hk, rfl⟩ := List.getElem_of_mem hp
    have hk1 : k < A.indices.length := by
      rw [List.length_zip, l1, c2] at hk
      omega
    obtain ⟨r, ⟨hr, h1, h2⟩, _⟩ := u4 k hk1
    have e1 := v3 r hr k h1 h2
    rw [List.getElem_zip]
    have e2 : (SparseKernels.csrIndices A.indptr A.indices).1[k]'(by rw [l1]; exact hk1) = r := by
      have := List.getElem?_eq_getElem (l := (SparseKernels.csrIndices A.indptr A.indices).1) (i := k) (by rw [l1]; exact hk1)
      rw [e1] at this
      exact (Option.some.inj this).symm
    have e3 : (SparseKernels.csrIndices A.indptr A.indices).2[k]'(by rw [c2]; exact hk1) < A.cols := by
      have hall : ∀ l : List Nat, l = A.indices → ∀ x ∈ l, x < A.cols := by
        rintro l rfl
        exact h.cols
      exact hall _ c2 _ (List.getElem_mem _)
    simp only [decide_eq_true_eq, not_or, not_le]
    rw [e2]
    exact ⟨by omega, by omega⟩
  refine ⟨Csr.mk A.rows A.cols A.indptr A.indices (List.zipWith (fun v p => v * SparseKernels.dotProduct B C p.1 p.2) A.data
    ((SparseKernels.csrIndices A.indptr A.indices).1.zip (SparseKernels.csrIndices A.indptr A.indices).2)), by
    unfold productOfDotInt
    simp only [hbound, hK, ne_eq, not_true_eq_false, if_false, Bool.false_eq_true], rfl, rfl, rfl, rfl, ?_⟩
  intro r hr
  apply List.ext_getElem?
  intro j
  have hlen := Csr.row_length A h r hr
  set X : Csr Int := Csr.mk A.rows A.cols A.indptr A.indices (List.zipWith (fun v p => v * SparseKernels.dotProduct B C p.1 p.2) A.data
    ((SparseKernels.csrIndices A.indptr A.indices).1.zip (SparseKernels.csrIndices A.indptr A.indices).2)) with hX
  have hXl : X.data.length = A.indices.length := by
    simp only [hX, List.length_zipWith, List.length_zip, l1, c2, h.data, Nat.min_self]
  have hXwf : X.WF := ⟨h.len, h.zero, h.mono, h.last, hXl, h.cols⟩
  rw [List.getElem?_map]
  rcases Nat.lt_or_ge j (A.ptr (r + 1) - A.ptr r) with hj | hj
  · have hk2 : A.ptr r + j < A.ptr (r + 1) := by omega
    have hkA : A.ptr r + j < A.indices.length := by
      have := Csr.ptr_le_length A h (a := r + 1) hr
      omega
    have rA := Csr.row_getElem? A r (A.ptr r + j) (by omega) hk2
    have rX := Csr.row_getElem? X r (A.ptr r + j) (by show A.ptr r ≤ _; omega) hk2
    have px : X.ptr r = A.ptr r := rfl
    rw [px] at rX
    rw [Nat.add_sub_cancel_left] at rA rX
    rw [rA, rX]
    have e1 := v3 r hr (A.ptr r + j) (by omega) hk2
    have hd : A.ptr r + j < A.data.length := by rw [h.data]; exact hkA
    have pA : A.pairs[A.ptr r + j]? = some (A.indices[A.ptr r + j], A.data[A.ptr r + j]) :=
      zip_some (List.getElem?_eq_getElem hkA) (List.getElem?_eq_getElem hd)
    have dX : X.data[A.ptr r + j]? = some (A.data[A.ptr r + j] * SparseKernels.dotProduct B C r A.indices[A.ptr r + j]) := by
      simp only [hX]
      rw [List.getElem?_zipWith, List.getElem?_eq_getElem hd, zip_some e1 (by rw [c2]; exact List.getElem?_eq_getElem hkA)]
    have pX : X.pairs[A.ptr r + j]? = some (A.indices[A.ptr r + j], A.data[A.ptr r + j] * SparseKernels.dotProduct B C r A.indices[A.ptr r + j]) :=
      zip_some (List.getElem?_eq_getElem hkA) dX
    rw [pA, pX, dotProduct_eq]
    rfl
  · rw [List.getElem?_eq_none (by rw [Csr.row_length X hXwf r hr]; exact hj), List.getElem?_eq_none (by rw [hlen]; exact hj)]
    rfl

/-- … and with floating point factors it raises -/
theorem int_product_floating (A : Csr Int) (B C : Mat Int) : ∃ e, productOfDotInt true A B C = .error e := by
  unfold productOfDotInt
  simp only []
  split
  · exact ⟨_, rfl⟩
  · split <;> exact ⟨_, rfl⟩

/-- a matrix of two rows of counts -/
def exInt : Csr Int := ⟨2, 2, [0, 1, 3], [1, 0, 1], [4, 5, 6]⟩

theorem exInt_wf : exInt.WF := ⟨rfl, rfl, by intro r hr; have : r = 0 ∨ r = 1 := by simp only [exInt] at hr; omega
                                             rcases this with rfl | rfl <;> decide, rfl, rfl, by decide⟩

example : ∃ X, productOfDotInt false exInt ⟨2, 1, fun r _ => (r : Int) + 1⟩ ⟨1, 2, fun _ c => (c : Int) + 2⟩ = .ok X
    ∧ MapsEntries exInt X (fun v r c => v * prodEntry ⟨2, 1, fun r _ => (r : Int) + 1⟩ ⟨1, 2, fun _ c => (c : Int) + 2⟩ r c) :=
  int_product_spec_partial exInt exInt_wf _ _ (by decide) (by decide) rfl

end Verif.Props.SparseOut
