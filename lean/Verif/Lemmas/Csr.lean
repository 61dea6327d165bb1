import Verif.Model.Csr

/-!
# CSR matrices as lists of rows
-/

namespace Verif.Csr

variable {α : Type}

/-- prefix sums of the row lengths: the pointer array -/
def ptrs {β : Type} (ls : List (List β)) : List Nat :=
  (List.range (ls.length + 1)).map (fun k => ((ls.take k).map List.length).sum)

theorem ptrs_length {β : Type} (ls : List (List β)) : (ptrs ls).length = ls.length + 1 := by
  simp [ptrs]

theorem ptrs_getD {β : Type} (ls : List (List β)) (k : Nat) (h : k ≤ ls.length) :
    (ptrs ls).getD k 0 = ((ls.take k).map List.length).sum := by
  unfold ptrs
  rw [List.getD_eq_getElem?_getD, List.getElem?_map, List.getElem?_range (by omega)]
  rfl

theorem ptrs_append_singleton {β : Type} (ls : List (List β)) (l : List β) :
    ptrs (ls ++ [l]) = ptrs ls ++ [((ls.map List.length).sum + l.length)] := by
  unfold ptrs
  rw [List.length_append, List.length_singleton, List.range_succ, List.map_append]
  congr 1
  · apply List.map_congr_left
    intro k hk
    rw [List.mem_range] at hk
    rw [List.take_append_of_le_length (by omega)]
  · simp [List.take_of_length_le]

theorem ptrs_getLastD {β : Type} (ls : List (List β)) :
    (ptrs ls).getLastD 0 = (ls.map List.length).sum := by
  unfold ptrs
  rw [List.range_succ, List.map_append]
  simp only [List.map_cons, List.map_nil, List.take_length, List.getLastD_concat]

theorem flatten_slice {β : Type} (ls : List (List β)) (r : Nat) (h : r < ls.length) :
    (ls.flatten.drop ((ls.take r).map List.length).sum).take (ls[r].length) = ls[r] := by
  induction ls generalizing r with
  | nil => simp at h
  | cons l ls ih =>
    rcases r with _ | r
    · simp
    · have hr : r < ls.length := by simpa using h
      simp only [List.take_succ_cons, List.map_cons, List.sum_cons, List.flatten_cons,
        List.getElem_cons_succ]
      rw [List.drop_append]
      have : l.drop (l.length + ((ls.take r).map List.length).sum) = [] :=
        List.drop_eq_nil_of_le (by omega)
      rw [this, List.nil_append]
      simpa using ih r hr

/-- a matrix whose arrays are the concatenated rows has these rows -/
theorem row_of_flatten (m : Csr α) (ls : List (List (Nat × α))) (hp : m.indptr = ptrs ls)
    (hf : m.pairs = ls.flatten) (r : Nat) (h : r < ls.length) : m.row r = ls[r] := by
  unfold row ptr
  rw [hp, hf, ptrs_getD _ _ (by omega), ptrs_getD _ _ (by omega)]
  have : ((ls.take (r + 1)).map List.length).sum - ((ls.take r).map List.length).sum
      = ls[r].length := by
    rw [List.take_succ_eq_append_getElem h, List.map_append, List.sum_append]
    simp
  rw [this]
  exact flatten_slice ls r h

theorem ptr_le (m : Csr α) (h : m.WF) {a b : Nat} (hab : a ≤ b) (hb : b ≤ m.rows) :
    m.ptr a ≤ m.ptr b := by
  induction b with
  | zero => have : a = 0 := by omega
            subst this; exact le_rfl
  | succ b ih =>
    rcases Nat.lt_or_ge a (b + 1) with h1 | h1
    · exact (ih (by omega) (by omega)).trans (h.mono b (by omega))
    · have : a = b + 1 := by omega
      subst this; exact le_rfl

theorem ptr_le_length (m : Csr α) (h : m.WF) {a : Nat} (ha : a ≤ m.rows) :
    m.ptr a ≤ m.indices.length := by
  rw [← h.last]; exact ptr_le m h ha le_rfl

theorem pairs_length (m : Csr α) (h : m.WF) : m.pairs.length = m.indices.length := by
  unfold pairs; simp [h.data]

theorem row_length (m : Csr α) (h : m.WF) (r : Nat) (hr : r < m.rows) :
    (m.row r).length = m.ptr (r + 1) - m.ptr r := by
  unfold row
  rw [List.length_take, List.length_drop, pairs_length m h]
  have h1 := ptr_le_length m h (a := r + 1) (by omega)
  have h2 := h.mono r hr
  omega

/-- the rows of a well-formed matrix concatenate to its stored pairs -/
theorem rows_flatten_take (m : Csr α) (h : m.WF) (k : Nat) (hk : k ≤ m.rows) :
    ((List.range k).map m.row).flatten = m.pairs.take (m.ptr k) := by
  induction k with
  | zero => simp [h.zero]
  | succ k ih =>
    rw [List.range_succ, List.map_append, List.flatten_append, ih (by omega)]
    simp only [List.map_cons, List.map_nil, List.flatten_cons, List.flatten_nil, List.append_nil]
    unfold row
    have h2 := h.mono k (by omega)
    have := List.take_add (l := m.pairs) (i := m.ptr k) (j := m.ptr (k + 1) - m.ptr k)
    rw [← this]
    congr 1
    omega

theorem rows_flatten (m : Csr α) (h : m.WF) :
    ((List.range m.rows).map m.row).flatten = m.pairs := by
  rw [rows_flatten_take m h m.rows le_rfl, h.last, ← pairs_length m h, List.take_length]

theorem indices_eq (m : Csr α) (h : m.WF) : m.indices = m.pairs.map Prod.fst := by
  unfold pairs
  rw [List.map_fst_zip (by rw [h.data])]

theorem data_eq (m : Csr α) (h : m.WF) : m.data = m.pairs.map Prod.snd := by
  unfold pairs
  rw [List.map_snd_zip (by rw [h.data])]

/-- the arrays of a list of rows form a well-formed matrix -/
def ofRows (cols : Nat) (ls : List (List (Nat × α))) : Csr α :=
  ⟨ls.length, cols, ptrs ls, ls.flatten.map Prod.fst, ls.flatten.map Prod.snd⟩

theorem ofRows_pairs (cols : Nat) (ls : List (List (Nat × α))) :
    (ofRows cols ls).pairs = ls.flatten := by
  unfold ofRows pairs
  simp only
  induction ls.flatten with
  | nil => rfl
  | cons a l ih => simp only [List.map_cons, List.zip_cons_cons, ih]

theorem ofRows_row (cols : Nat) (ls : List (List (Nat × α))) (r : Nat) (h : r < ls.length) :
    (ofRows cols ls).row r = ls[r] :=
  row_of_flatten _ ls rfl (ofRows_pairs cols ls) r h

theorem ofRows_wf (cols : Nat) (ls : List (List (Nat × α)))
    (hc : ∀ l ∈ ls, ∀ p ∈ l, p.1 < cols) : (ofRows cols ls).WF := by
  refine ⟨ptrs_length ls, ?_, ?_, ?_, ?_, ?_⟩
  · change (ptrs ls).getD 0 0 = 0
    rw [ptrs_getD _ _ (by omega)]; simp
  · intro r hr
    have hr' : r < ls.length := hr
    change (ptrs ls).getD r 0 ≤ (ptrs ls).getD (r + 1) 0
    rw [ptrs_getD _ _ (by omega), ptrs_getD _ _ (by omega),
      List.take_succ_eq_append_getElem hr', List.map_append, List.sum_append]
    omega
  · change (ptrs ls).getD ls.length 0 = (ls.flatten.map Prod.fst).length
    rw [ptrs_getD _ _ le_rfl, List.take_length, List.length_map, List.length_flatten]
  · simp only [ofRows, List.length_map]
  · intro c hcm
    simp only [ofRows, List.mem_map, List.mem_flatten] at hcm
    obtain ⟨p, ⟨l, hl, hp⟩, rfl⟩ := hcm
    exact hc l hl p hp

end Verif.Csr

namespace Verif.Csr

variable {α : Type}

/-- position `k` of concatenated blocks -/
theorem getElem?_flatten {β : Type} (ls : List (List β)) (r : Nat) (h : r < ls.length) (k : Nat)
    (h1 : ((ls.take r).map List.length).sum ≤ k)
    (h2 : k < ((ls.take r).map List.length).sum + ls[r].length) :
    ls.flatten[k]? = (ls[r])[k - ((ls.take r).map List.length).sum]? := by
  have := congrArg (fun l => l[k - ((ls.take r).map List.length).sum]?) (flatten_slice ls r h)
  rw [← this, List.getElem?_take_of_lt (by omega), List.getElem?_drop]
  congr 1
  omega

theorem sum_lengths {β : Type} (m : Csr α) (h : m.WF) (f : Nat → List β)
    (hf : ∀ r, r < m.rows → (f r).length = m.ptr (r + 1) - m.ptr r) (k : Nat) (hk : k ≤ m.rows) :
    (((((List.range m.rows).map f)).take k).map List.length).sum = m.ptr k := by
  induction k with
  | zero => simp [h.zero]
  | succ k ih =>
    rw [List.take_succ_eq_append_getElem (by simp; omega), List.map_append, List.sum_append,
      ih (by omega)]
    simp only [List.getElem_map, List.getElem_range, List.map_cons, List.map_nil, List.sum_cons,
      List.sum_nil, hf k (by omega)]
    have := h.mono k (by omega)
    omega

/-- one block per row, concatenated: the slot `k` of row `r` -/
theorem slot_of_rows {β : Type} (m : Csr α) (h : m.WF) (f : Nat → List β)
    (hf : ∀ r, r < m.rows → (f r).length = m.ptr (r + 1) - m.ptr r) (r : Nat) (hr : r < m.rows)
    (k : Nat) (h1 : m.ptr r ≤ k) (h2 : k < m.ptr (r + 1)) :
    ((List.range m.rows).map f).flatten[k]? = (f r)[k - m.ptr r]? := by
  have hs := sum_lengths m h f hf r (by omega)
  have hlen : r < ((List.range m.rows).map f).length := by simpa using hr
  have := getElem?_flatten ((List.range m.rows).map f) r hlen k (by rw [hs]; exact h1)
    (by rw [hs, List.getElem_map, List.getElem_range, hf r hr]; omega)
  rw [this, hs]
  simp

theorem flatten_length {β : Type} (m : Csr α) (h : m.WF) (f : Nat → List β)
    (hf : ∀ r, r < m.rows → (f r).length = m.ptr (r + 1) - m.ptr r) :
    ((List.range m.rows).map f).flatten.length = m.indices.length := by
  have := sum_lengths m h f hf m.rows le_rfl
  rw [List.take_of_length_le (by simp)] at this
  rw [List.length_flatten, this, h.last]

/-- every stored entry belongs to a row -/
theorem exists_row (m : Csr α) (h : m.WF) (k : Nat) (hk : k < m.indices.length) :
    ∃ r, r < m.rows ∧ m.ptr r ≤ k ∧ k < m.ptr (r + 1) := by
  rw [← h.last] at hk
  suffices H : ∀ n, n ≤ m.rows → k < m.ptr n → ∃ r, r < n ∧ m.ptr r ≤ k ∧ k < m.ptr (r + 1) from
    (H m.rows le_rfl hk).imp (fun _ h => h)
  intro n
  induction n with
  | zero => intro _ h0; rw [h.zero] at h0; omega
  | succ n ih =>
    intro hn hlt
    rcases Nat.lt_or_ge k (m.ptr n) with h1 | h1
    · obtain ⟨r, h2, h3⟩ := ih (by omega) h1
      exact ⟨r, by omega, h3⟩
    · exact ⟨n, by omega, h1, hlt⟩

theorem row_unique (m : Csr α) (h : m.WF) {k r s : Nat} (hr : r < m.rows) (hs : s < m.rows)
    (h1 : m.ptr r ≤ k) (h2 : k < m.ptr (r + 1)) (h3 : m.ptr s ≤ k) (h4 : k < m.ptr (s + 1)) : r = s := by
  rcases Nat.lt_trichotomy r s with hlt | heq | hlt
  · have := ptr_le m h (a := r + 1) (b := s) (by omega) (by omega); omega
  · exact heq
  · have := ptr_le m h (a := s + 1) (b := r) (by omega) (by omega); omega

/-- a list determined slot by slot is the concatenation of the rows' blocks -/
theorem eq_flatten {β : Type} (m : Csr α) (h : m.WF) (f : Nat → List β)
    (hf : ∀ r, r < m.rows → (f r).length = m.ptr (r + 1) - m.ptr r) (l : List β)
    (hl : l.length = m.indices.length)
    (hk : ∀ r, r < m.rows → ∀ k, m.ptr r ≤ k → k < m.ptr (r + 1) → l[k]? = (f r)[k - m.ptr r]?) :
    l = ((List.range m.rows).map f).flatten := by
  apply List.ext_getElem?
  intro k
  rcases Nat.lt_or_ge k m.indices.length with h1 | h1
  · obtain ⟨r, hr, h2, h3⟩ := exists_row m h k h1
    rw [hk r hr k h2 h3, slot_of_rows m h f hf r hr k h2 h3]
  · rw [List.getElem?_eq_none (by omega), List.getElem?_eq_none (by rw [flatten_length m h f hf]; exact h1)]

theorem row_getElem? (m : Csr α) (r : Nat) (k : Nat) (h1 : m.ptr r ≤ k)
    (h2 : k < m.ptr (r + 1)) : (m.row r)[k - m.ptr r]? = m.pairs[k]? := by
  unfold row
  rw [List.getElem?_take_of_lt (by omega), List.getElem?_drop]
  congr 1
  omega

end Verif.Csr
