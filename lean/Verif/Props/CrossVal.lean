import Verif.Lemmas.CrossVal

/-!
# C01, C02: cross-validation indices

Specification: the held-out positions and the training positions of a split are together a
rearrangement of all document positions.
-/

namespace Verif.Props.CrossVal

open Verif Verif.DataSet

/-- Specification of one split, without reference to how it is computed: training and
query positions together are all positions, each once. -/
def IsPartition (n : Nat) (train query : List Nat) : Prop :=
  (train ++ query).Perm (List.range n)

/-- **C01** Every split is an exact partition, and the query part has
`⌈documents / folds⌉` entries.  Holds for every fold id below the fold count
(including negative ones, which the code does not reject). -/
theorem crossValid_partition (n : Nat) (fold folds : Int)
    (hfold : fold < folds) (hfolds : 1 < folds) :
    ∃ train query, crossValidSplitIndices n fold folds = .ok (train, query) ∧
      IsPartition n train query ∧
      (query.length : Int) = ⌈(n : ℚ) / (folds : ℚ)⌉ := by
  refine ⟨_, _, crossValid_ok n fold folds hfold hfolds, ?_, ?_⟩
  · have h1 := Int.mul_ediv_add_emod ((n : Int) + folds - 1) folds
    have h2 := Int.emod_nonneg ((n : Int) + folds - 1) (by omega : folds ≠ 0)
    have h3 := Int.emod_lt_of_pos ((n : Int) + folds - 1) (by omega : 0 < folds)
    have hq0 : 0 ≤ ((n : Int) + folds - 1) / folds := Int.ediv_nonneg (by omega) (by omega)
    have hqn : ((n : Int) + folds - 1) / folds ≤ n := by
      rcases Nat.eq_zero_or_pos n with h | h
      · subst h
        rw [Int.ediv_eq_zero_of_lt (by push_cast; omega) (by push_cast; omega)]; simp
      · apply Int.ediv_le_of_le_mul (by omega); nlinarith
    unfold IsPartition
    refine List.perm_append_comm.trans ?_
    rw [arangeMod_append _ _ _ _ (by omega) (by omega)]
    unfold arangeMod
    have e : ∀ s q : Int, (s + q + ((n : Int) - q) - s).toNat = n := by intro s q; omega
    rw [e]
    exact rot_perm _ n
  · rw [← ceil_eq n folds (by omega)]
    have hq0 : 0 ≤ ((n : Int) + folds - 1) / folds := Int.ediv_nonneg (by omega) (by omega)
    unfold arangeMod
    rw [List.length_map, List.length_range]
    omega

/-- **C01** Invalid fold ids and fold counts are rejected. -/
theorem crossValid_rejects (n : Nat) (fold folds : Int) (h : ¬ (fold < folds ∧ 1 < folds)) :
    crossValidSplitIndices n fold folds = .error .assertionError := by
  simp only [crossValidSplitIndices, pyAssert]
  by_cases h1 : fold < folds
  · have h2 : ¬ 1 < folds := fun h2 => h ⟨h1, h2⟩
    simp [h1, h2]; rfl
  · simp [h1]; rfl

example : crossValidSplitIndices 7 2 3 = .ok ([2, 3, 4, 5], [6, 0, 1]) := by decide
example : crossValidSplitIndices 7 (-1) 3 = .ok ([0, 1, 2, 3], [4, 5, 6]) := by decide

/-! ## C02: all folds together -/

/-- The positions held out in one fold (empty if the call fails). -/
def heldOut (n : Nat) (fold folds : Nat) : List Nat :=
  match crossValidSplitIndices n fold folds with
  | .ok (_, query) => query
  | .error _ => []

/-- How often document `d` is held out over all folds. -/
def timesHeldOut (n folds d : Nat) : Nat :=
  ((List.range folds).map (fun fold => (heldOut n fold folds).count d)).sum

theorem heldOut_eq (n fold folds : Nat) (h : fold < folds) (h1 : 1 < folds) :
    heldOut n fold folds =
      (List.range ((n + folds - 1) / folds)).map
        (fun i => (((n + folds - 1) / folds) * fold + i) % n) := by
  have a1 : ((fold : Int) < (folds : Int)) := by omega
  have a2 : ((1 : Int) < (folds : Int)) := by omega
  simp only [heldOut, crossValidSplitIndices, pyAssert, a1, a2, decide_true, if_true]
  change arangeMod _ _ _ = _
  have e : ((n : Int) + folds - 1) / folds = (((n + folds - 1) / folds : Nat) : Int) := by
    push_cast
    rw [Int.natCast_sub (by omega)]
    push_cast; rfl
  rw [e]
  unfold arangeMod
  have e2 : ∀ s q : Int, (s + q - s).toNat = q.toNat := by intro s q; omega
  rw [e2, Int.toNat_natCast]
  apply List.map_congr_left
  intro i _
  rw [← Int.natCast_mul, ← Int.natCast_add, ← Int.natCast_emod, Int.toNat_natCast]

theorem timesHeldOut_eq (n folds d : Nat) (h1 : 1 < folds) :
    timesHeldOut n folds d =
      ((List.range ((n + folds - 1) / folds * folds)).map (· % n)).count d := by
  rw [← range_mul_flat]
  unfold timesHeldOut
  congr 1
  apply List.map_congr_left
  intro j hj
  rw [heldOut_eq n j folds (List.mem_range.mp hj) h1]

/-- **C02** How often each document is held out, exactly. -/
theorem timesHeldOut_exact (n folds d : Nat) (h1 : 1 < folds) (hd : d < n) :
    timesHeldOut n folds d = ((n + folds - 1) / folds * folds + n - 1 - d) / n := by
  rw [timesHeldOut_eq n folds d h1, count_mod _ _ _ hd]

/-- **C02** Every document is held out in at least one fold. -/
theorem every_document_held_out (n folds d : Nat) (h1 : 1 < folds) (hd : d < n) :
    ∃ fold, fold < folds ∧ d ∈ heldOut n fold folds := by
  have h : 0 < timesHeldOut n folds d := by
    rw [timesHeldOut_exact n folds d h1 hd]
    have := ceil_mul_ge n folds (by omega)
    apply Nat.div_pos <;> omega
  unfold timesHeldOut at h
  by_contra hc
  push Not at hc
  have : ((List.range folds).map (fun fold => (heldOut n fold folds).count d)).sum = 0 := by
    apply List.sum_eq_zero
    intro x hx
    rw [List.mem_map] at hx
    obtain ⟨f, hf, rfl⟩ := hx
    exact List.count_eq_zero.mpr (hc f (List.mem_range.mp hf))
  omega

/-- **C02** Every document is held out exactly once if and only if the folds tile the corpus. -/
theorem held_out_exactly_once_iff (n folds : Nat) (hn : 0 < n) (h1 : 1 < folds) :
    (∀ d, d < n → timesHeldOut n folds d = 1) ↔
      (folds : Int) * ⌈(n : ℚ) / (folds : ℚ)⌉ = n := by
  have hc : ⌈(n : ℚ) / (folds : ℚ)⌉ = (((n + folds - 1) / folds : Nat) : Int) := by
    have := ceil_eq n folds (by omega)
    push_cast at this ⊢
    rw [← this, Int.natCast_sub (by omega)]
    push_cast; rfl
  rw [hc]
  have hge := ceil_mul_ge n folds (by omega)
  constructor
  · intro h
    have h0 := h 0 hn
    rw [timesHeldOut_exact n folds 0 h1 hn, Nat.div_eq_iff hn] at h0
    have : (n + folds - 1) / folds * folds = n := by omega
    rw [← Int.natCast_mul, Nat.mul_comm, this]
  · intro h d hd
    rw [← Int.natCast_mul] at h
    have h' : folds * ((n + folds - 1) / folds) = n := by exact_mod_cast h
    rw [timesHeldOut_exact n folds d h1 hd, Nat.mul_comm, h', Nat.div_eq_iff hn]
    omega

/-- **C02** (what goes wrong otherwise) If the folds do not tile the corpus, document `0` is held
out in fold `0` and again in a later fold. -/
theorem held_out_twice_otherwise (n folds : Nat) (hn : 0 < n) (h1 : 1 < folds)
    (h : n < (n + folds - 1) / folds * folds) :
    0 ∈ heldOut n 0 folds ∧ ∃ fold, 0 < fold ∧ fold < folds ∧ 0 ∈ heldOut n fold folds := by
  set q := (n + folds - 1) / folds with hq
  have hqpos : 0 < q := by
    rcases Nat.eq_zero_or_pos q with h0 | h0
    · rw [h0] at h; omega
    · exact h0
  have hqn : q ≤ n := by
    rw [hq]
    have h2 : n + folds - 1 ≤ n * folds := by
      obtain ⟨a, rfl⟩ : ∃ a, n = a + 1 := ⟨n - 1, by omega⟩
      obtain ⟨b, rfl⟩ : ∃ b, folds = b + 1 := ⟨folds - 1, by omega⟩
      have : (a+1)*(b+1) = a*b + a + b + 1 := by ring
      have := Nat.zero_le (a*b)
      omega
    calc (n + folds - 1) / folds ≤ n * folds / folds := Nat.div_le_div_right h2
      _ = n := Nat.mul_div_cancel _ (by omega)
  refine ⟨?_, n / q, Nat.div_pos hqn hqpos, ?_, ?_⟩
  · rw [heldOut_eq n 0 folds (by omega) h1, ← hq, List.mem_map]
    exact ⟨0, List.mem_range.mpr hqpos, by simp⟩
  · exact (Nat.div_lt_iff_lt_mul hqpos).mpr (by rw [Nat.mul_comm]; exact h)
  · rw [heldOut_eq n _ folds ((Nat.div_lt_iff_lt_mul hqpos).mpr (by rw [Nat.mul_comm]; exact h)) h1,
      ← hq, List.mem_map]
    exact ⟨n % q, List.mem_range.mpr (Nat.mod_lt _ hqpos), by rw [Nat.div_add_mod]; simp⟩

/-- **C02** (violation) Five documents in four folds: documents 1 and 2 are held out twice. -/
theorem folds_overlap_witness :
    heldOut 5 0 4 = [0, 1] ∧ heldOut 5 3 4 = [1, 2] ∧ timesHeldOut 5 4 1 = 2 := by decide

example : ∀ d, d < 6 → timesHeldOut 6 3 d = 1 := by decide
example : (3 : Int) * ⌈((6 : Nat) : ℚ) / ((3 : Nat) : ℚ)⌉ = (6 : Nat) :=
  (held_out_exactly_once_iff 6 3 (by decide) (by decide)).mp (by decide)

end Verif.Props.CrossVal
