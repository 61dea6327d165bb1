import Mathlib.Tactic.FieldSimp
import Mathlib.Tactic.NormNum
import Mathlib.Tactic.Linarith
import Verif.Model.Priors

/-!
# Properties of the priors given to the models (C255, C256)
-/

namespace Verif.Props.Priors

open Verif Verif.Priors

/-! ## Specification -/

/-- The vector of `n` entries that a given prior stands for: a number stands for itself in every entry. -/
def meant (n : Nat) : Arg → Option (List ℚ)
  | .none => none
  | .float x => some (List.replicate n x)
  | .int z => some (List.replicate n (z : ℚ))
  | .vec xs => if xs.length = n then some xs else none

/-! ## Topics -/

theorem mean_replicate (n : Nat) (x : ℚ) (hn : 0 < n) : mean (List.replicate n x) = x := by
  have : (n : ℚ) ≠ 0 := by exact_mod_cast hn.ne'
  simp only [mean, List.sum_replicate, List.length_replicate, nsmul_eq_mul]
  field_simp

theorem useVec_replicate (m : Kind) (n : Nat) (x : ℚ) (hn : 0 < n) : useVec m (List.replicate n x) = List.replicate n x := by
  cases m <;> simp [useVec, mean_replicate n x hn]

/-- **C255 (violation).** Neither collapsed model uses the topic prior it is given as a vector: each topic gets the mean, so that a
prior which prefers some topics is used only if it does not. -/
theorem topic_mean_violation (m : Kind) (hm : m = .cvb0 ∨ m = .cvb) (K : Nat) (xs : List ℚ) (hx : xs.length = K) :
    topicUsed m K (.vec xs) = .ok (List.replicate K (xs.sum / K))
      ∧ (topicUsed m K (.vec xs) = .ok xs ↔ ∀ x ∈ xs, ∀ y ∈ xs, x = y) := by
  have h1 : topicUsed m K (.vec xs) = .ok (List.replicate K (xs.sum / K)) := by
    subst hx
    rcases hm with rfl | rfl <;> rfl
  refine ⟨h1, ?_⟩
  rw [h1]
  constructor
  · intro h x hx y hy
    have h2 : List.replicate K (xs.sum / K) = xs := by
      injection h
    rw [← h2] at hx hy
    rw [List.eq_of_mem_replicate hx, List.eq_of_mem_replicate hy]
  · intro h
    cases xs with
    | nil => simp at hx; subst hx; rfl
    | cons x xs =>
      have hall : x :: xs = List.replicate K x := by
        rw [List.eq_replicate_iff]
        exact ⟨hx, fun b hb => h b hb x List.mem_cons_self⟩
      rw [hall]
      have hK : 0 < K := by rw [← hx]; simp
      have := mean_replicate K x hK
      simp only [mean, List.length_replicate] at this
      rw [this]

example : topicUsed .cvb0 2 (.vec [1, 3]) = .ok [2, 2] := by
  rw [(topic_mean_violation .cvb0 (Or.inl rfl) 2 [1, 3] rfl).1]
  norm_num [List.replicate]

/-- **C255 (violation).** Training of the collapsed models cannot tell apart two priors with the same sum. -/
theorem topic_mean_same (m : Kind) (hm : m = .cvb0 ∨ m = .cvb) (K : Nat) (xs ys : List ℚ) (hx : xs.length = K) (hy : ys.length = K)
    (h : xs.sum = ys.sum) : topicUsed m K (.vec xs) = topicUsed m K (.vec ys) := by
  rw [(topic_mean_violation m hm K xs hx).1, (topic_mean_violation m hm K ys hy).1, h]

example : ([1, 3] : List ℚ).sum = ([4, 0] : List ℚ).sum := by norm_num

/-- **C255 (violation).** Numbers: which models take a float, and which a whole number, and that the others raise an exception
instead of training. -/
theorem topic_scalar_violation (m : Kind) (K : Nat) :
    (∀ x, topicUsed m K (.float x) = if m ∈ [.cvb0, .cvb, .vb] then .error (scalarError m) else .ok (List.replicate K x))
      ∧ ∀ n : ℤ, topicUsed m K (.int n) = if m ∈ [.gibbs, .dmr] then .ok (List.replicate K (n : ℚ)) else .error (scalarError m) := by
  constructor
  · intro x
    cases m <;> simp [topicUsed, takesFloat, useVec]
  · intro n
    cases m <;> simp [topicUsed, takesInt, useVec]

example : topicUsed .vb 10 (.float 2) = .error .typeError := by
  rw [(topic_scalar_violation .vb 10).1]; rfl

/-- **C255 (what holds).** Whenever training accepts the prior, it uses the vector the prior stands for, except that the collapsed
models need its entries to be equal.  All models accept vectors. -/
theorem topic_partial (m : Kind) (K : Nat) (hK : 0 < K) (a : Arg) (v : List ℚ) (hv : meant K a = some v) :
    (∀ u, topicUsed m K a = .ok u → (m ≠ .cvb0 ∧ m ≠ .cvb) ∨ (∀ x ∈ v, ∀ y ∈ v, x = y) → u = v)
      ∧ ∀ xs, a = .vec xs → ∃ u, topicUsed m K a = .ok u := by
  refine ⟨?_, ?_⟩
  · intro u hu hc
    cases a with
    | none => cases hv
    | float x =>
      simp only [meant, Option.some.injEq] at hv
      subst hv
      simp only [topicUsed] at hu
      rw [useVec_replicate m K x hK] at hu
      split at hu
      · injection hu with h; exact h.symm
      · cases hu
    | int n =>
      simp only [meant, Option.some.injEq] at hv
      subst hv
      simp only [topicUsed] at hu
      rw [useVec_replicate m K _ hK] at hu
      split at hu
      · injection hu with h; exact h.symm
      · cases hu
    | vec xs =>
      simp only [meant] at hv
      split at hv
      · rename_i hl
        simp only [Option.some.injEq] at hv
        subst hv
        by_cases hm : m = .cvb0 ∨ m = .cvb
        · rcases hc with hc | hc
          · rcases hm with hm | hm
            · exact absurd hm hc.1
            · exact absurd hm hc.2
          · have := (topic_mean_violation m hm K xs hl).2.mpr hc
            rw [this] at hu
            injection hu with h; exact h.symm
        · push Not at hm
          cases m <;> simp_all [topicUsed, useVec]
      · cases hv
  · rintro xs rfl
    exact ⟨_, rfl⟩

example : topicUsed .gibbs 3 (.vec [1, 2, 3]) = .ok [1, 2, 3] := rfl

/-! ## Words -/

/-- **C256 (violation).** A vector of vocabulary priors (for two words or more) cannot be used to train five of the nine models, and a
number cannot be used in the regression model, a whole number not with the sampler either. -/
theorem vocab_violation (m : Kind) (T : Nat) (hT : 1 < T) :
    (∀ xs, xs.length = T → m ∈ [.cvb0, .cvb, .svb, .vb, .vbPython] → ∃ e, vocabUsed m T (.vec xs) = .error e)
      ∧ (∀ x, vocabUsed .dmr T (.float x) = .error .typeError)
      ∧ ∀ n, m ∈ [.gibbs, .dmr] → vocabUsed m T (.int n) = .error .typeError := by
  refine ⟨?_, fun _ => rfl, ?_⟩
  · intro xs hx hm
    match xs, hx with
    | [], h => simp at h; omega
    | [x], h => simp at h; omega
    | x :: y :: r, _ => cases m <;> simp_all [vocabUsed, asNumber]
  · intro n hm
    cases m <;> simp_all [vocabUsed]

example : ∃ e, vocabUsed .vb 2 (.vec [1, 2]) = .error e := (vocab_violation .vb 2 (by omega)).1 _ rfl (by simp)

/-- **C256 (what holds).** Whenever training accepts the vocabulary prior, every word gets the prior meant for it; and there is
always a way of writing a symmetric prior that is accepted. -/
theorem vocab_partial (m : Kind) (T : Nat) :
    (∀ a u v, meant T a = some v → vocabUsed m T a = .ok u → u = v)
      ∧ ∀ x, vocabUsed m T (.float x) = .ok (List.replicate T x) ∨ vocabUsed m T (.vec (List.replicate T x)) = .ok (List.replicate T x) := by
  refine ⟨?_, ?_⟩
  · intro a u v hv hu
    cases a with
    | none => cases hv
    | float x =>
      simp only [meant, Option.some.injEq] at hv
      subst hv
      simp only [vocabUsed] at hu
      split at hu
      · cases hu
      · injection hu with h; exact h.symm
    | int n =>
      simp only [meant, Option.some.injEq] at hv
      subst hv
      simp only [vocabUsed] at hu
      split at hu
      · cases hu
      · injection hu with h; exact h.symm
    | vec xs =>
      simp only [meant] at hv
      split at hv
      · rename_i hl
        simp only [Option.some.injEq] at hv
        subst hv
        have hone : ∀ e, asNumber T xs e = .ok u → u = xs := by
          intro e h
          match xs, hl with
          | [], _ => cases h
          | [x], hl =>
            simp only [asNumber] at h
            injection h with h
            subst h
            simp at hl
            subst hl
            rfl
          | x :: y :: r, _ => cases h
        cases m <;> simp only [vocabUsed] at hu <;> first
          | exact hone _ hu
          | (injection hu with h; exact h.symm)
      · cases hv
  · intro x
    by_cases hm : m = .dmr
    · right; subst hm; rfl
    · left; simp [vocabUsed, hm]

example : meant 2 (.float 3) = some [3, 3] ∧ vocabUsed .gibbs 2 (.float 3) = .ok [3, 3] := ⟨rfl, rfl⟩

/-- **C256 (arrays of one element).** The models that need a number give the element of an array of length one to every word, and they
accept no other arrays. -/
theorem vocab_one (m : Kind) (T : Nat) (hm : m ∈ [.cvb0, .cvb, .svb, .vb, .vbPython]) (xs : List ℚ) :
    (∀ x, xs = [x] → vocabUsed m T (.vec xs) = .ok (List.replicate T x))
      ∧ ((∃ u, vocabUsed m T (.vec xs) = .ok u) → ∃ x, xs = [x]) := by
  refine ⟨?_, ?_⟩
  · rintro x rfl
    cases m <;> simp_all [vocabUsed, asNumber]
  · rintro ⟨u, hu⟩
    match xs with
    | [x] => exact ⟨x, rfl⟩
    | [] => cases m <;> simp_all [vocabUsed, asNumber]
    | x :: y :: r => cases m <;> simp_all [vocabUsed, asNumber]

example : vocabUsed .svb 3 (.vec [2]) = .ok [2, 2, 2] := (vocab_one .svb 3 (by simp) [2]).1 2 rfl

/-- **C255** Without a prior for the topics each of them gets the same, and all together the strength of fifty tokens with the samplers and the two
stochastic models, half a token more for each topic with the collapsed models, and of five tokens and half of one for each topic with the others. -/
theorem topic_default (m : Kind) (K : Nat) (hK : 0 < K) :
    ∃ p, topicUsed m K .none = .ok (List.replicate K p) ∧ 0 < p ∧ (K : ℚ) * p =
      if m ∈ [.gibbs, .dmr, .svb, .vb] then 50 else if m ∈ [.cvb0, .cvb] then 50 + (K : ℚ) / 2 else 5 + (K : ℚ) / 2 := by
  have hK' : (0 : ℚ) < K := by exact_mod_cast hK
  refine ⟨defaultTopic K m, ?_, ?_, ?_⟩
  · show Except.ok _ = _
    rw [useVec_replicate m K _ hK]
  · have h1 : (0 : ℚ) < 50 / K := div_pos (by norm_num) hK'
    have h2 : (0 : ℚ) < 5 / K := div_pos (by norm_num) hK'
    cases m <;> (simp only [defaultTopic]; linarith)
  · cases m <;> (simp [defaultTopic]; try field_simp)

/-- **C255** Without a prior for the words each of them gets a tenth with the samplers, six tenths with the collapsed models and eleven tenths with the
others. -/
theorem vocab_default (m : Kind) (T : Nat) :
    ∃ p, vocabUsed m T .none = .ok (List.replicate T p) ∧ p * 10 = if m ∈ [.gibbs, .dmr] then 1 else if m ∈ [.cvb0, .cvb] then 6 else 11 := by
  refine ⟨defaultVocab m, rfl, ?_⟩
  cases m <;> simp [defaultVocab] <;> norm_num

example : ∃ p, topicUsed .cvb 4 .none = .ok (List.replicate 4 p) ∧ 0 < p ∧ 4 * p = 52 := by
  obtain ⟨p, h1, h2, h3⟩ := topic_default .cvb 4 (by decide)
  refine ⟨p, h1, h2, ?_⟩
  norm_num at h3
  exact h3

example : ∃ p, vocabUsed .vbPython 3 .none = .ok [p, p, p] ∧ p * 10 = 11 := vocab_default .vbPython 3

end Verif.Props.Priors
