import Mathlib.Algebra.BigOperators.Ring.Finset
import Mathlib.Algebra.BigOperators.Field
import Mathlib.Algebra.Order.BigOperators.Group.Finset
import Mathlib.Tactic.Linarith
import Mathlib.Tactic.FieldSimp
import Mathlib.Tactic.Ring
import Mathlib.Tactic.Positivity
import Mathlib.Tactic.NormNum
import Verif.Model.Cvb

/-!
# Lemmas about collapsed variational inference
-/

namespace Verif.Cvb

open Verif

/-- The tables are the sums of `g` over the tokens, plus the bases. -/
structure SumsOk (K : Nat) (c : Corpus) (g : Nat → Nat → Nat → ℚ) (bkt : Nat → Nat → ℚ) (bk : Nat → ℚ) (s : Sums) : Prop where
  dk : ∀ d < c.lens.length, ∀ k < K, s.dk d k = ∑ n ∈ Finset.range (c.len d), g d n k
  kt : ∀ k < K, ∀ t, s.kt k t = bkt k t
    + ∑ d ∈ Finset.range c.lens.length, ∑ n ∈ Finset.range (c.len d), if c.w d n = t then g d n k else 0
  k : ∀ k < K, s.k k = bk k + ∑ d ∈ Finset.range c.lens.length, ∑ n ∈ Finset.range (c.len d), g d n k

theorem SumsOk.congr {K c g g' bkt bk s} (h : SumsOk K c g bkt bk s)
    (hg : ∀ d < c.lens.length, ∀ n < c.len d, ∀ k < K, g d n k = g' d n k) : SumsOk K c g' bkt bk s where
  dk := fun d hd k hk => by
    rw [h.dk d hd k hk]
    exact Finset.sum_congr rfl fun n hn => hg d hd n (Finset.mem_range.1 hn) k hk
  kt := fun k hk t => by
    rw [h.kt k hk t]
    congr 1
    refine Finset.sum_congr rfl fun d hd => Finset.sum_congr rfl fun n hn => ?_
    rw [hg d (Finset.mem_range.1 hd) n (Finset.mem_range.1 hn) k hk]
  k := fun k hk => by
    rw [h.k k hk]
    congr 1
    exact Finset.sum_congr rfl fun d hd => Finset.sum_congr rfl fun n hn =>
      hg d (Finset.mem_range.1 hd) n (Finset.mem_range.1 hn) k hk

/-- Changing one summand changes the sum by the difference. -/
theorem sum_change (N n : Nat) (hn : n < N) (f f' : Nat → ℚ) (h : ∀ i, i ≠ n → f' i = f i) :
    ∑ i ∈ Finset.range N, f' i = ∑ i ∈ Finset.range N, f i + (f' n - f n) := by
  rw [← Finset.add_sum_erase _ f' (Finset.mem_range.2 hn), ← Finset.add_sum_erase _ f (Finset.mem_range.2 hn)]
  have : ∑ i ∈ (Finset.range N).erase n, f' i = ∑ i ∈ (Finset.range N).erase n, f i :=
    Finset.sum_congr rfl fun i hi => h i (Finset.ne_of_mem_erase hi)
  rw [this]; ring

/-- Changing one token's value changes a sum over all tokens by the difference. -/
theorem sum2_change (c : Corpus) (d n : Nat) (hd : d < c.lens.length) (hn : n < c.len d) (f f' : Nat → Nat → ℚ)
    (h : ∀ i j, ¬ (i = d ∧ j = n) → f' i j = f i j) :
    ∑ i ∈ Finset.range c.lens.length, ∑ j ∈ Finset.range (c.len i), f' i j
      = ∑ i ∈ Finset.range c.lens.length, ∑ j ∈ Finset.range (c.len i), f i j + (f' d n - f d n) := by
  rw [sum_change _ d hd (fun i => ∑ j ∈ Finset.range (c.len i), f i j) (fun i => ∑ j ∈ Finset.range (c.len i), f' i j)]
  · congr 1
    have := sum_change _ n hn (f d) (f' d) (fun j hj => h d j (by tauto))
    rw [this]; ring
  · intro i hi
    exact Finset.sum_congr rfl fun j _ => h i j (by tauto)

/-- Bumping the tables by the change of one token's value keeps them the sums. -/
theorem SumsOk.bump {K c g bkt bk s} (h : SumsOk K c g bkt bk s) (d n k : Nat) (hd : d < c.lens.length) (hn : n < c.len d)
    (g' : Nat → Nat → Nat → ℚ) (hg : ∀ i j l, ¬ (i = d ∧ j = n ∧ l = k) → g' i j l = g i j l) (x : ℚ)
    (hx : x = g' d n k - g d n k) : SumsOk K c g' bkt bk (s.bump d (c.w d n) k x) where
  dk := fun d' hd' k' hk' => by
    simp only [Sums.bump]
    rw [h.dk d' hd' k' hk']
    split
    · rename_i hc
      obtain ⟨rfl, rfl⟩ := hc
      rw [sum_change _ n hn (fun n => g d' n k') (fun n => g' d' n k') (fun j hj => hg _ _ _ (by tauto)), hx]
    · rename_i hc
      exact Finset.sum_congr rfl fun j _ => (hg _ _ _ (by tauto)).symm
  kt := fun k' hk' t => by
    simp only [Sums.bump]
    rw [h.kt k' hk' t]
    split
    · rename_i hc
      obtain ⟨rfl, rfl⟩ := hc
      rw [sum2_change c d n hd hn (fun i j => if c.w i j = c.w d n then g i j k' else 0)
        (fun i j => if c.w i j = c.w d n then g' i j k' else 0)]
      · simp only [if_true]; rw [hx]; ring
      · intro i j hij
        rw [hg i j k' (by tauto)]
    · rename_i hc
      congr 1
      refine Finset.sum_congr rfl fun i _ => Finset.sum_congr rfl fun j _ => ?_
      split
      · rename_i ht
        rw [hg]
        rintro ⟨rfl, rfl, rfl⟩
        exact hc ⟨rfl, ht.symm⟩
      · rfl
  k := fun k' hk' => by
    simp only [Sums.bump]
    rw [h.k k' hk']
    split
    · rename_i hc
      subst hc
      rw [sum2_change c d n hd hn (fun i j => g i j k') (fun i j => g' i j k')]
      · rw [hx]; ring
      · intro i j hij
        exact hg i j k' (by tauto)
    · rename_i hc
      congr 1
      refine Finset.sum_congr rfl fun i _ => Finset.sum_congr rfl fun j _ => (hg _ _ _ ?_).symm
      tauto

/-! ## Loops -/

theorem mem_tokens {c : Corpus} {tok : Nat × Nat} : tok ∈ c.tokens ↔ tok.1 < c.lens.length ∧ tok.2 < c.len tok.1 := by
  unfold Corpus.tokens
  simp only [List.mem_flatMap, List.mem_range, List.mem_map]
  constructor
  · rintro ⟨d, hd, n, hn, rfl⟩
    exact ⟨hd, hn⟩
  · rintro ⟨hd, hn⟩
    exact ⟨tok.1, hd, tok.2, hn, rfl⟩

theorem topicLoop_inv (ker : Kernel) (c : Corpus) (d n : Nat) (P : State → Prop)
    (hstep : ∀ s k m, P s → P (ker.update c d n s k m)) (w : Nat → ℚ) (denom : ℚ) (ks : List Nat) (s : State) (h : P s) :
    P (topicLoop ker c d n w denom ks s).1 := by
  induction ks generalizing s with
  | nil => exact h
  | cons k ks ih =>
    rw [topicLoop]
    split
    · exact h
    · exact ih _ (hstep _ _ _ h)

theorem visitAll_inv (ker : Kernel) (p : Params) (c : Corpus) (P : State → Prop)
    (hstep : ∀ d n, d < c.lens.length → n < c.len d → ∀ s k m, P s → P (ker.update c d n s k m)) (toks : List (Nat × Nat))
    (ht : ∀ t ∈ toks, t ∈ c.tokens) (s : State) (h : P s) : P (visitAll ker p c toks s).1 := by
  induction toks generalizing s with
  | nil => exact h
  | cons tok toks ih =>
    have hv : P (visit ker p c s tok).1 := by
      obtain ⟨h1, h2⟩ := mem_tokens.1 (ht tok (by simp))
      exact topicLoop_inv ker c _ _ P (hstep _ _ h1 h2) _ _ _ _ h
    rw [visitAll]
    split
    · rename_i s' heq
      rw [heq] at hv; exact hv
    · rename_i s' heq
      rw [heq] at hv
      exact ih (fun t h => ht t (List.mem_cons_of_mem _ h)) _ hv

theorem iterate_inv (ker : Kernel) (p : Params) (c : Corpus) (P : State → Prop)
    (hstep : ∀ d n, d < c.lens.length → n < c.len d → ∀ s k m, P s → P (ker.update c d n s k m)) (i : Nat) (s : State)
    (h : P s) : P (iterate ker p c i s).1 := by
  induction i generalizing s with
  | zero => exact h
  | succ i ih =>
    have hv := visitAll_inv ker p c P hstep c.tokens (fun _ h => h) s h
    rw [iterate]
    split
    · rename_i s' heq
      rw [heq] at hv; exact hv
    · rename_i s' heq
      rw [heq] at hv
      exact ih _ hv

theorem visitAll_cons {ker : Kernel} {p : Params} {c : Corpus} {tok : Nat × Nat} {s : State}
    (h : (visit ker p c s tok).2 = false) (toks : List (Nat × Nat)) :
    visitAll ker p c (tok :: toks) s = visitAll ker p c toks (visit ker p c s tok).1 := by
  rw [visitAll]
  split
  · rename_i s' heq
    rw [heq] at h; exact absurd h (by simp)
  · rename_i s' heq
    rw [heq]

theorem visitAll_append {ker : Kernel} {p : Params} {c : Corpus} (l l' : List (Nat × Nat)) (s : State)
    (h : (visitAll ker p c l s).2 = false) :
    visitAll ker p c (l ++ l') s = visitAll ker p c l' (visitAll ker p c l s).1 := by
  induction l generalizing s with
  | nil => rfl
  | cons a l ih =>
    cases hv : (visit ker p c s a).2 with
    | true =>
      have : (visitAll ker p c (a :: l) s).2 = true := by
        rw [visitAll]
        split
        · rfl
        · rename_i s' heq
          rw [heq] at hv; exact absurd hv (by simp)
      rw [this] at h; exact absurd h (by simp)
    | false =>
      rw [visitAll_cons hv] at h
      rw [List.cons_append, visitAll_cons hv, visitAll_cons hv]
      exact ih _ h

/-- The result of the loop over topics, if no probability is invalid. -/
theorem topicLoop_z (ker : Kernel) (hz : ∀ c d n s k m, (ker.update c d n s k m).z = setZ s.z d n k m)
    (c : Corpus) (d n : Nat) (w : Nat → ℚ) (denom : ℚ) (ks : List Nat)
    (hok : ∀ k ∈ ks, invalidProb denom (w k / denom) = false) (s : State) :
    (topicLoop ker c d n w denom ks s).2 = false ∧ ∀ d' n' k', (topicLoop ker c d n w denom ks s).1.z d' n' k'
      = if d' = d ∧ n' = n ∧ k' ∈ ks then w k' / denom else s.z d' n' k' := by
  induction ks generalizing s with
  | nil => exact ⟨rfl, fun d' n' k' => by simp [topicLoop]⟩
  | cons k ks ih =>
    have hk := hok k (by simp)
    rw [topicLoop, hk, Bool.and_false, if_neg (by simp)]
    obtain ⟨h1, h2⟩ := ih (fun k h => hok k (List.mem_cons_of_mem _ h)) (ker.update c d n s k (w k / denom))
    refine ⟨h1, fun d' n' k' => ?_⟩
    rw [h2, hz]
    simp only [setZ, List.mem_cons]
    by_cases hd : d' = d ∧ n' = n
    · obtain ⟨rfl, rfl⟩ := hd
      simp only [true_and]
      by_cases hk' : k' = k
      · subst hk'; simp
      · simp [hk']
    · rw [if_neg (by tauto), if_neg (by tauto), if_neg (by tauto)]

/-! ## Proper token distributions -/

/-- A state whose counts are the sums over the tokens and whose token probabilities are distributions. -/
structure Good (p : Params) (c : Corpus) (bkt : Nat → Nat → ℚ) (bk : Nat → ℚ) (s : State) : Prop where
  sums : SumsOk p.K c s.z bkt bk s.n
  nonneg : ∀ d < c.lens.length, ∀ n < c.len d, ∀ k < p.K, 0 ≤ s.z d n k
  one : ∀ d < c.lens.length, ∀ n < c.len d, ∑ k ∈ Finset.range p.K, s.z d n k = 1

/-- Positive priors and at least one topic and word. -/
structure Priors (p : Params) : Prop where
  K : 0 < p.K
  T : 0 < p.T
  a : ∀ k < p.K, 0 < p.a k
  b : 0 < p.b

/-- Non-negative bases -/
structure Base (p : Params) (bkt : Nat → Nat → ℚ) (bk : Nat → ℚ) : Prop where
  kt : ∀ k < p.K, ∀ t, 0 ≤ bkt k t
  k : ∀ k < p.K, 0 ≤ bk k

theorem aMean_pos {p : Params} (h : Priors p) : 0 < p.aMean := by
  unfold Params.aMean
  have hK : (0 : ℚ) < p.K := by exact_mod_cast h.K
  have : 0 < ∑ k ∈ Finset.range p.K, p.a k :=
    Finset.sum_pos (fun k hk => h.a k (Finset.mem_range.1 hk)) (by simpa using h.K.ne')
  positivity

theorem Good.dk_ge {p c bkt bk s} (h : Good p c bkt bk s) {d n k : Nat} (hd : d < c.lens.length) (hn : n < c.len d)
    (hk : k < p.K) : s.z d n k ≤ s.n.dk d k := by
  rw [h.sums.dk d hd k hk]
  exact Finset.single_le_sum (f := fun n => s.z d n k) (fun i hi => h.nonneg d hd i (Finset.mem_range.1 hi) k hk)
    (Finset.mem_range.2 hn)

theorem Good.k_ge {p c bkt bk s} (h : Good p c bkt bk s) (hb : Base p bkt bk) {d n k : Nat} (hd : d < c.lens.length)
    (hn : n < c.len d) (hk : k < p.K) : s.z d n k ≤ s.n.k k := by
  rw [h.sums.k k hk]
  have h1 : ∑ n ∈ Finset.range (c.len d), s.z d n k
      ≤ ∑ d ∈ Finset.range c.lens.length, ∑ n ∈ Finset.range (c.len d), s.z d n k :=
    Finset.single_le_sum (f := fun d => ∑ n ∈ Finset.range (c.len d), s.z d n k)
      (fun i hi => Finset.sum_nonneg fun j hj => h.nonneg i (Finset.mem_range.1 hi) j (Finset.mem_range.1 hj) k hk)
      (Finset.mem_range.2 hd)
  have h2 := h.dk_ge hd hn hk
  rw [h.sums.dk d hd k hk] at h2
  linarith [hb.k k hk]

theorem Good.kt_ge {p c bkt bk s} (h : Good p c bkt bk s) (hb : Base p bkt bk) {d n k : Nat} (hd : d < c.lens.length)
    (hn : n < c.len d) (hk : k < p.K) : s.z d n k ≤ s.n.kt k (c.w d n) := by
  rw [h.sums.kt k hk]
  have hpos : ∀ i < c.lens.length, ∀ j < c.len i, 0 ≤ (if c.w i j = c.w d n then s.z i j k else 0) := by
    intro i hi j hj
    split
    · exact h.nonneg i hi j hj k hk
    · exact le_refl _
  have h1 : (∑ j ∈ Finset.range (c.len d), if c.w d j = c.w d n then s.z d j k else 0)
      ≤ ∑ i ∈ Finset.range c.lens.length, ∑ j ∈ Finset.range (c.len i), if c.w i j = c.w d n then s.z i j k else 0 :=
    Finset.single_le_sum (f := fun i => ∑ j ∈ Finset.range (c.len i), if c.w i j = c.w d n then s.z i j k else 0)
      (fun i hi => Finset.sum_nonneg fun j hj => hpos i (Finset.mem_range.1 hi) j (Finset.mem_range.1 hj))
      (Finset.mem_range.2 hd)
  have h2 : s.z d n k ≤ ∑ j ∈ Finset.range (c.len d), if c.w d j = c.w d n then s.z d j k else 0 := by
    have := Finset.single_le_sum (f := fun j => if c.w d j = c.w d n then s.z d j k else 0)
      (fun j hj => hpos d hd j (Finset.mem_range.1 hj)) (Finset.mem_range.2 hn)
    simpa using this
  linarith [hb.kt k hk (c.w d n)]

theorem Good.kt_nonneg {p c bkt bk s} (h : Good p c bkt bk s) (hb : Base p bkt bk) {k : Nat} (hk : k < p.K) (t : Nat) :
    0 ≤ s.n.kt k t := by
  rw [h.sums.kt k hk]
  refine add_nonneg (hb.kt k hk t) (Finset.sum_nonneg fun i hi => Finset.sum_nonneg fun j hj => ?_)
  split
  · exact h.nonneg i (Finset.mem_range.1 hi) j (Finset.mem_range.1 hj) k hk
  · exact le_refl _

theorem Good.dk_nonneg {p c bkt bk s} (h : Good p c bkt bk s) {d k : Nat} (hd : d < c.lens.length) (hk : k < p.K) :
    0 ≤ s.n.dk d k := by
  rw [h.sums.dk d hd k hk]
  exact Finset.sum_nonneg fun j hj => h.nonneg d hd j (Finset.mem_range.1 hj) k hk

/-- What the proofs need to know about a compiled function. -/
structure Lawful (p : Params) (ker : Kernel) : Prop where
  z : ∀ c d n s k m, (ker.update c d n s k m).z = setZ s.z d n k m
  n : ∀ c d n s k m, (ker.update c d n s k m).n = s.n.bump d (c.w d n) k (m - s.z d n k)
  pos : ∀ c bkt bk s d n k, Good p c bkt bk s → Base p bkt bk → d < c.lens.length → n < c.len d → k < p.K →
    0 < ker.raw p c s d n k

theorem lawful0 {p : Params} (hp : Priors p) : Lawful p kernel0 where
  z := fun _ _ _ _ _ _ => rfl
  n := fun _ _ _ _ _ _ => rfl
  pos := fun c bkt bk s d n k hg hb hd hn hk => by
    have h1 := hg.dk_ge hd hn hk
    have h2 := hg.kt_ge hb hd hn hk
    have h3 := hg.k_ge hb hd hn hk
    have ha := aMean_pos hp
    have hT : (0 : ℚ) < p.T := by exact_mod_cast hp.T
    have hTb : (0 : ℚ) < p.T * p.b := mul_pos hT hp.b
    have hb' := hp.b
    simp only [kernel0, raw0]
    exact div_pos (mul_pos (by linarith) (by linarith)) (by linarith)

theorem raw2_pos {p : Params} (hp : Priors p) {ex : ℚ → ℚ} (hex : ∀ x, 0 < ex x) {c bkt bk s d n k} (hg : Good p c bkt bk s)
    (hb : Base p bkt bk) (hd : d < c.lens.length) (hn : n < c.len d) (hk : k < p.K) : 0 < raw2 ex p c s d n k := by
  have h1 := hg.dk_ge hd hn hk
  have h2 := hg.kt_ge hb hd hn hk
  have h3 := hg.k_ge hb hd hn hk
  have ha := aMean_pos hp
  have hT : (0 : ℚ) < p.T := by exact_mod_cast hp.T
  have hTb : (0 : ℚ) < p.b * p.T := mul_pos hp.b hT
  have hb' := hp.b
  unfold raw2
  simp only
  refine div_pos (mul_pos (mul_pos (by linarith) (by linarith)) ?_) (by linarith)
  split
  · exact hex _
  · positivity

theorem lawful64 {p : Params} (hp : Priors p) {ex : ℚ → ℚ} (hex : ∀ x, 0 < ex x) : Lawful p (kernel64 ex) where
  z := fun _ _ _ _ _ _ => rfl
  n := fun _ _ _ _ _ _ => rfl
  pos := fun _ _ _ _ _ _ _ hg hb hd hn hk => raw2_pos hp hex hg hb hd hn hk

theorem lawful32 {p : Params} (hp : Priors p) {ex : ℚ → ℚ} (hex : ∀ x, 0 < ex x) : Lawful p (kernel32 ex) where
  z := fun _ _ _ _ _ _ => rfl
  n := fun _ _ _ _ _ _ => rfl
  pos := fun _ _ _ _ _ _ _ hg hb hd hn hk => raw2_pos hp hex hg hb hd hn hk

theorem Lawful.sums_step {p : Params} {ker : Kernel} (hl : Lawful p ker) {c : Corpus} {bkt bk} {d n : Nat}
    (hd : d < c.lens.length) (hn : n < c.len d) (s : State) (k : Nat) (m : ℚ) (h : SumsOk p.K c s.z bkt bk s.n) :
    SumsOk p.K c (ker.update c d n s k m).z bkt bk (ker.update c d n s k m).n := by
  rw [hl.z, hl.n]
  refine h.bump d n k hd hn _ (fun i j l hc => ?_) _ ?_
  · simp [setZ, hc]
  · simp [setZ]

/-- Visiting a token: never stops, keeps the state good, and assigns the normalised weights. -/
theorem Lawful.visit_spec {p : Params} {ker : Kernel} (hp : Priors p) (hl : Lawful p ker) {c : Corpus} {bkt bk}
    (hb : Base p bkt bk) {s : State} (hg : Good p c bkt bk s) {tok : Nat × Nat} (ht : tok ∈ c.tokens) :
    (visit ker p c s tok).2 = false ∧ Good p c bkt bk (visit ker p c s tok).1 ∧
    (∀ k < p.K, (visit ker p c s tok).1.z tok.1 tok.2 k
      = ker.raw p c s tok.1 tok.2 k / ∑ j ∈ Finset.range p.K, ker.raw p c s tok.1 tok.2 j) ∧
    (∀ d n k, ¬ (d = tok.1 ∧ n = tok.2) → (visit ker p c s tok).1.z d n k = s.z d n k) := by
  obtain ⟨d, n⟩ := tok
  obtain ⟨hd, hn⟩ := mem_tokens.1 ht
  simp only at hd hn ⊢
  set w := ker.raw p c s d n with hw
  have hwpos : ∀ k < p.K, 0 < w k := fun k hk => hl.pos c bkt bk s d n k hg hb hd hn hk
  set denom := ∑ k ∈ Finset.range p.K, w k with hden
  have hdpos : 0 < denom := Finset.sum_pos (fun k hk => hwpos k (Finset.mem_range.1 hk)) (by simpa using hp.K.ne')
  have hle : ∀ k < p.K, w k ≤ denom := fun k hk =>
    Finset.single_le_sum (f := w) (fun i hi => (hwpos i (Finset.mem_range.1 hi)).le) (Finset.mem_range.2 hk)
  have hq0 : ∀ k < p.K, 0 < w k / denom := fun k hk => div_pos (hwpos k hk) hdpos
  have hq1 : ∀ k < p.K, w k / denom ≤ 1 := fun k hk => (div_le_one hdpos).2 (hle k hk)
  have hok : ∀ k ∈ List.range p.K, invalidProb denom (w k / denom) = false := by
    intro k hk
    have hk := List.mem_range.1 hk
    have h0 := hq0 k hk
    have h1 := hq1 k hk
    simp only [invalidProb, decide_eq_false_iff_not, not_or, not_lt]
    exact ⟨hdpos.ne', by linarith, by linarith⟩
  obtain ⟨h1, h2⟩ := topicLoop_z ker hl.z c d n w denom (List.range p.K) hok s
  have hsums : SumsOk p.K c (topicLoop ker c d n w denom (List.range p.K) s).1.z bkt bk
      (topicLoop ker c d n w denom (List.range p.K) s).1.n :=
    topicLoop_inv ker c d n (fun s => SumsOk p.K c s.z bkt bk s.n) (hl.sums_step hd hn) w denom _ s hg.sums
  have hv : visit ker p c s (d, n) = topicLoop ker c d n w denom (List.range p.K) s := rfl
  rw [hv]
  refine ⟨h1, ⟨hsums, ?_, ?_⟩, ?_, ?_⟩
  · intro d' hd' n' hn' k' hk'
    rw [h2]
    split
    · exact (hq0 k' hk').le
    · exact hg.nonneg d' hd' n' hn' k' hk'
  · intro d' hd' n' hn'
    by_cases hc : d' = d ∧ n' = n
    · obtain ⟨rfl, rfl⟩ := hc
      have : ∀ k ∈ Finset.range p.K, (topicLoop ker c d' n' w denom (List.range p.K) s).1.z d' n' k = w k / denom := by
        intro k hk
        rw [h2, if_pos ⟨rfl, rfl, List.mem_range.2 (Finset.mem_range.1 hk)⟩]
      rw [Finset.sum_congr rfl this, ← Finset.sum_div, ← hden, div_self hdpos.ne']
    · rw [← hg.one d' hd' n' hn']
      refine Finset.sum_congr rfl fun k _ => ?_
      rw [h2, if_neg (by tauto)]
  · intro k hk
    rw [h2, if_pos ⟨rfl, rfl, List.mem_range.2 hk⟩]
  · intro d' n' k hc
    rw [h2, if_neg (by tauto)]

theorem Lawful.visitAll_good {p : Params} {ker : Kernel} (hp : Priors p) (hl : Lawful p ker) {c : Corpus} {bkt bk}
    (hb : Base p bkt bk) (toks : List (Nat × Nat)) (ht : ∀ t ∈ toks, t ∈ c.tokens) (s : State) (hg : Good p c bkt bk s) :
    (visitAll ker p c toks s).2 = false ∧ Good p c bkt bk (visitAll ker p c toks s).1 := by
  induction toks generalizing s with
  | nil => exact ⟨rfl, hg⟩
  | cons tok toks ih =>
    obtain ⟨h1, h2, -⟩ := hl.visit_spec hp hb hg (ht tok (by simp))
    rw [visitAll]
    split
    · rename_i s' heq
      rw [heq] at h1; exact absurd h1 (by simp)
    · rename_i s' heq
      rw [heq] at h2
      exact ih (fun t h => ht t (List.mem_cons_of_mem _ h)) _ h2

theorem Lawful.iterate_good {p : Params} {ker : Kernel} (hp : Priors p) (hl : Lawful p ker) {c : Corpus} {bkt bk}
    (hb : Base p bkt bk) (i : Nat) (s : State) (hg : Good p c bkt bk s) :
    (iterate ker p c i s).2 = false ∧ Good p c bkt bk (iterate ker p c i s).1 := by
  induction i generalizing s with
  | zero => exact ⟨rfl, hg⟩
  | succ i ih =>
    obtain ⟨h1, h2⟩ := hl.visitAll_good hp hb c.tokens (fun _ h => h) s hg
    rw [iterate]
    split
    · rename_i s' heq
      rw [heq] at h1; exact absurd h1 (by simp)
    · rename_i s' heq
      rw [heq] at h2
      exact ih _ h2

/-- Measuring restores the counts. -/
theorem measure_dk {p : Params} (hp : Priors p) {n : Sums} {d : Nat} (h : ∀ k < p.K, 0 ≤ n.dk d k) (k : Nat) :
    (measure p n).dk d k = n.dk d k := by
  have : 0 < ∑ j ∈ Finset.range p.K, (n.dk d j + p.a j) :=
    Finset.sum_pos (fun k hk => by linarith [h k (Finset.mem_range.1 hk), hp.a k (Finset.mem_range.1 hk)])
      (by simpa using hp.K.ne')
  simp only [measure]
  rw [div_mul_cancel₀ _ this.ne']
  ring

theorem measure_kt {p : Params} (hp : Priors p) {n : Sums} {k : Nat} (h : ∀ t < p.T, 0 ≤ n.kt k t) (t : Nat) :
    (measure p n).kt k t = n.kt k t := by
  have : 0 < ∑ u ∈ Finset.range p.T, (n.kt k u + p.b) :=
    Finset.sum_pos (fun u hu => by linarith [h u (Finset.mem_range.1 hu), hp.b]) (by simpa using hp.T.ne')
  simp only [measure]
  rw [div_mul_cancel₀ _ this.ne']
  ring

theorem Lawful.segment_good {p : Params} {ker : Kernel} (hp : Priors p) (hl : Lawful p ker) {c : Corpus} {bkt bk}
    (hb : Base p bkt bk) (s : State) (i : Int) (hg : Good p c bkt bk s) : Good p c bkt bk (segment ker p c s i) := by
  obtain ⟨-, h⟩ := hl.iterate_good hp hb i.toNat s hg
  unfold segment
  simp only
  refine ⟨⟨?_, ?_, ?_⟩, h.nonneg, h.one⟩
  · intro d hd k hk
    rw [measure_dk hp fun k hk => h.dk_nonneg hd hk]
    exact h.sums.dk d hd k hk
  · intro k hk t
    rw [measure_kt hp fun t _ => h.kt_nonneg hb hk t]
    exact h.sums.kt k hk t
  · exact h.sums.k

theorem Lawful.segments_good {p : Params} {ker : Kernel} (hp : Priors p) (hl : Lawful p ker) {c : Corpus} {bkt bk}
    (hb : Base p bkt bk) (calls : List Int) (s : State) (hg : Good p c bkt bk s) :
    Good p c bkt bk (calls.foldl (segment ker p c) s) := by
  induction calls generalizing s with
  | nil => exact hg
  | cons i calls ih => exact ih _ (hl.segment_good hp hb s i hg)

/-- A table of sums that the measurements do not touch (the variances). -/
theorem segments_inv {ker : Kernel} {p : Params} {c : Corpus} (P : State → Prop) (hn : ∀ s n, P s → P { s with n := n })
    (hstep : ∀ d n, d < c.lens.length → n < c.len d → ∀ s k m, P s → P (ker.update c d n s k m)) (calls : List Int)
    (s : State) (h : P s) : P (calls.foldl (segment ker p c) s) := by
  induction calls generalizing s with
  | nil => exact h
  | cons i calls ih => exact ih _ (hn _ _ (iterate_inv ker p c P hstep _ s h))

/-! ## The initial state -/

theorem len_le_maxN {c : Corpus} {d : Nat} (hd : d < c.lens.length) : c.len d ≤ c.maxN := by
  unfold Corpus.len Corpus.maxN
  rw [List.getD_eq_getElem?_getD, List.getElem?_eq_getElem hd, Option.getD_some]
  have : ∀ (l : List Nat) (x : Nat), x ∈ l → x ≤ l.foldr max 0 := by
    intro l
    induction l with
    | nil => simp
    | cons y l ih =>
      intro x hx
      rw [List.foldr_cons]
      rcases List.mem_cons.1 hx with rfl | hx
      · exact le_max_left _ _
      · exact le_trans (ih x hx) (le_max_right _ _)
  exact this _ _ (List.getElem_mem hd)

theorem sum_tail {c : Corpus} {d : Nat} (hd : d < c.lens.length) (f : Nat → ℚ) (hf : ∀ n, c.len d ≤ n → f n = 0) :
    ∑ n ∈ Finset.range c.maxN, f n = ∑ n ∈ Finset.range (c.len d), f n := by
  symm
  refine Finset.sum_subset ?_ ?_
  · intro n hn
    exact Finset.mem_range.2 (lt_of_lt_of_le (Finset.mem_range.1 hn) (len_le_maxN hd))
  · intro n _ hn
    exact hf n (by simpa using hn)

theorem calculateCounts_ok (K : Nat) (c : Corpus) (g : Nat → Nat → Nat → ℚ) (hg : ∀ d n k, c.len d ≤ n → g d n k = 0) :
    SumsOk K c g (fun _ _ => 0) (fun _ => 0) (calculateCounts c g) where
  dk := fun d hd k _ => sum_tail hd _ fun n hn => hg d n k hn
  kt := fun k _ t => by simp [calculateCounts]
  k := fun k _ => by
    simp only [calculateCounts, zero_add]
    exact Finset.sum_congr rfl fun d hd => sum_tail (Finset.mem_range.1 hd) _ fun n hn => hg d n k hn

theorem newQueryState_good (p : Params) (c : Corpus) (r : Nat → Nat → Nat → ℚ)
    (hr : ∀ d < c.lens.length, ∀ n < c.len d, ∀ k < p.K, 0 ≤ r d n k)
    (hr' : ∀ d < c.lens.length, ∀ n < c.len d, ∃ k < p.K, 0 < r d n k) :
    Good p c (fun _ _ => 0) (fun _ => 0) (newQueryState c p.K r) := by
  have hz : ∀ d n k, n < c.len d → (newQueryState c p.K r).z d n k = initZ p.K r d n k := by
    intro d n k hn
    simp [newQueryState, zeroTail, Nat.not_le.2 hn]
  refine ⟨?_, ?_, ?_⟩
  · exact calculateCounts_ok p.K c (zeroTail c (initZ p.K r)) fun d n k hn => if_pos hn
  · intro d hd n hn k hk
    rw [hz d n k hn]
    exact div_nonneg (hr d hd n hn k hk) (Finset.sum_nonneg fun j hj => hr d hd n hn j (Finset.mem_range.1 hj))
  · intro d hd n hn
    rw [Finset.sum_congr rfl fun k _ => hz d n k hn]
    unfold initZ
    rw [← Finset.sum_div]
    obtain ⟨k, hk, hpos⟩ := hr' d hd n hn
    refine div_self (ne_of_gt ?_)
    exact Finset.sum_pos' (fun j hj => hr d hd n hn j (Finset.mem_range.1 hj)) ⟨k, Finset.mem_range.2 hk, hpos⟩

theorem newQueryState_var (K : Nat) (c : Corpus) (r : Nat → Nat → Nat → ℚ) :
    SumsOk K c (fun d n k => (newQueryState c K r).z d n k * (1 - (newQueryState c K r).z d n k)) (fun _ _ => 0) (fun _ => 0)
      (newQueryState c K r).v := by
  refine calculateCounts_ok K c _ fun d n k hn => ?_
  simp [newQueryState, zeroTail, hn]

end Verif.Cvb
