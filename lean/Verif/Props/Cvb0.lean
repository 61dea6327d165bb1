import Mathlib.Tactic.IntervalCases
import Verif.Lemmas.Cvb

/-!
# Zero-order collapsed variational inference (C61, C62, C93, C94)
-/

namespace Verif.Props.Cvb0

open Verif Verif.Cvb

/-! ## Specification -/

/-- Sum of a token quantity over the tokens of document `d`. -/
def overDoc (c : Corpus) (g : Nat → Nat → ℚ) (d : Nat) : ℚ := ∑ n ∈ Finset.range (c.len d), g d n

/-- Sum of a token quantity over all tokens of the corpus. -/
def overAll (c : Corpus) (g : Nat → Nat → ℚ) : ℚ := ∑ d ∈ Finset.range c.lens.length, overDoc c g d

/-- Sum of a token quantity over all tokens that are the word `t`. -/
def overWord (c : Corpus) (g : Nat → Nat → ℚ) (t : Nat) : ℚ := overAll c (fun d n => if c.w d n = t then g d n else 0)

/-- The counts are the sums of the token probabilities, plus a base (the counts of the documents the model knows). -/
structure CountsAreSums (p : Params) (c : Corpus) (bkt : Nat → Nat → ℚ) (bk : Nat → ℚ) (s : State) : Prop where
  doc : ∀ d < c.lens.length, ∀ k < p.K, s.n.dk d k = overDoc c (fun d n => s.z d n k) d
  word : ∀ k < p.K, ∀ t, s.n.kt k t = bkt k t + overWord c (fun d n => s.z d n k) t
  topic : ∀ k < p.K, s.n.k k = bk k + overAll c (fun d n => s.z d n k)

/-- Every token has a probability distribution over topics. -/
structure TokenDists (p : Params) (c : Corpus) (s : State) : Prop where
  nonneg : ∀ d < c.lens.length, ∀ n < c.len d, ∀ k < p.K, 0 ≤ s.z d n k
  one : ∀ d < c.lens.length, ∀ n < c.len d, ∑ k ∈ Finset.range p.K, s.z d n k = 1

/-- Positive priors, at least one topic and one word -/
structure PositivePriors (p : Params) : Prop where
  K : 0 < p.K
  T : 0 < p.T
  a : ∀ k < p.K, 0 < p.a k
  b : 0 < p.b

/-- Random numbers as `rd.rand` gives them: non-negative, and not all zero for a token. -/
structure GoodRandom (p : Params) (c : Corpus) (r : Nat → Nat → Nat → ℚ) : Prop where
  nonneg : ∀ d < c.lens.length, ∀ n < c.len d, ∀ k < p.K, 0 ≤ r d n k
  pos : ∀ d < c.lens.length, ∀ n < c.len d, ∃ k < p.K, 0 < r d n k

/-- Non-negative bases -/
structure NonnegBase (p : Params) (bkt : Nat → Nat → ℚ) (bk : Nat → ℚ) : Prop where
  kt : ∀ k < p.K, ∀ t, 0 ≤ bkt k t
  k : ∀ k < p.K, 0 ≤ bk k

theorem good_iff {p c bkt bk s} : Good p c bkt bk s ↔ CountsAreSums p c bkt bk s ∧ TokenDists p c s :=
  ⟨fun h => ⟨⟨h.sums.dk, h.sums.kt, h.sums.k⟩, ⟨h.nonneg, h.one⟩⟩,
   fun h => ⟨⟨h.1.doc, h.1.word, h.1.topic⟩, h.2.nonneg, h.2.one⟩⟩

theorem PositivePriors.priors {p} (h : PositivePriors p) : Priors p := ⟨h.K, h.T, h.a, h.b⟩

theorem NonnegBase.base {p bkt bk} (h : NonnegBase p bkt bk) : Base p bkt bk := ⟨h.kt, h.k⟩

theorem zeroBase (p : Params) : NonnegBase p (fun _ _ => 0) (fun _ => 0) := ⟨fun _ _ _ => le_refl _, fun _ _ => le_refl _⟩

theorem overAll_sum (c : Corpus) (K : Nat) (g : Nat → Nat → Nat → ℚ) :
    ∑ k ∈ Finset.range K, overAll c (fun d n => g d n k) = overAll c (fun d n => ∑ k ∈ Finset.range K, g d n k) := by
  unfold overAll overDoc
  rw [Finset.sum_comm]
  refine Finset.sum_congr rfl fun d _ => ?_
  rw [Finset.sum_comm]

/-- The sum of one over all tokens is the number of tokens. -/
theorem overAll_one (c : Corpus) : overAll c (fun _ _ => 1) = c.lens.sum := by
  unfold overAll overDoc Corpus.len
  simp only [Finset.sum_const, Finset.card_range, nsmul_eq_mul, mul_one]
  generalize c.lens = l
  induction l using List.reverseRecOn with
  | nil => simp
  | append_singleton l x ih =>
    rw [List.length_append, List.length_singleton, Finset.sum_range_succ]
    have : ∀ i ∈ Finset.range l.length, (((l ++ [x]).getD i 0 : Nat) : ℚ) = (l.getD i 0 : Nat) := by
      intro i hi
      rw [List.getD_eq_getElem?_getD, List.getElem?_append_left (Finset.mem_range.1 hi), ← List.getD_eq_getElem?_getD]
    rw [Finset.sum_congr rfl this, ih, List.getD_eq_getElem?_getD, List.getElem?_append_right (le_refl _)]
    simp

/-! ## C61 -/

/-- Whatever the number of iterations, starting from consistent counts and proper token distributions: the compiled function
never gives up, and counts and distributions stay consistent. -/
theorem cvb0_iterate_consistent (p : Params) (c : Corpus) (hp : PositivePriors p) (bkt : Nat → Nat → ℚ) (bk : Nat → ℚ)
    (hb : NonnegBase p bkt bk) (s : State) (hs : CountsAreSums p c bkt bk s) (hz : TokenDists p c s) (iterations : Nat) :
    (iterate kernel0 p c iterations s).2 = false ∧ CountsAreSums p c bkt bk (iterate kernel0 p c iterations s).1
      ∧ TokenDists p c (iterate kernel0 p c iterations s).1 := by
  obtain ⟨h1, h2⟩ := (lawful0 hp.priors).iterate_good hp.priors hb.base iterations s (good_iff.2 ⟨hs, hz⟩)
  exact ⟨h1, good_iff.1 h2⟩

/-- A new query state is consistent. -/
theorem newQueryState_consistent (p : Params) (c : Corpus) (r : Nat → Nat → Nat → ℚ) (hr : GoodRandom p c r) :
    CountsAreSums p c (fun _ _ => 0) (fun _ => 0) (newQueryState c p.K r) ∧ TokenDists p c (newQueryState c p.K r) :=
  good_iff.1 (newQueryState_good p c r hr.nonneg hr.pos)

/-- **C61**: after any number of iterations from a new query state the counts are the sums of the token probabilities. -/
theorem cvb0_counts_are_sums (p : Params) (c : Corpus) (hp : PositivePriors p) (r : Nat → Nat → Nat → ℚ)
    (hr : GoodRandom p c r) (iterations : Nat) :
    (iterate kernel0 p c iterations (newQueryState c p.K r)).2 = false
      ∧ CountsAreSums p c (fun _ _ => 0) (fun _ => 0) (iterate kernel0 p c iterations (newQueryState c p.K r)).1
      ∧ TokenDists p c (iterate kernel0 p c iterations (newQueryState c p.K r)).1 := by
  obtain ⟨h1, h2⟩ := newQueryState_consistent p c r hr
  exact cvb0_iterate_consistent p c hp _ _ (zeroBase p) _ h1 h2 iterations

/-- Consistent counts: each document's counts add up to its length, the grand total is the number of tokens (plus base), and
the topic distribution of a document with words is a distribution. -/
theorem cvb0_totals (p : Params) (c : Corpus) (bkt : Nat → Nat → ℚ) (bk : Nat → ℚ) (s : State)
    (hs : CountsAreSums p c bkt bk s) (hz : TokenDists p c s) :
    (∀ d < c.lens.length, ∑ k ∈ Finset.range p.K, s.n.dk d k = c.len d)
      ∧ (∑ k ∈ Finset.range p.K, s.n.k k = ∑ k ∈ Finset.range p.K, bk k + c.lens.sum)
      ∧ (∀ d < c.lens.length, 0 < c.len d → (∀ k < p.K, 0 ≤ topicDists p.K s.n d k)
        ∧ ∑ k ∈ Finset.range p.K, topicDists p.K s.n d k = 1) := by
  have hdoc : ∀ d < c.lens.length, ∑ k ∈ Finset.range p.K, s.n.dk d k = c.len d := by
    intro d hd
    rw [Finset.sum_congr rfl fun k hk => hs.doc d hd k (Finset.mem_range.1 hk)]
    unfold overDoc
    rw [Finset.sum_comm, Finset.sum_congr rfl fun n hn => hz.one d hd n (Finset.mem_range.1 hn)]
    simp
  refine ⟨hdoc, ?_, ?_⟩
  · rw [Finset.sum_congr rfl fun k hk => hs.topic k (Finset.mem_range.1 hk), Finset.sum_add_distrib, overAll_sum]
    congr 1
    rw [← overAll_one]
    unfold overAll overDoc
    exact Finset.sum_congr rfl fun d hd => Finset.sum_congr rfl fun n hn =>
      hz.one d (Finset.mem_range.1 hd) n (Finset.mem_range.1 hn)
  · intro d hd hl
    have hlq : (0 : ℚ) < c.len d := by exact_mod_cast hl
    unfold topicDists
    rw [hdoc d hd]
    constructor
    · intro k hk
      refine div_nonneg ?_ hlq.le
      rw [hs.doc d hd k hk]
      exact Finset.sum_nonneg fun n hn => hz.nonneg d hd n (Finset.mem_range.1 hn) k hk
    · rw [← Finset.sum_div, hdoc d hd, div_self hlq.ne']

/-! ## C93: the update of a token -/

/-- Sum of a token quantity over the tokens of document `d` other than token `n`. -/
def overDocExcept (c : Corpus) (g : Nat → Nat → ℚ) (d n : Nat) : ℚ := ∑ i ∈ (Finset.range (c.len d)).erase n, g d i

/-- Sum of a token quantity over all tokens other than token `n` of document `d`. -/
def overAllExcept (c : Corpus) (g : Nat → Nat → ℚ) (d n : Nat) : ℚ :=
  ∑ i ∈ Finset.range c.lens.length, ∑ j ∈ Finset.range (c.len i), if i = d ∧ j = n then 0 else g i j

/-- The collapsed update (Asuncion et al., CVB0): proportional to prior plus expected counts, the token itself excluded. -/
def collapsedWeight (p : Params) (c : Corpus) (bkt : Nat → Nat → ℚ) (bk : Nat → ℚ) (z : Nat → Nat → Nat → ℚ) (d n k : Nat) :
    ℚ :=
  ((∑ j ∈ Finset.range p.K, p.a j) / p.K + overDocExcept c (fun d n => z d n k) d n)
    * (p.b + bkt k (c.w d n) + overAllExcept c (fun i j => if c.w i j = c.w d n then z i j k else 0) d n)
    / (p.T * p.b + bk k + overAllExcept c (fun i j => z i j k) d n)

theorem overAllExcept_eq (c : Corpus) (g : Nat → Nat → ℚ) (d n : Nat) (hd : d < c.lens.length) (hn : n < c.len d) :
    overAllExcept c g d n = overAll c g - g d n := by
  unfold overAllExcept overAll overDoc
  rw [sum2_change c d n hd hn g (fun i j => if i = d ∧ j = n then 0 else g i j) (fun i j h => if_neg h), if_pos ⟨rfl, rfl⟩]
  ring

theorem overDocExcept_eq (c : Corpus) (g : Nat → Nat → ℚ) (d n : Nat) (hn : n < c.len d) :
    overDocExcept c g d n = overDoc c g d - g d n := by
  unfold overDocExcept overDoc
  rw [← Finset.add_sum_erase _ (g d) (Finset.mem_range.2 hn)]
  ring

/-- **C93**: visiting a token sets its distribution to the normalised collapsed weights, and leaves all other tokens alone. -/
theorem cvb0_update (p : Params) (c : Corpus) (hp : PositivePriors p) (bkt : Nat → Nat → ℚ) (bk : Nat → ℚ)
    (hb : NonnegBase p bkt bk) (s : State) (hs : CountsAreSums p c bkt bk s) (hz : TokenDists p c s) (d n : Nat)
    (hd : d < c.lens.length) (hn : n < c.len d) :
    (∀ k < p.K, (visit kernel0 p c s (d, n)).1.z d n k = collapsedWeight p c bkt bk s.z d n k
        / ∑ j ∈ Finset.range p.K, collapsedWeight p c bkt bk s.z d n j)
      ∧ ∀ d' n' k, ¬ (d' = d ∧ n' = n) → (visit kernel0 p c s (d, n)).1.z d' n' k = s.z d' n' k := by
  have ht : (d, n) ∈ c.tokens := mem_tokens.2 ⟨hd, hn⟩
  obtain ⟨-, -, h3, h4⟩ := (lawful0 hp.priors).visit_spec hp.priors hb.base (good_iff.2 ⟨hs, hz⟩) ht
  have hw : ∀ k < p.K, kernel0.raw p c s d n k = collapsedWeight p c bkt bk s.z d n k := by
    intro k hk
    simp only [kernel0, raw0, collapsedWeight, Params.aMean]
    rw [overDocExcept_eq c _ d n hn, overAllExcept_eq c _ d n hd hn, overAllExcept_eq c _ d n hd hn, hs.doc d hd k hk,
      hs.word k hk, hs.topic k hk, if_pos rfl]
    simp only [overWord, add_sub_assoc, add_assoc]
  refine ⟨fun k hk => ?_, h4⟩
  rw [h3 k hk]
  simp only
  rw [hw k hk, Finset.sum_congr rfl fun j hj => hw j (Finset.mem_range.1 hj)]

/-! ## C62 -/

/-- A model whose counts are not negative -/
def GoodModel (p : Params) (m : Counts) : Prop := NonnegBase p m.kt m.k

/-- Every document has a word (otherwise training raises a `ValueError`) -/
def NoEmptyDocs (c : Corpus) : Prop := ∀ l ∈ c.lens, 1 ≤ l

theorem any_empty {c : Corpus} (h : NoEmptyDocs c) : ¬ (c.lens.any (fun l => decide (l < 1)) = true) := by
  simp only [List.any_eq_true, decide_eq_true_eq, not_exists, not_and]
  intro l hl
  have := h l hl
  omega

/-- Adding the counts of a model to a consistent state -/
theorem addModel_consistent {p : Params} {c : Corpus} {bkt bk} {q : State} (h : CountsAreSums p c bkt bk q) (m : Counts) :
    CountsAreSums p c (fun k t => m.kt k t + bkt k t) (fun k => m.k k + bk k) { q with n := q.n.addModel m } where
  doc := h.doc
  word := fun k hk t => by
    show q.n.kt k t + m.kt k t = _
    rw [h.word k hk t]; ring
  topic := fun k hk => by
    show q.n.k k + m.k k = _
    rw [h.topic k hk]; ring

/-- **C62** (query): the model is returned unchanged; the query state has consistent counts of its own documents only. -/
theorem cvb0_query (p : Params) (c : Corpus) (hp : PositivePriors p) (hc : NoEmptyDocs c) (calls : List Int) (m : Counts)
    (hm : GoodModel p m) (q : State) (hq : CountsAreSums p c (fun _ _ => 0) (fun _ => 0) q) (hz : TokenDists p c q) :
    ∃ q', train0 p c calls true (some m) q = .ok (some m, q')
      ∧ CountsAreSums p c (fun _ _ => 0) (fun _ => 0) q' ∧ TokenDists p c q' := by
  have hb : NonnegBase p (fun k t => m.kt k t + 0) (fun k => m.k k + 0) :=
    ⟨fun k hk t => by simpa using hm.kt k hk t, fun k hk => by simpa using hm.k k hk⟩
  have hg := (lawful0 hp.priors).segments_good hp.priors hb.base calls _ 
    (good_iff.2 ⟨addModel_consistent hq m, hz.nonneg, hz.one⟩)
  obtain ⟨h1, h2⟩ := good_iff.1 hg
  refine ⟨{ (calls.foldl (segment kernel0 p c) { q with n := q.n.addModel m }) with
    n := (calls.foldl (segment kernel0 p c) { q with n := q.n.addModel m }).n.subModel m },
    by unfold train0; rw [if_neg (any_empty hc)]; simp only [if_true], ?_, ⟨h2.nonneg, h2.one⟩⟩
  refine ⟨h1.doc, fun k hk t => ?_, fun k hk => ?_⟩
  · simp only [Sums.subModel]
    rw [h1.word k hk t]; ring
  · simp only [Sums.subModel]
    rw [h1.topic k hk]; ring

/-- **C62** (first training): the model's counts are those of the documents; it gets one row for each document. -/
theorem cvb0_train_first (p : Params) (c : Corpus) (hp : PositivePriors p) (hc : NoEmptyDocs c) (calls : List Int) (q : State)
    (hq : CountsAreSums p c (fun _ _ => 0) (fun _ => 0) q) (hz : TokenDists p c q) :
    ∃ m' q', train0 p c calls false none q = .ok (some m', q') ∧ TokenDists p c q'
      ∧ CountsAreSums p c (fun _ _ => 0) (fun _ => 0) q'
      ∧ (∀ k < p.K, ∀ t, m'.kt k t = overWord c (fun d n => q'.z d n k) t)
      ∧ (∀ k < p.K, m'.k k = overAll c (fun d n => q'.z d n k))
      ∧ m'.rows.length = c.lens.length
      ∧ ∀ d < c.lens.length, ∀ k < p.K, ∀ row, m'.rows[d]? = some row → row k = overDoc c (fun d n => q'.z d n k) d := by
  have hg := (lawful0 hp.priors).segments_good hp.priors (zeroBase p).base calls _ (good_iff.2 ⟨hq, hz⟩)
  obtain ⟨h1, h2⟩ := good_iff.1 hg
  refine ⟨_, _, by unfold train0; rw [if_neg (any_empty hc)]; simp only; rfl, h2, h1, ?_, ?_, ?_, ?_⟩
  · intro k hk t
    simpa using h1.word k hk t
  · intro k hk
    simpa using h1.topic k hk
  · simp [Sums.rows]
  · intro d hd k hk row hrow
    simp only [Sums.rows, List.getElem?_map, List.getElem?_range hd, Option.map_some, Option.some.injEq] at hrow
    subst hrow
    exact h1.doc d hd k hk

/-- **C62** (refining): the new counts are the old ones plus those of the new documents, whose rows are appended. -/
theorem cvb0_train_refine (p : Params) (c : Corpus) (hp : PositivePriors p) (hc : NoEmptyDocs c) (calls : List Int)
    (m : Counts) (hm : GoodModel p m) (q : State) (hq : CountsAreSums p c (fun _ _ => 0) (fun _ => 0) q)
    (hz : TokenDists p c q) :
    ∃ m' q', train0 p c calls false (some m) q = .ok (some m', q') ∧ TokenDists p c q'
      ∧ (∀ k < p.K, ∀ t, m'.kt k t = m.kt k t + overWord c (fun d n => q'.z d n k) t)
      ∧ (∀ k < p.K, m'.k k = m.k k + overAll c (fun d n => q'.z d n k))
      ∧ (∃ rows, m'.rows = m.rows ++ rows ∧ rows.length = c.lens.length
        ∧ ∀ d < c.lens.length, ∀ k < p.K, ∀ row, rows[d]? = some row → row k = overDoc c (fun d n => q'.z d n k) d)
      ∧ GoodModel p m' := by
  have hb : NonnegBase p (fun k t => m.kt k t + 0) (fun k => m.k k + 0) :=
    ⟨fun k hk t => by simpa using hm.kt k hk t, fun k hk => by simpa using hm.k k hk⟩
  have hg := (lawful0 hp.priors).segments_good hp.priors hb.base calls _ 
    (good_iff.2 ⟨addModel_consistent hq m, hz.nonneg, hz.one⟩)
  obtain ⟨h1, h2⟩ := good_iff.1 hg
  refine ⟨_, _, by unfold train0; rw [if_neg (any_empty hc)]; simp only; rfl, h2, ?_, ?_, ⟨_, rfl, ?_, ?_⟩, ?_⟩
  · intro k hk t
    simpa using h1.word k hk t
  · intro k hk
    simpa using h1.topic k hk
  · simp [Sums.rows]
  · intro d hd k hk row hrow
    simp only [Sums.rows, List.getElem?_map, List.getElem?_range hd, Option.map_some, Option.some.injEq] at hrow
    subst hrow
    exact h1.doc d hd k hk
  · refine ⟨fun k hk t => ?_, fun k hk => ?_⟩
    · exact hg.kt_nonneg hb.base hk t
    · show 0 ≤ (calls.foldl (segment kernel0 p c) { q with n := q.n.addModel m }).n.k k
      rw [h1.topic k hk]
      refine add_nonneg (by simpa using hm.k k hk) (Finset.sum_nonneg fun d hd => Finset.sum_nonneg fun n hn => ?_)
      exact h2.nonneg d (Finset.mem_range.1 hd) n (Finset.mem_range.1 hn) k hk

/-- **C62** (scoring): the counts a likelihood computation temporarily adjusts are restored. -/
theorem cvb0_scoring_restores (p : Params) (hp : PositivePriors p) (n : Sums) (hdk : ∀ d, ∀ k < p.K, 0 ≤ n.dk d k)
    (hkt : ∀ k, ∀ t < p.T, 0 ≤ n.kt k t) : Cvb.measure p n = n := by
  have h1 : (Cvb.measure p n).dk = n.dk := funext fun d => funext fun k => measure_dk hp.priors (hdk d) k
  have h2 : (Cvb.measure p n).kt = n.kt := funext fun k => funext fun t => measure_kt hp.priors (hkt k) t
  have h3 : (Cvb.measure p n).k = n.k := rfl
  calc Cvb.measure p n = ⟨(Cvb.measure p n).dk, (Cvb.measure p n).kt, (Cvb.measure p n).k⟩ := rfl
    _ = ⟨n.dk, n.kt, n.k⟩ := by rw [h1, h2, h3]
    _ = n := rfl

/-- A corpus with an empty document is rejected, whatever the model. -/
theorem cvb0_empty_doc (p : Params) (c : Corpus) (calls : List Int) (query : Bool) (m : Option Counts) (q : State)
    (h : 0 ∈ c.lens) : train0 p c calls query m q = .error .valueError := by
  unfold train0
  rw [if_pos]
  rw [List.any_eq_true]
  exact ⟨0, h, by simp⟩

/-! ## C94: continuing to train -/

/-- **C94**, exact behaviour: handing the query state of a first training back to `train` counts the documents a second
time: the model's counts are those of the first run plus those of the second, and it has two rows for each document. -/
theorem cvb0_resume_counts_twice (p : Params) (c : Corpus) (hp : PositivePriors p) (hc : NoEmptyDocs c)
    (calls calls' : List Int) (q : State) (hq : CountsAreSums p c (fun _ _ => 0) (fun _ => 0) q) (hz : TokenDists p c q) :
    ∃ m' q' m'' q'', train0 p c calls false none q = .ok (some m', q')
      ∧ train0 p c calls' false (some m') q' = .ok (some m'', q'')
      ∧ (∀ k < p.K, ∀ t, m''.kt k t = overWord c (fun d n => q'.z d n k) t + overWord c (fun d n => q''.z d n k) t)
      ∧ m''.rows.length = 2 * c.lens.length
      ∧ ∑ k ∈ Finset.range p.K, m'.k k = c.lens.sum
      ∧ ∑ k ∈ Finset.range p.K, m''.k k = 2 * c.lens.sum := by
  obtain ⟨m', q', h1, h2, h3, h4, h5, h6, -⟩ := cvb0_train_first p c hp hc calls q hq hz
  have hm : GoodModel p m' := by
    refine ⟨fun k hk t => ?_, fun k hk => ?_⟩
    · rw [h4 k hk]
      unfold overWord overAll overDoc
      refine Finset.sum_nonneg fun d hd => Finset.sum_nonneg fun n hn => ?_
      show 0 ≤ if c.w d n = t then q'.z d n k else 0
      split
      · exact h2.nonneg d (Finset.mem_range.1 hd) n (Finset.mem_range.1 hn) k hk
      · exact le_refl _
    · rw [h5 k hk]
      unfold overAll overDoc
      exact Finset.sum_nonneg fun d hd => Finset.sum_nonneg fun n hn =>
        h2.nonneg d (Finset.mem_range.1 hd) n (Finset.mem_range.1 hn) k hk
  obtain ⟨m'', q'', g1, g2, g3, g4, ⟨rows, g5, g6, -⟩, -⟩ := cvb0_train_refine p c hp hc calls' m' hm q' h3 h2
  have tot : ∀ s : State, TokenDists p c s → ∑ k ∈ Finset.range p.K, overAll c (fun d n => s.z d n k) = c.lens.sum := by
    intro s hs
    rw [overAll_sum, ← overAll_one]
    exact Finset.sum_congr rfl fun d hd => Finset.sum_congr rfl fun n hn =>
      hs.one d (Finset.mem_range.1 hd) n (Finset.mem_range.1 hn)
  have t1 : ∑ k ∈ Finset.range p.K, m'.k k = c.lens.sum := by
    rw [Finset.sum_congr rfl fun k hk => h5 k (Finset.mem_range.1 hk)]
    exact tot q' h2
  refine ⟨m', q', m'', q'', h1, g1, ?_, ?_, t1, ?_⟩
  · intro k hk t
    rw [g3 k hk, h4 k hk]
  · rw [g5, List.length_append, h6, g6]; ring
  · rw [Finset.sum_congr rfl fun k hk => g4 k (Finset.mem_range.1 hk), Finset.sum_add_distrib, t1, tot q'' g2]
    ring

/-- **C94** is violated: on every corpus with a document, the number of tokens the model knows after continuing is not the
number of tokens it was shown. -/
theorem cvb0_resume_violated (p : Params) (c : Corpus) (hp : PositivePriors p) (hc : NoEmptyDocs c) (hne : c.lens ≠ [])
    (calls calls' : List Int) (q : State) (hq : CountsAreSums p c (fun _ _ => 0) (fun _ => 0) q) (hz : TokenDists p c q) :
    ∃ m' q' m'' q'', train0 p c calls false none q = .ok (some m', q')
      ∧ train0 p c calls' false (some m') q' = .ok (some m'', q'')
      ∧ ∑ k ∈ Finset.range p.K, m''.k k ≠ c.lens.sum ∧ m''.rows.length ≠ c.lens.length := by
  obtain ⟨m', q', m'', q'', h1, h2, -, h4, -, h6⟩ := cvb0_resume_counts_twice p c hp hc calls calls' q hq hz
  have hlen : 0 < c.lens.length := List.length_pos_iff.2 hne
  have hsum : 0 < c.lens.sum := by
    cases hl : c.lens with
    | nil => exact absurd hl hne
    | cons x l =>
      have := hc x (by rw [hl]; simp)
      rw [List.sum_cons]; omega
  refine ⟨m', q', m'', q'', h1, h2, ?_, by omega⟩
  rw [h6]
  have : (0 : ℚ) < c.lens.sum := by exact_mod_cast hsum
  intro h
  linarith

/-- What remains of **C94**: a state that is merely queried again (the documents are not part of the model) is not counted
at all, however often it is continued. -/
theorem cvb0_resume_partial (p : Params) (c : Corpus) (hp : PositivePriors p) (hc : NoEmptyDocs c) (calls calls' : List Int)
    (m : Counts) (hm : GoodModel p m) (q : State) (hq : CountsAreSums p c (fun _ _ => 0) (fun _ => 0) q)
    (hz : TokenDists p c q) :
    ∃ q' q'', train0 p c calls true (some m) q = .ok (some m, q') ∧ train0 p c calls' true (some m) q' = .ok (some m, q'')
      ∧ CountsAreSums p c (fun _ _ => 0) (fun _ => 0) q'' ∧ TokenDists p c q'' := by
  obtain ⟨q', h1, h2, h3⟩ := cvb0_query p c hp hc calls m hm q hq hz
  obtain ⟨q'', g1, g2, g3⟩ := cvb0_query p c hp hc calls' m hm q' h2 h3
  exact ⟨q', q'', h1, g1, g2, g3⟩

/-! ## Examples -/

/-- Two topics, three words -/
def exP : Params := ⟨2, 3, fun k => if k = 0 then 1 / 2 else 1, 1 / 10⟩

/-- Two documents: words 0 2 0 and 1 -/
def exC : Corpus := ⟨[3, 1], fun d n => if d = 0 then (if n = 1 then 2 else 0) else 1⟩

def exR (d n k : Nat) : ℚ := d + n + 2 * k + 1

theorem exP_pos : PositivePriors exP :=
  ⟨by decide, by decide, fun k hk => by simp only [exP]; split <;> norm_num, by norm_num [exP]⟩

theorem exR_good : GoodRandom exP exC exR :=
  ⟨fun d _ n _ k _ => by unfold exR; positivity, fun d _ n _ => ⟨0, by decide, by unfold exR; positivity⟩⟩

theorem exC_docs : NoEmptyDocs exC := by unfold NoEmptyDocs; decide

theorem exQ_ok : CountsAreSums exP exC (fun _ _ => 0) (fun _ => 0) (newQueryState exC exP.K exR)
    ∧ TokenDists exP exC (newQueryState exC exP.K exR) := newQueryState_consistent exP exC exR exR_good

/-- Visiting the first token changes its first probability, which was 1/4. -/
example : (newQueryState exC exP.K exR).z 0 0 0 = 1 / 4
    ∧ (visit kernel0 exP exC (newQueryState exC exP.K exR) (0, 0)).1.z 0 0 0 ≠ 1 / 4 := by decide +kernel

example : CountsAreSums exP exC (fun _ _ => 0) (fun _ => 0) (iterate kernel0 exP exC 5 (newQueryState exC exP.K exR)).1 :=
  (cvb0_counts_are_sums exP exC exP_pos exR exR_good 5).2.1

example : ∑ k ∈ Finset.range exP.K, (iterate kernel0 exP exC 5 (newQueryState exC exP.K exR)).1.n.dk 0 k = exC.len 0 := by
  have h := cvb0_counts_are_sums exP exC exP_pos exR exR_good 5
  have := (cvb0_totals exP exC _ _ _ h.2.1 h.2.2).1 0 (by decide)
  exact this

example : ∀ k < exP.K, (visit kernel0 exP exC (newQueryState exC exP.K exR) (0, 1)).1.z 0 1 k
    = collapsedWeight exP exC (fun _ _ => 0) (fun _ => 0) (newQueryState exC exP.K exR).z 0 1 k
      / ∑ j ∈ Finset.range exP.K, collapsedWeight exP exC (fun _ _ => 0) (fun _ => 0) (newQueryState exC exP.K exR).z 0 1 j :=
  (cvb0_update exP exC exP_pos _ _ (zeroBase _) _ exQ_ok.1 exQ_ok.2 0 1 (by decide) (by decide)).1

def exM : Counts := ⟨[fun _ => 1], fun k t => k + t, fun k => 3 * k + 3⟩

theorem exM_good : GoodModel exP exM :=
  ⟨fun k _ t => by simp only [exM]; positivity, fun k _ => by simp only [exM]; positivity⟩

example : ∃ q', train0 exP exC [10, 3] true (some exM) (newQueryState exC exP.K exR) = .ok (some exM, q')
    ∧ CountsAreSums exP exC (fun _ _ => 0) (fun _ => 0) q' ∧ TokenDists exP exC q' :=
  cvb0_query exP exC exP_pos exC_docs [10, 3] exM exM_good _ exQ_ok.1 exQ_ok.2

example : ∃ m' q' m'' q'', train0 exP exC [10] false none (newQueryState exC exP.K exR) = .ok (some m', q')
    ∧ train0 exP exC [10] false (some m') q' = .ok (some m'', q'')
    ∧ ∑ k ∈ Finset.range exP.K, m''.k k ≠ exC.lens.sum ∧ m''.rows.length ≠ exC.lens.length :=
  cvb0_resume_violated exP exC exP_pos exC_docs (by decide) [10] [10] _ exQ_ok.1 exQ_ok.2

example : ∃ m' q', train0 exP exC [4] false (some exM) (newQueryState exC exP.K exR) = .ok (some m', q') := by
  obtain ⟨m', q', h, -⟩ := cvb0_train_refine exP exC exP_pos exC_docs [4] exM exM_good _ exQ_ok.1 exQ_ok.2
  exact ⟨m', q', h⟩

example : Cvb.measure exP ⟨fun d k => d + k, fun k t => k * t, fun _ => 1⟩ = ⟨fun d k => d + k, fun k t => k * t, fun _ => 1⟩ :=
  cvb0_scoring_restores exP exP_pos _ (fun d k _ => by simp only; positivity) (fun k t _ => by simp only; positivity)

example : train0 exP ⟨[2, 0], fun _ _ => 0⟩ [1] false none (newQueryState exC exP.K exR) = .error .valueError :=
  cvb0_empty_doc _ _ _ _ _ _ (by decide)

end Verif.Props.Cvb0
