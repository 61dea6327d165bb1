import Verif.Props.Cvb0

/-!
# Second-order collapsed variational inference (C63, C64, C95, C99)
-/

namespace Verif.Props.Cvb2

open Verif Verif.Cvb Verif.Props.Cvb0

/-! ## Specification -/

/-- The variance of the indicator of topic `k` for token `n` of document `d`. -/
def tokenVar (z : Nat → Nat → Nat → ℚ) (d n k : Nat) : ℚ := z d n k * (1 - z d n k)

/-- The stored variances are the sums of the token variances, plus a base. -/
structure VarsAreSums (p : Params) (c : Corpus) (bkt : Nat → Nat → ℚ) (bk : Nat → ℚ) (s : State) : Prop where
  doc : ∀ d < c.lens.length, ∀ k < p.K, s.v.dk d k = overDoc c (fun d n => tokenVar s.z d n k) d
  word : ∀ k < p.K, ∀ t, s.v.kt k t = bkt k t + overWord c (fun d n => tokenVar s.z d n k) t
  topic : ∀ k < p.K, s.v.k k = bk k + overAll c (fun d n => tokenVar s.z d n k)

theorem vars_iff {p c bkt bk s} : SumsOk p.K c (tokenVar s.z) bkt bk s.v ↔ VarsAreSums p c bkt bk s :=
  ⟨fun h => ⟨h.dk, h.kt, h.k⟩, fun h => ⟨h.doc, h.word, h.topic⟩⟩

theorem update64_vars {ex : ℚ → ℚ} {p : Params} {c : Corpus} {bkt bk} {d n : Nat} (hd : d < c.lens.length)
    (hn : n < c.len d) (s : State) (k : Nat) (m : ℚ) (h : SumsOk p.K c (tokenVar s.z) bkt bk s.v) :
    SumsOk p.K c (tokenVar ((kernel64 ex).update c d n s k m).z) bkt bk ((kernel64 ex).update c d n s k m).v := by
  refine h.bump d n k hd hn _ (fun i j l hc => ?_) _ ?_
  · simp [tokenVar, kernel64, update64, setZ, hc]
  · simp [tokenVar, kernel64, update64, setZ]

/-! ## C63: double precision -/

/-- **C63** (double precision): after any number of iterations, and whatever the exponential approximation does, the stored
variances are the sums of the token variances. -/
theorem cvb64_iterate_vars (ex : ℚ → ℚ) (p : Params) (c : Corpus) (bkt : Nat → Nat → ℚ) (bk : Nat → ℚ) (s : State)
    (hs : VarsAreSums p c bkt bk s) (iterations : Nat) :
    VarsAreSums p c bkt bk (iterate (kernel64 ex) p c iterations s).1 :=
  vars_iff.1 (iterate_inv (kernel64 ex) p c (fun s => SumsOk p.K c (tokenVar s.z) bkt bk s.v)
    (fun _ _ hd hn s k m h => update64_vars hd hn s k m h) iterations s (vars_iff.2 hs))

theorem newQueryState_vars (p : Params) (c : Corpus) (r : Nat → Nat → Nat → ℚ) :
    VarsAreSums p c (fun _ _ => 0) (fun _ => 0) (newQueryState c p.K r) := vars_iff.1 (newQueryState_var p.K c r)

/-- **C63** (double precision), from a new query state; the counts and token distributions are consistent as well. -/
theorem cvb64_variances_are_sums (ex : ℚ → ℚ) (hex : ∀ x, 0 < ex x) (p : Params) (c : Corpus) (hp : PositivePriors p)
    (r : Nat → Nat → Nat → ℚ) (hr : GoodRandom p c r) (iterations : Nat) :
    (iterate (kernel64 ex) p c iterations (newQueryState c p.K r)).2 = false
      ∧ VarsAreSums p c (fun _ _ => 0) (fun _ => 0) (iterate (kernel64 ex) p c iterations (newQueryState c p.K r)).1
      ∧ CountsAreSums p c (fun _ _ => 0) (fun _ => 0) (iterate (kernel64 ex) p c iterations (newQueryState c p.K r)).1
      ∧ TokenDists p c (iterate (kernel64 ex) p c iterations (newQueryState c p.K r)).1 := by
  obtain ⟨h1, h2⟩ := newQueryState_consistent p c r hr
  obtain ⟨g1, g2⟩ := (lawful64 hp.priors hex).iterate_good hp.priors (zeroBase p).base iterations _ (good_iff.2 ⟨h1, h2⟩)
  exact ⟨g1, cvb64_iterate_vars ex p c _ _ _ (newQueryState_vars p c r) iterations, good_iff.1 g2⟩

/-! ## C63: single precision -/

/-- The variances are the sums of the token variances plus token errors `e`; a token visited once has the square of its
probability as error, a token visited more often at least that. -/
def Tracked (p : Params) (c : Corpus) (cnt : Nat → Nat → Nat → Nat) (s : State) : Prop :=
  ∃ e : Nat → Nat → Nat → ℚ,
    SumsOk p.K c (fun d n k => tokenVar s.z d n k + e d n k) (fun _ _ => 0) (fun _ => 0) s.v
    ∧ ∀ d n k, 0 ≤ e d n k ∧ (cnt d n k = 0 → e d n k = 0) ∧ (cnt d n k = 1 → e d n k = s.z d n k ^ 2)
      ∧ (1 ≤ cnt d n k → s.z d n k ^ 2 ≤ e d n k)

theorem tracked_update {ex : ℚ → ℚ} {p : Params} {c : Corpus} {cnt} {d n : Nat} (hd : d < c.lens.length) (hn : n < c.len d)
    (s : State) (k : Nat) (m : ℚ) (h : Tracked p c cnt s) :
    Tracked p c (fun d' n' k' => cnt d' n' k' + if d' = d ∧ n' = n ∧ k' = k then 1 else 0)
      ((kernel32 ex).update c d n s k m) := by
  obtain ⟨e, h1, h2⟩ := h
  refine ⟨fun d' n' k' => if d' = d ∧ n' = n ∧ k' = k then e d n k + m ^ 2 else e d' n' k', ?_, ?_⟩
  · refine h1.bump d n k hd hn _ (fun i j l hc => ?_) _ ?_
    · simp [tokenVar, kernel32, update32, setZ, hc]
    · simp [tokenVar, kernel32, update32, setZ]
      ring
  · intro d' n' k'
    by_cases hc : d' = d ∧ n' = n ∧ k' = k
    · obtain ⟨rfl, rfl, rfl⟩ := hc
      obtain ⟨g1, g2, g3, g4⟩ := h2 d' n' k'
      simp only [kernel32, update32, setZ, and_self, if_true]
      refine ⟨by positivity, fun h => by omega, fun h => ?_, fun _ => by linarith⟩
      rw [g2 (by omega)]; ring
    · simp only [kernel32, update32, setZ, if_neg hc, add_zero]
      exact h2 d' n' k'

theorem tracked_congr {p : Params} {c : Corpus} {cnt cnt'} {s : State} (h : Tracked p c cnt s)
    (hc : ∀ d n k, cnt d n k = cnt' d n k) : Tracked p c cnt' s := by
  have : cnt = cnt' := funext fun d => funext fun n => funext fun k => hc d n k
  exact this ▸ h

theorem tracked_topicLoop {ex : ℚ → ℚ} {p : Params} {c : Corpus} {d n : Nat} (hd : d < c.lens.length) (hn : n < c.len d)
    (w : Nat → ℚ) (denom : ℚ) (ks : List Nat) (cnt) (s : State) (h : Tracked p c cnt s) :
    (topicLoop (kernel32 ex) c d n w denom ks s).2 = false ∧
    Tracked p c (fun d' n' k' => cnt d' n' k' + if d' = d ∧ n' = n then ks.count k' else 0)
      (topicLoop (kernel32 ex) c d n w denom ks s).1 := by
  induction ks generalizing cnt s with
  | nil => exact ⟨rfl, tracked_congr h (fun d n k => by simp)⟩
  | cons k ks ih =>
    have hstep := tracked_update (ex := ex) hd hn s k (w k / denom) h
    obtain ⟨h1, h2⟩ := ih _ _ hstep
    have hrun : topicLoop (kernel32 ex) c d n w denom (k :: ks) s
        = topicLoop (kernel32 ex) c d n w denom ks ((kernel32 ex).update c d n s k (w k / denom)) := by
      rw [topicLoop]
      simp [kernel32]
    rw [hrun]
    refine ⟨h1, tracked_congr h2 (fun d' n' k' => ?_)⟩
    rw [List.count_cons]
    by_cases hdn : d' = d ∧ n' = n
    · obtain ⟨rfl, rfl⟩ := hdn
      by_cases hk : k = k'
      · subst hk; simp; ring
      · have hk' : ¬ k' = k := fun h => hk h.symm
        simp [hk, hk']
    · rw [if_neg hdn, if_neg (by tauto), if_neg hdn]

theorem count_range (K k : Nat) : (List.range K).count k = if k < K then 1 else 0 := by
  split
  · rename_i h
    exact List.count_eq_one_of_mem List.nodup_range (List.mem_range.2 h)
  · rename_i h
    exact List.count_eq_zero_of_not_mem (fun h' => h (List.mem_range.1 h'))

theorem tracked_visitAll {ex : ℚ → ℚ} {p : Params} {c : Corpus} (toks : List (Nat × Nat)) (ht : ∀ t ∈ toks, t ∈ c.tokens)
    (cnt) (s : State) (h : Tracked p c cnt s) :
    (visitAll (kernel32 ex) p c toks s).2 = false ∧
    Tracked p c (fun d n k => cnt d n k + if k < p.K then toks.count (d, n) else 0) (visitAll (kernel32 ex) p c toks s).1 := by
  induction toks generalizing cnt s with
  | nil => exact ⟨rfl, tracked_congr h (fun d n k => by simp)⟩
  | cons tok toks ih =>
    obtain ⟨hd, hn⟩ := mem_tokens.1 (ht tok (by simp))
    obtain ⟨h1, h2⟩ := tracked_topicLoop (ex := ex) hd hn ((kernel32 ex).raw p c s tok.1 tok.2)
      (∑ k ∈ Finset.range p.K, (kernel32 ex).raw p c s tok.1 tok.2 k) (List.range p.K) cnt s h
    obtain ⟨g1, g2⟩ := ih (fun t h => ht t (List.mem_cons_of_mem _ h)) _ _ h2
    have hrun := visitAll_cons (ker := kernel32 ex) (p := p) (c := c) (tok := tok) (s := s) h1 toks
    rw [hrun]
    refine ⟨g1, tracked_congr g2 (fun d n k => ?_)⟩
    rw [count_range, List.count_cons]
    obtain ⟨d0, n0⟩ := tok
    by_cases hdn : d = d0 ∧ n = n0
    · obtain ⟨rfl, rfl⟩ := hdn
      by_cases hk : k < p.K
      · simp [hk]; ring
      · simp [hk]
    · have : ¬ ((d0, n0) == (d, n)) = true := by
        simp only [beq_iff_eq, Prod.mk.injEq]
        rintro ⟨rfl, rfl⟩
        exact hdn ⟨rfl, rfl⟩
      rw [if_neg hdn, if_neg this]
      simp

theorem tracked_iterate {ex : ℚ → ℚ} {p : Params} {c : Corpus} (i : Nat) (cnt) (s : State) (h : Tracked p c cnt s) :
    (iterate (kernel32 ex) p c i s).2 = false ∧
    Tracked p c (fun d n k => cnt d n k + if k < p.K then i * c.tokens.count (d, n) else 0)
      (iterate (kernel32 ex) p c i s).1 := by
  induction i generalizing cnt s with
  | zero => exact ⟨rfl, tracked_congr h (fun d n k => by simp)⟩
  | succ i ih =>
    obtain ⟨h1, h2⟩ := tracked_visitAll (ex := ex) c.tokens (fun _ h => h) cnt s h
    obtain ⟨g1, g2⟩ := ih _ _ h2
    have hrun : iterate (kernel32 ex) p c (i + 1) s
        = iterate (kernel32 ex) p c i (visitAll (kernel32 ex) p c c.tokens s).1 := by
      rw [iterate]
      split
      · rename_i s' heq
        rw [heq] at h1; exact absurd h1 (by simp)
      · rename_i s' heq
        rw [heq]
    rw [hrun]
    refine ⟨g1, tracked_congr g2 (fun d n k => ?_)⟩
    by_cases hk : k < p.K
    · simp only [if_pos hk]; ring
    · simp only [if_neg hk]

theorem tokens_nodup (c : Corpus) : c.tokens.Nodup := by
  unfold Corpus.tokens
  refine List.nodup_flatMap.2 ⟨fun d _ => ?_, ?_⟩
  · exact List.Nodup.map (fun a b h => (Prod.mk.injEq _ _ _ _ ▸ h).2) List.nodup_range
  · refine List.Pairwise.imp_of_mem (R := fun a b => a ≠ b) ?_ List.nodup_range
    intro a b _ _ hab
    simp only [Function.onFun, List.Disjoint]
    intro x hx hx'
    obtain ⟨n, -, rfl⟩ := List.mem_map.1 hx
    obtain ⟨n', -, h⟩ := List.mem_map.1 hx'
    exact hab (by simpa using (congrArg Prod.fst h).symm)

theorem count_tokens {c : Corpus} {d n : Nat} (hd : d < c.lens.length) (hn : n < c.len d) : c.tokens.count (d, n) = 1 :=
  List.count_eq_one_of_mem (tokens_nodup c) (mem_tokens.2 ⟨hd, hn⟩)

theorem tracked_new (p : Params) (c : Corpus) (r : Nat → Nat → Nat → ℚ) :
    Tracked p c (fun _ _ _ => 0) (newQueryState c p.K r) := by
  refine ⟨fun _ _ _ => 0, ?_, fun d n k => ⟨le_refl _, fun _ => rfl, fun h => absurd h (by simp), fun h => absurd h (by simp)⟩⟩
  have := newQueryState_var p.K c r
  simpa only [tokenVar, add_zero] using this

/-- **C63** (single precision), exact behaviour of the first iteration: the "variances" become the counts, whatever the
exponential approximation does. -/
theorem cvb32_first_iteration (ex : ℚ → ℚ) (p : Params) (c : Corpus) (r : Nat → Nat → Nat → ℚ) :
    let s := (iterate (kernel32 ex) p c 1 (newQueryState c p.K r)).1
    (∀ d < c.lens.length, ∀ k < p.K, s.v.dk d k = overDoc c (fun d n => s.z d n k) d)
      ∧ (∀ k < p.K, ∀ t, s.v.kt k t = overWord c (fun d n => s.z d n k) t)
      ∧ ∀ k < p.K, s.v.k k = overAll c (fun d n => s.z d n k) := by
  intro s
  obtain ⟨-, e, h1, h2⟩ := tracked_iterate (ex := ex) 1 _ _ (tracked_new p c r)
  have h3 : SumsOk p.K c s.z (fun _ _ => 0) (fun _ => 0) s.v := by
    refine h1.congr fun d hd n hn k hk => ?_
    have := (h2 d n k).2.2.1 (by simp [hk, count_tokens hd hn])
    rw [this]
    unfold tokenVar
    ring
  refine ⟨h3.dk, fun k hk t => ?_, fun k hk => ?_⟩
  · have := h3.kt k hk t
    rw [zero_add] at this
    exact this
  · have := h3.k k hk
    rw [zero_add] at this
    exact this

/-- **C63** (single precision) is violated: after any positive number of iterations, for every document with words and every
topic the stored variance is too large. -/
theorem cvb32_variance_too_large (ex : ℚ → ℚ) (hex : ∀ x, 0 < ex x) (p : Params) (c : Corpus) (hp : PositivePriors p)
    (r : Nat → Nat → Nat → ℚ) (hr : GoodRandom p c r) (iterations : Nat) (hi : 0 < iterations) (d : Nat)
    (hd : d < c.lens.length) (hl : 0 < c.len d) (k : Nat) (hk : k < p.K) :
    let s := (iterate (kernel32 ex) p c iterations (newQueryState c p.K r)).1
    overDoc c (fun d n => tokenVar s.z d n k) d < s.v.dk d k := by
  intro s
  obtain ⟨-, e, h1, h2⟩ := tracked_iterate (ex := ex) iterations _ _ (tracked_new p c r)
  have hpos : ∀ n < c.len d, 0 < s.z d n k := by
    obtain ⟨g1, g2⟩ := newQueryState_consistent p c r hr
    have hl := lawful32 hp.priors hex
    -- after the last iteration every token has been assigned a positive weight
    obtain ⟨i, rfl⟩ : ∃ i, iterations = i + 1 := ⟨iterations - 1, by omega⟩
    have hall : ∀ (toks : List (Nat × Nat)), (∀ t ∈ toks, t ∈ c.tokens) → ∀ s, Good p c (fun _ _ => 0) (fun _ => 0) s →
        ∀ tok ∈ toks, 0 < (visitAll (kernel32 ex) p c toks s).1.z tok.1 tok.2 k := by
      intro toks
      induction toks using List.reverseRecOn with
      | nil => intro _ _ _ tok h; exact absurd h (by simp)
      | append_singleton toks t ih =>
        intro ht s hs tok hmem
        have ht' : ∀ t ∈ toks, t ∈ c.tokens := fun t h => ht t (List.mem_append_left _ h)
        obtain ⟨v1, v2⟩ := hl.visitAll_good hp.priors (zeroBase p).base toks ht' s hs
        obtain ⟨w1, w2, w3, w4⟩ := hl.visit_spec hp.priors (zeroBase p).base v2 (ht t (by simp))
        rw [visitAll_append toks [t] s v1, visitAll_cons w1]
        show 0 < (visit (kernel32 ex) p c (visitAll (kernel32 ex) p c toks s).1 t).1.z tok.1 tok.2 k
        by_cases heq : tok.1 = t.1 ∧ tok.2 = t.2
        · rw [heq.1, heq.2, w3 k hk]
          obtain ⟨t1, t2⟩ := mem_tokens.1 (ht t (by simp))
          have hw : ∀ j < p.K, 0 < (kernel32 ex).raw p c (visitAll (kernel32 ex) p c toks s).1 t.1 t.2 j := fun j hj =>
            hl.pos c _ _ _ _ _ j v2 (zeroBase p).base t1 t2 hj
          exact div_pos (hw k hk) (Finset.sum_pos (fun j hj => hw j (Finset.mem_range.1 hj)) (by simpa using hp.K.ne'))
        · rw [w4 _ _ _ heq]
          refine ih ht' s hs tok ?_
          rcases List.mem_append.1 hmem with h | h
          · exact h
          · rw [List.mem_singleton.1 h] at heq
            exact absurd ⟨rfl, rfl⟩ heq
    have hiter : ∀ (i : Nat) (s : State), Good p c (fun _ _ => 0) (fun _ => 0) s → ∀ tok ∈ c.tokens,
        0 < (iterate (kernel32 ex) p c (i + 1) s).1.z tok.1 tok.2 k := by
      intro i
      induction i with
      | zero =>
        intro s hs tok htok
        have h := hall c.tokens (fun _ h => h) s hs tok htok
        obtain ⟨v1, -⟩ := hl.visitAll_good hp.priors (zeroBase p).base c.tokens (fun _ h => h) s hs
        rw [iterate]
        split
        · rename_i s' heq
          rw [heq] at h; exact h
        · rename_i s' heq
          rw [heq] at h; exact h
      | succ i ih =>
        intro s hs tok htok
        obtain ⟨v1, v2⟩ := hl.visitAll_good hp.priors (zeroBase p).base c.tokens (fun _ h => h) s hs
        rw [iterate]
        split
        · rename_i s' heq
          rw [heq] at v1; exact absurd v1 (by simp)
        · rename_i s' heq
          rw [heq] at v2
          exact ih s' v2 tok htok
    intro n hn
    exact hiter i _ (good_iff.2 ⟨g1, g2⟩) (d, n) (mem_tokens.2 ⟨hd, hn⟩)
  rw [h1.dk d hd k hk]
  unfold overDoc
  refine Finset.sum_lt_sum_of_nonempty (by simpa using hl.ne') fun n hn => ?_
  have hn := Finset.mem_range.1 hn
  have := (h2 d n k).2.2.2 (by simp only [hk, if_true, count_tokens hd hn]; omega)
  have hz := hpos n hn
  have : 0 < e d n k := lt_of_lt_of_le (by positivity) this
  show tokenVar s.z d n k < tokenVar s.z d n k + e d n k
  linarith

/-- What remains of **C63** in single precision: the counts are still the sums of the token probabilities, which are
distributions, and the stored variances are never too small. -/
theorem cvb32_partial (ex : ℚ → ℚ) (hex : ∀ x, 0 < ex x) (p : Params) (c : Corpus) (hp : PositivePriors p)
    (r : Nat → Nat → Nat → ℚ) (hr : GoodRandom p c r) (iterations : Nat) :
    let s := (iterate (kernel32 ex) p c iterations (newQueryState c p.K r)).1
    CountsAreSums p c (fun _ _ => 0) (fun _ => 0) s ∧ TokenDists p c s
      ∧ ∀ d < c.lens.length, ∀ k < p.K, overDoc c (fun d n => tokenVar s.z d n k) d ≤ s.v.dk d k := by
  intro s
  obtain ⟨h1, h2⟩ := newQueryState_consistent p c r hr
  obtain ⟨-, g2⟩ := (lawful32 hp.priors hex).iterate_good hp.priors (zeroBase p).base iterations _ (good_iff.2 ⟨h1, h2⟩)
  obtain ⟨-, e, f1, f2⟩ := tracked_iterate (ex := ex) iterations _ _ (tracked_new p c r)
  refine ⟨(good_iff.1 g2).1, (good_iff.1 g2).2, fun d hd k hk => ?_⟩
  rw [f1.dk d hd k hk]
  unfold overDoc
  refine Finset.sum_le_sum fun n _ => ?_
  have := (f2 d n k).1
  show tokenVar s.z d n k ≤ tokenVar s.z d n k + e d n k
  linarith

/-! ## C64, C99: training and querying in double precision -/

theorem addModel_vars {p : Params} {c : Corpus} {bkt bk} {q : State} (h : VarsAreSums p c bkt bk q) (m : Counts2) :
    VarsAreSums p c (fun k t => m.v.kt k t + bkt k t) (fun k => m.v.k k + bk k)
      { q with n := q.n.addModel m.n, v := q.v.addModel m.v } where
  doc := h.doc
  word := fun k hk t => by
    show q.v.kt k t + m.v.kt k t = _
    rw [h.word k hk t]; ring
  topic := fun k hk => by
    show q.v.k k + m.v.k k = _
    rw [h.topic k hk]; ring

theorem segments_vars {ex : ℚ → ℚ} {p : Params} {c : Corpus} {bkt bk} (calls : List Int) (s : State)
    (hs : VarsAreSums p c bkt bk s) : VarsAreSums p c bkt bk (calls.foldl (segment (kernel64 ex) p c) s) :=
  vars_iff.1 (segments_inv (P := fun s => SumsOk p.K c (tokenVar s.z) bkt bk s.v) (fun _ _ h => h)
    (fun _ _ hd hn s k m h => update64_vars hd hn s k m h) calls s (vars_iff.2 hs))

/-- The consistent state after the iterations on top of an existing model -/
theorem run_on_model (ex : ℚ → ℚ) (hex : ∀ x, 0 < ex x) (p : Params) (c : Corpus) (hp : PositivePriors p) (calls : List Int)
    (m : Counts2) (hm : GoodModel p m.n) (q : State) (hq : CountsAreSums p c (fun _ _ => 0) (fun _ => 0) q)
    (hz : TokenDists p c q) (hv : VarsAreSums p c (fun _ _ => 0) (fun _ => 0) q) :
    let q' := calls.foldl (segment (kernel64 ex) p c) { q with n := q.n.addModel m.n, v := q.v.addModel m.v }
    CountsAreSums p c m.n.kt m.n.k q' ∧ TokenDists p c q' ∧ VarsAreSums p c m.v.kt m.v.k q' := by
  intro q'
  have h1 : CountsAreSums p c m.n.kt m.n.k { q with n := q.n.addModel m.n, v := q.v.addModel m.v } := by
    have := addModel_consistent hq m.n
    exact ⟨this.doc, fun k hk t => by simpa using this.word k hk t, fun k hk => by simpa using this.topic k hk⟩
  have h2 : VarsAreSums p c m.v.kt m.v.k { q with n := q.n.addModel m.n, v := q.v.addModel m.v } := by
    have := addModel_vars hv m
    exact ⟨this.doc, fun k hk t => by simpa using this.word k hk t, fun k hk => by simpa using this.topic k hk⟩
  have hg := (lawful64 hp.priors hex).segments_good hp.priors (NonnegBase.base hm) calls _
    (good_iff.2 ⟨h1, hz.nonneg, hz.one⟩)
  exact ⟨(good_iff.1 hg).1, (good_iff.1 hg).2, segments_vars calls _ h2⟩

/-- **C99**: querying in double precision returns the model unchanged, and counts and variances of the query documents only.
-/
theorem cvb64_query (ex : ℚ → ℚ) (hex : ∀ x, 0 < ex x) (p : Params) (c : Corpus) (hp : PositivePriors p)
    (hc : NoEmptyDocs c) (calls : List Int) (m : Counts2) (hm : GoodModel p m.n) (q : State)
    (hq : CountsAreSums p c (fun _ _ => 0) (fun _ => 0) q) (hz : TokenDists p c q)
    (hv : VarsAreSums p c (fun _ _ => 0) (fun _ => 0) q) :
    ∃ q', train2 (kernel64 ex) p c calls true (some m) q = .ok (some m, q')
      ∧ CountsAreSums p c (fun _ _ => 0) (fun _ => 0) q' ∧ TokenDists p c q'
      ∧ VarsAreSums p c (fun _ _ => 0) (fun _ => 0) q' := by
  obtain ⟨h1, h2, h3⟩ := run_on_model ex hex p c hp calls m hm q hq hz hv
  set q' := calls.foldl (segment (kernel64 ex) p c) { q with n := q.n.addModel m.n, v := q.v.addModel m.v } with hq'
  refine ⟨{ q' with n := q'.n.subModel m.n, v := q'.v.subModel m.v },
    by unfold train2; rw [if_neg (any_empty hc)]; simp only [if_true]; rw [← hq'], ?_, ⟨h2.nonneg, h2.one⟩, ?_⟩
  · refine ⟨h1.doc, fun k hk t => ?_, fun k hk => ?_⟩
    · simp only [Sums.subModel]
      rw [h1.word k hk t]; ring
    · simp only [Sums.subModel]
      rw [h1.topic k hk]; ring
  · refine ⟨h3.doc, fun k hk t => ?_, fun k hk => ?_⟩
    · simp only [Sums.subModel]
      rw [h3.word k hk t]; ring
    · simp only [Sums.subModel]
      rw [h3.topic k hk]; ring

/-- **C64**, exact behaviour: refining a trained model adds the new documents' topic-word counts and variances as it should,
but the topic counts become the sums of the *variances*, and the topic variances are not updated. -/
theorem cvb64_refine (ex : ℚ → ℚ) (hex : ∀ x, 0 < ex x) (p : Params) (c : Corpus) (hp : PositivePriors p)
    (hc : NoEmptyDocs c) (calls : List Int) (m : Counts2) (hm : GoodModel p m.n) (q : State)
    (hq : CountsAreSums p c (fun _ _ => 0) (fun _ => 0) q) (hz : TokenDists p c q)
    (hv : VarsAreSums p c (fun _ _ => 0) (fun _ => 0) q) :
    ∃ m' q', train2 (kernel64 ex) p c calls false (some m) q = .ok (some m', q') ∧ TokenDists p c q'
      ∧ (∀ k < p.K, ∀ t, m'.n.kt k t = m.n.kt k t + overWord c (fun d n => q'.z d n k) t)
      ∧ (∀ k < p.K, ∀ t, m'.v.kt k t = m.v.kt k t + overWord c (fun d n => tokenVar q'.z d n k) t)
      ∧ (∀ k < p.K, m'.n.k k = m.v.k k + overAll c (fun d n => tokenVar q'.z d n k))
      ∧ m'.v.k = m.v.k := by
  obtain ⟨h1, h2, h3⟩ := run_on_model ex hex p c hp calls m hm q hq hz hv
  set q' := calls.foldl (segment (kernel64 ex) p c) { q with n := q.n.addModel m.n, v := q.v.addModel m.v } with hq'
  exact ⟨⟨⟨m.n.rows ++ q'.n.rows c.lens.length, q'.n.kt, q'.v.k⟩, ⟨m.v.rows ++ q'.v.rows c.lens.length, q'.v.kt, m.v.k⟩⟩, q',
    by unfold train2; rw [if_neg (any_empty hc)]; rfl, h2, h1.word, h3.word, h3.topic, rfl⟩

/-- **C64** is violated for every model whose variances do not exceed its counts (as they never do after a first training in
double precision) and every corpus: the refined model knows fewer tokens than it was shown. -/
theorem cvb64_refine_loses_counts (ex : ℚ → ℚ) (hex : ∀ x, 0 < ex x) (p : Params) (c : Corpus) (hp : PositivePriors p)
    (hc : NoEmptyDocs c) (hne : c.lens ≠ []) (calls : List Int) (m : Counts2) (hm : GoodModel p m.n)
    (hle : ∀ k < p.K, m.v.k k ≤ m.n.k k) (q : State)
    (hq : CountsAreSums p c (fun _ _ => 0) (fun _ => 0) q) (hz : TokenDists p c q)
    (hv : VarsAreSums p c (fun _ _ => 0) (fun _ => 0) q) :
    ∃ m' q', train2 (kernel64 ex) p c calls false (some m) q = .ok (some m', q')
      ∧ ∑ k ∈ Finset.range p.K, m'.n.k k < ∑ k ∈ Finset.range p.K, (m.n.k k + overAll c (fun d n => q'.z d n k)) := by
  obtain ⟨m', q', h1, h2, -, -, h3, -⟩ := cvb64_refine ex hex p c hp hc calls m hm q hq hz hv
  refine ⟨m', q', h1, ?_⟩
  rw [Finset.sum_congr rfl fun k hk => h3 k (Finset.mem_range.1 hk), Finset.sum_add_distrib, Finset.sum_add_distrib,
    overAll_sum, overAll_sum]
  refine add_lt_add_of_le_of_lt (Finset.sum_le_sum fun k hk => hle k (Finset.mem_range.1 hk)) ?_
  unfold overAll overDoc
  have hlen : 0 < c.lens.length := List.length_pos_iff.2 hne
  have hlt : ∀ d < c.lens.length, ∀ n < c.len d,
      ∑ k ∈ Finset.range p.K, tokenVar q'.z d n k < ∑ k ∈ Finset.range p.K, q'.z d n k := by
    intro d hd n hn
    have hone := h2.one d hd n hn
    obtain ⟨k, hk, hpos⟩ : ∃ k ∈ Finset.range p.K, 0 < q'.z d n k := by
      by_contra hcon
      push Not at hcon
      have := Finset.sum_nonpos hcon
      linarith
    refine Finset.sum_lt_sum (fun j hj => ?_) ⟨k, hk, ?_⟩
    · have := h2.nonneg d hd n hn j (Finset.mem_range.1 hj)
      unfold tokenVar
      nlinarith
    · unfold tokenVar
      nlinarith
  have hd : ∀ d < c.lens.length, 0 < c.len d := by
    intro d hd
    have : c.len d ∈ c.lens := by
      unfold Corpus.len
      rw [List.getD_eq_getElem?_getD, List.getElem?_eq_getElem hd, Option.getD_some]
      exact List.getElem_mem hd
    exact hc _ this
  refine Finset.sum_lt_sum_of_nonempty (by simpa using hlen.ne') fun d hd' => ?_
  have hd' := Finset.mem_range.1 hd'
  refine Finset.sum_lt_sum_of_nonempty (by simpa using (hd d hd').ne') fun n hn => ?_
  exact hlt d hd' n (Finset.mem_range.1 hn)

/-- What remains of **C64**: a first training (double precision) stores the right counts and variances, and the variances do
not exceed the counts. -/
theorem cvb64_train_first_partial (ex : ℚ → ℚ) (hex : ∀ x, 0 < ex x) (p : Params) (c : Corpus) (hp : PositivePriors p)
    (hc : NoEmptyDocs c) (calls : List Int) (q : State)
    (hq : CountsAreSums p c (fun _ _ => 0) (fun _ => 0) q) (hz : TokenDists p c q)
    (hv : VarsAreSums p c (fun _ _ => 0) (fun _ => 0) q) :
    ∃ m' q', train2 (kernel64 ex) p c calls false none q = .ok (some m', q') ∧ TokenDists p c q'
      ∧ (∀ k < p.K, ∀ t, m'.n.kt k t = overWord c (fun d n => q'.z d n k) t)
      ∧ (∀ k < p.K, m'.n.k k = overAll c (fun d n => q'.z d n k))
      ∧ (∀ k < p.K, ∀ t, m'.v.kt k t = overWord c (fun d n => tokenVar q'.z d n k) t)
      ∧ (∀ k < p.K, m'.v.k k = overAll c (fun d n => tokenVar q'.z d n k))
      ∧ ∀ k < p.K, m'.v.k k ≤ m'.n.k k := by
  have hg := (lawful64 hp.priors hex).segments_good hp.priors (zeroBase p).base calls _ (good_iff.2 ⟨hq, hz⟩)
  obtain ⟨h1, h2⟩ := good_iff.1 hg
  have h3 := segments_vars (ex := ex) calls q hv
  refine ⟨_, _, by unfold train2; rw [if_neg (any_empty hc)]; simp only; rfl, h2, fun k hk t => ?_, fun k hk => ?_,
    fun k hk t => ?_, fun k hk => ?_, fun k hk => ?_⟩
  · simpa using h1.word k hk t
  · simpa using h1.topic k hk
  · simpa using h3.word k hk t
  · simpa using h3.topic k hk
  · show (calls.foldl (segment (kernel64 ex) p c) q).v.k k ≤ (calls.foldl (segment (kernel64 ex) p c) q).n.k k
    rw [h1.topic k hk, h3.topic k hk, zero_add, zero_add]
    unfold overAll overDoc
    refine Finset.sum_le_sum fun d hd => Finset.sum_le_sum fun n hn => ?_
    have := h2.nonneg d (Finset.mem_range.1 hd) n (Finset.mem_range.1 hn) k hk
    unfold tokenVar
    nlinarith

/-! ## C95: copying a model -/

/-- **C95**, exact behaviour: the copy's counts are the original's, and so are its "variances". -/
theorem copy_exact (m : Counts2) : (newModelFromExisting2 m).n = m.n ∧ (newModelFromExisting2 m).v = m.n := ⟨rfl, rfl⟩

/-- **C95** is violated: the copy equals the original only if the variances happen to be the counts. -/
theorem copy_violated (m : Counts2) : newModelFromExisting2 m = m ↔ m.v = m.n := by
  cases m with
  | mk n v =>
    simp only [newModelFromExisting2, Counts2.mk.injEq, true_and]
    exact eq_comm

/-- A trained model is not copied properly: for a first training in double precision on any corpus, some variance of the
copy differs from that of the original. -/
theorem copy_of_trained_differs (ex : ℚ → ℚ) (hex : ∀ x, 0 < ex x) (p : Params) (c : Corpus) (hp : PositivePriors p)
    (hc : NoEmptyDocs c) (hne : c.lens ≠ []) (calls : List Int) (q : State)
    (hq : CountsAreSums p c (fun _ _ => 0) (fun _ => 0) q) (hz : TokenDists p c q)
    (hv : VarsAreSums p c (fun _ _ => 0) (fun _ => 0) q) :
    ∃ m' q', train2 (kernel64 ex) p c calls false none q = .ok (some m', q')
      ∧ ∃ k < p.K, (newModelFromExisting2 m').v.k k ≠ m'.v.k k := by
  obtain ⟨m', q', h1, h2, -, h4, -, h6, -⟩ := cvb64_train_first_partial ex hex p c hp hc calls q hq hz hv
  refine ⟨m', q', h1, ?_⟩
  by_contra hcon
  push Not at hcon
  have heq : ∑ k ∈ Finset.range p.K, m'.n.k k = ∑ k ∈ Finset.range p.K, m'.v.k k :=
    Finset.sum_congr rfl fun k hk => hcon k (Finset.mem_range.1 hk)
  rw [Finset.sum_congr rfl fun k hk => h4 k (Finset.mem_range.1 hk),
    Finset.sum_congr rfl fun k hk => h6 k (Finset.mem_range.1 hk), overAll_sum, overAll_sum] at heq
  have hlen : 0 < c.lens.length := List.length_pos_iff.2 hne
  have hlt : overAll c (fun d n => ∑ k ∈ Finset.range p.K, tokenVar q'.z d n k)
      < overAll c (fun d n => ∑ k ∈ Finset.range p.K, q'.z d n k) := by
    unfold overAll overDoc
    refine Finset.sum_lt_sum_of_nonempty (by simpa using hlen.ne') fun d hd => ?_
    have hd := Finset.mem_range.1 hd
    have hl : 0 < c.len d := by
      have : c.len d ∈ c.lens := by
        unfold Corpus.len
        rw [List.getD_eq_getElem?_getD, List.getElem?_eq_getElem hd, Option.getD_some]
        exact List.getElem_mem hd
      exact hc _ this
    refine Finset.sum_lt_sum_of_nonempty (by simpa using hl.ne') fun n hn => ?_
    have hn := Finset.mem_range.1 hn
    have hone := h2.one d hd n hn
    obtain ⟨k, hk, hpos⟩ : ∃ k ∈ Finset.range p.K, 0 < q'.z d n k := by
      by_contra hcon
      push Not at hcon
      have := Finset.sum_nonpos hcon
      linarith
    refine Finset.sum_lt_sum (fun j hj => ?_) ⟨k, hk, ?_⟩
    · have := h2.nonneg d hd n hn j (Finset.mem_range.1 hj)
      unfold tokenVar
      nlinarith
    · unfold tokenVar
      nlinarith
  linarith

/-- What remains of **C95**: the counts are copied. -/
theorem copy_partial (m : Counts2) : (newModelFromExisting2 m).n.rows = m.n.rows ∧ (newModelFromExisting2 m).n.kt = m.n.kt
    ∧ (newModelFromExisting2 m).n.k = m.n.k := ⟨rfl, rfl, rfl⟩

/-! ## Examples -/

/-- A positive stand-in for the exponential approximation -/
def exEx (x : ℚ) : ℚ := 1 / (1 + x ^ 2)

theorem exEx_pos (x : ℚ) : 0 < exEx x := by unfold exEx; positivity

example : VarsAreSums exP exC (fun _ _ => 0) (fun _ => 0)
    (iterate (kernel64 exEx) exP exC 7 (newQueryState exC exP.K exR)).1 :=
  (cvb64_variances_are_sums exEx exEx_pos exP exC exP_pos exR exR_good 7).2.1

example : overDoc exC (fun d n => tokenVar (iterate (kernel32 exEx) exP exC 7 (newQueryState exC exP.K exR)).1.z d n 1) 0
    < (iterate (kernel32 exEx) exP exC 7 (newQueryState exC exP.K exR)).1.v.dk 0 1 :=
  cvb32_variance_too_large exEx exEx_pos exP exC exP_pos exR exR_good 7 (by decide) 0 (by decide) (by decide) 1 (by decide)

/-- A trained model: the word counts of two documents -/
def exM2 : Counts2 := ⟨exM, ⟨[fun _ => 1], fun _ _ => 1 / 4, fun _ => 1 / 2⟩⟩

example : ∃ m' q', train2 (kernel64 exEx) exP exC [10] false (some exM2) (newQueryState exC exP.K exR) = .ok (some m', q')
    ∧ ∑ k ∈ Finset.range exP.K, m'.n.k k
      < ∑ k ∈ Finset.range exP.K, (exM2.n.k k + overAll exC (fun d n => q'.z d n k)) :=
  cvb64_refine_loses_counts exEx exEx_pos exP exC exP_pos exC_docs (by decide) [10] exM2 exM_good
    (fun k _ => by
      simp only [exM2, exM]
      have : (0 : ℚ) ≤ k := Nat.cast_nonneg k
      linarith) _ exQ_ok.1 exQ_ok.2 (newQueryState_vars exP exC exR)

example : ∃ q', train2 (kernel64 exEx) exP exC [10] true (some exM2) (newQueryState exC exP.K exR) = .ok (some exM2, q')
    ∧ CountsAreSums exP exC (fun _ _ => 0) (fun _ => 0) q' ∧ TokenDists exP exC q'
    ∧ VarsAreSums exP exC (fun _ _ => 0) (fun _ => 0) q' :=
  cvb64_query exEx exEx_pos exP exC exP_pos exC_docs [10] exM2 exM_good _ exQ_ok.1 exQ_ok.2 (newQueryState_vars exP exC exR)

/-- The copy of the trained model of the example has other variances: `n_k` of topic 0 is 3, `v_k` is 1/2. -/
example : (newModelFromExisting2 exM2).v.k 0 ≠ exM2.v.k 0 := by decide +kernel

end Verif.Props.Cvb2
