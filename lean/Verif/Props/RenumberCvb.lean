import Verif.Props.RenumberTokens
import Verif.Props.Cvb2

/-!
# Exchanging the topics of the collapsed variational models (C305)

The compiled functions update the topics of a token one after the other.  Their numbers do not matter: exchanging the topics at the start exchanges the
topics of the result.
-/

namespace Verif.Props.RenumberCvb

open Verif Verif.Cvb
open Verif.Props.Renumber (Keeps)
open Verif.Props.RenumberTokens (sum_columns foldl_map')
open Verif.Props.Cvb0 (PositivePriors NonnegBase CountsAreSums TokenDists GoodRandom)

variable {σ : Equiv.Perm Nat} {p : Params} {c : Corpus} {ker : Kernel}

/-- Counts under other numbers of the topics: number `k` of the result is number `σ k` of the counts. -/
def sums (σ : Equiv.Perm Nat) (s : Sums) : Sums := ⟨fun d k => s.dk d (σ k), fun k t => s.kt (σ k) t, fun k => s.k (σ k)⟩

/-- The state under other numbers of the topics -/
def state (σ : Equiv.Perm Nat) (s : State) : State := ⟨fun d n k => s.z d n (σ k), sums σ s.n, sums σ s.v⟩

/-- The counts of a model under other numbers of the topics -/
def counts (σ : Equiv.Perm Nat) (m : Counts) : Counts := ⟨m.rows.map fun r k => r (σ k), fun k t => m.kt (σ k) t, fun k => m.k (σ k)⟩

/-- The priors under other numbers of the topics -/
def params (σ : Equiv.Perm Nat) (p : Params) : Params := ⟨p.K, p.T, fun k => p.a (σ k), p.b⟩

theorem aMean_topics (hσ : Keeps p.K σ) : (params σ p).aMean = p.aMean := by
  unfold Params.aMean params
  dsimp only
  rw [sum_columns hσ p.a]

theorem bump_topics (σ : Equiv.Perm Nat) (s : Sums) (d t k : Nat) (x : ℚ) : (sums σ s).bump d t k x = sums σ (s.bump d t (σ k) x) := by
  simp only [Sums.bump, sums, EmbeddingLike.apply_eq_iff_eq]

theorem setZ_topics (σ : Equiv.Perm Nat) (z : Nat → Nat → Nat → ℚ) (d n k : Nat) (x : ℚ) :
    setZ (fun d n k => z d n (σ k)) d n k x = fun d' n' k' => setZ z d n (σ k) x d' n' (σ k') := by
  funext d' n' k'
  simp only [setZ, EmbeddingLike.apply_eq_iff_eq]

theorem ite_comm {P Q : Prop} [Decidable P] [Decidable Q] (h : ¬ (P ∧ Q)) (f g : ℚ → ℚ) (x : ℚ) :
    (if Q then g (if P then f x else x) else if P then f x else x) = if P then f (if Q then g x else x) else if Q then g x else x := by
  by_cases hP : P
  · have hQ : ¬ Q := fun hQ => h ⟨hP, hQ⟩
    rw [if_neg hQ, if_neg hQ]
  · rw [if_neg hP, if_neg hP]

theorem bump_comm (s : Sums) (d t k k' : Nat) (hk : k ≠ k') (x x' : ℚ) :
    (s.bump d t k x).bump d t k' x' = (s.bump d t k' x').bump d t k x := by
  unfold Sums.bump
  dsimp only
  congr 1
  · funext a b
    exact ite_comm (fun h => hk (h.1.2.symm.trans h.2.2)) (· + x) (· + x') _
  · funext a b
    exact ite_comm (fun h => hk (h.1.1.symm.trans h.2.1)) (· + x) (· + x') _
  · funext b
    exact ite_comm (fun h => hk (h.1.symm.trans h.2)) (· + x) (· + x') _

theorem setZ_comm (z : Nat → Nat → Nat → ℚ) (d n k k' : Nat) (hk : k ≠ k') (x x' : ℚ) :
    setZ (setZ z d n k x) d n k' x' = setZ (setZ z d n k' x') d n k x := by
  funext a b j
  exact ite_comm (fun h => hk (h.1.2.2.symm.trans h.2.2.2)) (fun _ => x) (fun _ => x') _

theorem setZ_other (z : Nat → Nat → Nat → ℚ) (d n k k' : Nat) (hk : k' ≠ k) (x : ℚ) : setZ z d n k x d n k' = z d n k' := by
  unfold setZ
  rw [if_neg fun h => hk h.2.2]

/-- What is needed of a compiled function: weights and updates follow the numbers of the topics, and updates of different topics can be exchanged. -/
structure FollowsTopics (ker : Kernel) : Prop where
  raw : ∀ (σ : Equiv.Perm Nat) p, Keeps p.K σ → ∀ c s d n k, ker.raw (params σ p) c (state σ s) d n k = ker.raw p c s d n (σ k)
  update : ∀ (σ : Equiv.Perm Nat) c d n s k m, ker.update c d n (state σ s) k m = state σ (ker.update c d n s (σ k) m)
  comm : ∀ c d n s k m k' m', k ≠ k' → ker.update c d n (ker.update c d n s k m) k' m' = ker.update c d n (ker.update c d n s k' m') k m

theorem kernel0_topics : FollowsTopics kernel0 := by
  refine ⟨fun σ p hσ c s d n k => ?_, fun σ c d n s k m => ?_, fun c d n s k m k' m' hk => ?_⟩
  · simp only [kernel0, raw0, aMean_topics hσ]
    simp only [params, state, sums]
  · simp only [kernel0, update0, state, bump_topics, setZ_topics]
  · simp only [kernel0, update0, setZ_other _ _ _ _ _ hk.symm, setZ_other _ _ _ _ _ hk]
    rw [setZ_comm _ _ _ _ _ hk, bump_comm _ _ _ _ _ hk]

theorem kernel64_topics (ex : ℚ → ℚ) : FollowsTopics (kernel64 ex) := by
  refine ⟨fun σ p hσ c s d n k => ?_, fun σ c d n s k m => ?_, fun c d n s k m k' m' hk => ?_⟩
  · show raw2 ex (params σ p) c (state σ s) d n k = raw2 ex p c s d n (σ k)
    unfold raw2
    rw [aMean_topics hσ]
    rfl
  · simp only [kernel64, update64, state, bump_topics, setZ_topics]
  · simp only [kernel64, update64, setZ_other _ _ _ _ _ hk.symm, setZ_other _ _ _ _ _ hk]
    rw [setZ_comm _ _ _ _ _ hk, bump_comm _ _ _ _ _ hk, bump_comm s.v _ _ _ _ hk]

theorem kernel32_topics (ex : ℚ → ℚ) : FollowsTopics (kernel32 ex) := by
  refine ⟨fun σ p hσ c s d n k => ?_, fun σ c d n s k m => ?_, fun c d n s k m k' m' hk => ?_⟩
  · show raw2 ex (params σ p) c (state σ s) d n k = raw2 ex p c s d n (σ k)
    unfold raw2
    rw [aMean_topics hσ]
    rfl
  · simp only [kernel32, update32, state, bump_topics, setZ_topics]
  · simp only [kernel32, update32, setZ_other _ _ _ _ _ hk.symm, setZ_other _ _ _ _ _ hk]
    rw [setZ_comm _ _ _ _ _ hk, bump_comm _ _ _ _ _ hk, bump_comm s.v _ _ _ _ hk]

/-- A loop over the topics that does not stop has accepted all topics and stored all of them. -/
theorem topicLoop_all (d n : Nat) (w : Nat → ℚ) (denom : ℚ) (ks : List Nat) (s : State) (h : (topicLoop ker c d n w denom ks s).2 = false) :
    (∀ k ∈ ks, (ker.check && invalidProb denom (w k / denom)) = false)
      ∧ (topicLoop ker c d n w denom ks s).1 = ks.foldl (fun s k => ker.update c d n s k (w k / denom)) s := by
  induction ks generalizing s with
  | nil => exact ⟨fun k hk => absurd hk (by simp), rfl⟩
  | cons k ks ih =>
    rw [topicLoop] at h ⊢
    by_cases hc : (ker.check && invalidProb denom (w k / denom)) = true
    · rw [if_pos hc] at h
      exact absurd h (by simp)
    · rw [if_neg hc] at h ⊢
      obtain ⟨h1, h2⟩ := ih _ h
      refine ⟨fun j hj => ?_, h2⟩
      rcases List.mem_cons.1 hj with rfl | hj
      · exact Bool.eq_false_iff.2 hc
      · exact h1 j hj

theorem topicLoop_ok (d n : Nat) (w : Nat → ℚ) (denom : ℚ) (ks : List Nat) (s : State)
    (h : ∀ k ∈ ks, (ker.check && invalidProb denom (w k / denom)) = false) :
    topicLoop ker c d n w denom ks s = (ks.foldl (fun s k => ker.update c d n s k (w k / denom)) s, false) := by
  induction ks generalizing s with
  | nil => rfl
  | cons k ks ih =>
    rw [topicLoop, h k (by simp), if_neg (by simp), ih _ fun j hj => h j (List.mem_cons_of_mem _ hj)]
    rfl

theorem range_perm {K : Nat} (hσ : Keeps K σ) : ((List.range K).map σ).Perm (List.range K) := by
  rw [List.perm_ext_iff_of_nodup (List.nodup_range.map σ.injective) List.nodup_range]
  intro k
  simp only [List.mem_map, List.mem_range]
  constructor
  · rintro ⟨j, hj, rfl⟩
    exact (hσ j).2 hj
  · intro hk
    exact ⟨σ.symm k, (hσ _).1 (by simpa using hk), by simp⟩

theorem visit_topics (hk : FollowsTopics ker) (hσ : Keeps p.K σ) (s : State) (tok : Nat × Nat) (h : (visit ker p c s tok).2 = false) :
    visit ker (params σ p) c (state σ s) tok = (state σ (visit ker p c s tok).1, false) := by
  unfold visit at h ⊢
  obtain ⟨h1, h2⟩ := topicLoop_all _ _ _ _ _ _ h
  have hw : ker.raw (params σ p) c (state σ s) tok.1 tok.2 = fun k => ker.raw p c s tok.1 tok.2 (σ k) :=
    funext fun k => hk.raw σ p hσ c s tok.1 tok.2 k
  rw [h2, hw]
  generalize ker.raw p c s tok.1 tok.2 = w at h1 ⊢
  have hs : ∑ k ∈ Finset.range (params σ p).K, w (σ k) = ∑ k ∈ Finset.range p.K, w k := sum_columns hσ w
  rw [hs]
  generalize ∑ k ∈ Finset.range p.K, w k = denom at h1 ⊢
  rw [topicLoop_ok]
  · congr 1
    rw [foldl_map' (fun s k => ker.update c tok.1 tok.2 s (σ k) (w (σ k) / denom)) _ (state σ) fun s k => hk.update σ c _ _ s k _]
    congr 1
    show (List.range p.K).foldl _ s = _
    rw [← List.foldl_map (f := σ) (g := fun s k => ker.update c tok.1 tok.2 s k (w k / denom))]
    refine (range_perm hσ).foldl_eq' (fun a _ b _ z => ?_) s
    by_cases hab : a = b
    · rw [hab]
    · exact hk.comm c _ _ z a _ b _ hab
  · intro k hkK
    exact h1 (σ k) (List.mem_range.2 ((hσ k).2 (List.mem_range.1 hkK)))

theorem visitAll_topics (hk : FollowsTopics ker) (hσ : Keeps p.K σ) (toks : List (Nat × Nat)) (s : State)
    (h : (visitAll ker p c toks s).2 = false) :
    visitAll ker (params σ p) c toks (state σ s) = (state σ (visitAll ker p c toks s).1, false) := by
  induction toks generalizing s with
  | nil => rfl
  | cons t toks ih =>
    rw [visitAll] at h ⊢
    rw [visitAll]
    have hv := visit_topics (c := c) hk hσ s t
    generalize visit ker p c s t = r at h hv ⊢
    obtain ⟨s', _ | _⟩ := r
    · rw [hv rfl]
      exact ih s' h
    · exact absurd h (by simp)

theorem iterate_topics (hk : FollowsTopics ker) (hσ : Keeps p.K σ) (i : Nat) (s : State) (h : (iterate ker p c i s).2 = false) :
    iterate ker (params σ p) c i (state σ s) = (state σ (iterate ker p c i s).1, false) := by
  induction i generalizing s with
  | zero => rfl
  | succ i ih =>
    rw [iterate] at h ⊢
    rw [iterate]
    have hv := visitAll_topics (c := c) hk hσ c.tokens s
    generalize visitAll ker p c c.tokens s = r at h hv ⊢
    obtain ⟨s', _ | _⟩ := r
    · rw [hv rfl]
      exact ih s' h
    · exact absurd h (by simp)

theorem measure_topics (hσ : Keeps p.K σ) (s : Sums) : Cvb.measure (params σ p) (sums σ s) = sums σ (Cvb.measure p s) := by
  have : ∀ d, ∑ j ∈ Finset.range p.K, (s.dk d (σ j) + p.a (σ j)) = ∑ j ∈ Finset.range p.K, (s.dk d j + p.a j) :=
    fun d => sum_columns hσ fun j => s.dk d j + p.a j
  simp only [Cvb.measure, sums, params, this]

theorem segment_topics (hk : FollowsTopics ker) (hσ : Keeps p.K σ) (s : State) (i : Int) (h : (iterate ker p c i.toNat s).2 = false) :
    Cvb.segment ker (params σ p) c (state σ s) i = state σ (Cvb.segment ker p c s i) := by
  unfold Cvb.segment
  rw [iterate_topics hk hσ _ _ h]
  simp only [state, measure_topics hσ]

theorem segments_topics (hk : FollowsTopics ker) (hσ : Keeps p.K σ) (hp : Priors p) (hl : Lawful p ker) {bkt : Nat → Nat → ℚ} {bk : Nat → ℚ}
    (hb : Base p bkt bk) (calls : List Int) (s : State) (hg : Good p c bkt bk s) :
    calls.foldl (Cvb.segment ker (params σ p) c) (state σ s) = state σ (calls.foldl (Cvb.segment ker p c) s) := by
  induction calls generalizing s with
  | nil => rfl
  | cons i calls ih =>
    rw [List.foldl_cons, List.foldl_cons, segment_topics hk hσ s i (hl.iterate_good hp hb _ s hg).1]
    exact ih _ (hl.segment_good hp hb s i hg)

/-- A new query state from exchanged random numbers has exchanged topics. -/
theorem cvb_start_topics {K : Nat} (hσ : Keeps K σ) (r : Nat → Nat → Nat → ℚ) :
    newQueryState c K (fun d n k => r d n (σ k)) = ⟨fun d n k => (newQueryState c K r).z d n (σ k),
      ⟨fun d k => (newQueryState c K r).n.dk d (σ k), fun k t => (newQueryState c K r).n.kt (σ k) t, fun k => (newQueryState c K r).n.k (σ k)⟩,
      ⟨fun d k => (newQueryState c K r).v.dk d (σ k), fun k t => (newQueryState c K r).v.kt (σ k) t, fun k => (newQueryState c K r).v.k (σ k)⟩⟩ := by
  have hz : initZ K (fun d n k => r d n (σ k)) = fun d n k => initZ K r d n (σ k) := by
    funext d n k
    unfold initZ
    rw [sum_columns hσ (r d n)]
  unfold newQueryState
  rw [hz]
  rfl

/-- Exchanging the topics of a consistent starting point of the zero-order model, of its priors and of the model that it starts from exchanges the topics of
the result. -/
theorem cvb0_topics (hσ : Keeps p.K σ) (hp : PositivePriors p) (calls : List Int) (query : Bool) (m : Option Counts)
    (hm : ∀ m', m = some m' → NonnegBase p m'.kt m'.k) (s : State) (hs : CountsAreSums p c (fun _ _ => 0) (fun _ => 0) s) (hz : TokenDists p c s) :
    train0 ⟨p.K, p.T, fun k => p.a (σ k), p.b⟩ c calls query (m.map (counts σ)) (state σ s)
      = (train0 p c calls query m s).map fun r => (r.1.map (counts σ), state σ r.2) := by
  unfold train0
  by_cases hl : c.lens.any (fun l => decide (l < 1)) = true
  · rw [if_pos hl, if_pos hl]
    rfl
  rw [if_neg hl, if_neg hl]
  cases m with
  | none =>
    have h1 := segments_topics kernel0_topics hσ hp.priors (lawful0 hp.priors) (Cvb0.zeroBase p).base calls s (Cvb0.good_iff.2 ⟨hs, hz⟩)
    unfold params at h1
    simp only [Option.map_none, h1]
    cases query
    · simp only [Bool.false_eq_true, if_false, Except.map, Option.map_some, counts, state, sums, Sums.rows, List.map_map]
      rfl
    · rfl
  | some m =>
    have h1 := segments_topics kernel0_topics hσ hp.priors (lawful0 hp.priors) (hm m rfl).base calls { s with n := s.n.addModel m }
      (Cvb0.good_iff.2 ⟨⟨hs.doc, fun k hk t => by
        show s.n.kt k t + m.kt k t = _
        rw [hs.word k hk t]
        ring, fun k hk => by
        show s.n.k k + m.k k = _
        rw [hs.topic k hk]
        ring⟩, hz.nonneg, hz.one⟩)
    have h2 : (⟨(state σ s).z, (state σ s).n.addModel (counts σ m), (state σ s).v⟩ : State) = state σ { s with n := s.n.addModel m } := rfl
    unfold params at h1
    simp only [Option.map_some, h2, h1]
    cases query
    · simp only [Bool.false_eq_true, if_false, Except.map, Option.map_some, counts, state, sums, Sums.rows, List.map_append, List.map_map]
      rfl
    · rfl

/-- The same for the second-order model, in either precision. -/
theorem cvb_topics (ex : ℚ → ℚ) (hex : ∀ x, 0 < ex x) (single : Bool) (hσ : Keeps p.K σ) (hp : PositivePriors p) (calls : List Int) (query : Bool)
    (m : Option Counts2) (hm : ∀ m', m = some m' → NonnegBase p m'.n.kt m'.n.k) (s : State) (hs : CountsAreSums p c (fun _ _ => 0) (fun _ => 0) s)
    (hz : TokenDists p c s) :
    train2 (if single then kernel32 ex else kernel64 ex) ⟨p.K, p.T, fun k => p.a (σ k), p.b⟩ c calls query (m.map fun m => ⟨counts σ m.n, counts σ m.v⟩)
        (state σ s)
      = (train2 (if single then kernel32 ex else kernel64 ex) p c calls query m s).map fun r =>
        (r.1.map fun m => ⟨counts σ m.n, counts σ m.v⟩, state σ r.2) := by
  have hk : FollowsTopics (if single then kernel32 ex else kernel64 ex) := by
    cases single
    · exact kernel64_topics ex
    · exact kernel32_topics ex
  have hlaw : Lawful p (if single then kernel32 ex else kernel64 ex) := by
    cases single
    · exact lawful64 hp.priors hex
    · exact lawful32 hp.priors hex
  generalize (if single then kernel32 ex else kernel64 ex) = ker at hk hlaw ⊢
  unfold train2
  by_cases hl : c.lens.any (fun l => decide (l < 1)) = true
  · rw [if_pos hl, if_pos hl]
    rfl
  rw [if_neg hl, if_neg hl]
  cases m with
  | none =>
    have h1 := segments_topics hk hσ hp.priors hlaw (Cvb0.zeroBase p).base calls s (Cvb0.good_iff.2 ⟨hs, hz⟩)
    unfold params at h1
    simp only [Option.map_none, h1]
    cases query
    · simp only [Bool.false_eq_true, if_false, Except.map, Option.map_some, counts, state, sums, Sums.rows, List.map_map]
      rfl
    · rfl
  | some m =>
    have h1 := segments_topics hk hσ hp.priors hlaw (hm m rfl).base calls { s with n := s.n.addModel m.n, v := s.v.addModel m.v }
      (Cvb0.good_iff.2 ⟨⟨hs.doc, fun k hk t => by
        show s.n.kt k t + m.n.kt k t = _
        rw [hs.word k hk t]
        ring, fun k hk => by
        show s.n.k k + m.n.k k = _
        rw [hs.topic k hk]
        ring⟩, hz.nonneg, hz.one⟩)
    have h2 : (⟨(state σ s).z, (state σ s).n.addModel (counts σ m.n), (state σ s).v.addModel (counts σ m.v)⟩ : State)
      = state σ { s with n := s.n.addModel m.n, v := s.v.addModel m.v } := rfl
    unfold params at h1
    simp only [Option.map_some, h2, h1]
    cases query
    · simp only [Bool.false_eq_true, if_false, Except.map, Option.map_some, counts, state, sums, Sums.rows, List.map_append, List.map_map]
      rfl
    · rfl

/-! ## Examples -/

open Verif.Props.Cvb0 (exP exC exR exP_pos exQ_ok exM exM_good)
open Verif.Props.Cvb2 (exEx exEx_pos exM2)

theorem ex_keeps : Keeps exP.K (Equiv.swap 0 1) := Renumber.swap_keeps (by decide) (by decide)

/-- The priors of the two topics differ, and so do their counts. -/
example : exP.a 0 ≠ exP.a 1 ∧ (newQueryState exC exP.K exR).n.k 0 ≠ (newQueryState exC exP.K exR).n.k 1 := by decide +kernel

example : train0 ⟨exP.K, exP.T, fun k => exP.a (Equiv.swap 0 1 k), exP.b⟩ exC [10, 3] true (some (counts (Equiv.swap 0 1) exM))
      (newQueryState exC exP.K fun d n k => exR d n (Equiv.swap 0 1 k))
    = (train0 exP exC [10, 3] true (some exM) (newQueryState exC exP.K exR)).map fun r =>
      (r.1.map (counts (Equiv.swap 0 1)), state (Equiv.swap 0 1) r.2) := by
  rw [cvb_start_topics ex_keeps]
  exact cvb0_topics ex_keeps exP_pos [10, 3] true (some exM) (fun m h => by cases h; exact exM_good) _ exQ_ok.1 exQ_ok.2

example : train2 (kernel64 exEx) ⟨exP.K, exP.T, fun k => exP.a (Equiv.swap 0 1 k), exP.b⟩ exC [10] false none
      (newQueryState exC exP.K fun d n k => exR d n (Equiv.swap 0 1 k))
    = (train2 (kernel64 exEx) exP exC [10] false none (newQueryState exC exP.K exR)).map fun r =>
      (r.1.map fun m => ⟨counts (Equiv.swap 0 1) m.n, counts (Equiv.swap 0 1) m.v⟩, state (Equiv.swap 0 1) r.2) := by
  rw [cvb_start_topics ex_keeps]
  exact cvb_topics exEx exEx_pos false ex_keeps exP_pos [10] false none (fun m h => by cases h) _ exQ_ok.1 exQ_ok.2

end Verif.Props.RenumberCvb
