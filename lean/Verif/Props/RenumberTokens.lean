import Verif.Props.Renumber
import Verif.Model.Cvb
import Verif.Model.DmrEstimates

/-!
# Renumbering the words of token lists (C304)

The samplers and the collapsed variational models see the words only as numbers in lists of tokens.  With other numbers for the words, and the same
random numbers, they do the same.
-/

namespace Verif.Props.RenumberTokens

open Verif
open Verif.Props.Renumber (Keeps)

/-- The columns of a table under other numbers: column `v` of the result is column `τ v` of the table. -/
def columns {α : Type} (τ : Equiv.Perm Nat) (f : Nat → Nat → α) : Nat → Nat → α := fun k v => f k (τ v)

theorem sum_columns {M : Type} [AddCommMonoid M] {n : Nat} {τ : Equiv.Perm Nat} (h : Keeps n τ) (f : Nat → M) :
    ∑ i ∈ Finset.range n, f (τ i) = ∑ i ∈ Finset.range n, f i := by
  refine Finset.sum_equiv τ (fun i => ?_) (fun i _ => rfl)
  rw [Finset.mem_range, Finset.mem_range]
  exact (h i).symm

theorem foldlM_map {m : Type → Type} [Monad m] [LawfulMonad m] {α β γ : Type} (f : β → α → m β) (g : γ → α → m γ) (h : β → γ)
    (hs : ∀ b a, g (h b) a = h <$> f b a) (l : List α) (b : β) : l.foldlM g (h b) = h <$> l.foldlM f b := by
  induction l generalizing b with
  | nil => simp
  | cons a l ih =>
    rw [List.foldlM_cons, List.foldlM_cons, hs, map_bind, bind_map_left]
    exact bind_congr fun c => ih c

theorem foldl_map' {α β γ : Type} (f : β → α → β) (g : γ → α → γ) (h : β → γ) (hs : ∀ b a, g (h b) a = h (f b a)) (l : List α) (b : β) :
    l.foldl g (h b) = h (l.foldl f b) := by
  induction l generalizing b with
  | nil => rfl
  | cons a l ih => rw [List.foldl_cons, List.foldl_cons, hs, ih]

/-! ## The Gibbs sampler -/

/-- The same corpus and priors with other numbers for the words: number `v` of the second is number `τ v` of the first. -/
structure SameWords (τ : Equiv.Perm Nat) (p q : Gibbs.Params) : Prop where
  vocab : Keeps p.T τ
  K : q.K = p.K
  T : q.T = p.T
  lens : q.lens = p.lens
  w : ∀ n, τ (q.w n) = p.w n
  a : ∀ d k, q.a d k = p.a d k
  b : ∀ v, q.b v = p.b (τ v)

section
open Verif.Gibbs

variable {τ : Equiv.Perm Nat} {p q : Params}

/-- The tables of counts under other numbers of the words -/
def tables (τ : Equiv.Perm Nat) (s : Tables) : Tables := { s with nkv := columns τ s.nkv }

/-- The tables and the sums of the samples under other numbers of the words -/
def state (τ : Equiv.Perm Nat) (s : State) : State := { s with tables := tables τ s.tables, vocabSum := columns τ s.vocabSum }

theorem bump2_columns (τ : Equiv.Perm Nat) (f : Nat → Nat → Int) (i j : Nat) (x : Int) :
    bump2 (columns τ f) i j x = columns τ (bump2 f i (τ j) x) := by
  funext a b
  simp only [bump2, columns, EmbeddingLike.apply_eq_iff_eq]

theorem suffStats_words (τ : Equiv.Perm Nat) (w w' : Nat → Nat) (hw : ∀ n, τ (w' n) = w n) (lens : List Nat) (s : Tables) :
    sumSuffStats w' lens (tables τ s) = tables τ (sumSuffStats w lens s) := by
  unfold sumSuffStats
  refine foldl_map' _ _ (tables τ) (fun s t => ?_) _ _
  simp only [tables, bump2_columns, hw]

theorem bSum_words (h : SameWords τ p q) : q.bSum = p.bSum := by
  unfold Params.bSum
  rw [h.T, Finset.sum_congr rfl fun v _ => h.b v]
  exact sum_columns h.vocab p.b

theorem resample_words (h : SameWords τ p q) (delta : Int) (r : Nat) (t : Nat × Nat) (s : Tables) :
    resample q delta r t (tables τ s) = (resample p delta r t s).map (tables τ) := by
  have hw : topicWeights q (bump2 s.ndk t.1 (s.z t.2) (-1)) (columns τ (bump2 s.nkv (s.z t.2) (p.w t.2) (-delta))) (bump s.nk (s.z t.2) (-delta))
      t.1 (q.w t.2) = topicWeights p (bump2 s.ndk t.1 (s.z t.2) (-1)) (bump2 s.nkv (s.z t.2) (p.w t.2) (-delta)) (bump s.nk (s.z t.2) (-delta))
      t.1 (p.w t.2) := by
    funext j
    simp only [topicWeights, columns, h.w, h.a, h.b, bSum_words h]
  unfold resample
  simp only [tables, bump2_columns, h.w, hw, h.K]
  generalize chooseTopic p.K _ r = c
  rcases c with _ | k | k <;> rfl

theorem sweep_words (h : SameWords τ p q) (delta : Int) (rnd : Rand) (s : Tables) :
    sweep q delta rnd (tables τ s) = (sweep p delta rnd s).map (tables τ) := by
  unfold sweep
  rw [h.lens]
  exact foldlM_map _ _ (tables τ) (fun s t => resample_words h delta _ t s) _ _

theorem takeSample_words (h : SameWords τ p q) (isQuery : Bool) (s : State) : takeSample q isQuery (state τ s) = state τ (takeSample p isQuery s) := by
  have ha : q.aSum = p.aSum := by
    funext d
    unfold Params.aSum
    rw [h.K]
    exact Finset.sum_congr rfl fun k _ => h.a d k
  unfold takeSample
  cases isQuery
  · simp only [state, tables, columns, h.a, h.b, h.lens, ha, bSum_words h]
    rfl
  · simp only [state, tables, h.a, h.lens, ha]
    rfl

theorem sample_words (h : SameWords τ p q) (isQuery : Bool) (count thin : Nat) (rnd : Nat → Rand) (s : State) :
    sample q isQuery count thin rnd (state τ s) = (sample p isQuery count thin rnd s).map (state τ) := by
  unfold sample
  refine foldlM_map _ _ (state τ) (fun s i => ?_) _ { s with count := 0 }
  have h1 := sweep_words h (if isQuery then 0 else 1) (rnd i) s.tables
  show (sweep q _ (rnd i) (tables τ s.tables) >>= _) = _
  rw [h1]
  cases sweep p (if isQuery then 0 else 1) (rnd i) s.tables with
  | none => rfl
  | some t =>
    by_cases ht : (i + 1) % thin = 0
    · have := takeSample_words h isQuery { s with tables := t }
      simp only [Option.map, bind, Option.bind, pure, ht, if_true, Functor.map]
      exact congrArg some this
    · simp only [Option.map, bind, Option.bind, pure, ht, if_false, Functor.map]
      rfl

/-- Training by sampling with other numbers for the words gives the same assignments of tokens and topics of documents, and the words of the topics under the
new numbers. -/
theorem gibbs_words (h : SameWords τ p q) (plan : Plan) (z : Nat → Nat) (rnd1 rnd2 : Nat → Rand) :
    train q plan z rnd1 rnd2 = (train p plan z rnd1 rnd2).map fun st =>
      ⟨⟨st.tables.z, st.tables.ndk, fun k v => st.tables.nkv k (τ v), st.tables.nk⟩, st.topicSum, fun k v => st.vocabSum k (τ v), st.count⟩ := by
  have h0 := suffStats_words τ p.w q.w h.w p.lens (zeroTables z)
  have h1 := sample_words h false plan.burnIn (plan.burnIn + 1) rnd1 ⟨sumSuffStats p.w p.lens (zeroTables z), fun _ _ => 0, fun _ _ => 0, 0⟩
  have h2 : sample q false plan.burnIn (plan.burnIn + 1) rnd1 ⟨sumSuffStats q.w q.lens (zeroTables z), fun _ _ => 0, fun _ _ => 0, 0⟩
      = (sample p false plan.burnIn (plan.burnIn + 1) rnd1 ⟨sumSuffStats p.w p.lens (zeroTables z), fun _ _ => 0, fun _ _ => 0, 0⟩).map (state τ) := by
    rw [← h1, h.lens]
    unfold state
    dsimp only
    rw [← h0]
    rfl
  unfold train
  dsimp only
  rw [h2]
  cases sample p false plan.burnIn (plan.burnIn + 1) rnd1 ⟨sumSuffStats p.w p.lens (zeroTables z), fun _ _ => 0, fun _ _ => 0, 0⟩ with
  | none => rfl
  | some st => exact sample_words h false (plan.iterations - plan.burnIn) plan.thin rnd2 st

/-- Querying by sampling with other numbers for the words. -/
theorem gibbs_query_words (h : SameWords τ p q) (m : Model) (plan : Plan) (z : Nat → Nat) (rnd1 rnd2 : Nat → Rand) :
    query q ⟨fun k v => m.vocabSum k (τ v), m.numSamples⟩ plan z rnd1 rnd2 = (query p m plan z rnd1 rnd2).map fun r =>
      (⟨fun k v => r.1.vocabSum k (τ v), r.1.numSamples⟩,
        ⟨⟨r.2.tables.z, r.2.tables.ndk, fun k v => r.2.tables.nkv k (τ v), r.2.tables.nk⟩, r.2.topicSum, fun k v => r.2.vocabSum k (τ v), r.2.count⟩) := by
  by_cases hm : m.numSamples = 0
  · simp [query, wordDists, hm]
  have hw : wordDists m = some (fun k v => m.vocabSum k v / m.numSamples) := by simp [wordDists, hm]
  have hw' : wordDists ⟨fun k v => m.vocabSum k (τ v), m.numSamples⟩ = some (fun k v => m.vocabSum k (τ v) / m.numSamples) := by simp [wordDists, hm]
  have h' : SameWords τ { p with b := fun _ => 0 } { q with b := fun _ => 0 } :=
    ⟨h.vocab, h.K, h.T, h.lens, h.w, h.a, fun _ => rfl⟩
  unfold query
  rw [hw, hw']
  dsimp only [bind, Option.bind]
  have hn : (fun k => ∑ v ∈ Finset.range q.T, ⌊m.vocabSum k (τ v) / (m.numSamples : ℚ) * 1000000⌋)
      = fun k => ∑ v ∈ Finset.range p.T, ⌊m.vocabSum k v / (m.numSamples : ℚ) * 1000000⌋ := by
    funext k
    rw [h.T]
    exact sum_columns h.vocab fun v => ⌊m.vocabSum k v / (m.numSamples : ℚ) * 1000000⌋
  rw [hn]
  have h0 := suffStats_words τ p.w q.w h.w p.lens
    ⟨z, fun _ _ => 0, fun k v => ⌊m.vocabSum k v / (m.numSamples : ℚ) * 1000000⌋, fun k => ∑ v ∈ Finset.range p.T, ⌊m.vocabSum k v / (m.numSamples : ℚ) * 1000000⌋⟩
  generalize hs : sumSuffStats p.w p.lens
    ⟨z, fun _ _ => 0, fun k v => ⌊m.vocabSum k v / (m.numSamples : ℚ) * 1000000⌋, fun k => ∑ v ∈ Finset.range p.T, ⌊m.vocabSum k v / (m.numSamples : ℚ) * 1000000⌋⟩
    = s at h0 ⊢
  have h0' : sumSuffStats q.w q.lens
    ⟨z, fun _ _ => 0, fun k v => ⌊m.vocabSum k (τ v) / (m.numSamples : ℚ) * 1000000⌋,
      fun k => ∑ v ∈ Finset.range p.T, ⌊m.vocabSum k v / (m.numSamples : ℚ) * 1000000⌋⟩ = tables τ s := by
    rw [h.lens]
    exact h0
  rw [h0']
  have h1 := sample_words h' true plan.burnIn (plan.burnIn + 1) rnd1 ⟨s, fun _ _ => 0, m.vocabSum, 0⟩
  have h1' : sample { q with b := fun _ => 0 } true plan.burnIn (plan.burnIn + 1) rnd1 ⟨tables τ s, fun _ _ => 0, fun k v => m.vocabSum k (τ v), 0⟩
    = (sample { p with b := fun _ => 0 } true plan.burnIn (plan.burnIn + 1) rnd1 ⟨s, fun _ _ => 0, m.vocabSum, 0⟩).map (state τ) := h1
  rw [h1']
  cases sample { p with b := fun _ => 0 } true plan.burnIn (plan.burnIn + 1) rnd1 ⟨s, fun _ _ => 0, m.vocabSum, 0⟩ with
  | none => rfl
  | some st =>
    have h2 := sample_words h' true (plan.iterations - plan.burnIn) plan.thin rnd2 st
    dsimp only [Option.map]
    rw [h2]
    cases sample { p with b := fun _ => 0 } true (plan.iterations - plan.burnIn) plan.thin rnd2 st with
    | none => rfl
    | some st => rfl

end

/-! ## The regression model -/

section
open Verif.Gibbs Verif.Dmr

variable {τ : Equiv.Perm Nat} {p q : Params}

theorem withWeights_words (h : SameWords τ p q) (F : Nat) (X W : Nat → Nat → ℚ) : SameWords τ (withWeights p F X W) (withWeights q F X W) :=
  ⟨h.vocab, h.K, h.T, h.lens, h.w, fun _ _ => rfl, h.b⟩

theorem dmr_sample_words (h : SameWords τ p q) (isQuery : Bool) (count thin : Nat) (rnd : Nat → Rand) (s : State) (buf : Buffer) :
    Dmr.sample q isQuery count thin rnd (state τ s) buf = (Dmr.sample p isQuery count thin rnd s buf).map fun r => (state τ r.1, r.2) := by
  unfold Dmr.sample
  refine foldlM_map _ _ (fun r : State × Buffer × List Sample => (state τ r.1, r.2)) (fun r i => ?_) _ ({ s with count := 0 }, buf, [])
  have h1 := sweep_words h (if isQuery then 0 else 1) (rnd i) r.1.tables
  have h1' : sweep q (if isQuery then 0 else 1) (rnd i) (state τ r.1).tables = _ := h1
  dsimp only
  rw [h1']
  cases sweep p (if isQuery then 0 else 1) (rnd i) r.1.tables with
  | none => rfl
  | some t =>
    have h2 := takeSample_words h isQuery { r.1 with tables := t }
    dsimp only [Option.map]
    by_cases ht : (i + 1) % thin = 0
    · rw [if_pos ht, if_pos ht]
      show (Buffer.write r.2.1 r.1.count t.ndk).map _ = _
      generalize Buffer.write r.2.1 r.1.count t.ndk = b
      cases b with
      | error e => rfl
      | ok b => exact congrArg (fun x => Except.ok (x, b, r.2.2 ++ [t.ndk])) h2
    · rw [if_neg ht, if_neg ht]
      rfl

/-- The loop of training under other numbers of the words -/
def loop (τ : Equiv.Perm Nat) (l : Loop) : Loop := { l with st := state τ l.st }

theorem round_words (h : SameWords τ p q) (F : Nat) (X : Nat → Nat → ℚ) (opt : List Sample → Nat → (Nat → Nat → ℚ) → Nat → Nat → ℚ) (wui thin : Nat)
    (rnd : Nat → Rand) (l : Loop) : round q F X opt wui thin rnd (loop τ l) = (round p F X opt wui thin rnd l).map (loop τ) := by
  have h1 := dmr_sample_words (withWeights_words h F X l.W) false wui thin rnd l.st l.buf
  unfold Dmr.round
  show Except.map _ (Dmr.sample (withWeights q F X l.W) false wui thin rnd (state τ l.st) l.buf) = _
  rw [h1]
  cases Dmr.sample (withWeights p F X l.W) false wui thin rnd l.st l.buf with
  | error e => rfl
  | ok r => rfl

/-- Training the regression model with other numbers for the words gives the same assignments, topics of documents, weights and samples, and the words of the
topics under the new numbers. -/
theorem dmr_words (h : SameWords τ p q) (F : Nat) (X : Nat → Nat → ℚ) (opt : List Sample → Nat → (Nat → Nat → ℚ) → Nat → Nat → ℚ) (plan : Dmr.Plan)
    (z : Nat → Nat) (W : Nat → Nat → ℚ) (rnd : Nat → Nat → Rand) :
    Dmr.train q F X opt plan z W rnd = (Dmr.train p F X opt plan z W rnd).map fun r => r.map fun l =>
      ⟨⟨⟨l.st.tables.z, l.st.tables.ndk, fun k v => l.st.tables.nkv k (τ v), l.st.tables.nk⟩, l.st.topicSum, fun k v => l.st.vocabSum k (τ v), l.st.count⟩,
        l.buf, l.W, l.sampleCount, l.taken, l.used⟩ := by
  unfold Dmr.train
  by_cases hp : plan.iterations < plan.burnIn
  · rw [if_pos hp, if_pos hp]
    rfl
  rw [if_neg hp, if_neg hp]
  refine congrArg Except.ok ?_
  dsimp only
  have h0 := suffStats_words τ p.w q.w h.w p.lens (zeroTables z)
  have h1 := dmr_sample_words (withWeights_words h F X W) false plan.burnIn (plan.burnIn + 1) (rnd 0)
    ⟨sumSuffStats p.w p.lens (zeroTables z), fun _ _ => 0, fun _ _ => 0, 0⟩ (Buffer.zeros ((plan.iterations - plan.burnIn) / plan.thin))
  have h2 : (⟨sumSuffStats q.w q.lens (zeroTables z), fun _ _ => 0, fun _ _ => 0, 0⟩ : State)
      = state τ ⟨sumSuffStats p.w p.lens (zeroTables z), fun _ _ => 0, fun _ _ => 0, 0⟩ := by
    rw [h.lens]
    unfold state
    dsimp only
    rw [← h0]
    rfl
  rw [h2, h1]
  cases Dmr.sample (withWeights p F X W) false plan.burnIn (plan.burnIn + 1) (rnd 0)
    ⟨sumSuffStats p.w p.lens (zeroTables z), fun _ _ => 0, fun _ _ => 0, 0⟩ (Buffer.zeros ((plan.iterations - plan.burnIn) / plan.thin)) with
  | error e => rfl
  | ok r =>
    exact foldlM_map _ _ (loop τ) (fun l i => round_words h F X opt plan.wui plan.thin (rnd (i + 1)) l) _ ⟨r.1, r.2.1, W, 0, [], []⟩

/-- Querying the regression model with other numbers for the words. -/
theorem dmr_query_words (h : SameWords τ p q) (F : Nat) (X φ vocabSum : Nat → Nat → ℚ) (plan : Dmr.Plan) (z : Nat → Nat) (W : Nat → Nat → ℚ)
    (rnd1 rnd2 : Nat → Rand) :
    Dmr.query q F X (fun k v => φ k (τ v)) (fun k v => vocabSum k (τ v)) plan z W rnd1 rnd2
      = (Dmr.query p F X φ vocabSum plan z W rnd1 rnd2).map fun r => r.map fun s =>
        (⟨⟨s.1.tables.z, s.1.tables.ndk, fun k v => s.1.tables.nkv k (τ v), s.1.tables.nk⟩, s.1.topicSum, fun k v => s.1.vocabSum k (τ v), s.1.count⟩, s.2) := by
  unfold Dmr.query
  by_cases hp : plan.iterations < plan.burnIn
  · rw [if_pos hp, if_pos hp]
    rfl
  rw [if_neg hp, if_neg hp]
  refine congrArg Except.ok ?_
  dsimp only
  have hn : (fun k => ∑ v ∈ Finset.range q.T, ⌊φ k (τ v) * 1000000⌋) = fun k => ∑ v ∈ Finset.range p.T, ⌊φ k v * 1000000⌋ := by
    funext k
    rw [h.T]
    exact sum_columns h.vocab fun v => ⌊φ k v * 1000000⌋
  rw [hn]
  have h0 := suffStats_words τ p.w q.w h.w p.lens ⟨z, fun _ _ => 0, fun k v => ⌊φ k v * 1000000⌋, fun k => ∑ v ∈ Finset.range p.T, ⌊φ k v * 1000000⌋⟩
  generalize sumSuffStats p.w p.lens ⟨z, fun _ _ => 0, fun k v => ⌊φ k v * 1000000⌋, fun k => ∑ v ∈ Finset.range p.T, ⌊φ k v * 1000000⌋⟩ = s at h0 ⊢
  have h0' : sumSuffStats q.w q.lens ⟨z, fun _ _ => 0, fun k v => ⌊φ k (τ v) * 1000000⌋, fun k => ∑ v ∈ Finset.range p.T, ⌊φ k v * 1000000⌋⟩
      = tables τ s := by
    rw [h.lens]
    exact h0
  rw [h0']
  have h1 := dmr_sample_words (withWeights_words h F X W) true plan.burnIn (plan.burnIn + 1) rnd1 ⟨s, fun _ _ => 0, vocabSum, 0⟩
    (Buffer.zeros ((plan.iterations - plan.burnIn) / plan.thin))
  have h1' : Dmr.sample (withWeights q F X W) true plan.burnIn (plan.burnIn + 1) rnd1 ⟨tables τ s, fun _ _ => 0, fun k v => vocabSum k (τ v), 0⟩
    (Buffer.zeros ((plan.iterations - plan.burnIn) / plan.thin)) = _ := h1
  rw [h1']
  cases Dmr.sample (withWeights p F X W) true plan.burnIn (plan.burnIn + 1) rnd1 ⟨s, fun _ _ => 0, vocabSum, 0⟩
    (Buffer.zeros ((plan.iterations - plan.burnIn) / plan.thin)) with
  | error e => rfl
  | ok r =>
    have h2 := dmr_sample_words (withWeights_words h F X W) true plan.iterations plan.thin rnd2 r.1 r.2.1
    dsimp only [bind, Except.bind, Except.map]
    rw [h2]
    cases Dmr.sample (withWeights p F X W) true plan.iterations plan.thin rnd2 r.1 r.2.1 with
    | error e => rfl
    | ok r => rfl

end

/-! ## The collapsed variational models -/

section
open Verif.Cvb

variable {τ : Equiv.Perm Nat} {c e : Corpus}

/-- The same documents with other numbers for the words -/
structure SameTokens (τ : Equiv.Perm Nat) (c e : Corpus) : Prop where
  lens : e.lens = c.lens
  w : ∀ d n, τ (e.w d n) = c.w d n

/-- Counts under other numbers of the words -/
def sums (τ : Equiv.Perm Nat) (s : Sums) : Sums := ⟨s.dk, fun k t => s.kt k (τ t), s.k⟩

/-- The state under other numbers of the words -/
def cstate (τ : Equiv.Perm Nat) (s : Cvb.State) : Cvb.State := ⟨s.z, sums τ s.n, sums τ s.v⟩

/-- The counts of a model under other numbers of the words -/
def counts (τ : Equiv.Perm Nat) (m : Counts) : Counts := ⟨m.rows, fun k t => m.kt k (τ t), m.k⟩

theorem bump_words (τ : Equiv.Perm Nat) (s : Sums) (d t k : Nat) (x : ℚ) : (sums τ s).bump d t k x = sums τ (s.bump d (τ t) k x) := by
  simp only [Sums.bump, sums, EmbeddingLike.apply_eq_iff_eq]

/-- What is needed of a compiled function: weights and updates follow the numbers of the words. -/
structure FollowsWords (ker : Kernel) : Prop where
  raw : ∀ τ c e, SameTokens τ c e → ∀ p s d n k, ker.raw p e (cstate τ s) d n k = ker.raw p c s d n k
  update : ∀ τ c e, SameTokens τ c e → ∀ d n s k m, ker.update e d n (cstate τ s) k m = cstate τ (ker.update c d n s k m)

theorem kernel0_words : FollowsWords kernel0 :=
  ⟨fun τ c e h p s d n k => by simp only [kernel0, raw0, cstate, sums, h.w],
    fun τ c e h d n s k m => by simp only [kernel0, update0, cstate, bump_words, h.w]⟩

theorem kernel64_words (ex : ℚ → ℚ) : FollowsWords (kernel64 ex) :=
  ⟨fun τ c e h p s d n k => by simp only [kernel64, raw2, cstate, sums, h.w],
    fun τ c e h d n s k m => by simp only [kernel64, update64, cstate, bump_words, h.w]⟩

theorem kernel32_words (ex : ℚ → ℚ) : FollowsWords (kernel32 ex) :=
  ⟨fun τ c e h p s d n k => by simp only [kernel32, raw2, cstate, sums, h.w],
    fun τ c e h d n s k m => by simp only [kernel32, update32, cstate, bump_words, h.w]⟩

variable {ker : Kernel} {p : Cvb.Params}

theorem topicLoop_words (hk : FollowsWords ker) (h : SameTokens τ c e) (d n : Nat) (w : Nat → ℚ) (denom : ℚ) (ks : List Nat) (s : Cvb.State) :
    topicLoop ker e d n w denom ks (cstate τ s)
      = (cstate τ (topicLoop ker c d n w denom ks s).1, (topicLoop ker c d n w denom ks s).2) := by
  induction ks generalizing s with
  | nil => rfl
  | cons k ks ih =>
    rw [topicLoop, topicLoop]
    by_cases hc : (ker.check && invalidProb denom (w k / denom)) = true
    · rw [if_pos hc, if_pos hc]
    · rw [if_neg hc, if_neg hc, hk.update τ c e h, ih]

theorem visit_words (hk : FollowsWords ker) (h : SameTokens τ c e) (s : Cvb.State) (tok : Nat × Nat) :
    visit ker p e (cstate τ s) tok = (cstate τ (visit ker p c s tok).1, (visit ker p c s tok).2) := by
  have hr : ker.raw p e (cstate τ s) tok.1 tok.2 = ker.raw p c s tok.1 tok.2 := funext fun k => hk.raw τ c e h p s tok.1 tok.2 k
  unfold visit
  rw [hr, topicLoop_words hk h]

theorem visitAll_words (hk : FollowsWords ker) (h : SameTokens τ c e) (toks : List (Nat × Nat)) (s : Cvb.State) :
    visitAll ker p e toks (cstate τ s) = (cstate τ (visitAll ker p c toks s).1, (visitAll ker p c toks s).2) := by
  induction toks generalizing s with
  | nil => rfl
  | cons t toks ih =>
    rw [visitAll, visitAll, visit_words hk h]
    rcases visit ker p c s t with ⟨s', _ | _⟩
    · exact ih s'
    · rfl

theorem tokens_words (h : SameTokens τ c e) : e.tokens = c.tokens := by
  unfold Corpus.tokens Corpus.len
  rw [h.lens]

theorem iterate_words (hk : FollowsWords ker) (h : SameTokens τ c e) (i : Nat) (s : Cvb.State) :
    iterate ker p e i (cstate τ s) = (cstate τ (iterate ker p c i s).1, (iterate ker p c i s).2) := by
  induction i generalizing s with
  | zero => rfl
  | succ i ih =>
    rw [iterate, iterate, tokens_words h, visitAll_words hk h]
    rcases visitAll ker p c c.tokens s with ⟨s', _ | _⟩
    · exact ih s'
    · rfl

theorem measure_words (hT : Keeps p.T τ) (s : Sums) : measure p (sums τ s) = sums τ (measure p s) := by
  have : ∀ k, ∑ u ∈ Finset.range p.T, (s.kt k (τ u) + p.b) = ∑ u ∈ Finset.range p.T, (s.kt k u + p.b) :=
    fun k => sum_columns hT fun u => s.kt k u + p.b
  simp only [Cvb.measure, sums, this]

theorem segment_words (hk : FollowsWords ker) (hT : Keeps p.T τ) (h : SameTokens τ c e) (s : Cvb.State) (i : Int) :
    segment ker p e (cstate τ s) i = cstate τ (segment ker p c s i) := by
  unfold Cvb.segment
  rw [iterate_words hk h]
  simp only [cstate, measure_words hT]

theorem segments_words (hk : FollowsWords ker) (hT : Keeps p.T τ) (h : SameTokens τ c e) (calls : List Int) (s : Cvb.State) :
    calls.foldl (segment ker p e) (cstate τ s) = cstate τ (calls.foldl (segment ker p c) s) :=
  foldl_map' _ _ (cstate τ) (fun s i => segment_words hk hT h s i) calls s

/-- A new query state, from the same random numbers, under other numbers of the words. -/
theorem cvb_start_words (h : SameTokens τ c e) (K : Nat) (r : Nat → Nat → Nat → ℚ) :
    newQueryState e K r = ⟨(newQueryState c K r).z,
      ⟨(newQueryState c K r).n.dk, fun k t => (newQueryState c K r).n.kt k (τ t), (newQueryState c K r).n.k⟩,
      ⟨(newQueryState c K r).v.dk, fun k t => (newQueryState c K r).v.kt k (τ t), (newQueryState c K r).v.k⟩⟩ := by
  have hw : ∀ d n t, e.w d n = t ↔ c.w d n = τ t := fun d n t => by rw [← h.w d n, EmbeddingLike.apply_eq_iff_eq]
  have hz : zeroTail e (initZ K r) = zeroTail c (initZ K r) := by
    funext d n k
    unfold zeroTail Corpus.len
    rw [h.lens]
  unfold newQueryState
  simp only [hz, calculateCounts, Corpus.len, Corpus.maxN, h.lens, hw]

/-- Training (or querying) the zero-order collapsed model with other numbers for the words gives the same topics of tokens and documents, and the words of the
topics under the new numbers. -/
theorem cvb0_words (hT : Keeps p.T τ) (h : SameTokens τ c e) (calls : List Int) (query : Bool) (m : Option Counts) (s : Cvb.State) :
    train0 p e calls query (m.map (counts τ)) (cstate τ s)
      = (train0 p c calls query m s).map fun r => (r.1.map fun m => ⟨m.rows, fun k t => m.kt k (τ t), m.k⟩,
        ⟨r.2.z, ⟨r.2.n.dk, fun k t => r.2.n.kt k (τ t), r.2.n.k⟩, ⟨r.2.v.dk, fun k t => r.2.v.kt k (τ t), r.2.v.k⟩⟩) := by
  unfold train0
  rw [h.lens]
  by_cases hl : c.lens.any (fun l => decide (l < 1)) = true
  · rw [if_pos hl, if_pos hl]
    rfl
  rw [if_neg hl, if_neg hl]
  cases m with
  | none =>
    simp only [Option.map_none, segments_words kernel0_words hT h]
    cases query <;> rfl
  | some m =>
    have h1 := segments_words kernel0_words hT h calls { s with n := s.n.addModel m }
    have h2 : (⟨(cstate τ s).z, (cstate τ s).n.addModel (counts τ m), (cstate τ s).v⟩ : Cvb.State)
      = cstate τ { s with n := s.n.addModel m } := rfl
    simp only [Option.map_some, h2, h1]
    cases query <;> rfl

/-- Training (or querying) the second-order collapsed model with other numbers for the words, in either precision. -/
theorem cvb_words (ex : ℚ → ℚ) (single : Bool) (hT : Keeps p.T τ) (h : SameTokens τ c e) (calls : List Int) (query : Bool) (m : Option Counts2)
    (s : Cvb.State) :
    train2 (if single then kernel32 ex else kernel64 ex) p e calls query (m.map fun m => ⟨counts τ m.n, counts τ m.v⟩) (cstate τ s)
      = (train2 (if single then kernel32 ex else kernel64 ex) p c calls query m s).map fun r =>
        (r.1.map fun m => ⟨⟨m.n.rows, fun k t => m.n.kt k (τ t), m.n.k⟩, ⟨m.v.rows, fun k t => m.v.kt k (τ t), m.v.k⟩⟩,
        ⟨r.2.z, ⟨r.2.n.dk, fun k t => r.2.n.kt k (τ t), r.2.n.k⟩, ⟨r.2.v.dk, fun k t => r.2.v.kt k (τ t), r.2.v.k⟩⟩) := by
  have hk : FollowsWords (if single then kernel32 ex else kernel64 ex) := by
    cases single
    · exact kernel64_words ex
    · exact kernel32_words ex
  generalize (if single then kernel32 ex else kernel64 ex) = ker at hk ⊢
  unfold train2
  rw [h.lens]
  by_cases hl : c.lens.any (fun l => decide (l < 1)) = true
  · rw [if_pos hl, if_pos hl]
    rfl
  rw [if_neg hl, if_neg hl]
  cases m with
  | none =>
    simp only [Option.map_none, segments_words hk hT h]
    cases query <;> rfl
  | some m =>
    have h1 := segments_words hk hT h calls { s with n := s.n.addModel m.n, v := s.v.addModel m.v }
    have h2 : (⟨(cstate τ s).z, (cstate τ s).n.addModel (counts τ m.n), (cstate τ s).v.addModel (counts τ m.v)⟩ : Cvb.State)
      = cstate τ { s with n := s.n.addModel m.n, v := s.v.addModel m.v } := rfl
    simp only [Option.map_some, h2, h1]
    cases query <;> rfl

end

/-! ## Examples: the words 0 and 2 exchanged -/

/-- Documents 0 0 2 and 1 with different priors of the words -/
def exP : Gibbs.Params := ⟨2, 3, [3, 1], fun n => [0, 0, 2, 1].getD n 0, fun _ _ => 1 / 2, fun v => (v + 1) / 10⟩

/-- The same with the words 0 and 2 exchanged: 2 2 0 and 1 -/
def exQ : Gibbs.Params := ⟨2, 3, [3, 1], fun n => Equiv.swap 0 2 (exP.w n), fun _ _ => 1 / 2, fun v => exP.b (Equiv.swap 0 2 v)⟩

theorem exQ_same : SameWords (Equiv.swap 0 2) exP exQ :=
  ⟨Renumber.swap_keeps (by decide) (by decide), rfl, rfl, rfl, fun n => Equiv.swap_apply_self 0 2 _, fun _ _ => rfl, fun _ => rfl⟩

def exRand : Nat → Gibbs.Rand := fun i => ⟨fun d => 1000000000 + d, fun n => (n + 1) * 400000000 + i⟩

/-- The words differ, and the sampler runs. -/
example : exP.w 0 = 0 ∧ exQ.w 0 = 2 ∧ exP.b 0 ≠ exQ.b 0 ∧ (Gibbs.train exP ⟨3, 1, 1⟩ (fun n => n % 2) exRand exRand).isSome = true := by decide +kernel

example : (Gibbs.train exQ ⟨3, 1, 1⟩ (fun n => n % 2) exRand exRand).map (fun st => st.vocabSum 1 2)
    = (Gibbs.train exP ⟨3, 1, 1⟩ (fun n => n % 2) exRand exRand).map fun st => st.vocabSum 1 0 := by
  rw [gibbs_words exQ_same, Option.map_map]
  rfl

example : (Gibbs.query exQ ⟨fun k v => k + (Equiv.swap 0 2 v : Nat) + 1, 4⟩ ⟨3, 1, 1⟩ (fun n => n % 2) exRand exRand).map (fun r => r.2.topicSum 0 1)
    = (Gibbs.query exP ⟨fun k v => k + v + 1, 4⟩ ⟨3, 1, 1⟩ (fun n => n % 2) exRand exRand).map fun r => r.2.topicSum 0 1 := by
  have h := gibbs_query_words exQ_same ⟨fun k v => k + v + 1, 4⟩ ⟨3, 1, 1⟩ (fun n => n % 2) exRand exRand
  rw [h, Option.map_map]
  rfl

/-- Document 0 0 2 and document 1, as lists of their own -/
def exC : Cvb.Corpus := ⟨[3, 1], fun d n => if d = 0 then (if n = 2 then 2 else 0) else 1⟩

def exE : Cvb.Corpus := ⟨[3, 1], fun d n => Equiv.swap 0 2 (exC.w d n)⟩

theorem exE_same : SameTokens (Equiv.swap 0 2) exC exE := ⟨rfl, fun _ _ => Equiv.swap_apply_self 0 2 _⟩

example : exC.w 0 0 = 0 ∧ exE.w 0 0 = 2 ∧ (Cvb.train0 ⟨2, 3, fun _ => 1, 1⟩ exC [2] false none (Cvb.newQueryState exC 2 fun d n k => d + n + 2 * k + 1)).isOk = true := by
  decide +kernel

/-- Trained from the same random numbers -/
example : (Cvb.train0 ⟨2, 3, fun _ => 1, 1⟩ exE [10] false none (Cvb.newQueryState exE 2 fun d n k => d + n + 2 * k + 1)).map (fun r => r.2.n.kt 1 2)
    = (Cvb.train0 ⟨2, 3, fun _ => 1, 1⟩ exC [10] false none (Cvb.newQueryState exC 2 fun d n k => d + n + 2 * k + 1)).map fun r => r.2.n.kt 1 0 := by
  have h := cvb0_words (p := ⟨2, 3, fun _ => 1, 1⟩) (Renumber.swap_keeps (by decide) (by decide)) exE_same [10] false none
    (Cvb.newQueryState exC 2 fun d n k => d + n + 2 * k + 1)
  rw [cvb_start_words exE_same 2]
  refine (congrArg (Except.map fun r => r.2.n.kt 1 2) h).trans ?_
  generalize Cvb.train0 _ exC _ _ _ _ = t
  cases t <;> rfl

end Verif.Props.RenumberTokens
