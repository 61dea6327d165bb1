import Verif.Model.DmrEstimates
import Verif.Props.Dmr

/-!
# The estimates of Dirichlet-multinomial regression (C277, C278)
-/

namespace Verif.Props.DmrEstimates

open Verif Verif.Gibbs Verif.Dmr Verif.DmrEstimates Verif.Props.Gibbs Verif.Props.Dmr

/-! ## Specification -/

/-- Strictly positive numbers that sum to one -/
def Distribution (n : Nat) (f : Nat → ℚ) : Prop := (∀ i < n, 0 < f i) ∧ ∑ i ∈ Finset.range n, f i = 1

/-- `n` distributions have been added up. -/
def SumOf (n N : Nat) (f : Nat → ℚ) : Prop :=
  (∀ i < N, if n = 0 then f i = 0 else 0 < f i) ∧ ∑ i ∈ Finset.range N, f i = n

theorem SumOf.zero (N : Nat) : SumOf 0 N (fun _ => 0) := ⟨fun _ _ => by simp, by simp⟩

theorem SumOf.add {n N : Nat} {f g : Nat → ℚ} (hf : SumOf n N f) (hg : Distribution N g) :
    SumOf (n + 1) N (fun i => f i + g i) := by
  refine ⟨fun i hi => ?_, ?_⟩
  · rw [if_neg (by omega)]
    have h1 := hf.1 i hi
    have h2 := hg.1 i hi
    split at h1 <;> linarith
  · rw [Finset.sum_add_distrib, hf.2, hg.2]; push_cast; rfl

theorem SumOf.div {n N : Nat} {f : Nat → ℚ} (hf : SumOf n N f) (hn : n ≠ 0) : Distribution N (fun i => f i / n) := by
  have hn' : (0 : ℚ) < (n : ℚ) := by exact_mod_cast Nat.pos_of_ne_zero hn
  refine ⟨fun i hi => ?_, ?_⟩
  · have := hf.1 i hi
    rw [if_neg hn] at this
    exact div_pos this hn'
  · rw [← Finset.sum_div, hf.2, div_self hn'.ne']

/-! ## One sample -/

theorem topics_sample (p : Params) (hK : 0 < p.K) (s : Tables) (h : DocOk p s) (d : Nat) (ha : ∀ k < p.K, 0 < p.a d k) :
    Distribution p.K (fun k => ((s.ndk d k : ℚ) + p.a d k) / ((p.lens.getD d 0 : ℚ) + p.aSum d)) := by
  have a1 : 0 < p.aSum d := Finset.sum_pos (fun k hk => ha k (Finset.mem_range.mp hk)) ⟨0, Finset.mem_range.mpr hK⟩
  have a4 : (0 : ℚ) ≤ (p.lens.getD d 0 : ℚ) := Nat.cast_nonneg _
  refine ⟨fun k hk => ?_, ?_⟩
  · have a3 : (0 : ℚ) ≤ (s.ndk d k : ℚ) := by
      rw [h.ndk]; exact_mod_cast cnt_nonneg _ _ _
    have a2 := ha k hk
    exact div_pos (by linarith) (by linarith)
  · rw [← Finset.sum_div, Finset.sum_add_distrib]
    have e : ∑ k ∈ Finset.range p.K, (s.ndk d k : ℚ) = (p.lens.getD d 0 : ℚ) := by
      exact_mod_cast docOk_sum p s h d
    rw [e, show ∑ k ∈ Finset.range p.K, p.a d k = p.aSum d from rfl, div_self (by linarith)]

theorem words_sample (p : Params) (hT : 0 < p.T) (hb : ∀ v < p.T, 0 < p.b v) (hw : ValidWords p) (s : Tables)
    (h : WordOk p s) (k : Nat) : Distribution p.T (fun v => ((s.nkv k v : ℚ) + p.b v) / ((s.nk k : ℚ) + p.bSum)) := by
  have a1 : 0 < p.bSum := Finset.sum_pos (fun v hv => hb v (Finset.mem_range.mp hv)) ⟨0, Finset.mem_range.mpr hT⟩
  have a4 : (0 : ℚ) ≤ (s.nk k : ℚ) := by rw [h.nk]; exact_mod_cast cnt_nonneg _ _ _
  refine ⟨fun v hv => ?_, ?_⟩
  · have a2 := hb v hv
    have a3 : (0 : ℚ) ≤ (s.nkv k v : ℚ) := by rw [h.nkv]; exact_mod_cast cnt_nonneg _ _ _
    exact div_pos (by linarith) (by linarith)
  · rw [← Finset.sum_div, Finset.sum_add_distrib]
    have e : ∑ v ∈ Finset.range p.T, (s.nkv k v : ℚ) = (s.nk k : ℚ) := by
      exact_mod_cast wordOk_sum p hw s h k
    rw [e, show ∑ v ∈ Finset.range p.T, p.b v = p.bSum from rfl, div_self (by linarith)]

/-! ## One call of the sampler -/

/-- The estimates of the words after a call of the sampler in training: `n` samples before, `n + count` after. -/
theorem words_call (p : Params) (hK : p.K ≤ 256) (hT : 0 < p.T) (hb : ∀ v < p.T, 0 < p.b v) (hw : ValidWords p)
    (count thin : Nat) (rnd : Nat → Rand) (st st' : State) (h : DocOk p st.tables ∧ WordOk p st.tables) (n k : Nat)
    (hs : SumOf n p.T (st.vocabSum k)) (hrun : Gibbs.sample p false count thin rnd st = some st') :
    SumOf (n + st'.count) p.T (st'.vocabSum k) := by
  refine (sample_inv p false thin rnd st
    (fun _ s => (DocOk p s.tables ∧ WordOk p s.tables) ∧ SumOf (n + s.count) p.T (s.vocabSum k)) ⟨h, hs⟩ ?_ count st' hrun).2
  intro i s t ⟨h1, h2⟩ ht
  have hok := sweep_ok p hK (rnd i) s.tables t h1 (by simpa using ht)
  split
  · exact ⟨hok, h2.add (words_sample p hT hb hw t hok.2 k)⟩
  · exact ⟨hok, h2⟩

/-- The estimates of a document's topics after a call of the sampler, in training or in a query -/
theorem topics_call (p : Params) (hK0 : 0 < p.K) (hK : p.K ≤ 256) (isQuery : Bool) (d : Nat)
    (ha : ∀ k < p.K, 0 < p.a d k) (count thin : Nat) (rnd : Nat → Rand) (st st' : State) (h : DocOk p st.tables) (n : Nat)
    (hs : SumOf n p.K (st.topicSum d)) (hrun : Gibbs.sample p isQuery count thin rnd st = some st') :
    DocOk p st'.tables ∧ SumOf (n + st'.count) p.K (st'.topicSum d) := by
  refine sample_inv p isQuery thin rnd st
    (fun _ s => DocOk p s.tables ∧ SumOf (n + s.count) p.K (s.topicSum d)) ⟨h, hs⟩ ?_ count st' hrun
  intro i s t ⟨h1, h2⟩ ht
  have hok := sweep_docOk p hK _ (rnd i) s.tables t h1 ht
  split
  · exact ⟨hok, h2.add (topics_sample p hK0 t hok d ha)⟩
  · exact ⟨hok, h2⟩

/-! ## C277: training -/

/-- What the rounds of training keep: the sums are sums of `sampleCount` distributions. -/
theorem rounds_words (p : Params) (hK : p.K ≤ 256) (hT : 0 < p.T) (hb : ∀ v < p.T, 0 < p.b v) (hw : ValidWords p) (F : Nat)
    (X : Nat → Nat → ℚ) (opt : List Sample → Nat → (Nat → Nat → ℚ) → Nat → Nat → ℚ) (wui thin S : Nat)
    (rnd : Nat → Nat → Rand) (k n : Nat) : ∀ l l', LoopOk p (wui / thin) S 0 l → SumOf l.sampleCount p.T (l.st.vocabSum k) →
    (List.range n).foldlM (fun l i => Dmr.round p F X opt wui thin (rnd (i + 1)) l) l = .ok l' →
    SumOf l'.sampleCount p.T (l'.st.vocabSum k) := by
  induction n with
  | zero => intro l l' _ h hrun; cases hrun; exact h
  | succ n ih =>
    intro l l' hl h hrun
    rw [List.range_succ, List.foldlM_append] at hrun
    rcases hn : (List.range n).foldlM (fun l i => Dmr.round p F X opt wui thin (rnd (i + 1)) l) l with e | l1
    · rw [hn] at hrun; cases hrun
    rw [hn] at hrun
    have h1 := rounds_ok p hK F X opt wui thin S rnd n l l1 hl hn
    have h2 := ih l l1 hl h hn
    simp only [bind, Except.bind, List.foldlM_cons, List.foldlM_nil, pure, Except.pure] at hrun
    unfold Dmr.round at hrun
    rcases hs : Dmr.sample (withWeights p F X l1.W) false wui thin (rnd (n + 1)) l1.st l1.buf with e | x
    · rw [hs] at hrun; cases hrun
    rw [hs] at hrun
    have hr := sample_ok _ _ _ _ _ _ _ _ hs
    cases hrun
    exact words_call (withWeights p F X l1.W) hK hT hb hw wui thin _ l1.st x.1
      ((docOk_withWeights p F X l1.W _).mpr h1.tables) _ k h2 hr.run

theorem rounds_topics (p : Params) (hK0 : 0 < p.K) (hK : p.K ≤ 256) (F : Nat)
    (X : Nat → Nat → ℚ) (opt : List Sample → Nat → (Nat → Nat → ℚ) → Nat → Nat → ℚ) (d : Nat)
    (hopt : ∀ u n W, ∀ k < p.K, 0 < alphas F X (opt u n W) d k) (wui thin S : Nat)
    (rnd : Nat → Nat → Rand) (n : Nat) : ∀ l l', LoopOk p (wui / thin) S 0 l → (∀ k < p.K, 0 < alphas F X l.W d k) →
    SumOf l.sampleCount p.K (l.st.topicSum d) →
    (List.range n).foldlM (fun l i => Dmr.round p F X opt wui thin (rnd (i + 1)) l) l = .ok l' →
    (∀ k < p.K, 0 < alphas F X l'.W d k) ∧ SumOf l'.sampleCount p.K (l'.st.topicSum d) := by
  induction n with
  | zero => intro l l' _ h0 h hrun; cases hrun; exact ⟨h0, h⟩
  | succ n ih =>
    intro l l' hl h0 h hrun
    rw [List.range_succ, List.foldlM_append] at hrun
    rcases hn : (List.range n).foldlM (fun l i => Dmr.round p F X opt wui thin (rnd (i + 1)) l) l with e | l1
    · rw [hn] at hrun; cases hrun
    rw [hn] at hrun
    have h1 := rounds_ok p hK F X opt wui thin S rnd n l l1 hl hn
    obtain ⟨h2, h3⟩ := ih l l1 hl h0 h hn
    simp only [bind, Except.bind, List.foldlM_cons, List.foldlM_nil, pure, Except.pure] at hrun
    unfold Dmr.round at hrun
    rcases hs : Dmr.sample (withWeights p F X l1.W) false wui thin (rnd (n + 1)) l1.st l1.buf with e | x
    · rw [hs] at hrun; cases hrun
    rw [hs] at hrun
    have hr := sample_ok _ _ _ _ _ _ _ _ hs
    cases hrun
    refine ⟨hopt _ _ _, ?_⟩
    exact (topics_call (withWeights p F X l1.W) hK0 hK false d h2 wui thin _ l1.st x.1
      ((docOk_withWeights p F X l1.W _).mpr h1.tables).1 _ h3 hr.run).2

/-- The start of the loop: the sums are zero. -/
theorem start_sums (p : Params) (b : Nat) (rnd : Nat → Rand) (s : Tables) (S : Nat)
    (r : State × Buffer × List Sample)
    (hrun : Dmr.sample p false b (b + 1) rnd ⟨s, fun _ _ => 0, fun _ _ => 0, 0⟩ (Buffer.zeros S) = .ok r) :
    r.1.topicSum = (fun _ _ => 0) ∧ r.1.vocabSum = fun _ _ => 0 :=
  sample_none p false _ _ (by omega) _ _ _ (sample_ok _ _ _ _ _ _ _ _ hrun).run

/-- The number of samples the estimates are divided by -/
theorem trained_samples (p : Params) (hK : p.K ≤ 256) (F : Nat) (X : Nat → Nat → ℚ)
    (opt : List Sample → Nat → (Nat → Nat → ℚ) → Nat → Nat → ℚ) (plan : Dmr.Plan) (z : Nat → Nat) (hz : ValidTopics p z)
    (W : Nat → Nat → ℚ) (rnd : Nat → Nat → Rand) (l : Loop) (hrun : Dmr.train p F X opt plan z W rnd = .ok (.ok l)) :
    (trained l).1.numSamples = rounds (plan.iterations - plan.burnIn) plan.wui * (plan.wui / plan.thin)
      ∧ (trained l).2.numSamples = rounds (plan.iterations - plan.burnIn) plan.wui * (plan.wui / plan.thin) := by
  unfold Dmr.train at hrun
  split at hrun
  · cases hrun
  have hrun := Except.ok.inj hrun
  simp only [bind, Except.bind] at hrun
  split at hrun
  · cases hrun
  rename_i r hr
  have h0 := start_ok p hK F X z hz W (plan.wui / plan.thin) _ _ _ r hr
  have h := rounds_ok p hK F X opt plan.wui plan.thin _ rnd _ _ l h0 hrun
  exact ⟨h.sampleCount, h.sampleCount⟩

/-- **C277, words.** Whatever the weights and the draws, if training succeeds and takes a sample, every topic's word
estimate is a distribution. -/
theorem word_estimates_partial (p : Params) (hK : p.K ≤ 256) (hT : 0 < p.T) (hb : ∀ v < p.T, 0 < p.b v) (hw : ValidWords p)
    (F : Nat) (X : Nat → Nat → ℚ) (opt : List Sample → Nat → (Nat → Nat → ℚ) → Nat → Nat → ℚ) (plan : Dmr.Plan)
    (z : Nat → Nat) (hz : ValidTopics p z) (W : Nat → Nat → ℚ) (rnd : Nat → Nat → Rand) (l : Loop)
    (hrun : Dmr.train p F X opt plan z W rnd = .ok (.ok l)) (hs : (trained l).1.numSamples ≠ 0) :
    ∃ φ, DmrEstimates.wordDists (trained l).1 = some φ ∧ ∀ k, Distribution p.T (φ k) := by
  refine ⟨_, if_neg hs, fun k => ?_⟩
  refine SumOf.div ?_ hs
  unfold Dmr.train at hrun
  split at hrun
  · cases hrun
  have hrun := Except.ok.inj hrun
  simp only [bind, Except.bind] at hrun
  split at hrun
  · cases hrun
  rename_i r hr
  have h0 := start_ok p hK F X z hz W (plan.wui / plan.thin) _ _ _ r hr
  refine rounds_words p hK hT hb hw F X opt plan.wui plan.thin _ rnd k _ _ l h0 ?_ hrun
  simp only
  rw [(start_sums _ _ _ _ _ r hr).2]
  exact SumOf.zero _

/-- **C277, topics.** A document whose priors are positive under the weights of every round has a topic estimate which is
a distribution. -/
theorem topic_estimates_partial (p : Params) (hK0 : 0 < p.K) (hK : p.K ≤ 256)
    (F : Nat) (X : Nat → Nat → ℚ) (opt : List Sample → Nat → (Nat → Nat → ℚ) → Nat → Nat → ℚ) (plan : Dmr.Plan)
    (z : Nat → Nat) (hz : ValidTopics p z) (W : Nat → Nat → ℚ) (d : Nat) (hW : ∀ k < p.K, 0 < alphas F X W d k)
    (hopt : ∀ u n W, ∀ k < p.K, 0 < alphas F X (opt u n W) d k) (rnd : Nat → Nat → Rand) (l : Loop)
    (hrun : Dmr.train p F X opt plan z W rnd = .ok (.ok l)) (hs : (trained l).2.numSamples ≠ 0) :
    ∃ θ, DmrEstimates.topicDists (trained l).2 = some θ ∧ Distribution p.K (θ d) := by
  refine ⟨_, if_neg hs, ?_⟩
  refine SumOf.div ?_ hs
  unfold Dmr.train at hrun
  split at hrun
  · cases hrun
  have hrun := Except.ok.inj hrun
  simp only [bind, Except.bind] at hrun
  split at hrun
  · cases hrun
  rename_i r hr
  have h0 := start_ok p hK F X z hz W (plan.wui / plan.thin) _ _ _ r hr
  refine (rounds_topics p hK0 hK F X opt d hopt plan.wui plan.thin _ rnd _ _ l h0 hW ?_ hrun).2
  simp only
  rw [(start_sums _ _ _ _ _ r hr).1]
  exact SumOf.zero _

/-! ## C278: queries -/

theorem query_run (p : Params) (hK : p.K ≤ 256) (F : Nat) (X : Nat → Nat → ℚ) (φ vs : Nat → Nat → ℚ)
    (plan : Dmr.Plan) (z : Nat → Nat) (hz : ValidTopics p z) (W : Nat → Nat → ℚ) (rnd1 rnd2 : Nat → Rand)
    (r : State × Buffer) (hrun : Dmr.query p F X φ vs plan z W rnd1 rnd2 = .ok (.ok r)) :
    r.1.vocabSum = vs ∧ r.1.count = plan.iterations / plan.thin ∧
      (0 < p.K → ∀ d, (∀ k < p.K, 0 < alphas F X W d k) → SumOf r.1.count p.K (r.1.topicSum d)) := by
  unfold Dmr.query at hrun
  split at hrun
  · cases hrun
  have hrun := Except.ok.inj hrun
  simp only [bind, Except.bind, pure, Except.pure] at hrun
  generalize hs0 : (⟨sumSuffStats p.w p.lens ⟨z, fun _ _ => 0, fun k v => ⌊φ k v * 1000000⌋,
    fun k => ∑ v ∈ Finset.range p.T, ⌊φ k v * 1000000⌋⟩, fun _ _ => 0, vs, 0⟩ : State) = s0 at hrun
  have hz0 : ValidTopics (withWeights p F X W) s0.tables.z := by
    rw [← hs0, sumSuffStats_eq]; exact hz
  have hd0 : ∀ d k, s0.tables.ndk d k = count (withWeights p F X W).lens (fun d' n => d' = d ∧ s0.tables.z n = k) := by
    intro d k
    rw [← hs0, sumSuffStats_eq]
    simp only [zero_add]
    exact cnt_eq_count _ _ _ _ (fun d n => by simp)
  have hdoc : DocOk (withWeights p F X W) s0.tables :=
    ⟨fun d k => (hd0 d k).trans (cnt_eq_count _ _ _ _ (fun d n => by simp)).symm, (valid_tokens _ _).mp hz0⟩
  split at hrun
  · cases hrun
  rename_i r1 h1
  have g1 := sample_ok _ _ _ _ _ _ _ _ h1
  split at hrun
  · cases hrun
  rename_i r2 h2
  have g2 := sample_ok _ _ _ _ _ _ _ _ h2
  have he := Except.ok.inj hrun
  have a1 := query_sampling_leaves_model (withWeights p F X W) hK _ _ _ s0 r1.1 hz0 hd0 g1.run
  have a2 := query_sampling_leaves_model (withWeights p F X W) hK _ _ _ r1.1 r2.1 a1.2.2.2.1 a1.2.2.2.2 g2.run
  subst he
  refine ⟨?_, g2.count, fun hK0 d ha => ?_⟩
  · simp only
    rw [a2.2.2.1, a1.2.2.1, ← hs0]
  · have hts : s0.topicSum = fun _ _ => 0 := by rw [← hs0]
    have b1 := topics_call (withWeights p F X W) hK0 hK true d ha _ _ _ s0 r1.1 hdoc 0
      (by rw [hts]; exact SumOf.zero _) g1.run
    have hc1 : r1.1.count = 0 := by rw [g1.count]; exact Nat.div_eq_of_lt (by omega)
    rw [hc1] at b1
    have b2 := topics_call (withWeights p F X W) hK0 hK true d ha _ _ _ r1.1 r2.1 b1.1 0 b1.2 g2.run
    have b3 := b2.2
    rw [Nat.zero_add] at b3
    exact b3

/-- **C278, exact behaviour.** A query that succeeds returns a model whose word distributions are those of the queried
model, times the number of samples of training over the number of samples of the query, which is the number of all its
iterations, burn-in included, over the thinning. -/
theorem query_rescales (p : Params) (hK : p.K ≤ 256) (F : Nat) (X : Nat → Nat → ℚ) (m m' : Model) (q : Query)
    (plan : Dmr.Plan) (z : Nat → Nat) (hz : ValidTopics p z) (W : Nat → Nat → ℚ) (rnd1 rnd2 : Nat → Rand)
    (hrun : queryModel p F X m plan z W rnd1 rnd2 = some (.ok (.ok (m', q)))) :
    m'.numSamples = plan.iterations / plan.thin ∧
    (plan.iterations / plan.thin = 0 → DmrEstimates.wordDists m' = none) ∧
    (plan.iterations / plan.thin ≠ 0 → ∃ φ φ', DmrEstimates.wordDists m = some φ ∧ DmrEstimates.wordDists m' = some φ' ∧
      ∀ k v, φ' k v = φ k v * ((m.numSamples : ℚ) / (plan.iterations / plan.thin : Nat))) := by
  unfold queryModel at hrun
  rcases hφ : DmrEstimates.wordDists m with _ | φ
  · rw [hφ] at hrun; cases hrun
  rw [hφ] at hrun
  have hm0 : m.numSamples ≠ 0 := by
    intro h0; unfold DmrEstimates.wordDists at hφ; rw [if_pos h0] at hφ; cases hφ
  simp only [Option.map_some, Option.some.injEq] at hrun
  rcases h1 : Dmr.query p F X φ m.vocabSum plan z W rnd1 rnd2 with e | e | r
  · rw [h1] at hrun; cases hrun
  · rw [h1] at hrun; cases hrun
  rw [h1] at hrun
  have he : queried r = (m', q) := Except.ok.inj (Except.ok.inj hrun)
  obtain ⟨h2, h3, -⟩ := query_run p hK F X φ m.vocabSum plan z hz W rnd1 rnd2 r h1
  have hm : m' = ⟨m.vocabSum, plan.iterations / plan.thin⟩ := by
    rw [← (Prod.mk.inj he).1, h2, h3]
  subst hm
  refine ⟨rfl, fun h => if_pos h, fun h => ⟨_, _, rfl, if_neg h, fun k v => ?_⟩⟩
  have hφ' : φ = fun k v => m.vocabSum k v / m.numSamples := by
    unfold DmrEstimates.wordDists at hφ; rw [if_neg hm0] at hφ; exact (Option.some.inj hφ).symm
  rw [hφ']
  have : ((m.numSamples : Nat) : ℚ) ≠ 0 := by exact_mod_cast hm0
  simp only
  field_simp

/-- **C278 (partial)** The word distributions are preserved exactly when the query takes as many samples as training did. -/
theorem query_preserves_partial (p : Params) (hK : p.K ≤ 256) (F : Nat) (X : Nat → Nat → ℚ) (m m' : Model) (q : Query)
    (plan : Dmr.Plan) (z : Nat → Nat) (hz : ValidTopics p z) (W : Nat → Nat → ℚ) (rnd1 rnd2 : Nat → Rand)
    (hrun : queryModel p F X m plan z W rnd1 rnd2 = some (.ok (.ok (m', q)))) (k v : Nat) (hkv : m.vocabSum k v ≠ 0) :
    (∃ φ φ', DmrEstimates.wordDists m = some φ ∧ DmrEstimates.wordDists m' = some φ' ∧ φ' k v = φ k v) ↔
      m.numSamples = plan.iterations / plan.thin := by
  obtain ⟨h1, h2, h3⟩ := query_rescales p hK F X m m' q plan z hz W rnd1 rnd2 hrun
  constructor
  · rintro ⟨φ, φ', a, b, c⟩
    have hn : plan.iterations / plan.thin ≠ 0 := fun h => by rw [h2 h] at b; cases b
    obtain ⟨ψ, ψ', a', b', c'⟩ := h3 hn
    rw [a] at a'; rw [b] at b'
    cases a'; cases b'
    have hm0 : m.numSamples ≠ 0 := by
      intro h0; unfold DmrEstimates.wordDists at a; rw [if_pos h0] at a; cases a
    have hφ : φ k v = m.vocabSum k v / m.numSamples := by
      unfold DmrEstimates.wordDists at a; rw [if_neg hm0] at a; rw [← Option.some.inj a]
    have hm : ((m.numSamples : Nat) : ℚ) ≠ 0 := by exact_mod_cast hm0
    have hφ0 : φ k v ≠ 0 := by rw [hφ]; exact div_ne_zero hkv hm
    rw [c' k v] at c
    have hone := mul_left_cancel₀ hφ0 (c.trans (mul_one _).symm)
    have hn' : (((plan.iterations / plan.thin : Nat)) : ℚ) ≠ 0 := by exact_mod_cast hn
    rw [div_eq_one_iff_eq hn'] at hone
    exact_mod_cast hone
  · intro h
    have hm0 : m.numSamples ≠ 0 := by
      intro h0
      unfold queryModel DmrEstimates.wordDists at hrun
      rw [if_pos h0] at hrun; cases hrun
    obtain ⟨φ, φ', a, b, c⟩ := h3 (by rw [← h]; exact hm0)
    have hm : ((m.numSamples : Nat) : ℚ) ≠ 0 := by exact_mod_cast hm0
    exact ⟨φ, φ', a, b, by rw [c, ← h, div_self hm, mul_one]⟩

/-- The topic estimate of a query is a distribution for every document whose priors are positive. -/
theorem query_topic_estimates (p : Params) (hK0 : 0 < p.K) (hK : p.K ≤ 256) (F : Nat) (X : Nat → Nat → ℚ) (m m' : Model)
    (q : Query) (plan : Dmr.Plan) (z : Nat → Nat) (hz : ValidTopics p z) (W : Nat → Nat → ℚ) (rnd1 rnd2 : Nat → Rand)
    (d : Nat) (hW : ∀ k < p.K, 0 < alphas F X W d k)
    (hrun : queryModel p F X m plan z W rnd1 rnd2 = some (.ok (.ok (m', q)))) (hs : q.numSamples ≠ 0) :
    ∃ θ, DmrEstimates.topicDists q = some θ ∧ Distribution p.K (θ d) := by
  unfold queryModel at hrun
  rcases hφ : DmrEstimates.wordDists m with _ | φ
  · rw [hφ] at hrun; cases hrun
  rw [hφ] at hrun
  simp only [Option.map_some, Option.some.injEq] at hrun
  rcases h1 : Dmr.query p F X φ m.vocabSum plan z W rnd1 rnd2 with e | e | r
  · rw [h1] at hrun; cases hrun
  · rw [h1] at hrun; cases hrun
  rw [h1] at hrun
  have he : queried r = (m', q) := Except.ok.inj (Except.ok.inj hrun)
  have h2 := (query_run p hK F X φ m.vocabSum plan z hz W rnd1 rnd2 r h1).2.2 hK0 d hW
  refine ⟨_, if_neg hs, ?_⟩
  rw [← (Prod.mk.inj he).2] at hs ⊢
  exact h2.div hs

/-- **C278, violated** for the default plans: training for `n` iterations takes at least ten samples, a query of at most
19 iterations (longer ones write outside of their buffer, C59) takes at most four. -/
theorem default_plans_violation (n n' : Nat) (hn : 0 < n) (hn' : n' ≤ 19) :
    let t := Dmr.newTrainPlan n (-1) (-1) (-1)
    let q := Dmr.newTrainPlan n' (-1) (-1) (-1)
    10 ≤ rounds (t.iterations - t.burnIn) t.wui * (t.wui / t.thin) ∧ q.iterations / q.thin ≤ 4 := by
  intro t q
  obtain ⟨h1, h2, h3, -⟩ := default_training_plan n
  have h4 := (rounds_pos n t.wui h3).mpr hn
  refine ⟨?_, ?_⟩
  · rw [show t.iterations - t.burnIn = n from h1, show t.wui / t.thin = 10 from h2]
    omega
  · simp only [q, Dmr.newTrainPlan, show ((-1 : Int) < 0) = True by simp, if_true, if_pos (show n' ≤ 500 by omega)]
    omega

/-! ## Witnesses -/

/-- One document of two tokens, both the word 0 -/
def exP1 : Params := ⟨2, 2, [2], fun _ => 0, fun _ _ => 0, fun _ => 1 / 10⟩

/-- One feature of value minus one -/
def exXneg : Nat → Nat → ℚ := fun _ _ => -1

def estimate (r : Py (Except Fault Loop)) (d k : Nat) : Option ℚ :=
  match r with
  | .ok (.ok l) => (DmrEstimates.topicDists (trained l).2).map (fun θ => θ d k)
  | _ => none

/-- **C277, violated.** With the initial weights and a negative feature, training succeeds and gives the topics the
"probabilities" 39/38 and -1/38. -/
theorem negative_feature_violation :
    estimate (Dmr.train exP1 1 exXneg (fun _ _ W => W) ⟨1, 0, 1, 1⟩ (fun _ => 0) initialWeights exRnd) 0 0 = some (39 / 38)
      ∧ estimate (Dmr.train exP1 1 exXneg (fun _ _ W => W) ⟨1, 0, 1, 1⟩ (fun _ => 0) initialWeights exRnd) 0 1
        = some (-1 / 38) := by decide +kernel

/-! ## Examples -/

/-- a plan with three rounds of two samples -/
example : ∃ l φ θ, Dmr.train exP 1 exX (fun _ _ _ => initialWeights) ⟨12, 0, 2, 4⟩ (fun n => n % 2) initialWeights exRnd
      = .ok (.ok l) ∧ (trained l).1.numSamples = 6 ∧ DmrEstimates.wordDists (trained l).1 = some φ
      ∧ DmrEstimates.topicDists (trained l).2 = some θ ∧ Distribution 3 (φ 0) ∧ Distribution 2 (θ 1) := by
  obtain ⟨l, hl⟩ := exTrain
  obtain ⟨h1, h2⟩ := trained_samples exP (by decide) 1 exX _ ⟨12, 0, 2, 4⟩ _ exP_topics _ _ l hl
  have h3 : (trained l).1.numSamples = 6 := h1.trans (by decide)
  have h4 : (trained l).2.numSamples = 6 := h2.trans (by decide)
  obtain ⟨φ, a, b⟩ := word_estimates_partial exP (by decide) (by decide) (fun _ _ => by norm_num [exP]) exP_words 1 exX _
    ⟨12, 0, 2, 4⟩ _ exP_topics _ _ l hl (by omega)
  obtain ⟨θ, c, e⟩ := topic_estimates_partial exP (by decide) (by decide) 1 exX _ ⟨12, 0, 2, 4⟩ _ exP_topics _ 1
    (fun k hk => exP_good.1 1 k (by decide) hk) (fun _ _ _ k hk => exP_good.1 1 k (by decide) hk) _ l hl (by omega)
  exact ⟨l, φ, θ, hl, h3, a, c, b 0, e⟩

def wordEstimate (r : Option (Py (Except Fault (Model × Query)))) (k v : Nat) : Option ℚ :=
  match r with
  | some (.ok (.ok x)) => (DmrEstimates.wordDists x.1).map (fun φ => φ k v)
  | _ => none

/-- A model of six samples, queried with three sweeps without burn-in: a word of probability 1/3 comes back as 2/3. -/
example : wordEstimate (queryModel exP 1 exX ⟨fun _ _ => 2, 6⟩ ⟨3, 0, 1, 1⟩ (fun n => n % 2) initialWeights exRand exRand) 0 0
    = some (2 / 3) := by decide +kernel

end Verif.Props.DmrEstimates
