import Verif.Props.Twins
import Verif.Props.Gibbs
import Verif.Props.Cvb0
import Verif.Props.Cvb2
import Verif.Props.Vb
import Verif.Props.VbPython

/-!
# Words that do not occur and documents without words (C317, C318)

Training sees nothing of a word that is in no document, so that the prior alone can speak about it; a query sees nothing of a
document without words.
-/

namespace Verif.Props.Absent

open Verif Verif.Ctm
open Verif.Mom (Data)
open Verif.Props.Ctm (Topics expectedCount vocab_update counts_conserved vocab_dist)

/-! ## Words that do not occur: the models with a table of counts -/

/-- Word `t` is in no document. -/
def Unseen (x : Data) (t : Nat) : Prop := ∀ d, d < x.D → x.words d t = 0

/-- The words of which `U` holds have the weight of the prior alone: the `total` tokens are shared among the topics, and in a topic
with `n` tokens each of these words has the probability `prior / (n + T * prior)`. -/
def PriorOnly (K T : Nat) (prior total : ℝ) (U : Nat → Prop) (vocab : Nat → Nat → ℝ) : Prop :=
  ∃ N : Nat → ℝ, (∀ k, k < K → 0 ≤ N k) ∧ ∑ k ∈ Finset.range K, N k = total ∧
    ∀ k, k < K → ∀ t, t < T → U t → vocab k t = prior / (N k + T * prior)

/-- The number of tokens of the corpus -/
noncomputable def size (x : Data) : ℝ := ∑ d ∈ Finset.range x.D, (x.len d : ℝ)

theorem newVocab_prior (x : Data) (K : Nat) (prior : ℝ) (hK : 0 < K) (means vocab : Nat → Nat → ℝ) (hv : Topics K x.T vocab) :
    PriorOnly K x.T prior (size x) (Unseen x) (newVocab x K prior (expRows K means) vocab) := by
  refine ⟨fun k => ∑ t ∈ Finset.range x.T, expectedCount x K means vocab k t, fun k hk => Finset.sum_nonneg fun t ht =>
    (counts_conserved x K means vocab hK hv t (Finset.mem_range.mp ht)).1 k hk, ?_, fun k hk t ht hu => ?_⟩
  · rw [Finset.sum_comm, Finset.sum_congr rfl fun t ht => (counts_conserved x K means vocab hK hv t (Finset.mem_range.mp ht)).2,
      Finset.sum_comm]
    refine Finset.sum_congr rfl fun d _ => ?_
    unfold Mom.Data.len
    push_cast
    rfl
  · rw [vocab_update x K prior means vocab hK]
    have h0 : expectedCount x K means vocab k t = 0 := by
      unfold Ctm.expectedCount
      exact Finset.sum_eq_zero fun d hd => by rw [hu d (Finset.mem_range.mp hd)]; simp
    rw [h0, zero_add, Finset.sum_add_distrib, Finset.sum_const, Finset.card_range, nsmul_eq_mul]

/-- A training step that ends with the update of the vocabulary, from topics without zeros -/
theorem iterate_prior {σ : Type} (x : Data) (K : Nat) (prior : ℝ) (hp : 0 < prior) (hK : 0 < K) (hT : 0 < x.T) (step : σ → σ)
    (vocab means : σ → Nat → Nat → ℝ) (hstep : ∀ s, vocab (step s) = newVocab x K prior (expRows K (means s)) (vocab s)) (n : Nat) (s : σ)
    (hs : Topics K x.T (vocab s)) :
    Topics K x.T (vocab (step^[n] s)) ∧ (0 < n → PriorOnly K x.T prior (size x) (Unseen x) (vocab (step^[n] s))) := by
  induction n with
  | zero => exact ⟨hs, fun h => absurd h (Nat.lt_irrefl 0)⟩
  | succ n ih =>
    rw [Function.iterate_succ', Function.comp_apply, hstep]
    exact ⟨vocab_dist x K prior hp _ _ hK hT ih.1, fun _ => newVocab_prior x K prior hK _ _ ih.1⟩

/-- **C317** (correlated topic model): words that do not occur have the weight of the prior alone -/
theorem ctm_unseen_partial (oas : (Nat → Nat → ℝ) → Nat → Nat → ℝ) (x : Data) (K : Nat) (prior tiny : ℝ) (hp : 0 < prior) (hK : 0 < K) (hT : 0 < x.T)
    (bound : State → ℝ) (perp : ℝ → ℝ) (p : LogPlan) (hi : 0 < p.iterations) (s : State) (hs : Topics K x.T s.vocab) (a : State × _)
    (ha : train (trainStep oas x K prior) bound (fun st => logLikelihood x K tiny st.means st.vocab) perp p s = .ok a) :
    PriorOnly K x.T prior (size x) (Unseen x) a.1.vocab := by
  have key : ∀ n, 0 < n → PriorOnly K x.T prior (size x) (Unseen x) (((trainStep oas x K prior)^[n] s).vocab) := fun n hn =>
    (iterate_prior x K prior hp hK hT (trainStep oas x K prior) State.vocab State.means (fun _ => rfl) n s hs).2 hn
  rcases lt_trichotomy p.logFrequency 0 with h0 | h0 | h0
  · rw [(CtmTrain.log_off_violation _ _ _ _ p s).2 h0 hi] at ha
    exact absurd ha (by simp)
  · rw [(CtmTrain.log_off_violation _ _ _ _ p s).1 h0] at ha
    exact absurd ha (by simp)
  · obtain ⟨L, hL⟩ := Int.eq_ofNat_of_zero_le h0.le
    have hL0 : 0 < L := by omega
    rw [CtmTrain.train_eq _ _ _ _ p L hL0 hL s] at ha
    rcases CtmTrain.loop_spec (trainStep oas x K prior) bound (fun st => logLikelihood x K tiny st.means st.vocab) perp p L _ hL0 hL p.iterations 0 s _
      (CtmTrain.start_inv L _ hL0) with ⟨l, h1, -⟩ | ⟨j, l, -, -, h1, -⟩ | ⟨h1, -⟩
    · rw [h1] at ha
      cases ha
      exact key _ hi
    · rw [h1] at ha
      cases ha
      exact key _ (by omega)
    · rw [h1] at ha
      exact absurd ha (by simp)

theorem bohningTrain_iterate (inv : (Nat → Nat → ℝ) → Nat → Nat → ℝ) (cov : (Nat → Nat → ℝ) → (Nat → Nat → ℝ) → Nat → Nat → ℝ) (x : Data) (K : Nat)
    (prior : ℝ) (A : Nat → Nat → ℝ) (fast : Bool) (n : Nat) (s : BState) :
    bohningTrain inv cov x K prior A fast n s = (bohningStep inv cov x K prior A fast)^[n] s := by
  induction n generalizing s with
  | zero => rfl
  | succ n ih => exact ih _

/-- **C317** (Böhning's bound) -/
theorem bohning_unseen_partial (inv : (Nat → Nat → ℝ) → Nat → Nat → ℝ) (cov : (Nat → Nat → ℝ) → (Nat → Nat → ℝ) → Nat → Nat → ℝ) (x : Data) (K : Nat)
    (prior : ℝ) (hp : 0 < prior) (hK : 0 < K) (hT : 0 < x.T) (fast : Bool) (n : Nat) (hn : 0 < n) (s : BState) (hs : Topics K x.T s.vocab) :
    PriorOnly K x.T prior (size x) (Unseen x) (bohningTrain inv cov x K prior (bohningA K) fast n s).vocab := by
  rw [bohningTrain_iterate]
  exact (iterate_prior x K prior hp hK hT _ BState.vocab BState.means (fun _ => rfl) n s hs).2 hn

/-- **C317** (topic model with features) -/
theorem yv_unseen_partial (inv : Nat → (Nat → Nat → ℝ) → Nat → Nat → ℝ) (p : Stm.Params) (x : Data) (hp : 0 < p.prior) (hK : 0 < p.K) (hT : 0 < x.T)
    (X : Nat → Nat → ℝ) (n : Nat) (hn : 0 < n) (s : StmYv.State) (hs : Topics p.K x.T s.vocab) :
    PriorOnly p.K x.T p.prior (size x) (Unseen x) (StmYv.train inv p x X n s).vocab :=
  (iterate_prior x p.K p.prior hp hK hT (StmYv.trainStep inv p x X) StmYv.State.vocab StmYv.State.means (fun _ => rfl) n { s with s := fun _ => 0 } hs).2 hn

/-- **C317** (third matrix topic model, whose prior is fixed) -/
theorem mtm3_unseen_partial (inv : Nat → (Nat → Nat → ℝ) → Nat → Nat → ℝ) (x links : Data) (K : Nat) (hK : 0 < K) (hT : 0 < x.T) (n : Nat) (hn : 0 < n)
    (s : Mtm.State3) (hs : Topics K x.T s.vocab) :
    PriorOnly K x.T (1 / 100) (size x) (Unseen x) (Mtm.train3 inv x links K n s).vocab :=
  (iterate_prior x K (1 / 100) (by norm_num) hK hT (Mtm.step3 inv x links K) Mtm.State3.vocab (fun s => (Mtm.mStep3 inv x.D K s).outMeans)
    (fun _ => rfl) n { s with inDocCov := fun _ => 1, outDocCov := 10 } hs).2 hn

/-! ## Words that do not occur: the models with Dirichlet parameters -/

theorem emLoop_unseen (psi : ℝ → ℝ) (p : Mom.EmParams) (x : Data) (plan : Mom.EmPlan) (n : Nat) : ∀ (itr : Nat) (s a : Mom.EmState),
    (∀ k t, Unseen x t → s.word k t = p.b t) → Mom.emLoop psi p x plan n itr s = .ok a → ∀ k t, Unseen x t → a.word k t = p.b t := by
  induction n with
  | zero =>
    intro itr s a h ha
    cases ha
    exact h
  | succ n ih =>
    intro itr s a h ha
    unfold Mom.emLoop at ha
    simp only at ha
    split at ha
    · cases ha
      exact h
    · split at ha
      · exact absurd ha (by simp)
      · refine ih _ _ a (fun k t hu => ?_) ha
        show ∑ d ∈ Finset.range x.D, (x.words d t : ℝ) * _ + p.b t = p.b t
        rw [Finset.sum_eq_zero fun d hd => by rw [hu d (Finset.mem_range.mp hd)]; simp, zero_add]

/-- **C317** (mixtures): the parameters of a word that does not occur are the prior, unless the first iteration already finds nothing to change -/
theorem em_unseen_partial (psi : ℝ → ℝ) (p : Mom.EmParams) (x : Data) (plan : Mom.EmPlan) (hi : 0 < plan.iterations) (s a : Mom.EmState)
    (hn : 1 / 1000 * x.D * p.K ≤ ∑ d ∈ Finset.range x.D, ∑ k ∈ Finset.range p.K, |s.resp d k - Mom.eStep psi p x s d k|)
    (ha : Mom.emTrain psi p x plan s = .ok a) (k t : Nat) (hu : Unseen x t) : a.word k t = p.b t := by
  unfold Mom.emTrain at ha
  split at ha
  · exact absurd ha (by simp)
  · obtain ⟨n, hn1⟩ := Nat.exists_eq_succ_of_ne_zero hi.ne'
    rw [hn1] at ha
    unfold Mom.emLoop at ha
    simp only at ha
    rw [if_neg (show ¬ Mom.Settled p x s.resp (Mom.eStep psi p x s) from not_lt.mpr hn)] at ha
    split at ha
    · exact absurd ha (by simp)
    · refine emLoop_unseen psi p x plan n _ _ a (fun k t hu => ?_) ha k t hu
      show ∑ d ∈ Finset.range x.D, (x.words d t : ℝ) * _ + p.b t = p.b t
      rw [Finset.sum_eq_zero fun d hd => by rw [hu d (Finset.mem_range.mp hd)]; simp, zero_add]

/-- **C317** (variational Bayes): after any number of iterations the parameter of a word that does not occur is the prior -/
theorem lda_unseen_partial (psi : ℝ → ℝ) (p : Vb.Params) (c : Cvb.Corpus) (s : Vb.State) (n k t : Nat) (hk : k < p.K)
    (hu : ∀ d, d < c.lens.length → ∀ i, i < c.len d → c.w d i ≠ t) : (Vb.iterate psi p c (n + 1) s).vocab k t = p.b := by
  rw [Vb.vb_vocab psi p c s n k t hk]
  refine add_eq_left.mpr (Finset.sum_eq_zero fun d hd => Finset.sum_eq_zero fun i hi => ?_)
  rw [if_neg (hu d (Finset.mem_range.mp hd) i (Finset.mem_range.mp hi))]

theorem visits_unseen (psi : ℝ → ℝ) (p : VbPython.Params) (x : Data) (word : Nat → Nat → ℝ) (k t : Nat) (hu : Unseen x t) (l : List Nat) :
    ∀ s g : VbPython.Batch, l.foldlM (fun s _ => VbPython.visit psi p x word s) s = Except.ok g → g.grad k t = s.grad k t := by
  induction l with
  | nil =>
    intro s g h
    cases h
    rfl
  | cons i l ih =>
    intro s g h
    rw [List.foldlM_cons] at h
    unfold VbPython.visit at h
    simp only at h
    by_cases hd : (VbPython.nextDoc x.D s.d).toNat < x.D
    · rw [if_pos hd] at h
      simp only [bind, Except.bind] at h
      rw [ih _ g h]
      show s.grad k t + ((x.words (VbPython.nextDoc x.D s.d).toNat t : Nat) : ℝ) * _ = _
      rw [hu _ hd]
      simp
    · rw [if_neg hd] at h
      simp only [bind, Except.bind] at h
      cases h

theorem step_unseen (psi : ℝ → ℝ) (bound : (Nat → Nat → ℝ) → (Nat → Nat → ℝ) → ℝ) (p : VbPython.Params) (x : Data) (plan : VbPython.Plan)
    (hb : plan.rateAlgor = "batch") (size : Nat) (r r' : VbPython.Run) (b k t : Nat) (hu : Unseen x t)
    (h : VbPython.trainStep psi bound p x plan size r b = .ok r') : r'.word k t = p.v := by
  unfold VbPython.trainStep at h
  split at h
  · cases h
  · next g hg =>
    rw [if_pos hb] at h
    cases h
    exact visits_unseen psi p x r.word k t hu _ _ g hg

/-- **C317** (variational Bayes in Python, without batches) -/
theorem vb_unseen_partial (psi : ℝ → ℝ) (bound : (Nat → Nat → ℝ) → (Nat → Nat → ℝ) → ℝ) (p : VbPython.Params) (x : Data) (plan : VbPython.Plan)
    (hb : plan.rateAlgor = "batch") (hi : 0 < plan.iterations) (word topics : Nat → Nat → ℝ) (a : VbPython.Run)
    (ha : VbPython.train psi bound p x plan word topics = .ok a) (k t : Nat) (hu : Unseen x t) : a.word k t = p.v := by
  unfold VbPython.train at ha
  split at ha
  · cases ha
  · split at ha
    · cases ha
    · split at ha
      · cases ha
      · split at ha
        · cases ha
        · next r hr =>
          cases ha
          obtain ⟨n, hn⟩ : ∃ n, VbPython.batchCount x plan * plan.iterations = n + 1 := ⟨plan.iterations - 1, by
            rw [VbPython.batchCount, if_pos hb]; omega⟩
          rw [hn, List.range_succ, List.foldlM_append] at hr
          simp only [bind, Except.bind] at hr
          split at hr
          · cases hr
          · next r0 _ =>
            simp only [List.foldlM_cons, List.foldlM_nil, bind, Except.bind, pure, Except.pure] at hr
            split at hr
            · cases hr
            · next r1 hr1 =>
              cases hr
              exact step_unseen psi bound p x plan hb _ r0 r n k t hu hr1

/-! ## Words that do not occur: Gibbs sampling -/

/-- The share of the words that do not occur in the sum of the samples -/
def Share (p : Gibbs.Params) (U : Nat → Prop) (st : Gibbs.State) : Prop :=
  ∀ k, k < p.K → ∃ h : ℚ, (st.count : ℚ) / ((p.lens.sum : ℚ) + p.bSum) ≤ h ∧ h ≤ (st.count : ℚ) / p.bSum ∧ ∀ v, U v → st.vocabSum k v = p.b v * h

/-- Word `v` is not among the tokens. -/
def NoToken (p : Gibbs.Params) (v : Nat) : Prop := ∀ n, n < p.lens.sum → p.w n ≠ v

theorem takeSample_share (p : Gibbs.Params) (hb : 0 < p.bSum) (st : Gibbs.State) (h1 : Gibbs.DocOk p st.tables) (h2 : Gibbs.WordOk p st.tables)
    (hs : Share p (NoToken p) st) : Share p (NoToken p) (Gibbs.takeSample p false st) := by
  intro k hk
  obtain ⟨h, g1, g2, g3⟩ := hs k hk
  have n0 : 0 ≤ st.tables.nk k := by rw [h2.nk]; exact Gibbs.cnt_nonneg _ _ _
  have n1 : st.tables.nk k ≤ p.lens.sum := by
    rw [← Gibbs.wordOk_total p st.tables h1.zlt h2]
    exact Finset.single_le_sum (f := fun k => st.tables.nk k) (fun j _ => by show 0 ≤ st.tables.nk j; rw [h2.nk]; exact Gibbs.cnt_nonneg _ _ _)
      (Finset.mem_range.mpr hk)
  have q0 : (0 : ℚ) ≤ (st.tables.nk k : ℚ) := by exact_mod_cast n0
  have q1 : (st.tables.nk k : ℚ) ≤ (p.lens.sum : ℚ) := by
    have := Int.cast_le (R := ℚ).mpr n1
    rwa [Int.cast_natCast] at this
  refine ⟨h + 1 / ((st.tables.nk k : ℚ) + p.bSum), ?_, ?_, fun v hv => ?_⟩
  · have : (1 : ℚ) / ((p.lens.sum : ℚ) + p.bSum) ≤ 1 / ((st.tables.nk k : ℚ) + p.bSum) :=
      one_div_le_one_div_of_le (by linarith) (by linarith)
    show (((st.count + 1 : Nat) : ℚ)) / _ ≤ _
    rw [Nat.cast_add, Nat.cast_one, add_div]
    linarith
  · have : (1 : ℚ) / ((st.tables.nk k : ℚ) + p.bSum) ≤ 1 / p.bSum := one_div_le_one_div_of_le hb (by linarith)
    show _ ≤ (((st.count + 1 : Nat) : ℚ)) / _
    rw [Nat.cast_add, Nat.cast_one, add_div]
    linarith
  · have hz : st.tables.nkv k v = 0 := by
      rw [h2.nkv]
      unfold Gibbs.cnt
      rw [List.countP_eq_zero.mpr fun t ht => by simp [hv t.2 (Gibbs.tokens_lt _ _ ht)]]
      rfl
    show st.vocabSum k v + ((st.tables.nkv k v : ℚ) + p.b v) / ((st.tables.nk k : ℚ) + p.bSum) = _
    rw [g3 v hv, hz]
    push_cast
    ring

/-- **C317** (Gibbs sampling): the estimates for words that do not occur are the prior times a number, the same for all of them, which is
what the prior says (`1 / bSum`) if the topic has no token and at least `1 / (tokens + bSum)`. -/
theorem gibbs_unseen_partial (p : Gibbs.Params) (hK : p.K ≤ 256) (hb : 0 < p.bSum) (plan : Gibbs.Plan) (z : Nat → Nat) (hz : Gibbs.ValidTopics p z)
    (rnd1 rnd2 : Nat → Gibbs.Rand) (st : Gibbs.State) (hrun : Gibbs.train p plan z rnd1 rnd2 = some st) (hc : st.count ≠ 0) :
    ∃ φ, Gibbs.wordDists ⟨st.vocabSum, st.count⟩ = some φ ∧ ∀ k, k < p.K →
      ∃ h : ℚ, 1 / ((p.lens.sum : ℚ) + p.bSum) ≤ h ∧ h ≤ 1 / p.bSum ∧ ∀ v, NoToken p v → φ k v = p.b v * h := by
  have hsums : Share p (NoToken p) st := by
    unfold Gibbs.train at hrun
    simp only [bind] at hrun
    rcases h1 : Gibbs.sample p false plan.burnIn (plan.burnIn + 1) rnd1
      ⟨Gibbs.sumSuffStats p.w p.lens (Gibbs.zeroTables z), fun _ _ => 0, fun _ _ => 0, 0⟩ with _ | s
    · rw [h1] at hrun; cases hrun
    · rw [h1, Option.bind_some] at hrun
      obtain ⟨-, h3⟩ := Gibbs.sample_none p false _ _ (by omega) _ _ _ h1
      have hok := Gibbs.sample_ok p hK _ _ _ _ _ (Gibbs.init_ok p z hz) h1
      refine (Gibbs.sample_inv p false plan.thin rnd2 s
        (fun _ s => (Gibbs.DocOk p s.tables ∧ Gibbs.WordOk p s.tables) ∧ Share p (NoToken p) s) ⟨hok, fun k _ => ⟨0, ?_, ?_, fun v _ => ?_⟩⟩ ?_ _ st hrun).2
      · simp
      · simp
      · simp [h3]
      · intro n s t ⟨hs1, hs2⟩ ht
        have hok' := Gibbs.sweep_ok p hK (rnd2 n) s.tables t hs1 (by simpa using ht)
        split
        · exact ⟨hok', takeSample_share p hb { s with tables := t } hok'.1 hok'.2 hs2⟩
        · exact ⟨hok', hs2⟩
  have hn : (0 : ℚ) < (st.count : ℚ) := by exact_mod_cast Nat.pos_of_ne_zero hc
  have hN : (0 : ℚ) < (p.lens.sum : ℚ) + p.bSum := by
    have : (0 : ℚ) ≤ (p.lens.sum : ℚ) := Nat.cast_nonneg _
    linarith
  refine ⟨_, if_neg hc, fun k hk => ?_⟩
  obtain ⟨h, g1, g2, g3⟩ := hsums k hk
  refine ⟨h / st.count, ?_, ?_, fun v hv => ?_⟩
  · rw [le_div_iff₀ hn]
    calc _ = (st.count : ℚ) / ((p.lens.sum : ℚ) + p.bSum) := by ring
      _ ≤ h := g1
  · rw [div_le_iff₀ hn]
    calc h ≤ (st.count : ℚ) / p.bSum := g2
      _ = _ := by ring
  · show st.vocabSum k v / st.count = _
    rw [g3 v hv, mul_div_assoc]

/-! ## Words that do not occur: collapsed variational models -/

theorem overWord_unseen (c : Cvb.Corpus) (g : Nat → Nat → ℚ) (t : Nat) (hu : ∀ d, d < c.lens.length → ∀ i, i < c.len d → c.w d i ≠ t) :
    Cvb0.overWord c g t = 0 := by
  unfold Cvb0.overWord Cvb0.overAll Cvb0.overDoc
  exact Finset.sum_eq_zero fun d hd => Finset.sum_eq_zero fun i hi => if_neg (hu d (Finset.mem_range.mp hd) i (Finset.mem_range.mp hi))

/-- **C317** is violated by the collapsed models, of zero order: whatever the prior, a word that does not occur has no probability. -/
theorem cvb0_unseen_violation (p : Cvb.Params) (c : Cvb.Corpus) (hp : Cvb0.PositivePriors p) (hc : Cvb0.NoEmptyDocs c) (calls : List Int)
    (r : Nat → Nat → Nat → ℚ) (hr : Cvb0.GoodRandom p c r) :
    ∃ m q, Cvb.train0 p c calls false none (Cvb.newQueryState c p.K r) = .ok (some m, q) ∧
      ∀ k, k < p.K → ∀ t, (∀ d, d < c.lens.length → ∀ i, i < c.len d → c.w d i ≠ t) → Cvb.wordDists p.T m k t = 0 := by
  obtain ⟨h1, h2⟩ := Cvb0.newQueryState_consistent p c r hr
  obtain ⟨m, q, g1, -, -, g2, -⟩ := Cvb0.cvb0_train_first p c hp hc calls _ h1 h2
  refine ⟨m, q, g1, fun k hk t hu => ?_⟩
  unfold Cvb.wordDists
  rw [g2 k hk t, overWord_unseen c _ t hu, zero_div]

/-- **C317** is violated by the collapsed models, of second order -/
theorem cvb2_unseen_violation (ex : ℚ → ℚ) (hex : ∀ x, 0 < ex x) (p : Cvb.Params) (c : Cvb.Corpus) (hp : Cvb0.PositivePriors p)
    (hc : Cvb0.NoEmptyDocs c) (calls : List Int) (r : Nat → Nat → Nat → ℚ) (hr : Cvb0.GoodRandom p c r) :
    ∃ m q, Cvb.train2 (Cvb.kernel64 ex) p c calls false none (Cvb.newQueryState c p.K r) = .ok (some m, q) ∧
      ∀ k, k < p.K → ∀ t, (∀ d, d < c.lens.length → ∀ i, i < c.len d → c.w d i ≠ t) → Cvb.wordDists p.T m.n k t = 0 := by
  obtain ⟨h1, h2⟩ := Cvb0.newQueryState_consistent p c r hr
  obtain ⟨m, q, g1, -, g2, -⟩ := Cvb2.cvb64_train_first_partial ex hex p c hp hc calls _ h1 h2 (Cvb2.newQueryState_vars p c r)
  refine ⟨m, q, g1, fun k hk t hu => ?_⟩
  unfold Cvb.wordDists
  rw [g2 k hk t, overWord_unseen c _ t hu, zero_div]

/-! ## Documents without words -/

/-- What is expected of document `d` by the prior -/
def Expected (p : Gibbs.Params) (d : Nat) (st : Gibbs.State) : Prop :=
  ∀ k, k < p.K → st.topicSum d k = st.count * (p.a d k / p.aSum d)

theorem takeSample_empty (p : Gibbs.Params) (isQuery : Bool) (d : Nat) (h0 : p.lens.getD d 0 = 0) (st : Gibbs.State) (h : Gibbs.DocOk p st.tables)
    (hs : Expected p d st) : Expected p d (Gibbs.takeSample p isQuery st) := by
  intro k hk
  have hz : st.tables.ndk d k = 0 := by
    rw [h.ndk]
    unfold Gibbs.cnt
    have h1 := Gibbs.tokens_doc p.lens d
    rw [h0] at h1
    rw [List.countP_eq_zero.mpr fun t ht => by
      have := List.countP_eq_zero.mp h1 t ht
      simp at this
      simp [this]]
    rfl
  show st.topicSum d k + ((st.tables.ndk d k : ℚ) + p.a d k) / ((p.lens.getD d 0 : ℚ) + p.aSum d) = _
  rw [hs k hk, hz, h0]
  show _ = (((st.count + 1 : Nat) : ℚ)) * _
  push_cast
  ring

theorem sample_empty (p : Gibbs.Params) (hK : p.K ≤ 256) (isQuery : Bool) (d : Nat) (h0 : p.lens.getD d 0 = 0) (n thin : Nat)
    (rnd : Nat → Gibbs.Rand) (st st' : Gibbs.State) (h : Gibbs.DocOk p st.tables) (hs : ∀ k, k < p.K → st.topicSum d k = 0)
    (hrun : Gibbs.sample p isQuery n thin rnd st = some st') : Expected p d st' := by
  refine (Gibbs.sample_inv p isQuery thin rnd st (fun _ s => Gibbs.DocOk p s.tables ∧ Expected p d s) ⟨h, fun k hk => ?_⟩ ?_ n st' hrun).2
  · show st.topicSum d k = ((0 : Nat) : ℚ) * _
    rw [hs k hk]
    simp
  · intro n s t ⟨hs1, hs2⟩ ht
    have hok := Gibbs.sweep_docOk p hK _ (rnd n) s.tables t hs1 ht
    split
    · exact ⟨hok, takeSample_empty p isQuery d h0 { s with tables := t } hok hs2⟩
    · exact ⟨hok, hs2⟩

theorem dists_empty (p : Gibbs.Params) (d : Nat) (st : Gibbs.State) (h : Expected p d st) (hc : st.count ≠ 0) :
    ∃ θ, Gibbs.topicDists st.topicSum st.count = some θ ∧ ∀ k, k < p.K → θ d k = p.a d k / p.aSum d := by
  refine ⟨_, if_neg hc, fun k hk => ?_⟩
  show st.topicSum d k / st.count = _
  rw [h k hk, mul_div_cancel_left₀ _ (by exact_mod_cast hc)]

/-- **C318** (training by Gibbs sampling): a document without words gets exactly the topics that the prior expects -/
theorem gibbs_empty_partial (p : Gibbs.Params) (hK : p.K ≤ 256) (d : Nat) (h0 : p.lens.getD d 0 = 0) (plan : Gibbs.Plan) (z : Nat → Nat)
    (hz : Gibbs.ValidTopics p z) (rnd1 rnd2 : Nat → Gibbs.Rand) (st : Gibbs.State) (hrun : Gibbs.train p plan z rnd1 rnd2 = some st)
    (hc : st.count ≠ 0) : ∃ θ, Gibbs.topicDists st.topicSum st.count = some θ ∧ ∀ k, k < p.K → θ d k = p.a d k / p.aSum d := by
  refine dists_empty p d st ?_ hc
  unfold Gibbs.train at hrun
  simp only [bind] at hrun
  rcases h1 : Gibbs.sample p false plan.burnIn (plan.burnIn + 1) rnd1
    ⟨Gibbs.sumSuffStats p.w p.lens (Gibbs.zeroTables z), fun _ _ => 0, fun _ _ => 0, 0⟩ with _ | s
  · rw [h1] at hrun; cases hrun
  · rw [h1, Option.bind_some] at hrun
    obtain ⟨h3, -⟩ := Gibbs.sample_none p false _ _ (by omega) _ _ _ h1
    have hok := Gibbs.sample_ok p hK _ _ _ _ _ (Gibbs.init_ok p z hz) h1
    exact sample_empty p hK false d h0 _ _ rnd2 s st hok.1 (fun k _ => by rw [h3]) hrun

/-- **C318** (querying a sampled model) -/
theorem gibbs_query_empty_partial (p : Gibbs.Params) (hK : p.K ≤ 256) (d : Nat) (h0 : p.lens.getD d 0 = 0) (m : Gibbs.Model) (plan : Gibbs.Plan) (z : Nat → Nat)
    (hz : Gibbs.ValidTopics p z) (rnd1 rnd2 : Nat → Gibbs.Rand) (r : Gibbs.Model × Gibbs.State)
    (hrun : Gibbs.query p m plan z rnd1 rnd2 = some r) (hc : r.2.count ≠ 0) :
    ∃ θ, Gibbs.topicDists r.2.topicSum r.2.count = some θ ∧ ∀ k, k < p.K → θ d k = p.a d k / p.aSum d := by
  refine dists_empty p d r.2 ?_ hc
  unfold Gibbs.query at hrun
  simp only [bind] at hrun
  rcases hφ : Gibbs.wordDists m with _ | φ
  · rw [hφ] at hrun; cases hrun
  rw [hφ, Option.bind_some] at hrun
  generalize (fun k => ∑ v ∈ Finset.range p.T, ⌊φ k v * 1000000⌋ : Nat → Int) = nk at hrun
  generalize (fun k v => ⌊φ k v * 1000000⌋ : Nat → Nat → Int) = nkv at hrun
  rcases h1 : Gibbs.sample { p with b := fun _ => 0 } true plan.burnIn (plan.burnIn + 1) rnd1
    ⟨Gibbs.sumSuffStats p.w p.lens ⟨z, fun _ _ => 0, nkv, nk⟩, fun _ _ => 0, m.vocabSum, 0⟩ with _ | s
  · rw [h1] at hrun; cases hrun
  rw [h1, Option.bind_some] at hrun
  rcases h2 : Gibbs.sample { p with b := fun _ => 0 } true (plan.iterations - plan.burnIn) plan.thin rnd2 s with _ | s'
  · rw [h2] at hrun; cases hrun
  rw [h2, Option.bind_some] at hrun
  cases hrun
  obtain ⟨h3, -⟩ := Gibbs.sample_none _ true _ _ (by omega) _ _ _ h1
  have hstart : Gibbs.DocOk { p with b := fun _ => 0 }
      (Gibbs.sumSuffStats p.w p.lens ⟨z, fun _ _ => 0, nkv, nk⟩) := by
    rw [Gibbs.sumSuffStats_eq]
    exact ⟨fun d k => by simp, (Gibbs.valid_tokens { p with b := fun _ => 0 } z).mp hz⟩
  have hok : Gibbs.DocOk { p with b := fun _ => 0 } s.tables := by
    refine Gibbs.sample_inv { p with b := fun _ => 0 } true _ rnd1 _ (fun _ s => Gibbs.DocOk { p with b := fun _ => 0 } s.tables) hstart ?_ _ s h1
    intro n s t hs ht
    have := Gibbs.sweep_docOk { p with b := fun _ => 0 } hK _ (rnd1 n) s.tables t hs ht
    split <;> exact this
  exact sample_empty { p with b := fun _ => 0 } hK true d h0 _ _ rnd2 s s' hok (fun k _ => by rw [h3]) h2

/-- **C318** (queries of mixtures): a document without words gets the topics in the proportions of the whole corpus, as learnt -/
theorem em_query_empty_partial (psi : ℝ → ℝ) (p : Mom.EmParams) (x : Data) (d : Nat) (h0 : ∀ t, t < x.T → x.words d t = 0) (n : Nat) (s a : Mom.EmState)
    (ha : Mom.emQuery psi p x n s = .ok a) (k : Nat) :
    a.resp d k = Real.exp (psi (s.topic k)) / ∑ j ∈ Finset.range p.K, Real.exp (psi (s.topic j)) := by
  have key : ∀ s : Mom.EmState, Mom.eStep psi p x s d k = Real.exp (psi (s.topic k)) / ∑ j ∈ Finset.range p.K, Real.exp (psi (s.topic j)) := by
    intro s
    have hl : ∀ j, Mom.logJoint psi p x s d j = psi (s.topic j) - psi (∑ k' ∈ Finset.range p.K, s.topic k') := by
      intro j
      unfold Mom.logJoint
      rw [Finset.sum_eq_zero fun t ht => by rw [h0 t (Finset.mem_range.mp ht)]; simp, zero_add]
    unfold Mom.eStep
    generalize Numerics.rowMax p.K (Mom.logJoint psi p x s d) = m
    simp only [hl]
    have := Numerics.shifted p.K (fun j => psi (s.topic j)) (psi (∑ k' ∈ Finset.range p.K, s.topic k') + m) k
    simp only [sub_sub]
    exact this
  have loop : ∀ n (s : Mom.EmState), 0 < n → (Mom.emQueryLoop psi p x n s).resp d k
      = Real.exp (psi (s.topic k)) / ∑ j ∈ Finset.range p.K, Real.exp (psi (s.topic j)) := by
    intro n
    induction n with
    | zero => intro s h; exact absurd h (Nat.lt_irrefl 0)
    | succ n ih =>
      intro s _
      unfold Mom.emQueryLoop
      simp only
      split
      · exact key s
      · rcases Nat.eq_zero_or_pos n with h | h
        · subst h; exact key s
        · exact ih _ h
  unfold Mom.emQuery at ha
  split at ha
  · cases ha
  · next h => cases ha; exact loop n s (Nat.pos_of_ne_zero h)

/-- **C318** (variational Bayes), exactly: the parameters of a document without words are the prior, plus the number of documents divided by the
number of topics. -/
theorem lda_empty_exact (psi : ℝ → ℝ) (p : Vb.Params) (c : Cvb.Corpus) (n : Nat) (s : Vb.State) (d k : Nat) (hd : d < c.lens.length) (hk : k < p.K)
    (h0 : c.len d = 0) : (Vb.query psi p c (n + 1) s).topics d k = p.a k + (c.lens.length : ℝ) / (p.K : ℝ) := by
  rw [Vb.query_row psi p c n s d k hd hk, h0]
  simp [Vb.used]

/-- **C318** (variational Bayes): its topics are those of the prior only if the prior is the same for all topics. -/
theorem lda_empty_iff (psi : ℝ → ℝ) (p : Vb.Params) (hK : 0 < p.K) (ha : ∀ k, k < p.K → 0 < p.a k) (c : Cvb.Corpus) (n : Nat) (s : Vb.State) (d : Nat)
    (hd : d < c.lens.length) (h0 : c.len d = 0) :
    (∀ k, k < p.K → (Vb.topicDists p (Vb.query psi p c (n + 1) s)).1 d k = p.a k / ∑ j ∈ Finset.range p.K, p.a j)
      ↔ ∀ k j, k < p.K → j < p.K → p.a k = p.a j := by
  have hS : 0 < ∑ j ∈ Finset.range p.K, p.a j := Finset.sum_pos (fun k hk => ha k (Finset.mem_range.mp hk)) ⟨0, Finset.mem_range.mpr hK⟩
  have hD : (0 : ℝ) < (c.lens.length : ℝ) := by exact_mod_cast Nat.lt_of_le_of_lt (Nat.zero_le d) hd
  have hk0 : (0 : ℝ) < (p.K : ℝ) := by exact_mod_cast hK
  have hval : ∀ k, k < p.K → (Vb.topicDists p (Vb.query psi p c (n + 1) s)).1 d k
      = (p.a k + (c.lens.length : ℝ) / (p.K : ℝ)) / (∑ j ∈ Finset.range p.K, p.a j + c.lens.length) := by
    intro k hk
    show (Vb.query psi p c (n + 1) s).topics d k / ∑ j ∈ Finset.range p.K, (Vb.query psi p c (n + 1) s).topics d j = _
    rw [lda_empty_exact psi p c n s d k hd hk h0, Finset.sum_congr rfl fun j hj => lda_empty_exact psi p c n s d j hd (Finset.mem_range.mp hj) h0,
      Finset.sum_add_distrib, Finset.sum_const, Finset.card_range, nsmul_eq_mul, mul_div_cancel₀ _ hk0.ne']
  have hiff : ∀ k, k < p.K → ((Vb.topicDists p (Vb.query psi p c (n + 1) s)).1 d k = p.a k / ∑ j ∈ Finset.range p.K, p.a j
      ↔ p.a k = (∑ j ∈ Finset.range p.K, p.a j) / p.K) := by
    intro k hk
    rw [hval k hk, div_eq_div_iff (by positivity) hS.ne', eq_div_iff hk0.ne']
    constructor
    · intro h
      have h1 : (c.lens.length : ℝ) * ((∑ j ∈ Finset.range p.K, p.a j) / p.K - p.a k) = 0 := by
        have : (p.a k + (c.lens.length : ℝ) / (p.K : ℝ)) * (∑ j ∈ Finset.range p.K, p.a j)
          - p.a k * (∑ j ∈ Finset.range p.K, p.a j + c.lens.length) = 0 := sub_eq_zero.mpr h
        rw [← this]; ring
      rcases mul_eq_zero.mp h1 with h2 | h2
      · exact absurd h2 hD.ne'
      · rw [sub_eq_zero, div_eq_iff hk0.ne'] at h2
        exact h2.symm
    · intro h
      rw [← h]
      field_simp
  constructor
  · intro h k j hk hj
    rw [(hiff k hk).mp (h k hk), (hiff j hj).mp (h j hj)]
  · intro h k hk
    refine (hiff k hk).mpr ?_
    rw [Finset.sum_congr rfl fun j hj => h j k (Finset.mem_range.mp hj) hk, Finset.sum_const, Finset.card_range, nsmul_eq_mul,
      mul_div_cancel_left₀ _ hk0.ne']

/-- **C318** (the others): training refuses corpora with such documents. -/
theorem empty_refused_partial (psi : ℝ → ℝ) (x : Data) (d : Nat) (hd : d < x.D) (h0 : ∀ t, t < x.T → x.words d t = 0) :
    (∀ p plan s, Mom.emTrain psi p x plan s = .error .valueError)
      ∧ (∀ bound p plan word topics, VbPython.train psi bound p x plan word topics = .error .valueError)
      ∧ (∀ inv c links stop f n b s, Mtm.train inv psi c x links stop f n b s = .error .valueError) := by
  have hl : x.len d = 0 := Finset.sum_eq_zero fun t ht => h0 t (Finset.mem_range.mp ht)
  have hany : (List.range x.D).any (fun d => decide (x.len d < 1)) = true :=
    List.any_eq_true.mpr ⟨d, List.mem_range.mpr hd, by simp [hl]⟩
  refine ⟨fun p plan s => ?_, fun bound p plan word topics => ?_, fun inv c links stop f n b s => ?_⟩
  · unfold Mom.emTrain
    rw [if_pos hany]
  · unfold VbPython.train
    rw [if_pos hany]
  · unfold Mtm.train
    rw [if_pos ⟨d, Finset.mem_range.mpr hd, by omega⟩]

/-! ## Examples -/

/-- Two documents of three words, the last of which does not occur -/
def exU : Data := ⟨2, 3, fun d t => if t = 2 then 0 else d + t + 1⟩

theorem exU_unseen : Unseen exU 2 := by unfold Unseen; decide

/-- Two topics, in each of which all words are equally likely -/
theorem exU_topics : Topics 2 exU.T (fun _ _ => 1 / 3) :=
  fun _ _ => ⟨fun _ _ => by norm_num, by simp [exU]⟩

section
open Verif.Props.RenumberStm (exT)

example (perp : ℝ → ℝ) : ∃ a, train (trainStep (fun _ _ _ => 0) exU 2 (1 / 10)) (fun _ => 0) (fun st => logLikelihood exU 2 1 st.means st.vocab) perp
    ⟨10, 5, 30, .all⟩ ⟨fun k => k, exT 1, fun _ _ => 1 / 3, exT 2, exT 3, fun _ _ => 1, fun _ _ => 1, fun _ => 0⟩ = .ok a
      ∧ ∃ N : ℝ, a.1.vocab 0 2 = (1 / 10) / (N + (3 : Nat) * (1 / 10)) := by
  have key : ∃ a, train (trainStep (fun _ _ _ => 0) exU 2 (1 / 10)) (fun _ => 0) (fun st => logLikelihood exU 2 1 st.means st.vocab) perp
      ⟨10, 5, 30, .all⟩ ⟨fun k => k, exT 1, fun _ _ => 1 / 3, exT 2, exT 3, fun _ _ => 1, fun _ _ => 1, fun _ => 0⟩ = .ok a := by
    rcases Props.CtmTrain.log_divides_partial (trainStep (fun _ _ _ => 0) exU 2 (1 / 10)) (fun _ => 0)
      (fun st => logLikelihood exU 2 1 st.means st.vocab) perp ⟨10, 5, 30, .all⟩ 5 (by decide) rfl (by decide) _ with ⟨l, h, -⟩ | ⟨j, l, -, h, -⟩
    · exact ⟨_, h⟩
    · exact ⟨_, h⟩
  obtain ⟨a, ha⟩ := key
  obtain ⟨N, -, -, h⟩ := ctm_unseen_partial _ exU 2 (1 / 10) 1 (by norm_num) (by decide) (by decide) _ perp ⟨10, 5, 30, .all⟩ (by decide) _ exU_topics a ha
  exact ⟨a, ha, N 0, h 0 (by decide) 2 (by decide) exU_unseen⟩

example : PriorOnly 2 3 1 (size exU) (Unseen exU) (bohningTrain (StmCov.exactInv 2) (fun _ _ _ _ => 0) exU 2 1 (bohningA 2) false 7
    ⟨fun k => k, exT 1, fun _ _ => 1 / 3, exT 2, exT 3, exT 4⟩).vocab :=
  bohning_unseen_partial _ _ exU 2 1 (by norm_num) (by decide) (by decide) false 7 (by decide) _ exU_topics

example : PriorOnly 2 3 (1 / 10) (size exU) (Unseen exU) (StmYv.train StmCov.exactInv ⟨2, 2, 2, 1, 2, 1 / 10, bohningA 2⟩ exU (exT 1) 7
    ⟨exT 1, exT 2, exT 3, exT 4, exT 5, fun _ _ => 1 / 3, exT 6, exT 7, exT 8, exT 9, fun d => d⟩).vocab :=
  yv_unseen_partial _ ⟨2, 2, 2, 1, 2, 1 / 10, bohningA 2⟩ exU (by norm_num) (by decide) (by decide) _ 7 (by decide) _ exU_topics

example : PriorOnly 2 3 (1 / 100) (size exU) (Unseen exU) (Mtm.train3 StmCov.exactInv exU ⟨2, 2, fun d e => d + e⟩ 2 7
    ⟨fun k => k, exT 1, 7, fun _ _ => 1 / 3, exT 2, exT 3, exT 4, exT 5, fun d => d + 1⟩).vocab :=
  mtm3_unseen_partial _ exU ⟨2, 2, fun d e => d + e⟩ 2 (by decide) (by decide) 7 (by decide) _ exU_topics

/-- A mixture trained without measuring ends normally. -/
theorem ex_em (psi : ℝ → ℝ) (s : Mom.EmState) : ∃ a, Mom.emTrain psi ⟨2, fun _ => 1, fun t => t + 1⟩ exU ⟨5, 0, false⟩ s = .ok a := by
  have h : ∀ fuel itr s, ∃ a, Mom.emLoop psi ⟨2, fun _ => 1, fun t => t + 1⟩ exU ⟨5, 0, false⟩ fuel itr s = .ok a := by
    intro fuel
    induction fuel with
    | zero => exact fun _ s => ⟨s, rfl⟩
    | succ fuel ih =>
      intro itr s
      unfold Mom.emLoop
      simp only [Mom.logging]
      split
      · exact ⟨_, rfl⟩
      · exact ih _ _
  unfold Mom.emTrain
  rw [if_neg (by decide)]
  exact h _ _ _

example (psi : ℝ → ℝ) : ∃ a, Mom.emTrain psi ⟨2, fun _ => 1, fun t => t + 1⟩ exU ⟨5, 0, false⟩ ⟨fun _ => 1, fun _ _ => 7, fun _ _ => 7⟩ = .ok a
    ∧ a.word 0 2 = 3 := by
  obtain ⟨a, ha⟩ := ex_em psi ⟨fun _ => 1, fun _ _ => 7, fun _ _ => 7⟩
  refine ⟨a, ha, (em_unseen_partial psi _ exU _ (by decide) _ a ?_ ha 0 2 exU_unseen).trans (by norm_num)⟩
  have hd : ∀ d, ∑ k ∈ Finset.range 2, (7 - Mom.eStep psi ⟨2, fun _ => 1, fun t => t + 1⟩ exU ⟨fun _ => 1, fun _ _ => 7, fun _ _ => 7⟩ d k) = 13 := by
    intro d
    rw [Finset.sum_sub_distrib, MomEm.eStep_eq, (MomEm.softmax_dist 2 _ (by decide)).2]
    norm_num
  have : (13 : ℝ) + 13 ≤ ∑ d ∈ Finset.range 2, ∑ k ∈ Finset.range 2,
      |7 - Mom.eStep psi ⟨2, fun _ => 1, fun t => t + 1⟩ exU ⟨fun _ => 1, fun _ _ => 7, fun _ _ => 7⟩ d k| := by
    rw [Finset.sum_range_succ, Finset.sum_range_one]
    exact add_le_add ((hd 0).symm.le.trans (Finset.sum_le_sum fun k _ => le_abs_self _))
      ((hd 1).symm.le.trans (Finset.sum_le_sum fun k _ => le_abs_self _))
  refine le_trans ?_ this
  norm_num [exU]

example (psi : ℝ → ℝ) : ∃ a, VbPython.train psi (fun _ _ => 0) ⟨2, fun k => k + 1, 1 / 2⟩ exU ⟨5, 0, 1, 1, 1, 1, "batch"⟩ (fun k t => k + t) (fun _ _ => 1)
    = .ok a ∧ a.word 1 2 = 1 / 2 := by
  obtain ⟨a, ha, -⟩ := Twins.vb_docs psi (fun _ _ => 0) (p := ⟨2, fun k => k + 1, 1 / 2⟩) (x := exU) ⟨by decide, by decide⟩ (d := 0) (e := 0)
    ⟨by decide, by decide, by decide⟩ ⟨5, 0, 1, 1, 1, 1, "batch"⟩ rfl (word := fun k t => k + t) (topics := fun _ _ => 1) (fun _ _ => rfl)
  exact ⟨a, ha, vb_unseen_partial psi _ _ exU _ rfl (by decide) _ _ a ha 1 2 exU_unseen⟩

end

/-- Three documents of which the second is empty; the last of the three words does not occur. -/
def exE : Cvb.Corpus := ⟨[2, 0, 1], fun d n => if d = 0 then n else 1⟩

example (psi : ℝ → ℝ) (s : Vb.State) : (Vb.iterate psi ⟨2, 3, fun k => k + 1, 1 / 10⟩ exE 6 s).vocab 1 2 = 1 / 10 :=
  lda_unseen_partial psi ⟨2, 3, fun k => k + 1, 1 / 10⟩ exE s 5 1 2 (by norm_num) (by decide)

/-- **C318** is violated by variational Bayes: with the prior `(1, 2)` the empty document among three gets the topics `(5 / 12, 7 / 12)` and not
`(1 / 3, 2 / 3)`. -/
theorem lda_empty_violation (psi : ℝ → ℝ) (s : Vb.State) :
    (Vb.topicDists ⟨2, 3, fun k => k + 1, 1 / 10⟩ (Vb.query psi ⟨2, 3, fun k => k + 1, 1 / 10⟩ exE 6 s)).1 1 0 = 5 / 12 := by
  have h := fun k (hk : k < 2) => lda_empty_exact psi ⟨2, 3, fun k => k + 1, 1 / 10⟩ exE 5 s 1 k (by decide) hk rfl
  show (Vb.query psi ⟨2, 3, fun k => k + 1, 1 / 10⟩ exE 6 s).topics 1 0 / ∑ j ∈ Finset.range 2, _ = _
  rw [Finset.sum_range_succ, Finset.sum_range_one]
  rw [h 0 (by decide), h 1 (by decide)]
  norm_num [exE]

example (psi : ℝ → ℝ) (s : Vb.State) : (Vb.topicDists ⟨2, 3, fun _ => 1, 1 / 10⟩ (Vb.query psi ⟨2, 3, fun _ => 1, 1 / 10⟩ exE 6 s)).1 1 0 = 1 / 2 := by
  have := (lda_empty_iff psi ⟨2, 3, fun _ => 1, 1 / 10⟩ (by norm_num) (fun _ _ => by norm_num) exE 5 s 1 (by decide) rfl).mpr (fun _ _ _ _ => rfl) 0 (by norm_num)
  rw [this]
  norm_num

/-- The same documents for the sampler, with topics preferred to different degrees -/
def exG : Gibbs.Params := ⟨2, 3, [2, 0, 1], fun n => [0, 1, 1].getD n 0, fun _ k => k + 1, fun v => (v + 1) / 10⟩

example : ∃ st φ, Gibbs.train exG ⟨6, 2, 2⟩ (fun n => n % 2) Gibbs.exRand Gibbs.exRand = some st ∧ Gibbs.wordDists ⟨st.vocabSum, st.count⟩ = some φ
    ∧ 0 < φ 0 2 := by
  have h0 : (Gibbs.train exG ⟨6, 2, 2⟩ (fun n => n % 2) Gibbs.exRand Gibbs.exRand).any (fun st => decide (st.count ≠ 0)) = true := by decide +kernel
  obtain ⟨st, h1, h2⟩ := Option.any_eq_true_iff_get _ _ |>.mp h0 |> fun ⟨h, h'⟩ => (⟨_, (Option.some_get h).symm, of_decide_eq_true h'⟩ :
    ∃ st, Gibbs.train exG ⟨6, 2, 2⟩ (fun n => n % 2) Gibbs.exRand Gibbs.exRand = some st ∧ st.count ≠ 0)
  obtain ⟨φ, h3, h4⟩ := gibbs_unseen_partial exG (by decide) (by decide +kernel) ⟨6, 2, 2⟩ _ (fun n _ => Nat.mod_lt _ (by decide)) _ _ st h1 h2
  obtain ⟨h, h5, -, h6⟩ := h4 0 (by decide)
  refine ⟨st, φ, h1, h3, ?_⟩
  rw [h6 2 (by unfold NoToken; decide)]
  exact mul_pos (by norm_num [exG]) (lt_of_lt_of_le (by decide +kernel) h5)

example : ∃ st θ, Gibbs.train exG ⟨6, 2, 2⟩ (fun n => n % 2) Gibbs.exRand Gibbs.exRand = some st ∧ Gibbs.topicDists st.topicSum st.count = some θ
    ∧ θ 1 0 = 1 / 3 := by
  have h0 : (Gibbs.train exG ⟨6, 2, 2⟩ (fun n => n % 2) Gibbs.exRand Gibbs.exRand).any (fun st => decide (st.count ≠ 0)) = true := by decide +kernel
  obtain ⟨st, h1, h2⟩ := Option.any_eq_true_iff_get _ _ |>.mp h0 |> fun ⟨h, h'⟩ => (⟨_, (Option.some_get h).symm, of_decide_eq_true h'⟩ :
    ∃ st, Gibbs.train exG ⟨6, 2, 2⟩ (fun n => n % 2) Gibbs.exRand Gibbs.exRand = some st ∧ st.count ≠ 0)
  obtain ⟨θ, h3, h4⟩ := gibbs_empty_partial exG (by decide) 1 rfl ⟨6, 2, 2⟩ _ (fun n _ => Nat.mod_lt _ (by decide)) _ _ st h1 h2
  exact ⟨st, θ, h1, h3, (h4 0 (by decide)).trans (by decide +kernel)⟩

example : ∃ r θ, Gibbs.query exG Gibbs.exModel ⟨3, 2, 1⟩ (fun n => n % 2) Gibbs.exRand Gibbs.exRand = some r
    ∧ Gibbs.topicDists r.2.topicSum r.2.count = some θ ∧ θ 1 0 = 1 / 3 := by
  have h0 : (Gibbs.query exG Gibbs.exModel ⟨3, 2, 1⟩ (fun n => n % 2) Gibbs.exRand Gibbs.exRand).any (fun r => decide (r.2.count ≠ 0)) = true := by
    decide +kernel
  obtain ⟨r, h1, h2⟩ := Option.any_eq_true_iff_get _ _ |>.mp h0 |> fun ⟨h, h'⟩ => (⟨_, (Option.some_get h).symm, of_decide_eq_true h'⟩ :
    ∃ r, Gibbs.query exG Gibbs.exModel ⟨3, 2, 1⟩ (fun n => n % 2) Gibbs.exRand Gibbs.exRand = some r ∧ r.2.count ≠ 0)
  obtain ⟨θ, h3, h4⟩ := gibbs_query_empty_partial exG (by decide) 1 rfl Gibbs.exModel ⟨3, 2, 1⟩ _ (fun n _ => Nat.mod_lt _ (by decide)) _ _ r h1 h2
  exact ⟨r, θ, h1, h3, (h4 0 (by decide)).trans (by decide +kernel)⟩

/-- The collapsed models, with a vocabulary in which the last word does not occur -/
example : ∃ m q, Cvb.train0 ⟨2, 4, fun k => k + 1, 1 / 10⟩ Cvb0.exC [10] false none (Cvb.newQueryState Cvb0.exC 2 Cvb0.exR) = .ok (some m, q)
    ∧ Cvb.wordDists 4 m 0 3 = 0 := by
  obtain ⟨m, q, h1, h2⟩ := cvb0_unseen_violation ⟨2, 4, fun k => k + 1, 1 / 10⟩ Cvb0.exC
    ⟨by decide, by decide, fun k _ => by positivity, by norm_num⟩ Cvb0.exC_docs [10] Cvb0.exR ⟨Cvb0.exR_good.1, Cvb0.exR_good.2⟩
  exact ⟨m, q, h1, h2 0 (by decide) 3 (by decide)⟩

example : ∃ m q, Cvb.train2 (Cvb.kernel64 fun _ => 1) ⟨2, 4, fun k => k + 1, 1 / 10⟩ Cvb0.exC [10] false none (Cvb.newQueryState Cvb0.exC 2 Cvb0.exR)
    = .ok (some m, q) ∧ Cvb.wordDists 4 m.n 0 3 = 0 := by
  obtain ⟨m, q, h1, h2⟩ := cvb2_unseen_violation (fun _ => 1) (fun _ => one_pos) ⟨2, 4, fun k => k + 1, 1 / 10⟩ Cvb0.exC
    ⟨by decide, by decide, fun k _ => by positivity, by norm_num⟩ Cvb0.exC_docs [10] Cvb0.exR ⟨Cvb0.exR_good.1, Cvb0.exR_good.2⟩
  exact ⟨m, q, h1, h2 0 (by decide) 3 (by decide)⟩

example : (Mom.emQuery Real.log ⟨2, fun _ => 1, fun _ => 1⟩ ⟨2, 3, fun d t => if d = 1 then 0 else t⟩ 4 ⟨fun k => k + 1, fun k t => k + t + 1, fun _ _ => 0⟩).toOption.map
    (fun a => a.resp 1 0) = some (1 / 3) := by
  have h := em_query_empty_partial Real.log ⟨2, fun _ => 1, fun _ => 1⟩ ⟨2, 3, fun d t => if d = 1 then 0 else t⟩ 1 (fun _ _ => rfl) 4
    ⟨fun k => k + 1, fun k t => k + t + 1, fun _ _ => 0⟩ _ rfl 0
  refine congrArg some (h.trans ?_)
  rw [Finset.sum_range_succ, Finset.sum_range_one, Real.exp_log (by norm_num), Real.exp_log (by norm_num)]
  norm_num

example (psi : ℝ → ℝ) (s : Mom.EmState) : Mom.emTrain psi ⟨2, fun _ => 1, fun _ => 1⟩ ⟨2, 3, fun d t => if d = 1 then 0 else t⟩ ⟨5, 0, false⟩ s
    = .error .valueError :=
  (empty_refused_partial psi ⟨2, 3, fun d t => if d = 1 then 0 else t⟩ 1 (by decide) (fun _ _ => rfl)).1 _ _ s

/-! ## Documents without words: queries of the correlated topic models -/

/-- C318: in the accurate mode of the model with Böhning's bound, a query of at least one iteration gives a document without words the weights of the
prior, whatever weights it was given. -/
theorem bohning_query_empty_partial (x : Data) (K : Nat) (sig : Nat → Nat → ℝ) (hsig : (StmCov.mat K sig).PosDef) (mu : Nat → ℝ)
    (vocab : Nat → Nat → ℝ) (perp : (Nat → Nat → ℝ) → ℝ) (iterations : Nat) (hit : 0 < iterations) (means expMeans varcs : Nat → Nat → ℝ)
    (lastPerp : ℝ) (d : Nat) (h0 : ∀ t, t < x.T → x.words d t = 0) (k : Nat) (hk : k < K) :
    (bohningQuery (StmCov.exactInv K) x K (bohningA K) sig mu vocab perp false iterations means expMeans varcs lastPerp).1 d k = mu k := by
  have hl : x.len d = 0 := Finset.sum_eq_zero fun t ht => h0 t (Finset.mem_range.1 ht)
  obtain ⟨n, h1, -, h3⟩ := Bohning.query_accurate (StmCov.exactInv K) x K sig mu vocab perp iterations means expMeans varcs lastPerp
  obtain ⟨m, rfl⟩ : ∃ m, n = m + 1 := ⟨n - 1, by omega⟩
  rw [h1, Function.iterate_succ_apply']
  generalize (Bohning.accurate (StmCov.exactInv K) x K (StmCov.exactInv K sig) mu vocab _)^[m] means = w
  have htwo := (StmCov.exactInv_two K _ (StmCov.exactInv_posDef K sig hsig)).2
  unfold Bohning.accurate bohningMeans
  have hM : (fun i l => StmCov.exactInv K sig i l + (x.len d : ℝ) * bohningA K i l) = StmCov.exactInv K sig := by
    funext i l
    rw [hl]
    simp
  have hr : ∀ j, bohningRhs x K (bohningA K) (StmCov.exactInv K sig) mu (topicCounts x K (expRows K w) vocab) w d j
      = ∑ i ∈ Finset.range K, StmCov.exactInv K sig j i * mu i := by
    intro j
    unfold bohningRhs
    rw [hl, CtmQuery.counts_empty x K _ vocab d j hl]
    simp
  simp only [Bool.false_eq_true, if_false, hM, hr]
  exact Bohning.mul_of_isInv K _ _ htwo mu k hk

/-- C318: in the fast mode every document, one without words too, is returned with the softmax of the weights given: from weights of zero these are
those of the prior only if the prior happens to say one half. -/
theorem bohning_fast_empty_violation (inv : (Nat → Nat → ℝ) → Nat → Nat → ℝ) (A sig vocab : Nat → Nat → ℝ) (perp : (Nat → Nat → ℝ) → ℝ)
    (iterations : Nat) (hit : 0 < iterations) (expMeans varcs : Nat → Nat → ℝ) (lastPerp : ℝ) (x : Data) (d : Nat) (mu : Nat → ℝ) (hmu : mu 0 ≠ 1 / 2) :
    (bohningQuery inv x 2 A sig mu vocab perp true iterations (fun _ _ => 0) expMeans varcs lastPerp).1 d 0 ≠ mu 0 := by
  obtain ⟨n, rfl⟩ : ∃ n, iterations = n + 1 := ⟨iterations - 1, by omega⟩
  rw [Bohning.query_fast_violation]
  intro h
  apply hmu
  rw [← h]
  norm_num [Numerics.softmax, Finset.sum_range_succ]

example (perp : (Nat → Nat → ℝ) → ℝ) (vocab : Nat → Nat → ℝ) :
    (bohningQuery (StmCov.exactInv 3) ⟨2, 3, fun d t => if d = 1 then 0 else t⟩ 3 (bohningA 3) Bohning.eye (fun k => k) vocab perp false 5
      (fun _ _ => 7) (fun _ _ => 0) (fun _ _ => 1) 0).1 1 2 = 2 := by
  have h := bohning_query_empty_partial ⟨2, 3, fun d t => if d = 1 then 0 else t⟩ 3 Bohning.eye CtmQuery.exEye (fun k => k) vocab perp 5 (by norm_num)
    (fun _ _ => 7) (fun _ _ => 0) (fun _ _ => 1) 0 1 (fun _ _ => rfl) 2 (by norm_num)
  exact h.trans (by norm_num)

end Verif.Props.Absent
