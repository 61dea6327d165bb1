import Verif.Props.Likelihoods
import Verif.Model.RecLikely

/-!
# The likelihoods of the parts of a corpus (C322)
-/

namespace Verif.Props.Parts

open Verif Verif.Likelihoods
open Verif.Mom (Data EmParams EmState)
open Verif.Props.Likelihoods (Fits ln_dot_sum)
open Verif.Props.SkWrapped (corpusLike)

/-- `x` has the documents of `a`, followed by those of `b`. -/
structure Joined (x a b : Data) : Prop where
  D : x.D = a.D + b.D
  Ta : a.T = x.T
  Tb : b.T = x.T
  first : ∀ d, d < a.D → ∀ t, x.words d t = a.words d t
  second : ∀ d, d < b.D → ∀ t, x.words (a.D + d) t = b.words d t

/-- The same for a sparse matrix -/
structure JoinedCsr (x a b : Csr ℝ) : Prop where
  rows : x.rows = a.rows + b.rows
  first : ∀ d, d < a.rows → x.row d = a.row d
  second : ∀ d, d < b.rows → x.row (a.rows + d) = b.row d

/-- The same for a table of topics, the first part having `n` documents -/
structure JoinedMat (n : Nat) (x a b : Mat ℝ) : Prop where
  size : a.rows = n
  rows : x.rows = n + b.rows
  ca : a.cols = x.cols
  cb : b.cols = x.cols
  first : ∀ d, d < n → ∀ k, x.get d k = a.get d k
  second : ∀ d, ∀ k, x.get (n + d) k = b.get d k

/-! ## Likelihoods -/

/-- **C322**: in the correlated topic models and the models with features the log-likelihoods of the parts add up. -/
theorem ctm_parts (x a b : Data) (h : Joined x a b) (K : Nat) (tiny : ℝ) (means vocab : Nat → Nat → ℝ) :
    Ctm.logLikelihood x K tiny means vocab
      = Ctm.logLikelihood a K tiny means vocab + Ctm.logLikelihood b K tiny (fun d => means (a.D + d)) vocab := by
  unfold Ctm.logLikelihood
  rw [h.D, Finset.sum_range_add, h.Ta, h.Tb]
  refine congrArg₂ (· + ·) (Finset.sum_congr rfl fun d hd => Finset.sum_congr rfl fun t _ => ?_)
    (Finset.sum_congr rfl fun d hd => Finset.sum_congr rfl fun t _ => ?_)
  · rw [h.first d (Finset.mem_range.mp hd) t]
  · rw [h.second d (Finset.mem_range.mp hd) t]
    rfl

theorem kernel_parts (tiny : ℝ) (x a b : Csr ℝ) (h : JoinedCsr x a b) (hx : x.WF) (ha : a.WF) (hb : b.WF) (X A B C : Mat ℝ)
    (hm : JoinedMat a.rows X A B) (hC : X.cols ≤ C.rows) (fa : Fits a A.rows C.cols) (fb : Fits b B.rows C.cols) :
    ∃ la lb, lnDotSum tiny a A C = some la ∧ lnDotSum tiny b B C = some lb ∧ lnDotSum tiny x X C = some (la + lb) := by
  have fx : Fits x X.rows C.cols := by
    intro r hr e he
    rw [hm.rows]
    rcases Nat.lt_or_ge r a.rows with h1 | h1
    · rw [h.first r h1] at he
      exact ⟨by omega, (fa r h1 e he).2⟩
    · obtain ⟨s, rfl⟩ := Nat.exists_eq_add_of_le h1
      have hs : s < b.rows := by have := h.rows; omega
      rw [h.second s hs] at he
      have := fb s hs e he
      exact ⟨by omega, this.2⟩
  refine ⟨_, _, ln_dot_sum tiny a ha A C (hm.ca ▸ hC) fa, ln_dot_sum tiny b hb B C (hm.cb ▸ hC) fb, ?_⟩
  rw [ln_dot_sum tiny x hx X C hC fx]
  unfold corpusLike
  rw [h.rows, Finset.sum_range_add, hm.ca, hm.cb]
  refine congrArg some (congrArg₂ (· + ·) (Finset.sum_congr rfl fun d hd => ?_) (Finset.sum_congr rfl fun d hd => ?_))
  · have hd' := Finset.mem_range.mp hd
    rw [h.first d hd']
    simp only [hm.first d hd']
  · rw [h.second d (Finset.mem_range.mp hd)]
    simp only [hm.second d]

theorem topicDists_joined {n : Nat} {X A B : Mat ℝ} (h : JoinedMat n X A B) :
    JoinedMat n (RecLikely.topicDists X) (RecLikely.topicDists A) (RecLikely.topicDists B) := by
  refine ⟨h.size, h.rows, h.ca, h.cb, fun d hd k => ?_, fun d k => ?_⟩
  · simp only [RecLikely.topicDists, h.ca, h.first d hd]
  · simp only [RecLikely.topicDists, h.cb, h.second d]

theorem leadingDists_joined {n : Nat} {X A B : Mat ℝ} (h : JoinedMat n X A B) : JoinedMat n (leadingDists X) (leadingDists A) (leadingDists B) := by
  refine ⟨h.size, h.rows, congrArg (· - 1) h.ca, congrArg (· - 1) h.cb, fun d hd k => ?_, fun d k => ?_⟩
  · simp only [leadingDists, h.ca, h.first d hd]
  · simp only [leadingDists, h.cb, h.second d]

theorem softDists_joined {n : Nat} {X A B : Mat ℝ} (h : JoinedMat n X A B) : JoinedMat n (softDists X) (softDists A) (softDists B) := by
  refine ⟨h.size, h.rows, h.ca, h.cb, fun d hd k => ?_, fun d k => ?_⟩
  · have : X.get d = A.get d := funext fun k => h.first d hd k
    simp only [softDists, Ctm.softmaxRows, h.ca, this]
  · have : X.get (n + d) = B.get d := funext fun k => h.second d k
    simp only [softDists, Ctm.softmaxRows, h.cb, this]

/-- **C322**: in LDA, the recommenders, the mixture sampler, the relational topic model and the first matrix topic model the log-likelihoods of the
parts add up. -/
theorem word_parts (tiny : ℝ) (x a b : Csr ℝ) (h : JoinedCsr x a b) (hx : x.WF) (ha : a.WF) (hb : b.WF) (X A B C : Mat ℝ)
    (hm : JoinedMat a.rows X A B) (hC : X.cols ≤ C.rows) (fa : Fits a A.rows C.cols) (fb : Fits b B.rows C.cols) (lx la lb : Csr ℝ) :
    (∃ p q, RecLikely.ldaLikelihood tiny a C A none = some p ∧ RecLikely.ldaLikelihood tiny b C B none = some q
      ∧ RecLikely.ldaLikelihood tiny x C X none = some (p + q)) ∧
    (∃ p q, momGibbsPoint tiny a A C = some p ∧ momGibbsPoint tiny b B C = some q ∧ momGibbsPoint tiny x X C = some (p + q)) ∧
    (∃ p q, rtmLikelihood tiny a la A C = some p ∧ rtmLikelihood tiny b lb B C = some q ∧ rtmLikelihood tiny x lx X C = some (p + q)) ∧
    ∃ p q, mtmLikelihood tiny a la A C = some p ∧ mtmLikelihood tiny b lb B C = some q ∧ mtmLikelihood tiny x lx X C = some (p + q) := by
  refine ⟨?_, ?_, ?_, ?_⟩
  · exact kernel_parts tiny x a b h hx ha hb _ _ _ (RecLikely.wordDists C) (topicDists_joined hm) hC fa fb
  · exact kernel_parts tiny x a b h hx ha hb _ _ _ (SkWrapped.componentDists C) hm hC fa fb
  · obtain ⟨p, q, h1, h2, h3⟩ := kernel_parts tiny x a b h hx ha hb _ _ _ (SkWrapped.componentDists C) (leadingDists_joined hm)
      (le_trans (Nat.sub_le _ _) hC) fa fb
    refine ⟨p, q, ?_, ?_, ?_⟩
    · unfold rtmLikelihood
      rw [h1]
      exact congrArg some (add_zero _)
    · unfold rtmLikelihood
      rw [h2]
      exact congrArg some (add_zero _)
    · unfold rtmLikelihood
      rw [h3]
      exact congrArg some (add_zero _)
  · obtain ⟨p, q, h1, h2, h3⟩ := kernel_parts tiny x a b h hx ha hb _ _ _ (SkWrapped.componentDists C) (softDists_joined hm) hC fa fb
    refine ⟨p, q, ?_, ?_, ?_⟩
    · unfold mtmLikelihood
      rw [h1]
      exact congrArg some (add_zero _)
    · unfold mtmLikelihood
      rw [h2]
      exact congrArg some (add_zero _)
    · unfold mtmLikelihood
      rw [h3]
      exact congrArg some (add_zero _)

/-- **C322**: in the mixture fitted by expectation maximisation the point log-likelihoods of the parts add up. -/
theorem mixture_parts (D E K T : Nat) (words : Nat → Nat → Nat) (param weight : Nat → Nat → ℝ) :
    momEmPoint (D + E) K T words param weight
      = momEmPoint D K T words param weight + momEmPoint E K T (fun d => words (D + d)) param (fun d => weight (D + d)) := by
  unfold momEmPoint
  simp only
  rw [Finset.sum_range_add]

/-- **C322**, what holds of the expected log-likelihood of mixtures: it adds up if no part is a single document. -/
theorem expected_parts_partial (p : EmParams) (x a b : Data) (h : Joined x a b) (s : EmState) (ha : a.D ≠ 1) (hb : b.D ≠ 1) (hx : x.D ≠ 1) :
    ∃ la lb, Mom.expectedLikelihood p a s false = .ok la ∧ Mom.expectedLikelihood p b s false = .ok lb
      ∧ Mom.expectedLikelihood p x s false = .ok (la + lb) := by
  have e1 : ∀ d, d < a.D → Mom.expectedLls p x s d = Mom.expectedLls p a s d := by
    intro d hd
    funext k
    have hl : x.len d = a.len d := by
      unfold Data.len
      rw [h.Ta]
      exact Finset.sum_congr rfl fun t _ => h.first d hd t
    unfold Mom.expectedLls
    rw [hl, h.Ta]
    simp only [h.first d hd]
  have e2 : ∀ d, d < b.D → Mom.expectedLls p x s (a.D + d) = Mom.expectedLls p b s d := by
    intro d hd
    funext k
    have hl : x.len (a.D + d) = b.len d := by
      unfold Data.len
      rw [h.Tb]
      exact Finset.sum_congr rfl fun t _ => h.second d hd t
    unfold Mom.expectedLls
    rw [hl, h.Tb]
    simp only [h.second d hd]
  unfold Mom.expectedLikelihood
  simp only [Bool.false_eq_true, if_false, if_neg ha, if_neg hb, if_neg hx]
  refine ⟨_, _, rfl, rfl, ?_⟩
  rw [h.D, Finset.sum_range_add]
  refine congrArg Except.ok (congrArg₂ (· + ·) (Finset.sum_congr rfl fun d hd => ?_) (Finset.sum_congr rfl fun d hd => ?_))
  · rw [e1 d (Finset.mem_range.mp hd)]
  · rw [e2 d (Finset.mem_range.mp hd)]

/-- **C322**, violated by the expected log-likelihood of mixtures: a part with a single document is refused. -/
theorem expected_single_violation (p : EmParams) (a : Data) (s : EmState) (ha : a.D = 1) :
    Mom.expectedLikelihood p a s false = .error .indexError := by
  unfold Mom.expectedLikelihood
  simp only [Bool.false_eq_true, if_false, if_pos ha]

/-! ## Perplexities -/

/-- **C322**: the perplexity of a corpus lies between those of its parts. -/
theorem perplexity_between (la lb na nb : ℝ) (ha : 0 < na) (hb : 0 < nb) :
    min (RunMain.perplexityFromLike la na) (RunMain.perplexityFromLike lb nb) ≤ RunMain.perplexityFromLike (la + lb) (na + nb) ∧
    RunMain.perplexityFromLike (la + lb) (na + nb) ≤ max (RunMain.perplexityFromLike la na) (RunMain.perplexityFromLike lb nb) := by
  have hab : 0 < na + nb := by positivity
  unfold RunMain.perplexityFromLike
  rcases le_total (-la / na) (-lb / nb) with h | h
  · rw [div_le_div_iff₀ ha hb] at h
    refine ⟨(min_le_left _ _).trans (Real.exp_le_exp.mpr ?_), le_trans (Real.exp_le_exp.mpr ?_) (le_max_right _ _)⟩
    · rw [div_le_div_iff₀ ha hab]
      nlinarith
    · rw [div_le_div_iff₀ hab hb]
      nlinarith
  · rw [div_le_div_iff₀ hb ha] at h
    refine ⟨(min_le_right _ _).trans (Real.exp_le_exp.mpr ?_), le_trans (Real.exp_le_exp.mpr ?_) (le_max_left _ _)⟩
    · rw [div_le_div_iff₀ hb hab]
      nlinarith
    · rw [div_le_div_iff₀ hab ha]
      nlinarith

/-! ## Examples -/

/-- Three documents, of which the first two are one part -/
def exX : Data := ⟨3, 2, fun d t => d + t⟩
def exA : Data := ⟨2, 2, fun d t => d + t⟩
def exB : Data := ⟨1, 2, fun d t => 2 + d + t⟩

theorem exJoined : Joined exX exA exB := ⟨rfl, rfl, rfl, fun _ _ _ => rfl, fun _ _ _ => rfl⟩

example (K : Nat) (tiny : ℝ) (means vocab : Nat → Nat → ℝ) : Ctm.logLikelihood exX K tiny means vocab
    = Ctm.logLikelihood exA K tiny means vocab + Ctm.logLikelihood exB K tiny (fun d => means (2 + d)) vocab :=
  ctm_parts exX exA exB exJoined K tiny means vocab

/-- Two sparse rows, one in each part -/
def exSx : Csr ℝ := Csr.ofRows 2 [[(0, 1)], [(1, 2)]]
def exSa : Csr ℝ := Csr.ofRows 2 [[(0, 1)]]
def exSb : Csr ℝ := Csr.ofRows 2 [[(1, 2)]]

theorem exJoinedCsr : JoinedCsr exSx exSa exSb := by
  refine ⟨rfl, fun d hd => ?_, fun d hd => ?_⟩
  · have h0 : d = 0 := by have : exSa.rows = 1 := rfl; omega
    subst h0
    exact (Csr.ofRows_row 2 [[(0, (1 : ℝ))], [(1, 2)]] 0 (by simp)).trans (Csr.ofRows_row 2 [[(0, (1 : ℝ))]] 0 (by simp)).symm
  · have h0 : d = 0 := by have : exSb.rows = 1 := rfl; omega
    subst h0
    exact (Csr.ofRows_row 2 [[(0, (1 : ℝ))], [(1, 2)]] 1 (by simp)).trans (Csr.ofRows_row 2 [[(1, (2 : ℝ))]] 0 (by simp)).symm

theorem exJoinedMat : JoinedMat 1 ⟨2, 2, fun d k => d + k + 1⟩ ⟨1, 2, fun d k => d + k + 1⟩ ⟨1, 2, fun d k => 1 + d + k + 1⟩ := by
  refine ⟨rfl, rfl, rfl, rfl, fun _ _ _ => rfl, fun d k => ?_⟩
  push_cast
  rfl

theorem exFits (v : ℝ) (c : Nat) (hc : c < 2) : Fits (Csr.ofRows 2 [[(c, v)]]) 1 2 := by
  intro r hr e he
  have h0 : r = 0 := by have : (Csr.ofRows 2 [[(c, v)]]).rows = 1 := rfl; omega
  subst h0
  rw [Csr.ofRows_row 2 [[(c, v)]] 0 (by simp)] at he
  have : e = (c, v) := by simpa using he
  subst this
  exact ⟨one_pos, hc⟩

example (C : Mat ℝ) (hC : 2 ≤ C.rows) (hT : C.cols = 2) (l : Csr ℝ) :
    ∃ p q, rtmLikelihood (1 / 100) exSa l ⟨1, 2, fun d k => d + k + 1⟩ C = some p ∧ rtmLikelihood (1 / 100) exSb l ⟨1, 2, fun d k => 1 + d + k + 1⟩ C = some q
      ∧ rtmLikelihood (1 / 100) exSx l ⟨2, 2, fun d k => d + k + 1⟩ C = some (p + q) :=
  (word_parts (1 / 100) exSx exSa exSb exJoinedCsr (Csr.ofRows_wf _ _ (by simp)) (Csr.ofRows_wf _ _ (by simp)) (Csr.ofRows_wf _ _ (by simp)) _ _ _ C
    exJoinedMat hC (hT ▸ exFits 1 0 two_pos) (hT ▸ exFits 2 1 one_lt_two) l l l).2.2.1

example (p : EmParams) (s : EmState) : ∃ la lb, Mom.expectedLikelihood p exA s false = .ok la
    ∧ Mom.expectedLikelihood p ⟨2, 2, fun d t => 2 + d + t⟩ s false = .ok lb ∧ Mom.expectedLikelihood p ⟨4, 2, fun d t => d + t⟩ s false = .ok (la + lb) :=
  expected_parts_partial p ⟨4, 2, fun d t => d + t⟩ exA ⟨2, 2, fun d t => 2 + d + t⟩ ⟨rfl, rfl, rfl, fun _ _ _ => rfl, fun _ _ _ => rfl⟩ s
    (by decide) (by decide) (by decide)

example : RunMain.perplexityFromLike (-30) 10 ≤ max (RunMain.perplexityFromLike (-10) 4) (RunMain.perplexityFromLike (-20) 6) := by
  have := (perplexity_between (-10) (-20) 4 6 (by norm_num) (by norm_num)).2
  norm_num at this ⊢
  exact this

end Verif.Props.Parts
