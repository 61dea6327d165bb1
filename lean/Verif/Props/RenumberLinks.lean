import Verif.Props.RenumberStm
import Verif.Model.Mtm
import Verif.Model.Rtm

/-!
# Renumbering words, topics and documents (C307): models of words and links
-/

namespace Verif.Props.RenumberLinks

open Verif Verif.Ctm
open Verif.Mom (Data)
open Verif.Props.Renumber Verif.Props.RenumberCtm
open Verif.Props.RenumberStm (FollowsInv)

variable {δ σ τ : Equiv.Perm Nat} {x y links links' : Data} {K : Nat}

/-! ## Links -/

/-- Words and links with other numbers for words and documents; both ends of a link are documents. -/
structure Linked (δ τ : Equiv.Perm Nat) (x links y links' : Data) : Prop where
  words : Renumbered δ τ x y
  pairs : Renumbered δ δ links links'
  rows : links.D = x.D
  columns : links.T = x.D

section
open Verif.Mtm

theorem transpose_eq (h : Linked δ τ x links y links') : Renumbered δ δ (transpose links) (transpose links') :=
  ⟨h.pairs.vocab, h.pairs.docs, h.pairs.T, h.pairs.D, fun d hd t ht => h.pairs.words t ht d hd⟩

theorem soft_eq (hσ : Keeps K σ) {r s : Nat → ℝ} (h : Vec K σ r s) : Vec K σ (soft K r) (soft K s) := by
  intro k hk
  unfold soft
  rw [rowMax_eq (by omega) hσ h, h k hk, sum_eq (f := fun j => Real.exp (r j - Numerics.rowMax K r)) hσ fun j hj => by rw [h j hj]]

theorem docVocab_eq {D : Nat} (hδ : Keeps D δ) {m m' : Nat → Nat → ℝ} (h : Tab D K δ σ m m') : Tab K D σ δ (docVocab D m) (docVocab D m') := by
  have h1 : Tab D K δ σ (expCols D m) (expCols D m') := fun d hd k hk => by
    unfold expCols
    have h1 : Numerics.rowMax D (fun e => m' e k) = Numerics.rowMax D (fun e => m e (σ k)) := rowMax_eq (by omega) hδ fun e he => h e he k hk
    rw [h d hd k hk, h1]
  intro k hk d hd
  unfold docVocab
  rw [h1 d hd k hk, sum_eq (f := fun e => expCols D m e (σ k)) hδ fun e he => h1 e he k hk]

theorem linkA_eq (K : Nat) (σ : Equiv.Perm Nat) : Tab K K σ σ (linkA K) (linkA K) := by
  intro i _ j _
  unfold linkA
  simp

theorem in_eq (h : Linked δ τ x links y links') (hσ : Keeps K σ) {o o' i i' : Nat → Nat → ℝ} (ho : Tab x.D K δ σ o o') (hi : Tab x.D K δ σ i i') :
    Tab x.D K δ σ (inLinkCounts links K o i) (inLinkCounts links' K o' i') := by
  unfold inLinkCounts
  rw [h.pairs.D]
  have h1 := h.columns
  have h2 := h.rows
  have h3 : Tab (transpose links).D K δ σ (expRows K o) (expRows K o') := by
    show Tab links.T K δ σ _ _
    rw [h1]
    exact expRows_eq hσ ho
  have h4 : Tab K (transpose links).T σ δ (docVocab links.D i) (docVocab links.D i') := by
    show Tab K links.D σ δ _ _
    rw [h2]
    exact docVocab_eq h.words.docs hi
  have h5 : Tab links.T K δ σ _ _ := counts_eq (transpose_eq h) hσ h3 h4
  rwa [h1] at h5

theorem out_eq (h : Linked δ τ x links y links') (hσ : Keeps K σ) {o o' i i' : Nat → Nat → ℝ} (ho : Tab x.D K δ σ o o') (hi : Tab x.D K δ σ i i') :
    Tab x.D K δ σ (outLinkCounts links K o i) (outLinkCounts links' K o' i') := by
  unfold outLinkCounts
  rw [h.pairs.D]
  have h3 : Tab links.D K δ σ (expRows K o) (expRows K o') := by
    rw [h.rows]
    exact expRows_eq hσ ho
  have h4 : Tab K links.T σ δ (docVocab links.D i) (docVocab links.D i') := by
    rw [h.rows, h.columns]
    exact docVocab_eq h.words.docs hi
  have h5 := counts_eq h.pairs hσ h3 h4
  rwa [h.rows] at h5 ⊢

theorem inCounts_eq (h : Linked δ τ x links y links') (hσ : Keeps K σ) {o o' i i' : Nat → Nat → ℝ} (ho : Tab x.D K δ σ o o')
    (hi : Tab x.D K δ σ i i') : Vec K σ (inCounts links K o i) (inCounts links' K o' i') := by
  intro k hk
  unfold inCounts
  rw [h.pairs.D, h.rows]
  exact sum_eq (f := fun d => inLinkCounts links K o i d (σ k)) h.words.docs fun d hd => in_eq h hσ ho hi d hd k hk

theorem linkLen_eq (h : Linked δ τ x links y links') (d : Nat) (hd : d < x.D) : links'.len d = links.len (δ d) :=
  len_eq h.pairs d (by rw [h.rows]; exact hd)

theorem colSum_eq {D : Nat} (hδ : Keeps D δ) {m m' : Nat → Nat → ℝ} (hm : Tab D K δ σ m m') :
    Vec K σ (fun k => ∑ d ∈ Finset.range D, m d k) (fun k => ∑ d ∈ Finset.range D, m' d k) := fun k hk =>
  sum_eq (f := fun d => m d (σ k)) hδ fun d hd => hm d hd k hk

/-- `∑ j, v j * M j k` -/
theorem rowMul_eq (hσ : Keeps K σ) {v v' : Nat → ℝ} {M M' : Nat → Nat → ℝ} (hv : Vec K σ v v') (hM : Tab K K σ σ M M') :
    Vec K σ (fun k => ∑ j ∈ Finset.range K, v j * M j k) (fun k => ∑ j ∈ Finset.range K, v' j * M' j k) := fun k hk =>
  sum_eq (f := fun j => v j * M j (σ k)) hσ fun j hj => by rw [hv j hj, hM j hj k hk]

/-- `∑ j, M k j * v j` -/
theorem mulRow_eq (hσ : Keeps K σ) {v v' : Nat → ℝ} {M M' : Nat → Nat → ℝ} (hv : Vec K σ v v') (hM : Tab K K σ σ M M') :
    Vec K σ (fun k => ∑ j ∈ Finset.range K, M k j * v j) (fun k => ∑ j ∈ Finset.range K, M' k j * v' j) := fun k hk =>
  sum_eq (f := fun j => M (σ k) j * v j) hσ fun j hj => by rw [hv j hj, hM k hk j hj]

/-! ## The second matrix topic model -/

/-- The states of mtm2 under other numbers -/
structure Same2 (δ σ τ : Equiv.Perm Nat) (D K T : Nat) (s r : State2) : Prop where
  topicMean : Vec K σ s.topicMean r.topicMean
  topicCov : Tab K K σ σ s.topicCov r.topicCov
  vocab : Tab K T σ τ s.vocab r.vocab
  means : Tab D K δ σ s.means r.means
  varcs : Tab D K δ σ s.varcs r.varcs

variable {inv : Nat → (Nat → Nat → ℝ) → Nat → Nat → ℝ}

theorem cov2_eq {D : Nat} (hδ : Keeps D δ) {m m' v v' : Nat → Nat → ℝ} (hm : Tab D K δ σ m m') (hv : Tab D K δ σ v v') :
    Tab K K σ σ (cov2 D m v) (cov2 D m' v') := by
  intro i hi j hj
  have h1 := colSum_eq hδ hm i hi
  have h2 := colSum_eq hδ hm j hj
  have h3 := colSum_eq hδ hv i hi
  dsimp only at h1 h2 h3
  unfold cov2
  rw [h1, h2, h3, sum_eq (f := fun d => (m d (σ i) - (∑ e ∈ Finset.range D, m e (σ i)) / (D : ℝ))
      * (m d (σ j) - (∑ e ∈ Finset.range D, m e (σ j)) / (D : ℝ))) hδ fun d hd => by rw [hm d hd i hi, hm d hd j hj]]
  simp only [EmbeddingLike.apply_eq_iff_eq]

theorem step2_eq (hinv : FollowsInv inv) (h : Linked δ τ x links y links') (hσ : Keeps K σ) (fast : Bool) {s r : State2}
    (hs : Same2 δ σ τ x.D K x.T s r) : Alike (Same2 δ σ τ x.D K x.T) (step2 inv x links K fast s) (step2 inv y links' K fast r) := by
  unfold step2
  rw [h.words.D]
  split
  · rfl
  have htm : Vec K σ (fun k => (∑ d ∈ Finset.range x.D, s.means d k) / (x.D : ℝ)) (fun k => (∑ d ∈ Finset.range x.D, r.means d k) / (x.D : ℝ)) :=
    fun k hk => by
      have h1 := colSum_eq h.words.docs hs.means k hk
      dsimp only at h1 ⊢
      rw [h1]
  have hc := cov2_eq h.words.docs hs.means hs.varcs
  have hi := hinv K σ hσ _ _ hc
  have he := expRows_eq hσ hs.means
  have hv := vocab_eq h.words hσ (1 / 10) he hs.vocab
  have hw := counts_eq h.words hσ he hv
  have hl := in_eq h hσ hs.means hs.means
  have hn := inCounts_eq h hσ hs.means hs.means
  have ho := out_eq h hσ hs.means hs.means
  refine ⟨htm, hc, hv, fun d hd k hk => ?_, fun d hd k hk => ?_⟩
  · refine sum_eq (f := fun j => inv K (lhs2 x links K (inv K (cov2 x.D s.means s.varcs)) (inCounts links K s.means s.means) (δ d)) (σ k) j
      * rhs2 x links K (inv K (cov2 x.D s.means s.varcs)) (fun k => (∑ d ∈ Finset.range x.D, s.means d k) / (x.D : ℝ)) s.means
        (topicCounts x K (expRows K s.means) (newVocab x K (1 / 10) (expRows K s.means) s.vocab)) (inLinkCounts links K s.means s.means)
        (outLinkCounts links K s.means s.means) (inCounts links K s.means s.means) (δ d) j) hσ fun j hj => ?_
    congr 1
    · refine hinv K σ hσ _ _ (fun a ha b hb => ?_) k hk j hj
      unfold lhs2
      rw [hi a ha b hb, len_eq h.words d hd, linkLen_eq h d hd, ← linkA_eq K σ a ha b hb, h.words.D, hn a ha]
      simp only [EmbeddingLike.apply_eq_iff_eq]
    · have h1 := mulRow_eq hσ htm hi j hj
      have h2 := rowMul_eq hσ (fun i hi' => hs.means d hd i hi') (linkA_eq K σ) j hj
      have h3 := colSum_eq h.words.docs hs.means j hj
      dsimp only at h1 h2 h3
      unfold rhs2
      rw [hw d hd j hj, hl d hd j hj, ho d hd j hj, h1, len_eq h.words d hd, linkLen_eq h d hd, h2, softmaxRows_eq hσ hs.means d hd j hj, hn j hj,
        h.words.D, h3, docVocab_eq h.words.docs hs.means j hj d hd, hs.means d hd j hj]
  · dsimp only
    rw [len_eq h.words d hd, hc k hk k hk]

/-- **C307** (mtm2): training with other numbers for words, topics and documents ends in the same way, with the same result under these numbers. -/
theorem mtm2_train (hinv : FollowsInv inv) (h : Linked δ τ x links y links') (hσ : Keeps K σ) (fast : Bool) (n : Nat) {s r : State2}
    (hs : Same2 δ σ τ x.D K x.T s r) : Alike (Same2 δ σ τ x.D K x.T) (train2 inv x links K fast n s) (train2 inv y links' K fast n r) := by
  induction n generalizing s r with
  | zero => exact hs
  | succ n ih =>
    have h1 := step2_eq hinv h hσ fast hs
    unfold train2
    simp only [bind, Except.bind]
    cases ha : step2 inv x links K fast s <;> cases hb : step2 inv y links' K fast r <;> rw [ha, hb] at h1
    · exact h1
    · exact h1.elim
    · exact h1.elim
    · exact ih h1

/-! ## The third matrix topic model -/

/-- The states of mtm3 under other numbers -/
structure Same3 (δ σ τ : Equiv.Perm Nat) (D K T : Nat) (s r : State3) : Prop where
  topicMean : Vec K σ s.topicMean r.topicMean
  topicCov : Tab K K σ σ s.topicCov r.topicCov
  outDocCov : r.outDocCov = s.outDocCov
  vocab : Tab K T σ τ s.vocab r.vocab
  outMeans : Tab D K δ σ s.outMeans r.outMeans
  outVarcs : Tab D K δ σ s.outVarcs r.outVarcs
  inMeans : Tab D K δ σ s.inMeans r.inMeans
  inVarcs : Tab D K δ σ s.inVarcs r.inVarcs
  inDocCov : Vec D δ s.inDocCov r.inDocCov

theorem cov3_eq {D : Nat} (hδ : Keeps D δ) (pre : ℝ) {c c' : Nat → ℝ} (hc : Vec D δ c c') {a a' b b' u u' v v' : Nat → Nat → ℝ}
    (ha : Tab D K δ σ a a') (hb : Tab D K δ σ b b') (hu : Tab D K δ σ u u') (hv : Tab D K δ σ v v') :
    Tab K K σ σ (cov3 D pre c a b u v) (cov3 D pre c' a' b' u' v') := by
  intro i hi j hj
  have h3 := colSum_eq hδ hu i hi
  have h4 := colSum_eq hδ hv i hi
  dsimp only at h3 h4
  unfold cov3
  have h1 : ∑ d ∈ Finset.range D, pre * a' d i * a' d j = ∑ d ∈ Finset.range D, pre * a d (σ i) * a d (σ j) :=
    sum_eq (f := fun d => pre * a d (σ i) * a d (σ j)) hδ fun d hd => by rw [ha d hd i hi, ha d hd j hj]
  have h2 : ∑ d ∈ Finset.range D, 1 / c' d * b' d i * b' d j = ∑ d ∈ Finset.range D, 1 / c d * b d (σ i) * b d (σ j) :=
    sum_eq (f := fun d => 1 / c d * b d (σ i) * b d (σ j)) hδ fun d hd => by rw [hb d hd i hi, hb d hd j hj, hc d hd]
  rw [h1, h2, h3, h4]
  simp only [EmbeddingLike.apply_eq_iff_eq]

theorem inDocCov3_eq {D : Nat} (hσ : Keeps K σ) {i i' b b' u u' v v' : Nat → Nat → ℝ} (hi : Tab K K σ σ i i') (hb : Tab D K δ σ b b')
    (hu : Tab D K δ σ u u') (hv : Tab D K δ σ v v') : Vec D δ (inDocCov3 K i b u v) (inDocCov3 K i' b' u' v') := by
  intro d hd
  unfold inDocCov3
  have h1 : ∑ j ∈ Finset.range K, (∑ k ∈ Finset.range K, b' d k * i' k j) * b' d j
      = ∑ j ∈ Finset.range K, (∑ k ∈ Finset.range K, b (δ d) k * i k j) * b (δ d) j :=
    sum_eq (f := fun j => (∑ k ∈ Finset.range K, b (δ d) k * i k j) * b (δ d) j) hσ fun j hj => by
      have h0 := rowMul_eq hσ (fun k hk => hb d hd k hk) hi j hj
      dsimp only at h0
      rw [hb d hd j hj, h0]
  have h2 : ∑ k ∈ Finset.range K, u' d k * i' k k = ∑ k ∈ Finset.range K, u (δ d) k * i k k :=
    sum_eq (f := fun k => u (δ d) k * i k k) hσ fun k hk => by rw [hu d hd k hk, hi k hk k hk]
  have h3 : ∑ k ∈ Finset.range K, v' d k * i' k k = ∑ k ∈ Finset.range K, v (δ d) k * i k k :=
    sum_eq (f := fun k => v (δ d) k * i k k) hσ fun k hk => by rw [hv d hd k hk, hi k hk k hk]
  rw [h1, h2, h3]

theorem rounds_eq {D : Nat} (hinv : FollowsInv inv) (hδ : Keeps D δ) (hσ : Keeps K σ) (pre : ℝ) {a a' b b' u u' v v' : Nat → Nat → ℝ}
    (ha : Tab D K δ σ a a') (hb : Tab D K δ σ b b') (hu : Tab D K δ σ u u') (hv : Tab D K δ σ v v') (n : Nat)
    {s s' : (Nat → Nat → ℝ) × (Nat → ℝ)} (h1 : Tab K K σ σ s.1 s'.1) (h2 : Vec D δ s.2 s'.2) :
    Tab K K σ σ ((covRound inv D K pre a b u v)^[n] s).1 ((covRound inv D K pre a' b' u' v')^[n] s').1
      ∧ Vec D δ ((covRound inv D K pre a b u v)^[n] s).2 ((covRound inv D K pre a' b' u' v')^[n] s').2 := by
  induction n generalizing s s' with
  | zero => exact ⟨h1, h2⟩
  | succ n ih =>
    have hc := cov3_eq hδ pre h2 ha hb hu hv
    exact ih (s := covRound inv D K pre a b u v s) (s' := covRound inv D K pre a' b' u' v' s') hc
      (inDocCov3_eq hσ (hinv K σ hσ _ _ hc) hb hu hv)

theorem mStep3_eq {D T : Nat} (hinv : FollowsInv inv) (hδ : Keeps D δ) (hσ : Keeps K σ) {s r : State3} (hs : Same3 δ σ τ D K T s r) :
    Same3 δ σ τ D K T (mStep3 inv D K s) (mStep3 inv D K r) := by
  have htm : Vec K σ (fun k => (∑ d ∈ Finset.range D, s.outMeans d k) / (D : ℝ)) (fun k => (∑ d ∈ Finset.range D, r.outMeans d k) / (D : ℝ)) :=
    fun k hk => by
      have h1 := colSum_eq hδ hs.outMeans k hk
      dsimp only at h1 ⊢
      rw [h1]
  have ha : Tab D K δ σ (fun d k => s.outMeans d k - (∑ d ∈ Finset.range D, s.outMeans d k) / (D : ℝ))
      (fun d k => r.outMeans d k - (∑ d ∈ Finset.range D, r.outMeans d k) / (D : ℝ)) := fun d hd k hk => by
    have h1 := htm k hk
    dsimp only at h1 ⊢
    rw [h1, hs.outMeans d hd k hk]
  have hb := RenumberStm.sub_eq hs.inMeans hs.outMeans
  have h5 := rounds_eq hinv hδ hσ (1 / s.outDocCov) ha hb hs.outVarcs hs.inVarcs 5 (s := (s.topicCov, s.inDocCov)) (s' := (r.topicCov, r.inDocCov))
    hs.topicCov hs.inDocCov
  unfold mStep3
  dsimp only
  rw [hs.outDocCov]
  exact ⟨htm, h5.1, rfl, hs.vocab, hs.outMeans, hs.outVarcs, hs.inMeans, hs.inVarcs, h5.2⟩

theorem eStep3_eq (hinv : FollowsInv inv) (h : Linked δ τ x links y links') (hσ : Keeps K σ) {s r : State3} (hs : Same3 δ σ τ x.D K x.T s r) :
    Same3 δ σ τ x.D K x.T (eStep3 inv x links K s) (eStep3 inv y links' K r) := by
  have hi := hinv K σ hσ _ _ hs.topicCov
  have he := expRows_eq hσ hs.outMeans
  have hv := vocab_eq h.words hσ (1 / 100) he hs.vocab
  have hw := counts_eq h.words hσ he hv
  have hl := in_eq h hσ hs.outMeans hs.inMeans
  have hn := inCounts_eq h hσ hs.outMeans hs.inMeans
  have ho := out_eq h hσ hs.outMeans hs.inMeans
  refine ⟨hs.topicMean, hs.topicCov, hs.outDocCov, hv, fun d hd k hk => ?_, fun d hd k hk => ?_, fun d hd k hk => ?_, fun d hd k hk => ?_, hs.inDocCov⟩
  · refine sum_eq (f := fun j => inv K (outLhs x links K (inv K s.topicCov) s (δ d)) (σ k) j
      * outRhs x links K (inv K s.topicCov) s (topicCounts x K (expRows K s.outMeans) (newVocab x K (1 / 100) (expRows K s.outMeans) s.vocab))
        (outLinkCounts links K s.outMeans s.inMeans) (δ d) j) hσ fun j hj => ?_
    congr 1
    · refine hinv K σ hσ _ _ (fun a ha b hb => ?_) k hk j hj
      unfold outLhs
      rw [hs.outDocCov, hs.inDocCov d hd, hi a ha b hb, len_eq h.words d hd, linkLen_eq h d hd, linkA_eq K σ a ha b hb]
    · have h1 := mulRow_eq hσ hs.topicMean hi j hj
      have h2 := rowMul_eq hσ (fun i hi' => hs.inMeans d hd i hi') hi j hj
      have h3 := rowMul_eq hσ (fun i hi' => hs.outMeans d hd i hi') (linkA_eq K σ) j hj
      dsimp only at h1 h2 h3
      unfold outRhs
      rw [hw d hd j hj, ho d hd j hj, h1, h2, h3, hs.outDocCov, hs.inDocCov d hd, len_eq h.words d hd, linkLen_eq h d hd,
        softmaxRows_eq hσ hs.outMeans d hd j hj]
  · show 1 / (((y.len d : ℝ) + (links'.len d : ℝ)) * ((K : ℝ) - 1) / (2 * (K : ℝ)) + (1 / r.outDocCov + 1 / r.inDocCov d) * inv K r.topicCov k k) = _
    rw [len_eq h.words d hd, linkLen_eq h d hd, hs.outDocCov, hs.inDocCov d hd, hi k hk k hk]
    rfl
  · refine sum_eq (f := fun j => inv K (inLhs x.D (inv K s.topicCov) s.inDocCov (inCounts links K s.outMeans s.inMeans) (δ d)) (σ k) j
      * inRhs x.D K (inv K s.topicCov) s.inDocCov s.outMeans s.inMeans (inLinkCounts links K s.outMeans s.inMeans)
        (inCounts links K s.outMeans s.inMeans) (δ d) j) hσ fun j hj => ?_
    rw [h.words.D]
    congr 1
    · refine hinv K σ hσ _ _ (fun a ha b hb => ?_) k hk j hj
      unfold inLhs
      rw [hs.inDocCov d hd, hi a ha b hb, hn a ha]
      simp only [EmbeddingLike.apply_eq_iff_eq]
    · have h1 : ∑ i ∈ Finset.range K, 1 / r.inDocCov d * r.outMeans d i * inv K r.topicCov i j
          = ∑ i ∈ Finset.range K, 1 / s.inDocCov (δ d) * s.outMeans (δ d) i * inv K s.topicCov i (σ j) :=
        sum_eq (f := fun i => 1 / s.inDocCov (δ d) * s.outMeans (δ d) i * inv K s.topicCov i (σ j)) hσ fun i hi' => by
          rw [hs.inDocCov d hd, hs.outMeans d hd i hi', hi i hi' j hj]
      have h2 := colSum_eq h.words.docs hs.inMeans j hj
      dsimp only at h2
      unfold inRhs
      rw [h1, h2, hn j hj, hl d hd j hj, hs.inMeans d hd j hj, docVocab_eq h.words.docs hs.inMeans j hj d hd]
  · show 1 / (inCounts links' K r.outMeans r.inMeans k * ((y.D : ℝ) - 1) / (2 * (y.D : ℝ)) + 1 / r.inDocCov d * inv K r.topicCov k k) = _
    rw [hn k hk, h.words.D, hs.inDocCov d hd, hi k hk k hk]
    rfl

/-- **C307** (mtm3): training with other numbers for words, topics and documents gives the same result under these numbers. -/
theorem mtm3_train (hinv : FollowsInv inv) (h : Linked δ τ x links y links') (hσ : Keeps K σ) (n : Nat) {s r : State3}
    (hs : Same3 δ σ τ x.D K x.T s r) : Same3 δ σ τ x.D K x.T (train3 inv x links K n s) (train3 inv y links' K n r) := by
  have h1 : ∀ n s r, Same3 δ σ τ x.D K x.T s r → Same3 δ σ τ x.D K x.T ((step3 inv x links K)^[n] s) ((step3 inv y links' K)^[n] r) := by
    intro n
    induction n with
    | zero => exact fun _ _ hs => hs
    | succ n ih =>
      intro s r hs
      have h2 := eStep3_eq hinv h hσ (mStep3_eq hinv h.words.docs hσ hs)
      rw [← h.words.D] at h2
      refine ih _ _ ?_
      unfold step3
      rw [← h.words.D]
      rw [h.words.D] at h2 ⊢
      exact h2
  exact h1 n _ _ ⟨hs.topicMean, hs.topicCov, rfl, hs.vocab, hs.outMeans, hs.outVarcs, hs.inMeans, hs.inVarcs, fun _ _ => rfl⟩

/-- **C307** (mtm3): a query with other numbers gives the same weights under these numbers. -/
theorem mtm3_query (hinv : FollowsInv inv) (h : Linked δ τ x links y links') (hσ : Keeps K σ) (n : Nat) {s r : State3}
    (hs : Same3 δ σ τ x.D K x.T s r) : Same3 δ σ τ x.D K x.T (query3 inv x links K n s) (query3 inv y links' K n r) := by
  unfold query3
  induction n generalizing s r with
  | zero => exact hs
  | succ n ih =>
    refine ih ?_
    have hi := hinv K σ hσ _ _ hs.topicCov
    have hw := counts_eq h.words hσ (expRows_eq hσ hs.outMeans) hs.vocab
    refine ⟨hs.topicMean, hs.topicCov, hs.outDocCov, hs.vocab, fun d hd k hk => ?_, fun d hd k hk => ?_, hs.inMeans, hs.inVarcs, hs.inDocCov⟩
    · refine sum_eq (f := fun j => inv K (queryLhs3 x links K (inv K s.topicCov) s (δ d)) (σ k) j * queryRhs3 x links K (inv K s.topicCov) s (δ d) j)
        hσ fun j hj => ?_
      congr 1
      · refine hinv K σ hσ _ _ (fun a ha b hb => ?_) k hk j hj
        unfold queryLhs3
        rw [hs.outDocCov, hi a ha b hb, len_eq h.words d hd, linkLen_eq h d hd, linkA_eq K σ a ha b hb]
      · have h1 := mulRow_eq hσ hs.topicMean hi j hj
        have h3 := rowMul_eq hσ (fun i hi' => hs.outMeans d hd i hi') (linkA_eq K σ) j hj
        dsimp only at h1 h3
        unfold queryRhs3
        rw [hw d hd j hj, h1, h3, hs.outDocCov, len_eq h.words d hd, linkLen_eq h d hd, softmaxRows_eq hσ hs.outMeans d hd j hj]
    · show 1 / (((y.len d : ℝ) + (links'.len d : ℝ)) * ((K : ℝ) - 1) / (2 * (K : ℝ)) + (1 / r.outDocCov + 1 / r.inDocCov d) * inv K r.topicCov k k) = _
      rw [len_eq h.words d hd, linkLen_eq h d hd, hs.outDocCov, hs.inDocCov d hd, hi k hk k hk]
      rfl

/-- **C307** (mtm2, mtm3): predicted links are those of the same documents. -/
theorem links_predicted {D : Nat} (hδ : Keeps D δ) (hσ : Keeps K σ) {o o' i i' : Nat → Nat → ℝ} (ho : Tab D K δ σ o o') (hi : Tab D K δ σ i i')
    (src dst : Nat) (hsrc : src < D) (hdst : dst < D) : linkPair D K o' i' src dst = linkPair D K o i (δ src) (δ dst) := by
  unfold linkPair
  refine congrArg some (sum_eq (f := fun k => soft K (o (δ src)) k * (Real.exp (i (δ dst) k - Numerics.rowMax D (fun e => i e k))
    / ∑ e ∈ Finset.range D, Real.exp (i e k - Numerics.rowMax D (fun e => i e k)))) hσ fun k hk => ?_)
  have h1 : Numerics.rowMax D (fun e => i' e k) = Numerics.rowMax D (fun e => i e (σ k)) := rowMax_eq (by omega) hδ fun e he => hi e he k hk
  rw [soft_eq hσ (fun k hk => ho src hsrc k hk) k hk, h1, hi dst hdst k hk,
    sum_eq (f := fun e => Real.exp (i e (σ k) - Numerics.rowMax D (fun e => i e (σ k)))) hδ fun e he => by rw [hi e he k hk]]

/-- **C307** (mtm2, mtm3): the same for all links at once -/
theorem all_links_predicted {D : Nat} (hδ : Keeps D δ) (hσ : Keeps K σ) {o o' i i' : Nat → Nat → ℝ} (ho : Tab D K δ σ o o') (hi : Tab D K δ σ i i')
    (src dst : Nat) (hsrc : src < D) (hdst : dst < D) : linkAll D K o' i' src dst = linkAll D K o i (δ src) (δ dst) := by
  unfold linkAll
  refine congrArg some (sum_eq (f := fun k => docVocab D i k (δ dst) * soft K (o (δ src)) k) hσ fun k hk => ?_)
  rw [soft_eq hσ (fun k hk => ho src hsrc k hk) k hk, docVocab_eq hδ hi k hk dst hdst]

/-- **C307** (mtm2): a query with other numbers gives the same weights under these numbers. -/
theorem mtm2_query (hinv : SameInv σ K (inv K)) (hx : Renumbered δ τ x y) (hσ : Keeps K σ) (fast : Bool) (n : Nat)
    {sig sig' vocab vocab' m m' v v' : Nat → Nat → ℝ} {mu mu' : Nat → ℝ} (hsig : Tab K K σ σ sig sig') (hmu : Vec K σ mu mu')
    (hvocab : Tab K x.T σ τ vocab vocab') (hm : Tab x.D K δ σ m m') (hv : Tab x.D K δ σ v v') :
    Tab x.D K δ σ (mtm2Query (inv K) x K sig mu vocab fast n m v).1 (mtm2Query (inv K) y K sig' mu' vocab' fast n m' v').1
      ∧ Tab x.D K δ σ (mtm2Query (inv K) x K sig mu vocab fast n m v).2 (mtm2Query (inv K) y K sig' mu' vocab' fast n m' v').2 := by
  refine ⟨?_, hv⟩
  have hi := hinv _ _ hsig
  have hV := counts_eq hx hσ (expRows_eq hσ hm) hvocab
  have hl : Tab x.D K δ σ (fun d k => 1 / ((x.len d : ℝ) * ((K : ℝ) - 1) / (K : ℝ) + inv K sig k k))
      (fun d k => 1 / ((y.len d : ℝ) * ((K : ℝ) - 1) / (K : ℝ) + inv K sig' k k)) := fun d hd k hk => by
    dsimp only
    rw [len_eq hx d hd, hi k hk k hk]
  have key : ∀ n (q q' : Query2), Tab x.D K δ σ q.held q'.held → Tab x.D K δ σ q.means q'.means → q'.aliased = q.aliased →
      Tab x.D K δ σ
        ((mtm2QueryStep (inv K) x K (inv K sig) mu vocab (fun d k => 1 / ((x.len d : ℝ) * ((K : ℝ) - 1) / (K : ℝ) + inv K sig k k))
          (expRows K m) fast)^[n] q).held
        ((mtm2QueryStep (inv K) y K (inv K sig') mu' vocab' (fun d k => 1 / ((y.len d : ℝ) * ((K : ℝ) - 1) / (K : ℝ) + inv K sig' k k))
          (expRows K m') fast)^[n] q').held := by
    intro n
    induction n with
    | zero => exact fun q q' h1 _ _ => h1
    | succ n ih =>
      intro q q' h1 h2 h3
      have h4 := means_eq (inv K) hinv hx hσ fast (linkA_eq K σ) hi hl (rhs_eq hx hσ (linkA_eq K σ) hi hmu hV h2)
      refine ih _ _ ?_ h4 ?_
      · unfold mtm2QueryStep
        dsimp only
        rw [h3]
        split
        · split
          · exact softmaxRows_eq hσ h2
          · exact h4
        · exact h1
      · show (!fast && q'.aliased) = (!fast && q.aliased)
        rw [h3]
  exact key n _ _ hm hm rfl

/-! ## The first matrix topic model -/

/-- The constants of mtm under other numbers of the topics -/
structure SameFixed (σ : Equiv.Perm Nat) (D : Nat) (c c' : Fixed) : Prop where
  K : c'.K = c.K
  vocabPrior : c'.vocabPrior = c.vocabPrior
  UV : Tab D c.K (Equiv.refl _) σ c.UV c'.UV
  lse : Vec c.K σ c.lse c'.lse
  outCounts : Vec D (Equiv.refl _) c.outCounts c'.outCounts

/-- The states of mtm under other numbers of words and topics -/
structure SameM (σ τ : Equiv.Perm Nat) (D K T : Nat) (s r : MState) : Prop where
  topics : Tab D K (Equiv.refl _) σ s.topics r.topics
  sums : Vec K σ s.sums r.sums
  expSums : Vec K σ s.expSums r.expSums
  maxes : Vec K σ s.maxes r.maxes
  inCounts : Vec K σ s.inCounts r.inCounts
  wordDists : Tab K T σ τ s.wordDists r.wordDists
  cov : Tab K K σ σ s.cov r.cov
  invCov : Tab K K σ σ s.invCov r.invCov
  postCov : Tab D K (Equiv.refl _) σ s.postCov r.postCov

/-- The variables of the loop over the documents, likewise -/
structure SameSweep (σ τ : Equiv.Perm Nat) (D K T : Nat) (s r : Sweep) : Prop where
  topics : Tab D K (Equiv.refl _) σ s.topics r.topics
  sums : Vec K σ s.sums r.sums
  newMaxes : Vec K σ s.newMaxes r.newMaxes
  newIn : Vec K σ s.newIn r.newIn
  newCov : Tab K K σ σ s.newCov r.newCov
  wordDists : Tab K T σ τ s.wordDists r.wordDists
  postCov : Tab D K (Equiv.refl _) σ s.postCov r.postCov

theorem word_eq (psi : ℝ → ℝ) {T : Nat} (hτ : Keeps T τ) (hσ : Keeps K σ) {old old' : Nat → Nat → ℝ} (ho : Tab K T σ τ old old') {row row' : Nat → ℝ}
    (hr : Vec K σ row row') (t : Nat) (ht : t < T) : Vec K σ (wordTopics psi K T old row (τ t)) (wordTopics psi K T old' row' t) := by
  unfold wordTopics
  refine soft_eq hσ fun k hk => ?_
  rw [ho k hk t ht, hr k hk, sum_eq (f := fun t => old (σ k) t) hτ fun t ht => ho k hk t ht]

theorem doc_eq {inv : (Nat → Nat → ℝ) → Nat → Nat → ℝ} (psi : ℝ → ℝ) {c c' : Fixed} (hinv : SameInv σ c.K inv) (hx : Renumbered (Equiv.refl _) τ x y)
    (hσ : Keeps c.K σ) (hc : SameFixed σ x.D c c') (hl : links.T = x.D) {s r : MState} (hs : SameM σ τ x.D c.K x.T s r) {w w' : Sweep}
    (hw : SameSweep σ τ x.D c.K x.T w w') (d : Nat) (hd : d < x.D) :
    SameSweep σ τ x.D c.K x.T (docStep inv psi c x links s w d) (docStep inv psi c' y links r w' d) := by
  have hrow : Vec c.K σ (w.topics d) (w'.topics d) := fun k hk => hw.topics d hd k hk
  have hS : Tab c.K c.K σ σ (inv (lhs c x s d)) (inv (lhs c' y r d)) := hinv _ _ fun i hi j hj => by
    unfold lhs
    rw [hs.invCov i hi j hj, len_eq hx d hd, hc.outCounts d hd, hc.K, hs.inCounts i hi]
    simp only [EmbeddingLike.apply_eq_iff_eq, Equiv.refl_apply]
  have hR : Vec c.K σ (rhs psi c x s w d) (rhs psi c' y r w' d) := fun k hk => by
    have h1 := mulRow_eq hσ (fun j hj => hc.UV d hd j hj) hs.invCov k hk
    have h2 : ∑ t ∈ Finset.range x.T, wordTopics psi c.K x.T r.wordDists (w'.topics d) t k * (y.words d t : ℝ)
        = ∑ t ∈ Finset.range x.T, wordTopics psi c.K x.T s.wordDists (w.topics d) t (σ k) * (x.words d t : ℝ) :=
      sum_eq (f := fun t => wordTopics psi c.K x.T s.wordDists (w.topics d) t (σ k) * (x.words d t : ℝ)) hx.vocab fun t ht => by
        rw [word_eq psi hx.vocab hσ hs.wordDists hrow t ht k hk, hx.words d hd t ht]
        rfl
    have h3 : ∑ j ∈ Finset.range c.K, w'.topics d j = ∑ j ∈ Finset.range c.K, w.topics d j := sum_eq hσ hrow
    dsimp only [Equiv.refl_apply] at h1
    unfold rhs share
    rw [hc.K, hx.T, hx.D, h1, h2, h3, hrow k hk, soft_eq hσ hrow k hk, len_eq hx d hd, hw.sums k hk, hs.maxes k hk, hs.expSums k hk, hs.inCounts k hk]
    rfl
  have hnew : Vec c.K σ (fun k => ∑ j ∈ Finset.range c.K, inv (lhs c x s d) k j * rhs psi c x s w d j)
      (fun k => ∑ j ∈ Finset.range c.K, inv (lhs c' y r d) k j * rhs psi c' y r w' d j) := mulRow_eq hσ hR hS
  unfold docStep
  rw [hc.K, hx.T]
  refine ⟨fun e he k hk => ?_, fun k hk => ?_, fun k hk => ?_, fun k hk => ?_, fun i hi j hj => ?_, fun k hk t ht => ?_, fun e he k hk => ?_⟩
  · have h1 := hnew k hk
    have h2 := hw.topics e he k hk
    dsimp only [Equiv.refl_apply] at h1 h2 ⊢
    rw [h1, h2]
  · have h1 := hnew k hk
    dsimp only at h1 ⊢
    rw [h1, hw.sums k hk, hrow k hk]
  · have h1 := hnew k hk
    dsimp only at h1 ⊢
    rw [h1, hw.newMaxes k hk]
  · dsimp only
    rw [hw.newIn k hk]
    refine congrArg (w.newIn (σ k) + ·) (Finset.sum_congr rfl fun p hp => ?_)
    have hp' : p < x.D := hl ▸ Finset.mem_range.1 hp
    congr 1
    refine soft_eq hσ (fun k hk => ?_) k hk
    rw [hw.topics p hp' k hk, hc.lse k hk, hrow k hk]
    rfl
  · have h1 := hnew i hi
    have h2 := hnew j hj
    have h3 := hc.UV d hd i hi
    have h4 := hc.UV d hd j hj
    dsimp only [Equiv.refl_apply] at h1 h2 h3 h4 ⊢
    rw [h1, h2, h3, h4, hw.newCov i hi j hj, hS j hj j hj]
  · dsimp only
    rw [hw.wordDists k hk t ht, hx.words d hd t ht, word_eq psi hx.vocab hσ hs.wordDists hrow t ht k hk]
    rfl
  · have h2 := hw.postCov e he k hk
    dsimp only [Equiv.refl_apply] at h2 ⊢
    rw [h2, hS k hk k hk]

theorem sweep_eq {inv : (Nat → Nat → ℝ) → Nat → Nat → ℝ} (psi : ℝ → ℝ) {c c' : Fixed} (hinv : SameInv σ c.K inv)
    (hx : Renumbered (Equiv.refl _) τ x y) (hσ : Keeps c.K σ) (hc : SameFixed σ x.D c c') (hl : links.T = x.D) {s r : MState}
    (hs : SameM σ τ x.D c.K x.T s r) (n : Nat) (hn : n ≤ x.D) :
    SameSweep σ τ x.D c.K x.T (sweep inv psi c x links s n) (sweep inv psi c' y links r n) := by
  induction n with
  | zero =>
    refine ⟨hs.topics, hs.sums, fun _ _ => rfl, fun _ _ => rfl, fun _ _ _ _ => rfl, fun k hk t ht => ?_, hs.postCov⟩
    exact hc.vocabPrior
  | succ n ih =>
    have h1 := doc_eq psi hinv hx hσ hc hl hs (ih (by omega)) n (by omega)
    unfold sweep at h1 ⊢
    rw [List.range_succ, List.foldl_append, List.foldl_append]
    exact h1

theorem iteration_eq {inv : (Nat → Nat → ℝ) → Nat → Nat → ℝ} (psi : ℝ → ℝ) {c c' : Fixed} (hinv : SameInv σ c.K inv)
    (hx : Renumbered (Equiv.refl _) τ x y) (hσ : Keeps c.K σ) (hc : SameFixed σ x.D c c') (hl : links.T = x.D) {s r : MState}
    (hs : SameM σ τ x.D c.K x.T s r) : SameM σ τ x.D c.K x.T (iteration inv psi c x links s) (iteration inv psi c' y links r) := by
  have h := sweep_eq psi hinv hx hσ hc hl hs x.D (le_refl _)
  unfold iteration
  rw [hx.D]
  refine ⟨h.topics, h.sums, fun k hk => ?_, h.newMaxes, h.newIn, h.wordDists, h.newCov, hinv _ _ h.newCov, h.postCov⟩
  refine sum_eq (f := fun d => Real.exp ((sweep inv psi c x links s x.D).topics d (σ k) - (sweep inv psi c x links s x.D).newMaxes (σ k)))
    (keeps_refl _) fun d hd => ?_
  rw [h.topics d hd k hk, h.newMaxes k hk]

/-- **C307** (mtm): training with other numbers for words and topics ends in the same way, with the same result under these numbers.  The documents are
visited one after the other, each with what the ones before it left; their numbers stay. -/
theorem mtm_train {inv : (Nat → Nat → ℝ) → Nat → Nat → ℝ} (psi : ℝ → ℝ) {c c' : Fixed} (hinv : SameInv σ c.K inv)
    (hx : Renumbered (Equiv.refl _) τ x y) (hD : 0 < x.D) (hσ : Keeps c.K σ) (hc : SameFixed σ x.D c c') (hl : links.T = x.D) {stop stop' : Nat → MState → Bool}
    (hstop : ∀ itr s r, SameM σ τ x.D c.K x.T s r → stop' itr r = stop itr s) (logFrequency iterations : Nat) (u : Bool) {s r : MState}
    (hs : SameM σ τ x.D c.K x.T s r) : Alike (SameM σ τ x.D c.K x.T) (Mtm.train inv psi c x links stop logFrequency iterations u s)
      (Mtm.train inv psi c' y links stop' logFrequency iterations u r) := by
  have key : ∀ fuel itr s r, SameM σ τ x.D c.K x.T s r → SameM σ τ x.D c.K x.T (trainLoop inv psi c x links stop fuel itr s)
      (trainLoop inv psi c' y links stop' fuel itr r) := by
    intro fuel
    induction fuel with
    | zero => exact fun _ _ _ h => h
    | succ fuel ih =>
      intro itr s r h
      unfold trainLoop
      rw [hstop itr s r h]
      split
      · exact h
      · exact ih _ _ _ (iteration_eq psi hinv hx hσ hc hl h)
  have hcheck : (∃ d ∈ Finset.range y.D, y.len d < 1) ↔ ∃ d ∈ Finset.range x.D, x.len d < 1 := by
    rw [hx.D]
    refine exists_congr fun d => and_congr_right fun hd => ?_
    rw [len_eq hx d (Finset.mem_range.1 hd)]
    rfl
  unfold Mtm.train
  simp only [hcheck]
  split
  · rfl
  · split
    · rfl
    · refine key _ _ _ _ ?_
      unfold trainStart
      rw [hx.D]
      refine ⟨hs.topics, hs.sums, hs.expSums, fun k hk => ?_, hs.inCounts, hs.wordDists, hs.cov, hinv _ _ hs.cov, hs.postCov⟩
      exact rowMax_eq hD (keeps_refl _) fun d hd => hs.topics d hd k hk

end

/-! ## The relational topic model -/

section
open Verif.Rtm

/-- What is fixed, under other numbers of the words -/
structure SameEnv (τ : Equiv.Perm Nat) (e e' : Env) : Prop where
  psi : e'.psi = e.psi
  pdf : e'.pdf = e.pdf
  cdf : e'.cdf = e.cdf
  K : e'.K = e.K
  v : e'.v = e.v
  x : Renumbered (Equiv.refl _) τ e.x e'.x
  links : e'.links = e.links
  inside : ∀ d, ∀ j ∈ e.links d, j < e.x.D
  logFrequency : e'.logFrequency = e.logFrequency

/-- The states under other numbers of words and topics; number `K` is that of the intercept. -/
structure SameRtm (σ τ : Equiv.Perm Nat) (D K T : Nat) (s r : Rtm.State) : Prop where
  word : Tab K T σ τ s.word r.word
  means : Tab D (K + 1) (Equiv.refl _) σ s.means r.means
  weights : Vec (K + 1) σ s.weights r.weights
  prior : Vec (K + 1) σ s.prior r.prior

theorem keeps_succ (hσ : Keeps K σ) (hK : σ K = K) : Keeps (K + 1) σ := by
  intro i
  have h1 := hσ i
  have h2 : σ i = K ↔ i = K := ⟨fun h => σ.injective (by rw [h, hK]), fun h => by rw [h, hK]⟩
  omega

variable {e e' : Env} {s r : Rtm.State}

theorem link_eq (he : SameEnv τ e e') (hσ : Keeps e.K σ) (hK : σ e.K = e.K) (hs : SameRtm σ τ e.x.D e.K e.x.T s r) (d : Nat) (hd : d < e.x.D) :
    Vec (e.K + 1) σ (linkScore e s d) (linkScore e' r d) := by
  intro k hk
  unfold linkScore
  rw [he.links]
  refine congrArg List.sum (List.map_congr_left fun j hj => ?_)
  have hj' := he.inside d j hj
  have h1 : ∑ i ∈ Finset.range (e'.K + 1), r.means d i * r.means j i * r.weights i
      = ∑ i ∈ Finset.range (e.K + 1), s.means d i * s.means j i * s.weights i := by
    rw [he.K]
    refine sum_eq (f := fun i => s.means d i * s.means j i * s.weights i) (keeps_succ hσ hK) fun i hi => ?_
    rw [hs.means d hd i hi, hs.means j hj' i hi, hs.weights i hi]
    rfl
  dsimp only
  rw [h1, he.pdf, he.cdf, len_eq he.x d hd, hs.weights k hk, hs.means j hj' k hk]
  rfl

theorem infer_eq (he : SameEnv τ e e') (hσ : Keeps e.K σ) (hK : σ e.K = e.K) {w w' : Nat → Nat → ℝ} (hw : Tab e.K e.x.T σ τ w w')
    (hs : SameRtm σ τ e.x.D e.K e.x.T s r) (d : Nat) (hd : d < e.x.D) (t : Nat) (ht : t < e.x.T) :
    Vec e.K σ (inferTopics e w s d (τ t)) (inferTopics e' w' r d t) := by
  have h1 : Vec e.K σ (score e w s d (τ t)) (score e' w' r d t) := fun k hk => by
    unfold score
    rw [he.psi, he.x.T, hw k hk t ht, sum_eq (f := fun t => w (σ k) t) he.x.vocab fun t ht => hw k hk t ht, hs.prior k (by omega), len_eq he.x d hd,
      hs.means d hd k (by omega), link_eq he hσ hK hs d hd k (by omega)]
    rfl
  intro k hk
  have h2 := Props.RenumberLinks.soft_eq hσ h1 k hk
  unfold inferTopics
  rw [he.K]
  exact h2

theorem visit_eq (he : SameEnv τ e e') (hσ : Keeps e.K σ) (hK : σ e.K = e.K) {w w' : Nat → Nat → ℝ} (hw : Tab e.K e.x.T σ τ w w')
    (hs : SameRtm σ τ e.x.D e.K e.x.T s r) (d : Nat) (hd : d < e.x.D) :
    SameRtm σ τ e.x.D e.K e.x.T (visit e w s d) (visit e' w' r d) := by
  refine ⟨fun k hk t ht => ?_, fun d' hd' k hk => ?_, hs.weights, hs.prior⟩
  · show r.word k t + (e'.x.words d t : ℝ) * inferTopics e' w' r d t k = _
    rw [hs.word k hk t ht, he.x.words d hd t ht, infer_eq he hσ hK hw hs d hd t ht k hk]
    rfl
  · show (if d' = d ∧ k < e'.K then (∑ t ∈ Finset.range e'.x.T, inferTopics e' w' r d t k * (e'.x.words d t : ℝ)) / (e'.x.len d : ℝ)
      else r.means d' k) = if d' = d ∧ σ k < e.K then (∑ t ∈ Finset.range e.x.T, inferTopics e w s d t (σ k) * (e.x.words d t : ℝ)) / (e.x.len d : ℝ)
      else s.means d' (σ k)
    rw [he.K, he.x.T, len_eq he.x d hd, hs.means d' hd' k hk]
    simp only [hσ k]
    split
    · rename_i h
      rw [sum_eq (f := fun t => inferTopics e w s d t (σ k) * (e.x.words d t : ℝ)) he.x.vocab fun t ht => by
        rw [infer_eq he hσ hK hw hs d hd t ht k h.2, he.x.words d hd t ht]
        rfl]
      rfl
    · rfl

theorem visits_eq (he : SameEnv τ e e') (hσ : Keeps e.K σ) (hK : σ e.K = e.K) (hs : SameRtm σ τ e.x.D e.K e.x.T s r) :
    SameRtm σ τ e.x.D e.K e.x.T (Rtm.sweep e s) (Rtm.sweep e' r) := by
  have key : ∀ (l : List Nat), (∀ d ∈ l, d < e.x.D) → ∀ a b, SameRtm σ τ e.x.D e.K e.x.T a b →
      SameRtm σ τ e.x.D e.K e.x.T (l.foldl (visit e s.word) a) (l.foldl (visit e' r.word) b) := by
    intro l
    induction l with
    | nil => exact fun _ _ _ h => h
    | cons d l ih =>
      intro hd a b h
      exact ih (fun d' h' => hd d' (by simp [h'])) _ _ (visit_eq he hσ hK hs.word h d (hd d (by simp)))
  unfold Rtm.sweep
  rw [he.x.D]
  exact key _ (fun d hd => List.mem_range.1 hd) _ _ ⟨fun _ _ _ _ => he.v, hs.means, hs.weights, hs.prior⟩

theorem toMeans_eq (he : SameEnv τ e e') {a a' : Nat → ℝ} (ha : Vec (e.K + 1) σ a a') {m m' : Nat → Nat → ℝ}
    (hm : Tab e.x.D (e.K + 1) (Equiv.refl _) σ m m') :
    Tab e.x.D (e.K + 1) (Equiv.refl _) σ (VbPython.toMeans ⟨e.K, a, e.v⟩ e.x m) (VbPython.toMeans ⟨e'.K, a', e'.v⟩ e'.x m') := by
  intro d hd k hk
  unfold VbPython.toMeans
  dsimp only
  rw [hm d hd k hk, ha k hk, len_eq he.x d hd]

theorem toDirichlet_eq (he : SameEnv τ e e') {a a' : Nat → ℝ} (ha : Vec (e.K + 1) σ a a') {m m' : Nat → Nat → ℝ}
    (hm : Tab e.x.D (e.K + 1) (Equiv.refl _) σ m m') :
    Tab e.x.D (e.K + 1) (Equiv.refl _) σ (VbPython.toDirichlet ⟨e.K, a, e.v⟩ e.x m) (VbPython.toDirichlet ⟨e'.K, a', e'.v⟩ e'.x m') := by
  intro d hd k hk
  unfold VbPython.toDirichlet
  dsimp only
  rw [hm d hd k hk, ha k hk, len_eq he.x d hd]

/-- What the numerical routines must satisfy: they end in the same way, and what they compute follows the numbers of the topics. -/
structure SameNumerics (σ τ : Equiv.Perm Nat) (D K T : Nat) (n n' : Rtm.Numerics) : Prop where
  weights : ∀ itr s r, SameRtm σ τ D K T s r → Alike (Vec (K + 1) σ) (n.weights itr s) (n'.weights itr r)
  converged : ∀ itr s r, SameRtm σ τ D K T s r → n'.converged itr r = n.converged itr s
  hyper : ∀ itr s r, SameRtm σ τ D K T s r → Vec K σ (n.hyper itr s) (n'.hyper itr r)

theorem hyper_eq {n n' : Rtm.Numerics} (he : SameEnv τ e e') (hK : σ e.K = e.K) (hn : SameNumerics σ τ e.x.D e.K e.x.T n n')
    (itr : Nat) (hs : SameRtm σ τ e.x.D e.K e.x.T s r) : SameRtm σ τ e.x.D e.K e.x.T (hyperUpdate e n itr s) (hyperUpdate e' n' itr r) := by
  unfold hyperUpdate
  split
  · refine ⟨hs.word, hs.means, hs.weights, fun k hk => ?_⟩
    dsimp only
    rw [he.K]
    by_cases h : k = e.K
    · rw [if_pos h, if_pos (by rw [h, hK])]
    · have h1 : σ k ≠ e.K := fun h2 => h (σ.injective (by rw [h2, hK]))
      rw [if_neg h, if_neg h1, hn.hyper itr s r hs k (by omega)]
  · exact hs

theorem step_eq {n n' : Rtm.Numerics} (he : SameEnv τ e e') (hσ : Keeps e.K σ) (hK : σ e.K = e.K) (hn : SameNumerics σ τ e.x.D e.K e.x.T n n')
    (itr : Nat) (hs : SameRtm σ τ e.x.D e.K e.x.T s r) :
    Alike (fun a b => SameRtm σ τ e.x.D e.K e.x.T a.1 b.1 ∧ b.2 = a.2) (Rtm.iteration e n itr s) (Rtm.iteration e' n' itr r) := by
  have h1 := visits_eq he hσ hK hs
  have h2 := hn.weights itr _ _ h1
  unfold Rtm.iteration
  dsimp only
  cases ha : n.weights itr (Rtm.sweep e s) <;> cases hb : n'.weights itr (Rtm.sweep e' r) <;> rw [ha, hb] at h2
  · exact h2
  · exact h2.elim
  · exact h2.elim
  · rename_i w w'
    have h3 : SameRtm σ τ e.x.D e.K e.x.T { Rtm.sweep e s with weights := w } { Rtm.sweep e' r with weights := w' } :=
      ⟨h1.word, h1.means, h2, h1.prior⟩
    have h4 : SameRtm σ τ e.x.D e.K e.x.T (measured e { Rtm.sweep e s with weights := w }) (measured e' { Rtm.sweep e' r with weights := w' }) :=
      ⟨h1.word, toMeans_eq he h1.prior (toDirichlet_eq he h1.prior (toMeans_eq he h1.prior (toDirichlet_eq he h1.prior h1.means))), h2, h1.prior⟩
    dsimp only
    rw [he.logFrequency, hn.converged itr _ _ h4]
    split
    · rfl
    · split
      · split
        · exact ⟨h4, rfl⟩
        · exact ⟨hyper_eq he hK hn itr h4, rfl⟩
      · exact ⟨hyper_eq he hK hn itr h3, rfl⟩

theorem rtm_loop {n n' : Rtm.Numerics} (he : SameEnv τ e e') (hσ : Keeps e.K σ) (hK : σ e.K = e.K) (hn : SameNumerics σ τ e.x.D e.K e.x.T n n')
    (left : Nat) : ∀ (itr : Nat) (s r : Rtm.State), SameRtm σ τ e.x.D e.K e.x.T s r →
      Alike (SameRtm σ τ e.x.D e.K e.x.T) (Rtm.loop e n left itr s) (Rtm.loop e' n' left itr r) := by
  induction left with
  | zero => exact fun _ _ _ h => h
  | succ left ih =>
    intro itr s r hs
    have h1 := step_eq he hσ hK hn itr hs
    unfold Rtm.loop
    cases ha : Rtm.iteration e n itr s <;> cases hb : Rtm.iteration e' n' itr r <;> rw [ha, hb] at h1
    · exact h1
    · exact h1.elim
    · exact h1.elim
    · rename_i a b
      obtain ⟨a1, a2⟩ := a
      obtain ⟨b1, b2⟩ := b
      obtain ⟨h2, h3⟩ := h1
      dsimp only at h2 h3
      subst h3
      cases b2
      · exact ih _ _ _ h2
      · exact h2

/-- **C307** (rtm): training with other numbers for words and topics ends in the same way, with the same result under these numbers. -/
theorem rtm_train {n n' : Rtm.Numerics} (he : SameEnv τ e e') (hσ : Keeps e.K σ) (hK : σ e.K = e.K) (hn : SameNumerics σ τ e.x.D e.K e.x.T n n')
    (iterations : Nat) (hs : SameRtm σ τ e.x.D e.K e.x.T s r) :
    Alike (SameRtm σ τ e.x.D e.K e.x.T) (Rtm.train e n iterations s) (Rtm.train e' n' iterations r) := by
  have h1 := rtm_loop he hσ hK hn iterations 0 { s with means := VbPython.toMeans ⟨e.K, s.prior, e.v⟩ e.x s.means }
    { r with means := VbPython.toMeans ⟨e'.K, r.prior, e'.v⟩ e'.x r.means } ⟨hs.word, toMeans_eq he hs.prior hs.means, hs.weights, hs.prior⟩
  unfold Rtm.train
  rw [check_eq he.x]
  split
  · rfl
  · generalize Rtm.loop e n iterations 0 { s with means := VbPython.toMeans ⟨e.K, s.prior, e.v⟩ e.x s.means } = a at h1
    generalize Rtm.loop e' n' iterations 0 { r with means := VbPython.toMeans ⟨e'.K, r.prior, e'.v⟩ e'.x r.means } = b at h1
    cases a <;> cases b
    · exact h1
    · exact h1.elim
    · exact h1.elim
    · rename_i a b
      exact ⟨h1.word, toDirichlet_eq he h1.prior h1.means, h1.weights, h1.prior⟩

end

/-! ## Examples -/

section
open Verif.Mtm Verif.Rtm
open Verif.Props.RenumberStm (exT swap2 exact_follows)

/-- Links between two documents -/
def exL : Data := ⟨2, 2, fun d e => d + 2 * e + 1⟩

/-- The same links with the documents exchanged -/
def exL' : Data := ⟨2, 2, fun d e => exL.words (Equiv.swap 0 1 d) (Equiv.swap 0 1 e)⟩

theorem ex_linked : Linked (Equiv.swap 0 1) (Equiv.swap 0 2) exX exL exY exL' :=
  ⟨ex_renumbered, ⟨swap2, swap2, rfl, rfl, fun _ _ _ _ => rfl⟩, rfl, rfl⟩

/-- A table with rows and columns exchanged -/
noncomputable def exSwap (c : ℝ) (i j : Nat) : ℝ := exT c (Equiv.swap 0 1 i) (Equiv.swap 0 1 j)

/-- mtm2 with the exact inverse: all numbers are exchanged. -/
example (n : Nat) : Alike (Same2 (Equiv.swap 0 1) (Equiv.swap 0 1) (Equiv.swap 0 2) 2 2 3)
    (train2 StmCov.exactInv exX exL 2 false n ⟨fun k => k, exT 1, exT 2, exT 3, exT 4⟩)
    (train2 StmCov.exactInv exY exL' 2 false n
      ⟨fun k => (Equiv.swap 0 1 k : Nat), exSwap 1, fun i j => exT 2 (Equiv.swap 0 1 i) (Equiv.swap 0 2 j), exSwap 3, exSwap 4⟩) :=
  mtm2_train exact_follows ex_linked swap2 false n
    ⟨fun _ _ => rfl, fun _ _ _ _ => rfl, fun _ _ _ _ => rfl, fun _ _ _ _ => rfl, fun _ _ _ _ => rfl⟩

/-- mtm3 -/
theorem ex3 : Same3 (Equiv.swap 0 1) (Equiv.swap 0 1) (Equiv.swap 0 2) 2 2 3
    ⟨fun k => k, exT 1, 7, exT 2, exT 3, exT 4, exT 5, exT 6, fun d => d + 1⟩
    ⟨fun k => (Equiv.swap 0 1 k : Nat), exSwap 1, 7, fun i j => exT 2 (Equiv.swap 0 1 i) (Equiv.swap 0 2 j), exSwap 3, exSwap 4, exSwap 5, exSwap 6,
      fun d => (Equiv.swap 0 1 d : Nat) + 1⟩ :=
  ⟨fun _ _ => rfl, fun _ _ _ _ => rfl, rfl, fun _ _ _ _ => rfl, fun _ _ _ _ => rfl, fun _ _ _ _ => rfl, fun _ _ _ _ => rfl, fun _ _ _ _ => rfl,
    fun _ _ => rfl⟩

example (n : Nat) : (train3 StmCov.exactInv exY exL' 2 n
      ⟨fun k => (Equiv.swap 0 1 k : Nat), exSwap 1, 7, fun i j => exT 2 (Equiv.swap 0 1 i) (Equiv.swap 0 2 j), exSwap 3, exSwap 4, exSwap 5, exSwap 6,
        fun d => (Equiv.swap 0 1 d : Nat) + 1⟩).outMeans 0 0
    = (train3 StmCov.exactInv exX exL 2 n ⟨fun k => k, exT 1, 7, exT 2, exT 3, exT 4, exT 5, exT 6, fun d => d + 1⟩).outMeans 1 1 :=
  (mtm3_train exact_follows ex_linked swap2 n ex3).outMeans 0 (by decide) 0 (by decide)

example (n : Nat) : (query3 StmCov.exactInv exY exL' 2 n
      ⟨fun k => (Equiv.swap 0 1 k : Nat), exSwap 1, 7, fun i j => exT 2 (Equiv.swap 0 1 i) (Equiv.swap 0 2 j), exSwap 3, exSwap 4, exSwap 5, exSwap 6,
        fun d => (Equiv.swap 0 1 d : Nat) + 1⟩).outMeans 1 0
    = (query3 StmCov.exactInv exX exL 2 n ⟨fun k => k, exT 1, 7, exT 2, exT 3, exT 4, exT 5, exT 6, fun d => d + 1⟩).outMeans 0 1 :=
  (mtm3_query exact_follows ex_linked swap2 n ex3).outMeans 1 (by decide) 0 (by decide)

/-- The predicted link from the first to the second document is, with the other numbers, that from the second to the first. -/
example : linkPair 2 2 (exSwap 1) (exSwap 2) 0 1 = linkPair 2 2 (exT 1) (exT 2) 1 0
    ∧ linkAll 2 2 (exSwap 1) (exSwap 2) 0 1 = linkAll 2 2 (exT 1) (exT 2) 1 0 :=
  ⟨links_predicted swap2 swap2 (fun _ _ _ _ => rfl) (fun _ _ _ _ => rfl) 0 1 (by decide) (by decide),
    all_links_predicted swap2 swap2 (fun _ _ _ _ => rfl) (fun _ _ _ _ => rfl) 0 1 (by decide) (by decide)⟩

example (fast : Bool) (n : Nat) :
    (mtm2Query (StmCov.exactInv 2) exY 2 (exSwap 1) (fun k => (Equiv.swap 0 1 k : Nat)) (fun i j => exT 2 (Equiv.swap 0 1 i) (Equiv.swap 0 2 j)) fast n
      (exSwap 3) (exSwap 4)).1 0 0 = (mtm2Query (StmCov.exactInv 2) exX 2 (exT 1) (fun k => k) (exT 2) fast n (exT 3) (exT 4)).1 1 1 :=
  (mtm2_query (inv := StmCov.exactInv) (exact_follows 2 _ swap2) ex_renumbered swap2 fast n (fun _ _ _ _ => rfl) (fun _ _ => rfl) (fun _ _ _ _ => rfl)
    (fun _ _ _ _ => rfl) (fun _ _ _ _ => rfl)).1 0 (by decide) 0 (by decide)

/-- The words of the documents with other numbers -/
def exW : Data := ⟨2, 3, fun d t => exX.words d (Equiv.swap 0 2 t)⟩

theorem exW_renumbered : Renumbered (Equiv.refl _) (Equiv.swap 0 2) exX exW := ⟨keeps_refl _, ex_renumbered.vocab, rfl, rfl, fun _ _ _ _ => rfl⟩

/-- A table with columns exchanged -/
noncomputable def exCols (c : ℝ) (i j : Nat) : ℝ := exT c i (Equiv.swap 0 1 j)

/-- mtm: training that stops at iteration 7 -/
example (psi : ℝ → ℝ) (iterations : Nat) : Alike (SameM (Equiv.swap 0 1) (Equiv.swap 0 2) 2 2 3)
    (Mtm.train (StmCov.exactInv 2) psi ⟨2, 1 / 10, exT 1, fun k => k, fun d => d⟩ exX exL (fun itr _ => decide (itr = 7)) 1 iterations true
      ⟨exT 2, fun k => k, fun k => k + 1, fun k => k + 2, fun k => k + 3, exT 3, exT 4, exT 5, exT 6⟩)
    (Mtm.train (StmCov.exactInv 2) psi ⟨2, 1 / 10, exCols 1, fun k => (Equiv.swap 0 1 k : Nat), fun d => d⟩ exW exL (fun itr _ => decide (itr = 7)) 1
      iterations true
      ⟨exCols 2, fun k => (Equiv.swap 0 1 k : Nat), fun k => (Equiv.swap 0 1 k : Nat) + 1, fun k => (Equiv.swap 0 1 k : Nat) + 2,
        fun k => (Equiv.swap 0 1 k : Nat) + 3, fun i j => exT 3 (Equiv.swap 0 1 i) (Equiv.swap 0 2 j), exSwap 4, exSwap 5, exCols 6⟩) :=
  mtm_train psi (c := ⟨2, 1 / 10, exT 1, fun k => k, fun d => d⟩)
    (c' := ⟨2, 1 / 10, exCols 1, fun k => (Equiv.swap 0 1 k : Nat), fun d => d⟩) (links := exL) (stop := fun itr _ => decide (itr = 7))
    (s := ⟨exT 2, fun k => k, fun k => k + 1, fun k => k + 2, fun k => k + 3, exT 3, exT 4, exT 5, exT 6⟩)
    (r := ⟨exCols 2, fun k => (Equiv.swap 0 1 k : Nat), fun k => (Equiv.swap 0 1 k : Nat) + 1, fun k => (Equiv.swap 0 1 k : Nat) + 2,
        fun k => (Equiv.swap 0 1 k : Nat) + 3, fun i j => exT 3 (Equiv.swap 0 1 i) (Equiv.swap 0 2 j), exSwap 4, exSwap 5, exCols 6⟩) (exact_follows 2 _ swap2) exW_renumbered (by decide) swap2
    ⟨rfl, rfl, fun _ _ _ _ => rfl, fun _ _ => rfl, fun _ _ => rfl⟩ rfl (fun _ _ _ _ => rfl) 1 iterations true
    ⟨fun _ _ _ _ => rfl, fun _ _ => rfl, fun _ _ => rfl, fun _ _ => rfl, fun _ _ => rfl, fun _ _ _ _ => rfl, fun _ _ _ _ => rfl, fun _ _ _ _ => rfl,
      fun _ _ _ _ => rfl⟩

/-- rtm: weights that double, hyperparameters that grow by one, and training that ends at iteration 9 -/
noncomputable def exN : Rtm.Numerics := ⟨fun _ s => .ok fun k => 2 * s.weights k, fun itr _ => decide (itr = 9), fun _ s k => s.prior k + 1⟩

theorem exN_same (σ τ : Equiv.Perm Nat) (D K T : Nat) : SameNumerics σ τ D K T exN exN where
  weights _ s r h := fun k hk => by
    show 2 * r.weights k = 2 * s.weights (σ k)
    rw [h.weights k hk]
  converged _ _ _ _ := rfl
  hyper _ s r h := fun k hk => by
    show r.prior k + 1 = s.prior (σ k) + 1
    rw [h.prior k (by omega)]

example (psi pdf cdf : ℝ → ℝ) (iterations : Nat) : Alike (SameRtm (Equiv.swap 0 1) (Equiv.swap 0 2) 2 2 3)
    (Rtm.train ⟨psi, pdf, cdf, 2, 1 / 10, exX, fun d => [1 - d], 3⟩ exN iterations ⟨exT 1, exT 2, fun k => k, fun k => k + 1⟩)
    (Rtm.train ⟨psi, pdf, cdf, 2, 1 / 10, exW, fun d => [1 - d], 3⟩ exN iterations
      ⟨fun i j => exT 1 (Equiv.swap 0 1 i) (Equiv.swap 0 2 j), exCols 2, fun k => (Equiv.swap 0 1 k : Nat), fun k => (Equiv.swap 0 1 k : Nat) + 1⟩) :=
  rtm_train (e := ⟨psi, pdf, cdf, 2, 1 / 10, exX, fun d => [1 - d], 3⟩) (e' := ⟨psi, pdf, cdf, 2, 1 / 10, exW, fun d => [1 - d], 3⟩)
    (s := ⟨exT 1, exT 2, fun k => k, fun k => k + 1⟩)
    (r := ⟨fun i j => exT 1 (Equiv.swap 0 1 i) (Equiv.swap 0 2 j), exCols 2, fun k => (Equiv.swap 0 1 k : Nat), fun k => (Equiv.swap 0 1 k : Nat) + 1⟩)
    ⟨rfl, rfl, rfl, rfl, rfl, exW_renumbered, rfl, fun d j hj => by
      have : j = 1 - d := List.mem_singleton.1 hj
      show j < 2
      omega, rfl⟩ swap2 (show Equiv.swap 0 1 2 = 2 by decide) (exN_same _ _ _ _ _) iterations
    ⟨fun _ _ _ _ => rfl, fun _ _ _ _ => rfl, fun _ _ => rfl, fun _ _ => rfl⟩

end

end Verif.Props.RenumberLinks
