import Verif.Props.RenumberCtm
import Verif.Props.Stm
import Verif.Props.StmCov
import Verif.Model.StmYv

/-!
# Renumbering words, topics, documents, features and latent features (C306): topic models with features
-/

namespace Verif.Props.RenumberStm

open Verif Verif.Ctm Verif.Stm
open Verif.Mom (Data)
open Verif.CtmQuery (QState)
open Verif.Props.Renumber Verif.Props.RenumberCtm

variable {δ σ τ φ l α β π : Equiv.Perm Nat} {x y : Data} {p : Params}

/-! ## Products of tables -/

theorem dot_eq {m n k : Nat} (hπ : Keeps n π) {a a' b b' : Nat → Nat → ℝ} (ha : Tab m n α π a a') (hb : Tab n k π β b b') :
    Tab m k α β (dot n a b) (dot n a' b') := fun i hi j hj =>
  sum_eq (f := fun l => a (α i) l * b l (β j)) hπ fun l hl => by rw [ha i hi l hl, hb l hl j hj]

theorem dotT_eq {m n k : Nat} (hπ : Keeps n π) {a a' b b' : Nat → Nat → ℝ} (ha : Tab m n α π a a') (hb : Tab k n β π b b') :
    Tab m k α β (dotT n a b) (dotT n a' b') := fun i hi j hj =>
  sum_eq (f := fun l => a (α i) l * b (β j) l) hπ fun l hl => by rw [ha i hi l hl, hb j hj l hl]

theorem tDot_eq {m n k : Nat} (hπ : Keeps n π) {a a' b b' : Nat → Nat → ℝ} (ha : Tab n m π α a a') (hb : Tab n k π β b b') :
    Tab m k α β (tDot n a b) (tDot n a' b') := fun i hi j hj =>
  sum_eq (f := fun l => a l (α i) * b l (β j)) hπ fun l hl => by rw [ha l hl i hi, hb l hl j hj]

theorem sub_eq {m n : Nat} {a a' b b' : Nat → Nat → ℝ} (ha : Tab m n α β a a') (hb : Tab m n α β b b') :
    Tab m n α β (fun i j => a i j - b i j) (fun i j => a' i j - b' i j) := fun i hi j hj => by
  dsimp only
  rw [ha i hi j hj, hb i hi j hj]

theorem add_eq {m n : Nat} {a a' b b' : Nat → Nat → ℝ} (ha : Tab m n α β a a') (hb : Tab m n α β b b') :
    Tab m n α β (fun i j => a i j + b i j) (fun i j => a' i j + b' i j) := fun i hi j hj => by
  dsimp only
  rw [ha i hi j hj, hb i hi j hj]

theorem mul_eq {m n : Nat} (c : ℝ) {a a' : Nat → Nat → ℝ} (ha : Tab m n α β a a') :
    Tab m n α β (fun i j => c * a i j) (fun i j => c * a' i j) := fun i hi j hj => by
  dsimp only
  rw [ha i hi j hj]

theorem diag_eq {n : Nat} {v v' : Nat → ℝ} (h : Vec n α v v') :
    Tab n n α α (fun i j => if i = j then v i else 0) (fun i j => if i = j then v' i else 0) := fun i hi j hj => by
  dsimp only
  rw [h i hi]
  simp only [EmbeddingLike.apply_eq_iff_eq]

/-- What the matrix inverse satisfies for matrices of all sizes: rows and columns of the inverse follow those of the matrix. -/
def FollowsInv (inv : Nat → (Nat → Nat → ℝ) → Nat → Nat → ℝ) : Prop := ∀ n π, Keeps n π → SameInv π n (inv n)

/-- A renumbering of the numbers below `n` -/
def below {n : Nat} {π : Equiv.Perm Nat} (h : Keeps n π) : Equiv.Perm (Fin n) where
  toFun i := ⟨π i, (h i).2 i.2⟩
  invFun i := ⟨π.symm i, (h _).1 (by simp)⟩
  left_inv i := by simp
  right_inv i := by simp

/-- The inverse of matrices satisfies it (also for matrices without an inverse, where it is zero). -/
theorem exact_follows : FollowsInv StmCov.exactInv := by
  intro n π h m m' hm i hi j hj
  have h1 : (Matrix.of fun a b : Fin n => m' a b) = (Matrix.of fun a b : Fin n => m a b).submatrix (below h) (below h) := by
    ext a b
    exact hm a a.2 b b.2
  unfold StmCov.exactInv
  rw [dif_pos ⟨hi, hj⟩, dif_pos ⟨(h i).2 hi, (h j).2 hj⟩, h1, Matrix.inv_submatrix_equiv]
  rfl

/-! ## The parts of an iteration -/

/-- The constants of the two models are the same, and `Ab` follows the topics. -/
structure Numbers (δ σ τ φ l : Equiv.Perm Nat) (p : Params) (x y : Data) : Prop where
  data : Renumbered δ τ x y
  topics : Keeps p.K σ
  features : Keeps p.F φ
  latent : Keeps p.P l
  Ab : Tab p.K p.K σ σ p.Ab p.Ab

theorem scale_eq (h : Numbers δ σ τ φ l p x y) : sigScale p y = sigScale p x := by
  unfold sigScale
  rw [h.data.D]

theorem ridge_eq (h : Numbers δ σ τ φ l p x y) {X X' : Nat → Nat → ℝ} (hX : Tab x.D p.F δ φ X X') :
    Tab p.F p.F φ φ (gramRidge p x X) (gramRidge p y X') := by
  have h1 : Tab p.F p.F φ φ (gram x X) (gram y X') := by
    unfold gram
    rw [h.data.D]
    exact tDot_eq h.data.docs hX hX
  exact add_eq h1 (diag_eq (v := fun _ => 1 / p.fv) (v' := fun _ => 1 / p.fv) fun _ _ => rfl)

theorem covariance_eq (h : Numbers δ σ τ φ l p x y) {X X' A A' Y Y' V V' m m' v v' : Nat → Nat → ℝ} (hX : Tab x.D p.F δ φ X X')
    (hA : Tab p.K p.F σ φ A A') (hY : Tab p.K p.P σ l Y Y') (hV : Tab p.P p.F l φ V V') (hm : Tab x.D p.K δ σ m m') (hv : Tab x.D p.K δ σ v v') :
    Tab p.K p.K σ σ (covariance p x X A Y V m v) (covariance p y X' A' Y' V' m' v') := by
  have h1 := dotT_eq h.latent hY hY
  have h2 := sub_eq hA (dot_eq h.latent hY hV)
  have h3 := dotT_eq h.features h2 h2
  have h4 := sub_eq hm (dotT_eq h.features hX hA)
  have h5 := tDot_eq h.data.docs h4 h4
  have h6 : Vec p.K σ (fun k => ∑ d ∈ Finset.range x.D, v d k) (fun k => ∑ d ∈ Finset.range y.D, v' d k) := fun k hk => by
    dsimp only
    rw [h.data.D]
    exact sum_eq (f := fun d => v d (σ k)) h.data.docs fun d hd => hv d hd k hk
  have h7 := add_eq (add_eq (add_eq (mul_eq (1 / p.lfv) h1) (mul_eq (1 / p.fv) h3)) h5) (diag_eq h6)
  intro k hk j hj
  have h8 := h7 k hk j hj
  unfold covariance
  rw [h.data.D] at h8 ⊢
  exact h8

theorem varcs_eq (h : Numbers δ σ τ φ l p x y) {i i' : Nat → Nat → ℝ} (hi : Tab p.K p.K σ σ i i') :
    Tab x.D p.K δ σ (newVarcs p x i) (newVarcs p y i') := by
  intro d hd k hk
  unfold newVarcs
  rw [len_eq h.data d hd, scale_eq h, hi k hk k hk]

theorem rhs_eq (h : Numbers δ σ τ φ l p x y) {X X' A A' i i' S S' m m' : Nat → Nat → ℝ} (hX : Tab x.D p.F δ φ X X')
    (hA : Tab p.K p.F σ φ A A') (hi : Tab p.K p.K σ σ i i') (hS : Tab x.D p.K δ σ S S') (hm : Tab x.D p.K δ σ m m') :
    Tab x.D p.K δ σ (newRhs p x X A i S m) (newRhs p y X' A' i' S' m') := by
  intro d hd k hk
  unfold newRhs
  rw [dot_eq h.topics (dotT_eq h.features hX hA) hi d hd k hk, scale_eq h, hS d hd k hk, len_eq h.data d hd, dot_eq h.topics hm h.Ab d hd k hk,
    softmaxRows_eq h.topics hm d hd k hk]

section
variable {inv : Nat → (Nat → Nat → ℝ) → Nat → Nat → ℝ}

theorem lhs_eq (hinv : FollowsInv inv) (h : Numbers δ σ τ φ l p x y) {i i' : Nat → Nat → ℝ} (hi : Tab p.K p.K σ σ i i') (nd : Nat) :
    Tab p.K p.K σ σ (newLhs inv p x i nd) (newLhs inv p y i' nd) := by
  intro j hj k hk
  unfold newLhs
  rw [scale_eq h, hinv p.K σ h.topics _ _ (add_eq hi (mul_eq (sigScale p x * (nd : ℝ)) h.Ab)) j hj k hk]

theorem V_eq (hinv : FollowsInv inv) (h : Numbers δ σ τ φ l p x y) (scale : ℝ) {i i' A A' Y Y' RY RY' : Nat → Nat → ℝ}
    (hi : Tab p.K p.K σ σ i i') (hA : Tab p.K p.F σ φ A A') (hY : Tab p.K p.P σ l Y Y') (hRY : Tab p.P p.P l l RY RY') :
    Tab p.P p.F l φ (newV inv p scale i A Y RY) (newV inv p scale i' A' Y' RY') := by
  have h1 := tDot_eq h.topics hY hi
  have h2 := dot_eq h.topics h1 hY
  have h3 := dot_eq h.topics h1 hA
  exact dot_eq h.latent (hinv p.P l h.latent _ _ (add_eq (mul_eq scale hRY) h2)) h3

theorem RY_eq (hinv : FollowsInv inv) (h : Numbers δ σ τ φ l p x y) {V V' : Nat → Nat → ℝ} (hV : Tab p.P p.F l φ V V') :
    Tab p.P p.P l l (newRY inv p V) (newRY inv p V') :=
  hinv p.P l h.latent _ _ (add_eq (mul_eq (1 / p.lfv) (diag_eq (v := fun _ => 1) (v' := fun _ => 1) fun _ _ => rfl))
    (mul_eq (1 / p.fv) (dotT_eq h.features hV hV)))

theorem Y_eq (h : Numbers δ σ τ φ l p x y) {A A' V V' RY RY' : Nat → Nat → ℝ} (hA : Tab p.K p.F σ φ A A') (hV : Tab p.P p.F l φ V V')
    (hRY : Tab p.P p.P l l RY RY') : Tab p.K p.P σ l (newY p A V RY) (newY p A' V' RY') :=
  dot_eq h.latent (mul_eq (1 / p.fv) (dotT_eq h.features hA hV)) hRY

theorem RA_eq (hinv : FollowsInv inv) (h : Numbers δ σ τ φ l p x y) {X X' : Nat → Nat → ℝ} (hX : Tab x.D p.F δ φ X X') :
    Tab p.F p.F φ φ (newRA inv p x X) (newRA inv p y X') :=
  hinv p.F φ h.features _ _ (ridge_eq h hX)

theorem A_eq' (h : Numbers δ σ τ φ l p x y) {X X' Y Y' V V' RA RA' m m' : Nat → Nat → ℝ} (hX : Tab x.D p.F δ φ X X')
    (hY : Tab p.K p.P σ l Y Y') (hV : Tab p.P p.F l φ V V') (hRA : Tab p.F p.F φ φ RA RA') (hm : Tab x.D p.K δ σ m m') :
    Tab p.K p.F σ φ (newA p x X Y V RA m) (newA p y X' Y' V' RA' m') := by
  have h1 := tDot_eq h.data.docs hX hm
  have h2 : Tab p.K p.F σ φ (fun k f => 1 / p.fv * dot p.P Y V k f + tDot x.D X m f k) (fun k f => 1 / p.fv * dot p.P Y' V' k f + tDot y.D X' m' f k) := by
    rw [h.data.D]
    exact add_eq (mul_eq (1 / p.fv) (dot_eq h.latent hY hV)) fun k hk f hf => h1 f hf k hk
  exact dot_eq h.features h2 hRA

/-! ## The model with a prior on both sides (stm_uv_vecy_bohning) -/

/-- What training returns, under other numbers -/
structure SameModel (δ σ τ φ l : Equiv.Perm Nat) (p : Params) (x : Data) (s r : Stm.State) : Prop where
  A : Tab p.K p.F σ φ s.A r.A
  Y : Tab p.K p.P σ l s.Y r.Y
  RY : Tab p.P p.P l l s.RY r.RY
  V : Tab p.P p.F l φ s.V r.V
  sig : Tab p.K p.K σ σ s.sig r.sig
  vocab : Tab p.K x.T σ τ s.vocab r.vocab
  means : Tab x.D p.K δ σ s.means r.means
  varcs : Tab x.D p.K δ σ s.varcs r.varcs

theorem own_eq (h : Numbers δ σ τ φ l p x y) {L L' : Nat → Nat → Nat → ℝ} (hL : ∀ nd, Tab p.K p.K σ σ (L nd) (L' nd)) {r r' : Nat → Nat → ℝ}
    (hr : Tab x.D p.K δ σ r r') (m m' : Nat → Nat → ℝ) : Tab x.D p.K δ σ (Props.Stm.own p.K x L r m) (Props.Stm.own p.K y L' r' m') := by
  intro d hd k hk
  unfold Props.Stm.own
  rw [len_eq h.data d hd]
  exact sum_eq (f := fun j => r (δ d) j * L (x.len (δ d)) j (σ k)) h.topics fun j hj => by rw [hr d hd j hj, hL _ j hj k hk]

theorem uv_step (hinv : FollowsInv inv) (h : Numbers δ σ τ φ l p x y) {X X' : Nat → Nat → ℝ} (hX : Tab x.D p.F δ φ X X') {s r : Stm.State}
    (hs : SameModel δ σ τ φ l p x s r) :
    SameModel δ σ τ φ l p x (uvStep inv (Props.Stm.own p.K x) p x X s) (uvStep inv (Props.Stm.own p.K y) p y X' r) := by
  have hsig := covariance_eq h hX hs.A hs.Y hs.V hs.means hs.varcs
  have hi := hinv p.K σ h.topics _ _ hsig
  have he := expRows_eq h.topics hs.means
  have hv := vocab_eq h.data h.topics p.prior he hs.vocab
  have hS := counts_eq h.data h.topics he hv
  have hV := V_eq hinv h (sigScale p x) hi hs.A hs.Y hs.RY
  have hRY := RY_eq hinv h hV
  have hY := Y_eq h hs.A hV hRY
  have hA := A_eq' h hX hY hV (RA_eq hinv h hX) hs.means
  have hr := rhs_eq h hX hA hi hS hs.means
  have hm := own_eq h (lhs_eq hinv h hi) hr (softmaxRows p.K s.means) (softmaxRows p.K r.means)
  unfold uvStep
  dsimp only
  rw [scale_eq h]
  exact ⟨hA, hY, hRY, hV, hsig, hv, hm, varcs_eq h hi⟩

/-- **C306** (stm_uv_vecy_bohning): training with other numbers for words, topics, documents, features and latent features gives the same model under these
numbers, though the documents are sorted. -/
theorem uv_train (hinv : FollowsInv inv) (h : Numbers δ σ τ φ l p x y) {X X' : Nat → Nat → ℝ} (hX : Tab x.D p.F δ φ X X') (n : Nat) {s r : Stm.State}
    (hs : SameModel δ σ τ φ l p x s r) : SameModel δ σ τ φ l p x (uvTrain inv p x X n s) (uvTrain inv p y X' n r) := by
  have h1 : ∀ n s r, SameModel δ σ τ φ l p x s r →
      SameModel δ σ τ φ l p x ((uvStep inv (Props.Stm.own p.K x) p x X)^[n] s) ((uvStep inv (Props.Stm.own p.K y) p y X')^[n] r) := by
    intro n
    induction n with
    | zero => exact fun s r hs => hs
    | succ n ih => exact fun s r hs => ih _ _ (uv_step hinv h hX hs)
  have h2 := h1 n s r hs
  obtain ⟨a1, a2, a3, a4, a5, a6, a7⟩ := Props.Stm.uv_train_spec inv p x X n s
  obtain ⟨b1, b2, b3, b4, b5, b6, b7⟩ := Props.Stm.uv_train_spec inv p y X' n r
  refine ⟨?_, ?_, ?_, ?_, ?_, ?_, fun d hd k hk => ?_, fun d hd k hk => ?_⟩
  · rw [a1, b1]; exact h2.A
  · rw [a2, b2]; exact h2.Y
  · rw [a3, b3]; exact h2.RY
  · rw [a4, b4]; exact h2.V
  · rw [a5, b5]; exact h2.sig
  · rw [a6, b6]; exact h2.vocab
  · rw [(a7 (δ d) ((h.data.docs d).2 hd)).1, (b7 d (by rw [h.data.D]; exact hd)).1]
    exact h2.means d hd k hk
  · rw [(a7 (δ d) ((h.data.docs d).2 hd)).2, (b7 d (by rw [h.data.D]; exact hd)).2]
    exact h2.varcs d hd k hk

/-! ## The model with Bouchard's bound (stm_yv) -/

/-- The variables of training under other numbers -/
structure SameYv (δ σ τ φ l : Equiv.Perm Nat) (p : Params) (x : Data) (s r : StmYv.State) : Prop where
  A : Tab p.K p.F σ φ s.A r.A
  Y : Tab p.K p.P σ l s.Y r.Y
  RY : Tab p.P p.P l l s.RY r.RY
  V : Tab p.P p.F l φ s.V r.V
  sig : Tab p.K p.K σ σ s.sig r.sig
  vocab : Tab p.K x.T σ τ s.vocab r.vocab
  means : Tab x.D p.K δ σ s.means r.means
  expMeans : Tab x.D p.K δ σ s.expMeans r.expMeans
  varcs : Tab x.D p.K δ σ s.varcs r.varcs
  lxi : Tab x.D p.K δ σ s.lxi r.lxi
  s : Vec x.D δ s.s r.s

theorem yv_step (hinv : FollowsInv inv) (h : Numbers δ σ τ φ l p x y) {X X' : Nat → Nat → ℝ} (hX : Tab x.D p.F δ φ X X') {s r : StmYv.State}
    (hs : SameYv δ σ τ φ l p x s r) : SameYv δ σ τ φ l p x (StmYv.trainStep inv p x X s) (StmYv.trainStep inv p y X' r) := by
  have hvar : Vec p.K σ (StmYv.variance p x X s) (StmYv.variance p y X' r) := fun k hk => by
    unfold StmYv.variance
    rw [covariance_eq h hX hs.A hs.Y hs.V hs.means hs.varcs k hk k hk, h.data.D]
  have hsig : Tab p.K p.K σ σ (StmYv.diagonal (StmYv.variance p x X s)) (StmYv.diagonal (StmYv.variance p y X' r)) := diag_eq hvar
  have hi : Tab p.K p.K σ σ (StmYv.diagonal fun k => 1 / StmYv.variance p x X s k) (StmYv.diagonal fun k => 1 / StmYv.variance p y X' r k) :=
    diag_eq fun k hk => by rw [hvar k hk]
  have he := expRows_eq h.topics hs.means
  have hS := counts_eq h.data h.topics he hs.vocab
  have hv := vocab_eq h.data h.topics p.prior he hs.vocab
  have hV := V_eq hinv h 1 hi hs.A hs.Y hs.RY
  have hRY := RY_eq hinv h hV
  have hY := Y_eq h hs.A hV hRY
  have hA := A_eq' h hX hY hV (RA_eq hinv h hX) hs.means
  have hd := dot_eq h.topics (dotT_eq h.features hX hA) hi
  have hm : Tab x.D p.K δ σ (StmYv.trainStep inv p x X s).means (StmYv.trainStep inv p y X' r).means := fun d hd' k hk => by
    unfold StmYv.trainStep
    dsimp only
    rw [hd d hd' k hk, hi k hk k hk, hS d hd' k hk, len_eq h.data d hd', hs.s d hd', hs.lxi d hd' k hk]
  have hc : Tab x.D p.K δ σ (StmYv.trainStep inv p x X s).varcs (StmYv.trainStep inv p y X' r).varcs := fun d hd' k hk => by
    unfold StmYv.trainStep
    dsimp only
    rw [hi k hk k hk, len_eq h.data d hd', hs.lxi d hd' k hk]
  refine ⟨hA, hY, hRY, hV, hsig, hv, hm, he, hc, fun d hd' k hk => ?_, hs.s⟩
  show 2 * negJakkola (deriveXi ((StmYv.trainStep inv p y X' r).means d k) ((StmYv.trainStep inv p y X' r).varcs d k) (r.s d)) = _
  rw [hm d hd' k hk, hc d hd' k hk, hs.s d hd']
  rfl

/-- **C306** (stm_yv): training with other numbers for words, topics, documents, features and latent features gives the same model under these numbers. -/
theorem yv_train (hinv : FollowsInv inv) (h : Numbers δ σ τ φ l p x y) {X X' : Nat → Nat → ℝ} (hX : Tab x.D p.F δ φ X X') (n : Nat)
    {s r : StmYv.State} (hs : SameYv δ σ τ φ l p x s r) : SameYv δ σ τ φ l p x (StmYv.train inv p x X n s) (StmYv.train inv p y X' n r) := by
  have h1 : ∀ n s r, SameYv δ σ τ φ l p x s r →
      SameYv δ σ τ φ l p x ((StmYv.trainStep inv p x X)^[n] s) ((StmYv.trainStep inv p y X')^[n] r) := by
    intro n
    induction n with
    | zero => exact fun s r hs => hs
    | succ n ih => exact fun s r hs => ih _ _ (yv_step hinv h hX hs)
  exact h1 n _ _ ⟨hs.A, hs.Y, hs.RY, hs.V, hs.sig, hs.vocab, hs.means, hs.expMeans, hs.varcs, hs.lxi, fun _ _ => rfl⟩

/-- A query under other numbers -/
structure SameQuery (δ σ : Equiv.Perm Nat) (D K : Nat) (s r : QState) : Prop where
  means : Tab D K δ σ s.means r.means
  varcs : Tab D K δ σ s.varcs r.varcs
  lxi : Tab D K δ σ s.lxi r.lxi
  s : Vec D δ s.s r.s

theorem query_step (h : Numbers δ σ τ φ l p x y) {X X' A A' i i' v v' : Nat → Nat → ℝ} (hX : Tab x.D p.F δ φ X X') (hA : Tab p.K p.F σ φ A A')
    (hi : Tab p.K p.K σ σ i i') (hv : Tab p.K x.T σ τ v v') {s r : QState} (hs : SameQuery δ σ x.D p.K s r) :
    SameQuery δ σ x.D p.K (StmYv.queryStep p x X A i v s) (StmYv.queryStep p y X' A' i' v' r) := by
  have he := expRows_eq h.topics hs.means
  have hS := counts_eq h.data h.topics he hv
  have hd := dot_eq h.topics (dotT_eq h.features hX hA) hi
  have hm : Tab x.D p.K δ σ (StmYv.queryStep p x X A i v s).means (StmYv.queryStep p y X' A' i' v' r).means := fun d hd' k hk => by
    unfold StmYv.queryStep
    dsimp only
    rw [hd d hd' k hk, hi k hk k hk, hS d hd' k hk, len_eq h.data d hd', hs.s d hd', hs.lxi d hd' k hk]
  have hc : Tab x.D p.K δ σ (StmYv.queryStep p x X A i v s).varcs (StmYv.queryStep p y X' A' i' v' r).varcs := fun d hd' k hk => by
    unfold StmYv.queryStep
    dsimp only
    rw [hi k hk k hk, len_eq h.data d hd', hs.lxi d hd' k hk]
  refine ⟨hm, hc, fun d hd' k hk => ?_, hs.s⟩
  show negJakkola (deriveXi ((StmYv.queryStep p y X' A' i' v' r).means d k) ((StmYv.queryStep p y X' A' i' v' r).varcs d k) (r.s d)) = _
  rw [hm d hd' k hk, hc d hd' k hk, hs.s d hd']
  rfl

theorem queryLoop_eq {R : QState → QState → Prop} {f g : QState → QState} (hf : ∀ s r, R s r → R (f s) (g r))
    {perp perp' : (Nat → Nat → ℝ) → ℝ} (hp : ∀ s r, R s r → perp' r.means = perp s.means) (fuel : Nat) :
    ∀ itr last s r, R s r → R (CtmQuery.queryLoop f perp fuel itr last s) (CtmQuery.queryLoop g perp' fuel itr last r) := by
  induction fuel with
  | zero => exact fun _ _ s r h => h
  | succ fuel ih =>
    intro itr last s r h
    have h1 := hf s r h
    unfold CtmQuery.queryLoop
    dsimp only
    rw [hp _ _ h1]
    split
    · exact h1
    · exact ih _ _ _ _ h1

/-- **C306** (stm_yv): a query stops after the same number of iterations and gives the same weights. -/
theorem yv_query (hinv : FollowsInv inv) (tiny : ℝ) (perplexity : ℝ → ℝ → ℝ) (big : ℝ) (h : Numbers δ σ τ φ l p x y)
    {X X' A A' sig sig' v v' : Nat → Nat → ℝ} (hX : Tab x.D p.F δ φ X X') (hA : Tab p.K p.F σ φ A A') (hsig : Tab p.K p.K σ σ sig sig')
    (hv : Tab p.K x.T σ τ v v') (n : Nat) {s r : QState} (hs : SameQuery δ σ x.D p.K s r) :
    SameQuery δ σ x.D p.K (StmYv.query inv tiny perplexity big p x X A sig v n s) (StmYv.query inv tiny perplexity big p y X' A' sig' v' n r) := by
  have hi := hinv p.K σ h.topics _ _ hsig
  unfold StmYv.query
  refine queryLoop_eq (fun s r hs => query_step h hX hA hi hv hs) (fun s r hs => ?_) _ _ _ _ _ hs
  rw [likelihood_eq h.data h.topics tiny hs.means hv, h.data.D,
    sum_eq (f := fun d => (x.len d : ℝ)) h.data.docs fun d hd => by rw [len_eq h.data d hd]]

/-! ## Queries of the models with Böhning's bound -/

/-- A query under other numbers -/
structure SameAnswer (δ σ : Equiv.Perm Nat) (D K : Nat) (s r : Stm.Query) : Prop where
  means : Tab D K δ σ s.means r.means
  expMeans : Tab D K δ σ s.expMeans r.expMeans
  varcs : Tab D K δ σ s.varcs r.varcs

theorem answer_step (hinv : FollowsInv inv) (h : Numbers δ σ τ φ l p x y) {X X' A A' i i' v v' : Nat → Nat → ℝ} (hX : Tab x.D p.F δ φ X X')
    (hA : Tab p.K p.F σ φ A A') (hi : Tab p.K p.K σ σ i i') (hv : Tab p.K x.T σ τ v v') {s r : Stm.Query} (hs : SameAnswer δ σ x.D p.K s r) :
    SameAnswer δ σ x.D p.K (Stm.queryStep inv p x X A i v s) (Stm.queryStep inv p y X' A' i' v' r) := by
  have he := expRows_eq h.topics hs.means
  have hS := counts_eq h.data h.topics he hv
  have hd := dot_eq h.topics (dotT_eq h.features hX hA) hi
  refine ⟨fun d hd' k hk => ?_, he, fun d hd' k hk => ?_⟩
  · rw [Props.Stm.query_step_means inv p x X A i v s (δ d) ((h.data.docs d).2 hd'),
      Props.Stm.query_step_means inv p y X' A' i' v' r d (by rw [h.data.D]; exact hd'), len_eq h.data d hd']
    refine sum_eq (f := fun j => inv p.K (fun a b => i a b + (x.len (δ d) : ℝ) * p.Ab a b) (σ k) j *
      (dot p.K (dotT p.F X A) i (δ d) j + topicCounts x p.K (expRows p.K s.means) v (δ d) j + (x.len (δ d) : ℝ) * dot p.K s.means p.Ab (δ d) j
        - (x.len (δ d) : ℝ) * softmaxRows p.K s.means (δ d) j)) h.topics fun j hj => ?_
    rw [hinv p.K σ h.topics _ _ (add_eq hi (mul_eq (x.len (δ d) : ℝ) h.Ab)) k hk j hj, hd d hd' j hj, hS d hd' j hj,
      dot_eq h.topics hs.means h.Ab d hd' j hj, softmaxRows_eq h.topics hs.means d hd' j hj]
  · show 1 / ((y.len d : ℝ) * ((p.K : ℝ) - 1) / (p.K : ℝ) + i' k k) = _
    rw [len_eq h.data d hd', hi k hk k hk]
    rfl

/-- **C306** (stm_yv_bohning, stm_uv_vecy_bohning): a query runs for the same number of iterations and gives the same weights. -/
theorem bohning_query (hinv : FollowsInv inv) (h : Numbers δ σ τ φ l p x y) {X X' A A' sig sig' v v' : Nat → Nat → ℝ} (hX : Tab x.D p.F δ φ X X')
    (hA : Tab p.K p.F σ φ A A') (hsig : Tab p.K p.K σ σ sig sig') (hv : Tab p.K x.T σ τ v v') (tiny : ℝ) (perplexity : ℝ → ℝ)
    (atLeast n : Nat) (last : ℝ) {s r : Stm.Query} (hs : SameAnswer δ σ x.D p.K s r) :
    (Stm.query inv p y X' A' sig' v' (fun m => perplexity (logLikelihood y p.K tiny m v')) atLeast n r last).1
        = (Stm.query inv p x X A sig v (fun m => perplexity (logLikelihood x p.K tiny m v)) atLeast n s last).1
      ∧ SameAnswer δ σ x.D p.K (Stm.query inv p x X A sig v (fun m => perplexity (logLikelihood x p.K tiny m v)) atLeast n s last).2
        (Stm.query inv p y X' A' sig' v' (fun m => perplexity (logLikelihood y p.K tiny m v')) atLeast n r last).2 := by
  have hi := hinv p.K σ h.topics _ _ hsig
  have hloop : ∀ fuel itr last (s r : Stm.Query), SameAnswer δ σ x.D p.K s r →
      (Stm.queryLoop (Stm.queryStep inv p y X' A' (inv p.K sig') v') (fun m => perplexity (logLikelihood y p.K tiny m v')) fuel itr r last).1
        = (Stm.queryLoop (Stm.queryStep inv p x X A (inv p.K sig) v) (fun m => perplexity (logLikelihood x p.K tiny m v)) fuel itr s last).1
      ∧ SameAnswer δ σ x.D p.K
        (Stm.queryLoop (Stm.queryStep inv p x X A (inv p.K sig) v) (fun m => perplexity (logLikelihood x p.K tiny m v)) fuel itr s last).2
        (Stm.queryLoop (Stm.queryStep inv p y X' A' (inv p.K sig') v') (fun m => perplexity (logLikelihood y p.K tiny m v')) fuel itr r last).2 := by
    intro fuel
    induction fuel with
    | zero => exact fun _ _ s r hs => ⟨rfl, hs⟩
    | succ fuel ih =>
      intro itr last s r hs
      have h1 := answer_step hinv h hX hA hi hv hs
      unfold Stm.queryLoop
      dsimp only
      rw [likelihood_eq h.data h.topics tiny h1.means hv]
      split
      · exact ⟨rfl, h1⟩
      · exact ih _ _ _ _ h1
  exact hloop _ _ _ _ _ hs

/-! ## The model with a prior on one side (stm_yv_bohning) -/

theorem vocabWith_eq {K : Nat} (hx : Renumbered δ τ x y) (prior : ℝ) {R R' e e' v v' : Nat → Nat → ℝ} (hR : Tab x.D x.T δ τ R R')
    (he : Tab x.D K δ σ e e') (hv : Tab K x.T σ τ v v') : Tab K x.T σ τ (vocabWith x prior R e v) (vocabWith y prior R' e' v') := by
  have hraw : Tab K x.T σ τ (fun k t => v k t * ∑ d ∈ Finset.range x.D, R d t * e d k + prior)
      (fun k t => v' k t * ∑ d ∈ Finset.range y.D, R' d t * e' d k + prior) := by
    intro k hk t ht
    dsimp only
    rw [hv k hk t ht, hx.D, sum_eq (f := fun d => R d (τ t) * e d (σ k)) hx.docs fun d hd => by rw [hR d hd t ht, he d hd k hk]]
  intro k hk t ht
  have h1 := hraw k hk t ht
  have h2 : ∑ t' ∈ Finset.range x.T, (v' k t' * ∑ d ∈ Finset.range y.D, R' d t' * e' d k + prior)
      = ∑ t' ∈ Finset.range x.T, (v (σ k) t' * ∑ d ∈ Finset.range x.D, R d t' * e d (σ k) + prior) :=
    sum_eq hx.vocab fun t ht => hraw k hk t ht
  dsimp only at h1
  unfold vocabWith normalizeRows
  dsimp only
  rw [hx.T, h1, h2]

/-- All variables of training under other numbers -/
structure SameState (δ σ τ φ l : Equiv.Perm Nat) (p : Params) (x : Data) (s r : Stm.State) : Prop where
  model : SameModel δ σ τ φ l p x s r
  expMeans : Tab x.D p.K δ σ s.expMeans r.expMeans
  R : Tab x.D x.T δ τ s.R r.R

/-- The update of the weights follows the numbers of the topics. -/
def FollowsUpdate (δ σ : Equiv.Perm Nat) (D K : Nat) (u u' : (Nat → Nat → Nat → ℝ) → (Nat → Nat → ℝ) → (Nat → Nat → ℝ) → Nat → Nat → ℝ) : Prop :=
  ∀ L L' r r' m m', (∀ nd, Tab K K σ σ (L nd) (L' nd)) → Tab D K δ σ r r' → Tab D K δ σ m m' → Tab D K δ σ (u L r m) (u' L' r' m')

theorem inner_eq (hinv : FollowsInv inv) (h : Numbers δ σ τ φ l p x y) {X X' : Nat → Nat → ℝ} (hX : Tab x.D p.F δ φ X X')
    {u u' : (Nat → Nat → Nat → ℝ) → (Nat → Nat → ℝ) → (Nat → Nat → ℝ) → Nat → Nat → ℝ} (hu : FollowsUpdate δ σ x.D p.K u u')
    {s r : Stm.State} (hs : SameState δ σ τ φ l p x s r) :
    SameState δ σ τ φ l p x (yvInner inv u p x X s) (yvInner inv u' p y X' r) := by
  have hm := hs.model
  have hsig := covariance_eq h hX hm.A hm.Y hm.V hm.means hm.varcs
  have hi := hinv p.K σ h.topics _ _ hsig
  have hv := vocabWith_eq h.data p.prior hs.R hs.expMeans hm.vocab
  have hR := quotient_eq h.data h.topics hs.expMeans hv
  have hS : Tab x.D p.K δ σ (fun d k => s.expMeans d k * ∑ t ∈ Finset.range x.T,
        quotient x p.K s.expMeans (vocabWith x p.prior s.R s.expMeans s.vocab) d t * vocabWith x p.prior s.R s.expMeans s.vocab k t)
      (fun d k => r.expMeans d k * ∑ t ∈ Finset.range y.T,
        quotient y p.K r.expMeans (vocabWith y p.prior r.R r.expMeans r.vocab) d t * vocabWith y p.prior r.R r.expMeans r.vocab k t) :=
    counts_eq h.data h.topics hs.expMeans hv
  have hr := rhs_eq h hX hm.A hi hS hm.means
  have hn := hu _ _ _ _ _ _ (lhs_eq hinv h hi) hr (softmaxRows_eq h.topics hm.means)
  exact ⟨⟨hm.A, hm.Y, hm.RY, hm.V, hsig, hv, hn, varcs_eq h hi⟩, expRows_eq h.topics hn, hR⟩

/-- What the least squares solution satisfies: it follows the numbers of topics and features. -/
def FollowsLsq (σ φ : Equiv.Perm Nat) (D F K : Nat) (lsq : (Nat → Nat → ℝ) → (Nat → Nat → ℝ) → Nat → Nat → ℝ) : Prop :=
  ∀ X X' M M', Tab D F (Equiv.refl _) φ X X' → Tab D K (Equiv.refl _) σ M M' → Tab K F σ φ (lsq X M) (lsq X' M')

theorem group_follows (D K : Nat) (hσ : Keeps K σ) (gs : List (Nat × Nat × Nat)) :
    FollowsUpdate (Equiv.refl _) σ D K (fun L r m => groupMeans K L r m gs) (fun L r m => groupMeans K L r m gs) := by
  intro L L' r r' m m' hL hr hm
  induction gs generalizing m m' with
  | nil => exact hm
  | cons g gs ih =>
    refine ih _ _ fun d hd k hk => ?_
    dsimp only [Equiv.refl_apply]
    split
    · exact sum_eq (f := fun j => r d j * L g.1 j (σ k)) hσ fun j hj => by rw [hr d hd j hj, hL _ j hj k hk]; rfl
    · exact hm d hd k hk

theorem rows_eq {D n : Nat} {idx : List Nat} (hidx : ∀ d, d < D → idx.getD d d < D) {m m' : Nat → Nat → ℝ} (h : Tab D n (Equiv.refl _) π m m') :
    Tab D n (Equiv.refl _) π (rows idx m) (rows idx m') := fun d hd j hj => h _ (hidx d hd) j hj

/-- **C306** (stm_yv_bohning): training with other numbers for words, topics, features and latent features gives the same model under these numbers.  The
documents keep their numbers: they are sorted, but one of their tables is not (C145). -/
theorem yv_bohning_train (hinv : FollowsInv inv) {lsq : (Nat → Nat → ℝ) → (Nat → Nat → ℝ) → Nat → Nat → ℝ}
    (h : Numbers (Equiv.refl _) σ τ φ l p x y) (hlsq : FollowsLsq σ φ x.D p.F p.K lsq) {X X' : Nat → Nat → ℝ}
    (hX : Tab x.D p.F (Equiv.refl _) φ X X') (n : Nat) {s r : Stm.State} (hs : SameModel (Equiv.refl _) σ τ φ l p x s r)
    (he : Tab x.D p.K (Equiv.refl _) σ s.expMeans r.expMeans) :
    SameModel (Equiv.refl _) σ τ φ l p x (yvTrain inv lsq p x X n s) (yvTrain inv lsq p y X' n r) := by
  have hlen : docLens y = docLens x := by
    unfold docLens
    rw [h.data.D]
    exact List.map_congr_left fun d hd => len_eq h.data d (List.mem_range.1 hd)
  have hperm := sortIdx_perm x
  have hback : (argsort (argsort (docLens x))).Perm (List.range x.D) := by
    have := argsort_perm (argsort (docLens x))
    rwa [hperm.length_eq, List.length_range] at this
  have hlt : ∀ idx : List Nat, idx.Perm (List.range x.D) → ∀ d, d < x.D → idx.getD d d < x.D := by
    intro idx hp d hd
    have hd' : d < idx.length := by rw [hp.length_eq, List.length_range]; exact hd
    rw [List.getD_eq_getElem _ _ hd']
    exact List.mem_range.1 (hp.mem_iff.1 (List.getElem_mem hd'))
  have h1 := hlt _ hperm
  have h2 := hlt _ hback
  unfold yvTrain
  dsimp only
  rw [hlen]
  generalize hidx : argsort (docLens x) = idx at h1 h2
  have hdata : Renumbered (Equiv.refl _) τ (sortData x idx) (sortData y idx) :=
    ⟨h.data.docs, h.data.vocab, h.data.D, h.data.T, fun d hd t ht => h.data.words _ (h1 d hd) t ht⟩
  have hnum : Numbers (Equiv.refl _) σ τ φ l p (sortData x idx) (sortData y idx) := ⟨hdata, h.topics, h.features, h.latent, h.Ab⟩
  have hlen' : docLens (sortData y idx) = docLens (sortData x idx) := by
    unfold docLens
    rw [hdata.D]
    exact List.map_congr_left fun d hd => len_eq hdata d (List.mem_range.1 hd)
  rw [hlen']
  have hXs : Tab (sortData x idx).D p.F (Equiv.refl _) φ (rows idx X) (rows idx X') := rows_eq h1 hX
  have hu := group_follows (σ := σ) (sortData x idx).D p.K h.topics (groups (docLens (sortData x idx)))
  generalize groups (docLens (sortData x idx)) = gs at hu ⊢
  have hin : ∀ n s r, SameState (Equiv.refl _) σ τ φ l p (sortData x idx) s r → SameState (Equiv.refl _) σ τ φ l p (sortData x idx)
      ((yvInner inv (fun L r m => groupMeans p.K L r m gs) p (sortData x idx) (rows idx X))^[n] s)
      ((yvInner inv (fun L r m => groupMeans p.K L r m gs) p (sortData y idx) (rows idx X'))^[n] r) := by
    intro n
    induction n with
    | zero => exact fun _ _ hs => hs
    | succ n ih => exact fun s r hs => ih _ _ (inner_eq hinv hnum hXs hu hs)
  have hout : ∀ n s r, SameState (Equiv.refl _) σ τ φ l p (sortData x idx) s r → SameState (Equiv.refl _) σ τ φ l p (sortData x idx)
      ((yvStep inv lsq (fun L r m => groupMeans p.K L r m gs) p (sortData x idx) (rows idx X))^[n] s)
      ((yvStep inv lsq (fun L r m => groupMeans p.K L r m gs) p (sortData y idx) (rows idx X'))^[n] r) := by
    intro n
    induction n with
    | zero => exact fun _ _ hs => hs
    | succ n ih =>
      exact fun s r hs => ih _ _ (hin 10 _ _ ⟨⟨hlsq _ _ _ _ hXs hs.model.means, hs.model.Y, hs.model.RY, hs.model.V, hs.model.sig, hs.model.vocab,
        hs.model.means, hs.model.varcs⟩, hs.expMeans, hs.R⟩)
  have hfin := (hout n { sorted idx s with R := fun d t => ((sortData x idx).words d t : ℝ) }
    { sorted idx r with R := fun d t => ((sortData y idx).words d t : ℝ) }
    ⟨⟨hs.A, hs.Y, hs.RY, hs.V, hs.sig, hs.vocab, rows_eq h1 hs.means, rows_eq h1 hs.varcs⟩, he, fun d hd t ht => by
      dsimp only
      rw [hdata.words d hd t ht]⟩).model
  exact ⟨hfin.A, hfin.Y, hfin.RY, hfin.V, hfin.sig, hfin.vocab, rows_eq h2 hfin.means, rows_eq h2 hfin.varcs⟩

end

/-! ## Examples -/

/-- Two topics, features and latent features -/
noncomputable def exP : Params := ⟨2, 2, 2, 1, 2, 1 / 10, bohningA 2⟩

theorem swap2 : Keeps 2 (Equiv.swap 0 1) := swap_keeps (by decide) (by decide)

/-- Words, documents, topics, features and latent features get other numbers. -/
theorem ex_numbers : Numbers (Equiv.swap 0 1) (Equiv.swap 0 1) (Equiv.swap 0 2) (Equiv.swap 0 1) (Equiv.swap 0 1) exP exX exY :=
  ⟨ex_renumbered, swap2, swap2, swap2, RenumberCtm.A_eq 2 _⟩

/-- Tables with different entries -/
noncomputable def exT (c : ℝ) (i j : Nat) : ℝ := c + i + 3 * j

noncomputable def exS : Stm.State := ⟨exT 1, exT 2, exT 3, exT 4, exT 5, exT 6, exT 7, exT 8, exT 9, exT 10⟩

/-- The same state under the other numbers -/
noncomputable def exS' : Stm.State :=
  ⟨fun i j => exT 1 (Equiv.swap 0 1 i) (Equiv.swap 0 1 j), fun i j => exT 2 (Equiv.swap 0 1 i) (Equiv.swap 0 1 j),
    fun i j => exT 3 (Equiv.swap 0 1 i) (Equiv.swap 0 1 j), fun i j => exT 4 (Equiv.swap 0 1 i) (Equiv.swap 0 1 j),
    fun i j => exT 5 (Equiv.swap 0 1 i) (Equiv.swap 0 1 j), fun i j => exT 6 (Equiv.swap 0 1 i) (Equiv.swap 0 2 j),
    fun i j => exT 7 (Equiv.swap 0 1 i) (Equiv.swap 0 1 j), fun i j => exT 8 (Equiv.swap 0 1 i) (Equiv.swap 0 1 j),
    fun i j => exT 9 (Equiv.swap 0 1 i) (Equiv.swap 0 1 j), fun i j => exT 10 (Equiv.swap 0 1 i) (Equiv.swap 0 2 j)⟩

theorem exS_same : SameModel (Equiv.swap 0 1) (Equiv.swap 0 1) (Equiv.swap 0 2) (Equiv.swap 0 1) (Equiv.swap 0 1) exP exX exS exS' :=
  ⟨fun _ _ _ _ => rfl, fun _ _ _ _ => rfl, fun _ _ _ _ => rfl, fun _ _ _ _ => rfl, fun _ _ _ _ => rfl, fun _ _ _ _ => rfl, fun _ _ _ _ => rfl,
    fun _ _ _ _ => rfl⟩

/-- Training with the exact inverse: the weight of the first feature for the first topic is, with the other numbers, that of the second for the second. -/
example (n : Nat) : (uvTrain StmCov.exactInv exP exY (fun d f => exT 1 (Equiv.swap 0 1 d) (Equiv.swap 0 1 f)) n exS').A 0 0
    = (uvTrain StmCov.exactInv exP exX (exT 1) n exS).A 1 1 :=
  (uv_train exact_follows ex_numbers (fun _ _ _ _ => rfl) n exS_same).A 0 (by norm_num [exP]) 0 (by norm_num [exP])

/-- The same for stm_yv -/
example (n : Nat) : (StmYv.train StmCov.exactInv exP exY (fun d f => exT 1 (Equiv.swap 0 1 d) (Equiv.swap 0 1 f)) n
      ⟨exS'.A, exS'.Y, exS'.RY, exS'.V, exS'.sig, exS'.vocab, exS'.means, exS'.expMeans, exS'.varcs, exS'.varcs, fun _ => 0⟩).vocab 0 0
    = (StmYv.train StmCov.exactInv exP exX (exT 1) n
      ⟨exS.A, exS.Y, exS.RY, exS.V, exS.sig, exS.vocab, exS.means, exS.expMeans, exS.varcs, exS.varcs, fun _ => 0⟩).vocab 1 2 :=
  (yv_train exact_follows ex_numbers (fun _ _ _ _ => rfl) n ⟨exS_same.A, exS_same.Y, exS_same.RY, exS_same.V, exS_same.sig, exS_same.vocab,
    exS_same.means, fun _ _ _ _ => rfl, exS_same.varcs, exS_same.varcs, fun _ _ => rfl⟩).vocab 0 (by norm_num [exP]) 0 (by decide)

/-- A solution of least squares problems that follows the numbers of topics and features: one step towards it -/
example : FollowsLsq (Equiv.swap 0 1) (Equiv.swap 0 1) 2 2 2 (fun X M k f => ∑ d ∈ Finset.range 2, X d f * M d k) := fun X X' M M' hX hM k hk f hf =>
  sum_eq (f := fun d => X d (Equiv.swap 0 1 f) * M d (Equiv.swap 0 1 k)) (keeps_refl 2) fun d hd => by
    rw [hX d hd f hf, hM d hd k hk]

end Verif.Props.RenumberStm
