import Verif.Props.RtmLearn
import Verif.Props.VbElbo

/-!
# The bound of the relational topic model (C231)
-/

namespace Verif.Props.RtmBound

open Verif Verif.Rtm Verif.RtmLearn
open Verif.Mom (Data loggamma)
open Verif.VbPython (Params toMeans toDirichlet dirichletEntropy probTopics probVocabs)
open Verif.Dirichlet
open Verif.Evidence
open Verif.Props.RtmLearn (Normal)
open Verif.Props.VbElbo (Token docCount wordCount joint evidence Prior Positive prob_ent reported_le_evidence)
open Verif.Props.MomEm (urn)

/-- The share of topic `i` among the tokens of document `d`, and one for the intercept -/
noncomputable def share (x : Data) (K : Nat) (z : Token x → Fin K) (d i : Nat) : ℝ :=
  if i = K then 1 else (docCount x K z d i : ℝ) / x.len d

/-- The probability of the links, given the topics of the tokens -/
noncomputable def linkProb (e : Env) (w : Nat → ℝ) (z : Token e.x → Fin e.K) : ℝ :=
  ((pairs e.x.D e.links).map fun p =>
    Probit.cdf (∑ i ∈ Finset.range (e.K + 1), w i * (share e.x e.K z p.1 i * share e.x e.K z p.2 i))).prod

/-- The probability of the corpus and its links -/
noncomputable def linkedEvidence (e : Env) (prior w : Nat → ℝ) : ℝ := ∑ z, joint ⟨e.K, prior, e.v⟩ e.x z * linkProb e w z

theorem no_pairs (D : Nat) (links : Nat → List Nat) (hl : ∀ d, links d = []) : pairs D links = [] := by
  unfold pairs
  simp [hl, linksUpTo]

/-- Without links the bound is that of topic models without links. -/
theorem bound_without (e : Env) (hpsi : e.psi = digamma) (hl : ∀ d, e.links d = []) (s : State) :
    varBound e s = VbPython.varBound digamma ⟨e.K, s.prior, e.v⟩ e.x s.word s.means := by
  have hz : ∀ d t k, boundTopics e s d t k = VbPython.boundTopics digamma ⟨e.K, s.prior, e.v⟩ e.x s.word s.means d t k := by
    intro d t k
    have hs : ∀ j, Rtm.score e s.word { s with means := toMeans ⟨e.K, s.prior, e.v⟩ e.x s.means } d t j
        = VbPython.score digamma ⟨e.K, s.prior, e.v⟩ e.x s.word (toMeans ⟨e.K, s.prior, e.v⟩ e.x s.means) d t j := by
      intro j
      unfold Rtm.score VbPython.score linkScore
      rw [hl, hpsi]
      simp
    have hs' : Rtm.score e s.word { s with means := toMeans ⟨e.K, s.prior, e.v⟩ e.x s.means } d t
        = VbPython.score digamma ⟨e.K, s.prior, e.v⟩ e.x s.word (toMeans ⟨e.K, s.prior, e.v⟩ e.x s.means) d t := funext hs
    unfold boundTopics VbPython.boundTopics Rtm.inferTopics VbPython.inferTopics
    rw [hs']
  unfold varBound VbPython.varBound linkTerm
  rw [no_pairs _ _ hl]
  dsimp only
  simp only [List.map_nil, List.sum_nil, add_zero]
  rw [← Finset.sum_add_distrib, ← Finset.sum_add_distrib, hpsi]
  congr 1
  refine Finset.sum_congr rfl fun d _ => ?_
  unfold tokenTerm VbPython.probZ VbPython.entZ VbPython.probWords
  simp only [hz, hpsi]

/-- **C231**: without links the bound does not exceed the logarithm of the evidence. -/
theorem bound_partial (e : Env) (hpsi : e.psi = digamma) (hl : ∀ d, e.links d = []) (s : State) (hp : Prior ⟨e.K, s.prior, e.v⟩ e.x)
    (hx : ∀ d, d < e.x.D → 0 < e.x.len d) (hs : Positive ⟨e.K, s.prior, e.v⟩ e.x s.word s.means) :
    varBound e s ≤ Real.log (linkedEvidence e s.prior s.weights) := by
  rw [bound_without e hpsi hl s]
  have : linkedEvidence e s.prior s.weights = evidence ⟨e.K, s.prior, e.v⟩ e.x := by
    unfold linkedEvidence evidence linkProb
    rw [no_pairs _ _ hl]
    simp
  rw [this]
  exact reported_le_evidence ⟨e.K, s.prior, e.v⟩ e.x hp hx s.word s.means hs

/-! ## The violation -/

/-- Two documents of one word each that are linked, in a vocabulary of one word -/
def wX : Data := ⟨2, 1, fun _ _ => 1⟩

noncomputable def wEnv : Env :=
  ⟨digamma, Probit.pdf, Probit.cdf, 2, 1, wX, fun d => if d = 0 then [1] else if d = 1 then [0] else [], 10⟩

/-- The default prior for two topics; topics that are equally likely in both documents; weights that ask for the same topic -/
noncomputable def wState (W : ℝ) : State :=
  ⟨fun _ _ => 2, fun _ k => if k = 2 then 1 else 7 / 2, fun i => if i = 2 then -(W / 4) else W, fun k => if k = 2 then 0 else 3⟩

def tokenEquiv : Token wX ≃ Fin 2 where
  toFun i := i.1
  invFun d := ⟨d, ⟨0, Nat.one_pos⟩, ⟨0, Nat.one_pos⟩⟩
  left_inv i := by
    obtain ⟨d, ⟨t, ht⟩, ⟨o, ho⟩⟩ := i
    have h1 : t = 0 := by have : t < 1 := ht; omega
    subst h1
    have h2 : o = 0 := by have : o < 1 := ho; omega
    subst h2
    rfl
  right_inv _ := rfl

/-- The topics of the two tokens -/
def two (a b : Fin 2) : Token wX → Fin 2 := fun i => if (i.1 : Nat) = 0 then a else b

theorem sum_two (f : (Token wX → Fin 2) → ℝ) : ∑ z, f z = f (two 0 0) + f (two 0 1) + (f (two 1 0) + f (two 1 1)) := by
  have h : ∑ z, f z = ∑ p : Fin 2 × Fin 2, f (two p.1 p.2) := by
    symm
    refine Fintype.sum_bijective (fun p : Fin 2 × Fin 2 => two p.1 p.2) ⟨?_, ?_⟩ _ _ fun _ => rfl
    · intro p q hpq
      have h0 := congrFun hpq (tokenEquiv.symm 0)
      have h1 := congrFun hpq (tokenEquiv.symm 1)
      exact Prod.ext h0 h1
    · intro z
      refine ⟨(z (tokenEquiv.symm 0), z (tokenEquiv.symm 1)), ?_⟩
      funext i
      obtain ⟨d, rfl⟩ := tokenEquiv.symm.surjective i
      fin_cases d <;> rfl
  rw [h, Fintype.sum_prod_type, Fin.sum_univ_two, Fin.sum_univ_two, Fin.sum_univ_two]

theorem count_two : ∀ a b : Fin 2, ∀ d k : Fin 2, docCount wX 2 (two a b) d k = if (if d = 0 then a else b) = k then 1 else 0 := by
  decide +kernel

theorem urn_one (b : Nat → ℝ) (hb : 0 < b 0) (n : Nat → Nat) : urn 1 b n = 1 := by
  unfold urn
  simp only [Finset.prod_range_one, Finset.sum_range_one]
  refine div_self (Finset.prod_ne_zero_iff.mpr fun i _ => ?_)
  positivity

theorem urn_half (b : Nat → ℝ) (c : ℝ) (hc : 0 < c) (h0 : b 0 = c) (h1 : b 1 = c) (n : Nat → Nat)
    (hn : (n 0 = 1 ∧ n 1 = 0) ∨ (n 0 = 0 ∧ n 1 = 1)) : urn 2 b n = 1 / 2 := by
  unfold urn
  rcases hn with ⟨ha, hb⟩ | ⟨ha, hb⟩
  · simp [Finset.prod_range_succ, Finset.sum_range_succ, ha, hb, h0, h1]
    field_simp
    norm_num
  · simp [Finset.prod_range_succ, Finset.sum_range_succ, ha, hb, h0, h1]
    field_simp
    norm_num

theorem joint_two (W : ℝ) (a b : Fin 2) : joint ⟨2, (wState W).prior, 1⟩ wX (two a b) = 1 / 4 := by
  have hc : ∀ d, d < 2 → (docCount wX 2 (two a b) d 0 = 1 ∧ docCount wX 2 (two a b) d 1 = 0)
      ∨ (docCount wX 2 (two a b) d 0 = 0 ∧ docCount wX 2 (two a b) d 1 = 1) := by
    intro d hd
    have h0 := count_two a b ⟨d, hd⟩ 0
    have h1 := count_two a b ⟨d, hd⟩ 1
    simp only [Fin.val_zero, Fin.val_one] at h0 h1
    rw [h0, h1]
    generalize (if (⟨d, hd⟩ : Fin 2) = 0 then a else b) = c
    fin_cases c <;> simp
  have hu : ∀ d, d < 2 → urn 2 (wState W).prior (docCount wX 2 (two a b) d) = 1 / 2 := fun d hd =>
    urn_half _ 3 (by norm_num) (by simp [wState]) (by simp [wState]) _ (hc d hd)
  unfold joint
  show (∏ d ∈ Finset.range 2, urn 2 (wState W).prior (docCount wX 2 (two a b) d))
    * ∏ k ∈ Finset.range 2, urn 1 (fun _ => 1) (wordCount wX 2 (two a b) k) = 1 / 4
  simp only [Finset.prod_range_succ, Finset.prod_range_zero]
  rw [hu 0 (by omega), hu 1 (by omega), urn_one _ one_pos, urn_one _ one_pos]
  norm_num

theorem wPairs : pairs wX.D wEnv.links = [(1, 0)] := by
  unfold pairs wEnv wX
  rfl

theorem link_two (W : ℝ) (a b : Fin 2) :
    linkProb wEnv (wState W).weights (two a b) = if a = b then Probit.cdf (3 * W / 4) else Probit.cdf (-(W / 4)) := by
  have hs : ∀ (d k : Fin 2), share wX 2 (two a b) d k = if (if d = 0 then a else b) = k then 1 else 0 := by
    intro d k
    unfold share
    rw [if_neg (by omega), count_two]
    show ((if (if d = 0 then a else b) = k then 1 else 0 : Nat) : ℝ) / ((1 : Nat) : ℝ) = _
    split <;> simp
  have h2 : ∀ d, share wX 2 (two a b) d 2 = 1 := fun d => if_pos rfl
  unfold linkProb
  rw [show pairs wEnv.x.D wEnv.links = [(1, 0)] from wPairs]
  simp only [List.map_cons, List.map_nil, List.prod_cons, List.prod_nil, mul_one]
  show Probit.cdf (∑ i ∈ Finset.range 3, (wState W).weights i * (share wX 2 (two a b) 1 i * share wX 2 (two a b) 0 i)) = _
  have h00 := hs 0 0
  have h01 := hs 0 1
  have h10 := hs 1 0
  have h11 := hs 1 1
  simp only [Fin.val_zero, Fin.val_one] at h00 h01 h10 h11
  rw [Finset.sum_range_succ, Finset.sum_range_succ, Finset.sum_range_one, h00, h01, h10, h11, h2, h2]
  have e0 : (wState W).weights 0 = W := by simp [wState]
  have e1 : (wState W).weights 1 = W := by simp [wState]
  have e2 : (wState W).weights 2 = -(W / 4) := by simp [wState]
  rw [e0, e1, e2]
  fin_cases a <;> fin_cases b <;> simp <;> congr 1 <;> ring

theorem evidence_two (W : ℝ) : linkedEvidence wEnv (wState W).prior (wState W).weights = (Probit.cdf (3 * W / 4) + Probit.cdf (-(W / 4))) / 2 := by
  have h : linkedEvidence wEnv (wState W).prior (wState W).weights
      = ∑ z : Token wX → Fin 2, joint ⟨2, (wState W).prior, 1⟩ wX z * linkProb wEnv (wState W).weights z := rfl
  rw [h, sum_two]
  simp only [joint_two, link_two]
  norm_num
  ring

theorem wLen (d : Nat) : wX.len d = 1 := rfl

theorem wMeans (W : ℝ) (d k : Nat) : toMeans ⟨2, (wState W).prior, 1⟩ wX (wState W).means d k = if k = 2 then 1 else 1 / 2 := by
  unfold toMeans
  rw [wLen]
  simp only [wState]
  split
  · simp
  · norm_num

theorem wTopics (W : ℝ) (d t k : Nat) (hk : k < 2) : boundTopics wEnv (wState W) d t k = 1 / 2 := by
  unfold boundTopics
  rw [Props.Rtm.inferTopics_eq]
  set r : State := { wState W with means := toMeans ⟨wEnv.K, (wState W).prior, wEnv.v⟩ wEnv.x (wState W).means } with hr
  have hm : ∀ d k, r.means d k = if k = 2 then 1 else 1 / 2 := fun d k => wMeans W d k
  have hw : r.weights = (wState W).weights := rfl
  have hsc : Rtm.score wEnv (wState W).word r d t 0 = Rtm.score wEnv (wState W).word r d t 1 := by
    unfold Rtm.score linkScore
    have e0 : r.weights 0 = r.weights 1 := by rw [hw]; simp [wState]
    have e1 : r.prior 0 = r.prior 1 := by rw [hr]; simp [wState]
    have e2 : ∀ d, r.means d 0 = r.means d 1 := by intro d; rw [hm, hm]; norm_num
    rw [e0, e1]
    simp only [e2]
    rfl
  unfold Props.Numerics.softmax
  show Real.exp _ / ∑ j ∈ Finset.range 2, Real.exp _ = _
  rw [Finset.sum_range_succ, Finset.sum_range_one]
  have hk' : k = 0 ∨ k = 1 := by omega
  have hp := Real.exp_pos (Rtm.score wEnv (wState W).word r d t 1)
  rcases hk' with rfl | rfl
  · rw [hsc]
    field_simp
    norm_num
  · rw [hsc]
    field_simp
    norm_num

theorem dirTerm_one (b : ℝ) (α : Nat → ℝ) : dirTerm 1 (fun _ => b) α = 0 := by
  unfold dirTerm expLog logB
  simp

theorem wBound (W : ℝ) :
    varBound wEnv (wState W) = 2 * Real.log 2 + 2 * (logB 2 (fun _ => 7 / 2) - logB 2 (fun _ => 3)) + Real.log (Probit.cdf (W / 4) + 1 / 10 ^ 300) := by
  have h1 := prob_ent 2 2 (wState W).prior (wState W).means
  have h2 := prob_ent 2 1 (fun _ => (1 : ℝ)) (wState W).word
  have h3 : probVocabs digamma ⟨2, (wState W).prior, 1⟩ wX (wState W).word
      = (2 : ℕ) * (loggamma (∑ _t ∈ Finset.range 1, (1 : ℝ)) - ∑ _t ∈ Finset.range 1, loggamma 1)
        + ∑ k ∈ Finset.range 2, ∑ t ∈ Finset.range 1, ((1 : ℝ) - 1) * (digamma ((wState W).word k t) - digamma (∑ u ∈ Finset.range 1, (wState W).word k u)) := by
    unfold probVocabs wX
    simp
  have h4 : ∀ d, tokenTerm wEnv (wState W) d = ∑ k ∈ Finset.range 2, (1 / 2 : ℝ) * expLog 2 ((wState W).means d) k + Real.log 2 := by
    intro d
    have hlog : Verif.Numerics.safeLogOut false (1 / 2) = -Real.log 2 := by
      unfold Verif.Numerics.safeLogOut
      rw [if_pos (by
        show ((1 : ℝ) / 10) ^ 300 ≤ 1 / 2
        exact (pow_le_of_le_one (by norm_num) (by norm_num) (by norm_num)).trans (by norm_num)), one_div, Real.log_inv]
    unfold tokenTerm
    show ∑ t ∈ Finset.range 1, ∑ k ∈ Finset.range 2, _ + -∑ t ∈ Finset.range 1, ∑ k ∈ Finset.range 2, _
      + ∑ t ∈ Finset.range 1, ∑ k ∈ Finset.range 2, _ = _
    simp only [Finset.sum_range_succ, Finset.sum_range_zero, wTopics W _ _ 0 (by omega), wTopics W _ _ 1 (by omega), hlog]
    show 0 + (0 + 1 / 2 * (digamma _ - digamma _) * ((1 : ℕ) : ℝ) + 1 / 2 * (digamma _ - digamma _) * ((1 : ℕ) : ℝ))
      + -(0 + (0 + 1 / 2 * -Real.log 2 * ((1 : ℕ) : ℝ) + 1 / 2 * -Real.log 2 * ((1 : ℕ) : ℝ)))
      + (0 + (0 + ((1 : ℕ) : ℝ) * (1 / 2) * (digamma (wState W |>.word 0 0) - digamma (∑ u ∈ Finset.range 1, (wState W).word 0 u))
        + ((1 : ℕ) : ℝ) * (1 / 2) * (digamma (wState W |>.word 1 0) - digamma (∑ u ∈ Finset.range 1, (wState W).word 1 u)))) = _
    rw [Finset.sum_range_one, Finset.sum_range_one, show wEnv.K = 2 from rfl]
    unfold expLog
    simp only [Finset.sum_range_succ, Finset.sum_range_zero]
    push_cast
    ring
  have h5 : linkTerm wEnv (toMeans ⟨2, (wState W).prior, 1⟩ wX (wState W).means) (wState W).weights = Real.log (Probit.cdf (W / 4) + 1 / 10 ^ 300) := by
    unfold linkTerm
    rw [show pairs wEnv.x.D wEnv.links = [(1, 0)] from wPairs]
    simp only [List.map_cons, List.map_nil, List.sum_cons, List.sum_nil, add_zero]
    have : dot wEnv.K (wState W).weights (pairDoc (toMeans ⟨2, (wState W).prior, 1⟩ wX (wState W).means) 1 0) = W / 4 := by
      show ∑ i ∈ Finset.range 3, _ = _
      rw [Finset.sum_range_succ, Finset.sum_range_succ, Finset.sum_range_one]
      unfold pairDoc
      simp only [wMeans]
      simp only [wState]
      norm_num
      ring
    rw [this]
    rfl
  have h6 : ∀ d, ∑ k ∈ Finset.range 2, (1 / 2 : ℝ) * expLog 2 ((wState W).means d) k + dirTerm 2 (wState W).prior ((wState W).means d)
      = logB 2 (fun _ => 7 / 2) - logB 2 (fun _ => 3) := by
    intro d
    rw [dir_gain_eq 2 (wState W).prior ((wState W).means d) (fun _ => 1 / 2) (fun k hk => by
      simp only [wState]
      rw [if_neg (by omega), if_neg (by omega)]
      norm_num)]
    have c1 : logB 2 (fun k => 1 / 2 + (wState W).prior k) = logB 2 (fun _ => 7 / 2) := by
      unfold logB
      simp only [Finset.sum_range_succ, Finset.sum_range_zero, wState]
      norm_num
    have c2 : logB 2 (wState W).prior = logB 2 (fun _ => 3) := by
      unfold logB
      simp only [Finset.sum_range_succ, Finset.sum_range_zero, wState]
      norm_num
    rw [c1, c2]
  have h7 : varBound wEnv (wState W) = probTopics digamma ⟨2, (wState W).prior, 1⟩ wX (wState W).means + dirichletEntropy digamma 2 2 (wState W).means
      + probVocabs digamma ⟨2, (wState W).prior, 1⟩ wX (wState W).word + dirichletEntropy digamma 2 1 (wState W).word
      + ∑ d ∈ Finset.range 2, tokenTerm wEnv (wState W) d
      + linkTerm wEnv (toMeans ⟨2, (wState W).prior, 1⟩ wX (wState W).means) (wState W).weights := rfl
  have h8 : probTopics digamma ⟨2, (wState W).prior, 1⟩ wX (wState W).means
      = (2 : ℕ) * (loggamma (∑ k ∈ Finset.range 2, (wState W).prior k) - ∑ k ∈ Finset.range 2, loggamma ((wState W).prior k))
        + ∑ d ∈ Finset.range 2, ∑ k ∈ Finset.range 2, ((wState W).prior k - 1)
          * (digamma ((wState W).means d k) - digamma (∑ j ∈ Finset.range 2, (wState W).means d j)) := rfl
  rw [h7, h5, h3, h8]
  simp only [h4]
  simp only [dirTerm_one] at h2
  have h9 : ∑ d ∈ Finset.range 2, (∑ k ∈ Finset.range 2, (1 / 2 : ℝ) * expLog 2 ((wState W).means d) k + Real.log 2)
      + ∑ d ∈ Finset.range 2, dirTerm 2 (wState W).prior ((wState W).means d)
      = 2 * Real.log 2 + 2 * (logB 2 (fun _ => 7 / 2) - logB 2 (fun _ => 3)) := by
    rw [← Finset.sum_add_distrib]
    have : ∀ d, ∑ k ∈ Finset.range 2, (1 / 2 : ℝ) * expLog 2 ((wState W).means d) k + Real.log 2 + dirTerm 2 (wState W).prior ((wState W).means d)
        = Real.log 2 + (logB 2 (fun _ => 7 / 2) - logB 2 (fun _ => 3)) := by
      intro d
      have := h6 d
      linarith
    simp only [this, Finset.sum_const, Finset.card_range, nsmul_eq_mul]
    push_cast
    ring
  rw [Finset.sum_const_zero] at h2
  linear_combination h1 + h2 + h9

theorem logB_half : Real.log (5 / 12) ≤ logB 2 (fun _ => 7 / 2) - logB 2 (fun _ => 3) := by
  have h := logGamma_half 3 (by norm_num)
  have hg : Real.log (Real.Gamma 7) = Real.log 6 + Real.log (Real.Gamma 6) := by
    rw [show (7 : ℝ) = 6 + 1 by norm_num, Real.Gamma_add_one (by norm_num), Real.log_mul (by norm_num) (Real.Gamma_pos_of_pos (by norm_num)).ne']
  have hl : Real.log (5 / 12) = Real.log (5 / 2) - Real.log 6 := by
    rw [← Real.log_div (by norm_num) (by norm_num)]
    norm_num
  unfold logB
  simp only [Finset.sum_range_succ, Finset.sum_range_zero]
  rw [show (3 : ℝ) + 1 / 2 = 7 / 2 by norm_num, show (3 : ℝ) - 1 / 2 = 5 / 2 by norm_num] at h
  rw [show (0 : ℝ) + 7 / 2 + 7 / 2 = 7 by norm_num, show (0 : ℝ) + 3 + 3 = 6 by norm_num, hg, hl]
  linarith

/-- **C231**: violated: there are two linked documents and weights such that with the default prior the bound that is reported exceeds the
logarithm of the evidence. -/
theorem bound_violation : ∃ W : ℝ, 0 < W ∧ Real.log (linkedEvidence wEnv (wState W).prior (wState W).weights) < varBound wEnv (wState W) := by
  have h1 : ∀ᶠ W : ℝ in Filter.atTop, 19 / 20 < Probit.cdf (W / 4) :=
    (Probit.tendsto_one.comp (Filter.tendsto_id.atTop_div_const (by norm_num))).eventually (lt_mem_nhds (by norm_num))
  have h2 : ∀ᶠ W : ℝ in Filter.atTop, Probit.cdf (-(W / 4)) < 1 / 20 :=
    (Probit.tendsto_zero.comp (Filter.tendsto_neg_atTop_atBot.comp (Filter.tendsto_id.atTop_div_const (by norm_num)))).eventually
      (gt_mem_nhds (by norm_num))
  obtain ⟨W, ⟨h3, h4⟩, h5⟩ := ((h1.and h2).and (Filter.eventually_gt_atTop 0)).exists
  refine ⟨W, h5, ?_⟩
  rw [evidence_two, wBound]
  have h6 := Probit.cdf_lt_one (3 * W / 4)
  have h7 := Probit.cdf_pos (3 * W / 4)
  have h8 := Probit.cdf_pos (-(W / 4))
  have h9 : Real.log ((Probit.cdf (3 * W / 4) + Probit.cdf (-(W / 4))) / 2) < Real.log (3 / 5) :=
    Real.log_lt_log (by linarith) (by linarith)
  have h10 : Real.log (19 / 20) ≤ Real.log (Probit.cdf (W / 4) + 1 / 10 ^ 300) :=
    Real.log_le_log (by norm_num) (h3.le.trans (le_add_of_nonneg_right (by positivity)))
  have h11 := logB_half
  have h12 : 2 * Real.log 2 + 2 * Real.log (5 / 12) + Real.log (19 / 20) = Real.log (2 ^ 2 * (5 / 12) ^ 2 * (19 / 20)) := by
    rw [Real.log_mul (by norm_num) (by norm_num), Real.log_mul (by norm_num) (by norm_num), Real.log_pow, Real.log_pow]
    norm_num
  have h13 : Real.log (3 / 5) < Real.log (2 ^ 2 * (5 / 12) ^ 2 * (19 / 20)) := Real.log_lt_log (by norm_num) (by norm_num)
  linarith

/-! ## Examples -/

theorem exPrior : Prior ⟨2, (wState 1).prior, 1⟩ wX :=
  ⟨Nat.two_pos, Nat.one_pos, fun k hk => by
    have : k < 2 := hk
    show 0 < if k = 2 then (0 : ℝ) else 3
    rw [if_neg (by omega)]
    norm_num, one_pos⟩

/-- The two documents without their link -/
example : varBound { wEnv with links := fun _ => [] } (wState 1)
    ≤ Real.log (linkedEvidence { wEnv with links := fun _ => [] } (wState 1).prior (wState 1).weights) :=
  bound_partial { wEnv with links := fun _ => [] } rfl (fun _ => rfl) (wState 1) exPrior (fun d _ => by show 0 < wX.len d; rw [wLen]; exact one_pos)
    ⟨fun _ _ _ _ => by show (0 : ℝ) < 2; norm_num, fun d k _ hk => by
      have : k < 2 := hk
      show 0 < if k = 2 then (1 : ℝ) else 7 / 2
      rw [if_neg (by omega)]
      norm_num⟩

end Verif.Props.RtmBound
