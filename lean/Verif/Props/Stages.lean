import Verif.Props.RenumberCtm
import Verif.Props.CtmTrain
import Verif.Props.Segments

/-!
# Training in two stages (C303)

Training for some iterations, and for some more from the model and the state returned.
-/

namespace Verif.Props.Stages

open Verif
open Verif.Mom (Data)
open Verif.Props.Renumber

/-! ## Mixtures of multinomials, trained by EM -/

section
open Verif.Mom

theorem eStep_same (psi : ℝ → ℝ) (p : EmParams) (x : Data) (s : EmState) (r : Nat → Nat → ℝ) :
    eStep psi p x { s with resp := r } = eStep psi p x s := rfl

/-- Unless there is nothing to compare, memberships that do not change at all are settled. -/
theorem settled_self (p : EmParams) (x : Data) (old : Nat → Nat → ℝ) (hD : x.D ≠ 0) (hK : p.K ≠ 0) (r : Nat → Nat → ℝ) (h : old = r) :
    Settled p x old r := by
  subst h
  unfold Settled tolerance
  simp only [sub_self, abs_zero, Finset.sum_const_zero]
  have h1 : (0 : ℝ) < x.D := by exact_mod_cast Nat.pos_of_ne_zero hD
  have h2 : (0 : ℝ) < p.K := by exact_mod_cast Nat.pos_of_ne_zero hK
  positivity

theorem settled_some (p : EmParams) (x : Data) (old r : Nat → Nat → ℝ) (h : Settled p x old r) : x.D ≠ 0 ∧ p.K ≠ 0 := by
  constructor <;> intro h0 <;> simp [Settled, h0] at h

/-- A run from a state that the loop has settled in returns the state. -/
theorem settled_again (psi : ℝ → ℝ) (p : EmParams) (x : Data) (s : EmState) (hr : s.resp = eStep psi p x s) (hD : x.D ≠ 0) (hK : p.K ≠ 0)
    (m itr : Nat) : emLoop psi p x ⟨m, 0, false⟩ m itr s = .ok s := by
  cases m with
  | zero => rfl
  | succ m =>
    unfold emLoop
    dsimp only
    rw [if_pos (settled_self p x _ hD hK _ hr)]
    rw [← hr]

open Classical in
theorem em_next (psi : ℝ → ℝ) (p : EmParams) (x : Data) (a fuel itr : Nat) (s : EmState) :
    emLoop psi p x ⟨a, 0, false⟩ (fuel + 1) itr s = if Settled p x s.resp (eStep psi p x s) then .ok { s with resp := eStep psi p x s }
      else emLoop psi p x ⟨a, 0, false⟩ fuel (itr + 1) (mStep p x { s with resp := eStep psi p x s }) := rfl

/-- The number of the iteration does not matter. -/
theorem em_number (psi : ℝ → ℝ) (p : EmParams) (x : Data) (fuel : Nat) : ∀ itr itr' a b s,
    emLoop psi p x ⟨a, 0, false⟩ fuel itr s = emLoop psi p x ⟨b, 0, false⟩ fuel itr' s := by
  induction fuel with
  | zero => intros; rfl
  | succ fuel ih =>
    intro itr itr' a b s
    rw [em_next, em_next, ih (itr + 1) (itr' + 1) a b]

theorem em_loop (psi : ℝ → ℝ) (p : EmParams) (x : Data) (m n : Nat) : ∀ itr itr' (a b : Nat) s,
    emLoop psi p x ⟨a, 0, false⟩ (n + m) itr s = (emLoop psi p x ⟨b, 0, false⟩ n itr' s >>= fun s => emLoop psi p x ⟨m, 0, false⟩ m 0 s) := by
  induction n with
  | zero =>
    intro itr itr' a b s
    rw [Nat.zero_add]
    exact em_number psi p x m itr 0 a m s
  | succ n ih =>
    intro itr itr' a b s
    rw [Nat.succ_add, em_next, em_next psi p x b n]
    by_cases h : Settled p x s.resp (eStep psi p x s)
    · rw [if_pos h, if_pos h]
      obtain ⟨hD, hK⟩ := settled_some p x _ _ h
      exact (settled_again psi p x { s with resp := eStep psi p x s } rfl hD hK m 0).symm
    · rw [if_neg h, if_neg h]
      exact ih (itr + 1) (itr' + 1) a b _

/-- C303 (mixtures): `n` iterations and `m` more are `n + m` iterations, with early stops and errors -/
theorem em_stages (psi : ℝ → ℝ) (p : EmParams) (x : Data) (n m : Nat) (s : EmState) :
    emTrain psi p x ⟨n + m, 0, false⟩ s = (emTrain psi p x ⟨n, 0, false⟩ s >>= fun s => emTrain psi p x ⟨m, 0, false⟩ s) := by
  unfold emTrain
  by_cases h : (List.range x.D).any (fun d => decide (x.len d < 1)) = true
  · rw [if_pos h, if_pos h]
    rfl
  · simp only [if_neg h]
    exact em_loop psi p x m n 0 0 _ _ s

end

/-! ## The correlated topic model -/

section
open Verif.Ctm Verif.Props.CtmTrain

theorem step_begin (oas : (Nat → Nat → ℝ) → Nat → Nat → ℝ) (x : Data) (K : Nat) (prior : ℝ) (st : State) (hs : st.s = fun _ => 0) :
    trainStep oas x K prior (begin st) = trainStep oas x K prior st := by
  obtain ⟨tm, sg, v, m, e, vc, l, s⟩ := st
  cases hs
  rfl

theorem steps_s (oas : (Nat → Nat → ℝ) → Nat → Nat → ℝ) (x : Data) (K : Nat) (prior : ℝ) (n : Nat) (st : State) :
    ((trainStep oas x K prior)^[n] st).s = st.s := by
  induction n generalizing st with
  | zero => rfl
  | succ n ih =>
    rw [Function.iterate_succ_apply, ih]
    rfl

/-- C303 (correlated topic model): if the log frequency divides the numbers of iterations and no run stops early, the second stage returns what a
single run returns. -/
theorem ctm_stages (oas : (Nat → Nat → ℝ) → Nat → Nat → ℝ) (x : Data) (K : Nat) (prior : ℝ) (bound like : State → ℝ) (perp : ℝ → ℝ)
    (L minIter n m : Nat) (hL : 0 < L) (hn : L ∣ n) (hm : L ∣ m) (hm0 : 0 < m) (st r1 r2 r : State) (l1 l2 l : Log)
    (h1 : train (trainStep oas x K prior) bound like perp ⟨n, L, minIter, .all⟩ (begin st) = .ok (r1, l1))
    (h2 : train (trainStep oas x K prior) bound like perp ⟨m, L, minIter, .all⟩ (begin r1) = .ok (r2, l2))
    (h : train (trainStep oas x K prior) bound like perp ⟨n + m, L, minIter, .all⟩ (begin st) = .ok (r, l))
    (e1 : l1.iters.length = n / L) (e2 : l2.iters.length = m / L) (e : l.iters.length = (n + m) / L) : r2 = r := by
  have full : ∀ (k : Nat) (s : State) (r : State) (l : Log), L ∣ k →
      train (trainStep oas x K prior) bound like perp ⟨k, L, minIter, .all⟩ s = .ok (r, l) → l.iters.length = k / L →
      r = (trainStep oas x K prior)^[k] s := by
    intro k s r l hk hr hl
    rcases log_divides_partial (trainStep oas x K prior) bound like perp ⟨k, L, minIter, .all⟩ L hL rfl hk s with ⟨l', h', -⟩ | ⟨j, l', -, h', he⟩
    · rw [hr] at h'
      cases h'
      rfl
    · rw [hr] at h'
      cases h'
      have h3 := he.iters
      have h4 := he.lt
      rw [h3] at hl
      simp only [List.length_map, List.length_range] at hl
      exact absurd hl h4.ne
  have f1 := full n _ _ _ hn h1 e1
  have f2 := full m _ _ _ hm h2 e2
  have f := full (n + m) _ _ _ (Dvd.dvd.add hn hm) h e
  have hs : r1.s = fun _ => 0 := by
    rw [f1, steps_s]
    rfl
  obtain ⟨m', rfl⟩ : ∃ m', m = m' + 1 := ⟨m - 1, by omega⟩
  rw [f2, f, Function.iterate_succ_apply, step_begin oas x K prior r1 hs, ← Function.iterate_succ_apply, f1, ← Function.iterate_add_apply,
    Nat.add_comm]

end

section
open Verif.Ctm

/-- C303 (correlated topic model with Böhning's bound): the iterations of two stages are those of one run. -/
theorem bohning_stages (inv : (Nat → Nat → ℝ) → Nat → Nat → ℝ) (cov : (Nat → Nat → ℝ) → (Nat → Nat → ℝ) → Nat → Nat → ℝ) (x : Data) (K : Nat)
    (prior : ℝ) (A : Nat → Nat → ℝ) (fast : Bool) (n m : Nat) (st : BState) :
    bohningTrain inv cov x K prior A fast (n + m) st = bohningTrain inv cov x K prior A fast m (bohningTrain inv cov x K prior A fast n st) := by
  induction n generalizing st with
  | zero => rw [Nat.zero_add]; rfl
  | succ n ih =>
    rw [Nat.succ_add]
    exact ih _

end

/-! ## Compiled variational LDA -/

section
open Verif.Vb Verif.Segments Verif.Props.Segments

theorem train_append (psi : ℝ → ℝ) (p : Params) (c : Cvb.Corpus) (ns ms : List Nat) (s : State) :
    train psi p c (ns ++ ms) s = train psi p c ms (train psi p c ns s) := by
  induction ns generalizing s with
  | nil => rfl
  | cons n ns ih => exact ih _

theorem calls_eq (a lf : Nat) (ha : 0 < a) (hl : 0 < lf) :
    ∃ t, vbTrain .f32 (fun _ => false) (a * lf) lf = .ok t ∧ t.calls.map Int.toNat = List.replicate a lf := by
  have hs : Suits (a * lf) lf := .inr (Nat.le_mul_of_pos_left _ ha)
  have hp := logPoints_pos hs
  have hlp : logPoints (a * lf) lf = a := by
    unfold logPoints
    rw [if_neg hl.ne', Nat.mul_div_cancel _ hl]
  refine ⟨cvbTrain 0 (fun _ => false) (a * lf) lf, ?_, ?_⟩
  · unfold vbTrain vbTrainWith cvbTrain
    simp only
    rw [vbLoop_noStop .f32 11 lf (logPoints (a * lf) lf) rfl _ _ (by simp)]
    have hstore : store (logPoints (a * lf) lf)
        ((([] : List Int) ++ (List.range (logPoints (a * lf) lf - 1)).map (fun s : Nat => (s : Int) * lf)).length) = .ok () := by
      unfold store
      rw [if_pos (by simp; omega)]
    simp only [bind, Except.bind, cvbLoop_noStop, Bool.false_eq_true, if_false, call, iterateParams, if_true]
    rw [hstore]
  · unfold cvbTrain
    simp only [cvbLoop_noStop, Bool.false_eq_true, if_false]
    have h1 := remainder_eq hs
    rw [hlp] at h1 ⊢
    obtain ⟨b, rfl⟩ : ∃ b, a = b + 1 := ⟨a - 1, by omega⟩
    simp only [Nat.add_sub_cancel] at h1 ⊢
    have h2 : (remainder ((b + 1) * lf) lf).toNat = lf := by
      rw [Nat.succ_mul] at h1 ⊢
      omega
    rw [List.nil_append, List.map_append, List.map_map, List.map_cons, List.map_nil, h2, List.replicate_succ']
    simp [List.map_const', Function.comp_def]

/-- C303 (compiled variational LDA in single precision), for a log frequency which divides both numbers of iterations, so that the models are measured
after the same iterations, and no early stop.  The second stage starts with the tables of the first, and with anything in its buffers. -/
theorem lda_stages_partial (psi : ℝ → ℝ) (p : Params) (c : Cvb.Corpus) (hc : ∀ d, d < c.lens.length → ∀ i, i < c.len d → c.w d i < p.T)
    (lf n m : Nat) (hl : 0 < lf) (hn : lf ∣ n) (hm : lf ∣ m) (hn0 : 0 < n) (hm0 : 0 < m) (s : State) :
    ∃ t1 t2 t, vbTrain .f32 (fun _ => false) n lf = .ok t1 ∧ vbTrain .f32 (fun _ => false) m lf = .ok t2
      ∧ vbTrain .f32 (fun _ => false) (n + m) lf = .ok t
      ∧ ∀ s' : State, s'.vocab = (train psi p c (t1.calls.map Int.toNat) s).vocab → s'.topics = (train psi p c (t1.calls.map Int.toNat) s).topics →
        (∀ k, k < p.K → ∀ w, w < p.T → (train psi p c (t2.calls.map Int.toNat) s').vocab k w = (train psi p c (t.calls.map Int.toNat) s).vocab k w) ∧
        ∀ d, d < c.lens.length → ∀ k, k < p.K →
          (train psi p c (t2.calls.map Int.toNat) s').topics d k = (train psi p c (t.calls.map Int.toNat) s).topics d k := by
  obtain ⟨a, rfl⟩ := hn
  obtain ⟨b, rfl⟩ := hm
  have ha : 0 < a := Nat.pos_of_ne_zero fun h => by simp [h] at hn0
  have hb : 0 < b := Nat.pos_of_ne_zero fun h => by simp [h] at hm0
  obtain ⟨t1, h1, c1⟩ := calls_eq a lf ha hl
  obtain ⟨t2, h2, c2⟩ := calls_eq b lf hb hl
  obtain ⟨t, h, c3⟩ := calls_eq (a + b) lf (by omega) hl
  refine ⟨t1, t2, t, by rw [Nat.mul_comm]; exact h1, by rw [Nat.mul_comm]; exact h2, by rw [← Nat.mul_add, Nat.mul_comm]; exact h, ?_⟩
  rw [c1, c2, c3, ← List.replicate_append_replicate, train_append]
  intro s' hv ht
  exact RenumberCtm.lda_train (δ := Equiv.refl Nat) (σ := Equiv.refl Nat) (τ := Equiv.refl Nat) (π := fun _ => Equiv.refl Nat) psi
    ⟨rfl, rfl, keeps_refl _, fun _ _ => rfl, rfl⟩ ⟨keeps_refl _, keeps_refl _, fun _ _ => keeps_refl _, rfl, fun _ _ => rfl, fun _ _ _ _ => rfl, hc⟩ (List.replicate b lf) (fun k _ w _ => by rw [hv]; rfl)
    (fun d _ k _ => by rw [ht]; rfl)

end

/-! ## Variational LDA in Python -/

section
open Verif.VbPython Verif.Props.VbPython

/-- In batch training the number of the step does not matter. -/
theorem batch_number (psi : ℝ → ℝ) (bound : (Nat → Nat → ℝ) → (Nat → Nat → ℝ) → ℝ) (p : Params) (x : Data) (plan : Plan)
    (hplan : plan.rateAlgor = "batch") (size : Nat) (r : Run) (b b' : Nat) :
    trainStep psi bound p x plan size r b = trainStep psi bound p x plan size r b' := by
  unfold trainStep
  cases batch psi p x size r with
  | error e => rfl
  | ok g => simp only [hplan, if_true]

theorem renumbered_refl (x : Data) : Renumbered (Equiv.refl Nat) (Equiv.refl Nat) x x :=
  ⟨keeps_refl _, keeps_refl _, rfl, rfl, fun _ _ _ _ => rfl⟩

theorem sameVb_refl (p : Params) : SameVb (Equiv.refl Nat) p p := ⟨rfl, keeps_refl _, fun _ _ => rfl, rfl⟩

/-- Runs from the same tables, after any numbers of passes, go on alike. -/
theorem batch_from (psi : ℝ → ℝ) (bound : (Nat → Nat → ℝ) → (Nat → Nat → ℝ) → ℝ) (p : Params) (x : Data) (hc : Corpus x) (plan : Plan)
    (hplan : plan.rateAlgor = "batch") (a b : Nat) (s r : Run) (hs : s.d = pos x.D (a * x.D)) (hr : r.d = pos x.D (b * x.D))
    (hw : Tab p.K x.T (Equiv.refl Nat) (Equiv.refl Nat) s.word r.word) (hm : Tab x.D p.K (Equiv.refl Nat) (Equiv.refl Nat) s.means r.means) (n : Nat) :
    ∃ s' r', (List.range n).foldlM (trainStep psi bound p x plan x.D) s = .ok s' ∧ (List.range n).foldlM (trainStep psi bound p x plan x.D) r = .ok r'
      ∧ s'.d = pos x.D ((a + n) * x.D) ∧ r'.d = pos x.D ((b + n) * x.D)
      ∧ Tab p.K x.T (Equiv.refl Nat) (Equiv.refl Nat) s'.word r'.word ∧ Tab x.D p.K (Equiv.refl Nat) (Equiv.refl Nat) s'.means r'.means := by
  induction n with
  | zero => exact ⟨s, r, rfl, rfl, hs, hr, hw, hm⟩
  | succ n ih =>
    obtain ⟨s1, r1, e1, e2, d1, d2, w1, m1⟩ := ih
    obtain ⟨s2, f1, g1, t1, v1⟩ := VbElbo.step_exact psi bound p x hc plan hplan (a + n) s1 d1
    obtain ⟨r2, f2, g2, t2, v2⟩ := VbElbo.step_exact psi bound p x hc plan hplan (b + n) r1 d2
    rw [batch_number psi bound p x plan hplan x.D _ _ n] at f1 f2
    have hi := fun d t k hd ht hk => vb_infer psi (renumbered_refl x) (sameVb_refl p) w1 m1 d t k hd ht hk
    refine ⟨s2, r2, ?_, ?_, g1, g2, ?_, ?_⟩
    · rw [List.range_succ, List.foldlM_append, e1]
      simp only [bind, Except.bind, List.foldlM_cons, List.foldlM_nil, pure, Except.pure]
      rw [f1]
    · rw [List.range_succ, List.foldlM_append, e2]
      simp only [bind, Except.bind, List.foldlM_cons, List.foldlM_nil, pure, Except.pure]
      rw [f2]
    · intro k hk t ht
      rw [v1, v2]
      congr 1
      refine Finset.sum_congr rfl fun d hd => ?_
      rw [hi d t k (Finset.mem_range.1 hd) ht hk]
      rfl
    · intro d hd k hk
      have hl : (x.len d : ℝ) ≠ 0 := by exact_mod_cast (hc.words d hd).ne'
      have e3 := t1 d k hd
      have e4 := t2 d k hd
      rw [Finset.sum_congr rfl fun t ht => by rw [hi d t k hd (Finset.mem_range.1 ht) hk]] at e4
      have e5 : toDirichlet p x r2.means d k = toDirichlet p x s2.means d k := e4.trans e3.symm
      unfold toDirichlet at e5
      exact mul_right_cancel₀ hl (add_right_cancel e5)

/-- C303 (variational LDA in Python, all documents at once) -/
theorem vb_batch_stages_partial (psi : ℝ → ℝ) (bound : (Nat → Nat → ℝ) → (Nat → Nat → ℝ) → ℝ) (p : Params) (x : Data) (hc : Corpus x) (plan : Plan)
    (hplan : plan.rateAlgor = "batch") (n m : Nat) (word topics : Nat → Nat → ℝ) :
    ∃ r1 r2 r, train psi bound p x { plan with iterations := n } word topics = .ok r1
      ∧ train psi bound p x { plan with iterations := m } r1.word r1.means = .ok r2
      ∧ train psi bound p x { plan with iterations := n + m } word topics = .ok r
      ∧ (∀ k, k < p.K → ∀ t, t < x.T → r2.word k t = r.word k t) ∧ ∀ d, d < x.D → ∀ k, k < p.K → r2.means d k = r.means d k := by
  have hk : Known plan.rateAlgor := .inl hplan
  have ht : ∀ N w0 t0, train psi bound p x { plan with iterations := N } w0 t0 =
      match (List.range N).foldlM (trainStep psi bound p x plan x.D)
        { word := w0, means := toMeans p x t0, d := -1, step := fun _ => 1
          gradStep := fun _ => 1 / (x.D : ℝ), exGrad := fun _ _ => 0, expGtg := fun _ => 0, visits := [] } with
      | .error e => .error e
      | .ok r => .ok { r with means := toDirichlet p x r.means } := by
    intro N w0 t0
    have h1 : usedBatchSize x { plan with iterations := N } = x.D := if_pos hplan
    have h2 : batchCount x { plan with iterations := N } = 1 := if_pos hplan
    have h3 : ∀ r b, trainStep psi bound p x { plan with iterations := N } x.D r b = trainStep psi bound p x plan x.D r b := fun _ _ => rfl
    unfold train
    rw [if_neg hc.check, h1, h2, if_neg hc.some.ne', if_neg (not_not.2 hk), Nat.one_mul]
    rfl
  generalize hs0 : ({ word := word, means := toMeans p x topics, d := -1, step := fun _ => 1
                      gradStep := fun _ => 1 / (x.D : ℝ), exGrad := fun _ _ => 0, expGtg := fun _ => 0, visits := [] } : Run) = s0
  have hd0 : s0.d = pos x.D (0 * x.D) := by rw [← hs0, Nat.zero_mul]; rfl
  obtain ⟨s1, -, e1, -, d1, -⟩ := batch_from psi bound p x hc plan hplan 0 0 s0 s0 hd0 hd0 (fun _ _ _ _ => rfl) (fun _ _ _ _ => rfl) n
  rw [Nat.zero_add] at d1
  have hm1 : Tab x.D p.K (Equiv.refl Nat) (Equiv.refl Nat) (toMeans p x (toDirichlet p x s1.means)) s1.means := by
    intro d hd k _
    exact (means_of_dirichlet p x s1.means d k (hc.words d hd)).symm
  obtain ⟨s2, s3, e2, e3, -, -, w2, m2⟩ := batch_from psi bound p x hc plan hplan 0 n
    { word := s1.word, means := toMeans p x (toDirichlet p x s1.means), d := -1, step := fun _ => 1
      gradStep := fun _ => 1 / (x.D : ℝ), exGrad := fun _ _ => 0, expGtg := fun _ => 0, visits := [] } s1 (by rw [Nat.zero_mul]; rfl) d1
    (fun _ _ _ _ => rfl) hm1 m
  have eall : (List.range (n + m)).foldlM (trainStep psi bound p x plan x.D) s0 = .ok s3 := by
    have hshift : ∀ (l : List Nat) (r : Run), (l.map (n + ·)).foldlM (trainStep psi bound p x plan x.D) r
        = l.foldlM (trainStep psi bound p x plan x.D) r := by
      intro l
      induction l with
      | nil => intro r; rfl
      | cons b l ih =>
        intro r
        rw [List.map_cons, List.foldlM_cons, List.foldlM_cons, batch_number psi bound p x plan hplan x.D r (n + b) b]
        simp only [ih]
    rw [List.range_add, List.foldlM_append, e1]
    simp only [bind, Except.bind]
    rw [hshift, e3]
  refine ⟨{ s1 with means := toDirichlet p x s1.means }, { s2 with means := toDirichlet p x s2.means }, { s3 with means := toDirichlet p x s3.means },
    ?_, ?_, ?_, fun k hk t ht => (w2 k hk t ht).symm, fun d hd k hk => ?_⟩
  · rw [ht, hs0, e1]
  · rw [ht]
    dsimp only
    rw [e2]
  · rw [ht, hs0, eall]
  · show s2.means d k * _ + _ = s3.means d k * _ + _
    rw [m2 d hd k hk]
    rfl

/-- The total of the word parameters after `B` batches, for documents of the same length -/
theorem online_total (psi : ℝ → ℝ) (bound : (Nat → Nat → ℝ) → (Nat → Nat → ℝ) → ℝ) (p : Params) (hK : 0 < p.K) (x : Data)
    (hx : Corpus x) (len : Nat) (hl : ∀ d, d < x.D → x.len d = len) (plan : Plan) (hal : plan.rateAlgor = "kappa") (r0 : Run) (h0 : r0.d = -1) (B : Nat) :
    ∃ r, (List.range B).foldlM (trainStep psi bound p x plan plan.batchSize) r0 = .ok r ∧ r.d = pos x.D (B * plan.batchSize)
      ∧ mass p x r.word - (p.K * x.T * p.v + plan.batchSize * len)
        = (mass p x r0.word - (p.K * x.T * p.v + plan.batchSize * len)) * ∏ b ∈ Finset.range B, (1 - ((b : ℝ) + plan.rateDelay) ^ (-plan.forgettingRate)) := by
  induction B with
  | zero => exact ⟨r0, rfl, by rw [h0, Nat.zero_mul]; rfl, by simp⟩
  | succ B ih =>
    obtain ⟨r1, h1, h2, h3⟩ := ih
    obtain ⟨r2, h4, h5, h6⟩ := online_mass psi bound p hK x hx plan hal plan.batchSize r1 (B * plan.batchSize) B h2
    refine ⟨r2, ?_, by rw [h5, Nat.succ_mul], ?_⟩
    · rw [List.range_succ, List.foldlM_append, h1]
      simp only [bind, Except.bind, List.foldlM_cons, List.foldlM_nil, pure, Except.pure]
      rw [h4]
    · have ht : batchTokens x (B * plan.batchSize) plan.batchSize = plan.batchSize * len := by
        unfold batchTokens
        rw [Finset.sum_congr rfl (fun i _ => hl _ (Nat.mod_lt _ hx.some)), Finset.sum_const, Finset.card_range, smul_eq_mul]
      rw [h6, ht, Finset.prod_range_succ, ← mul_assoc, ← h3]
      push_cast
      ring

/-- C303, exactly, for online training on documents of the same length: the distance of the total of the word parameters from its limit shrinks by the
factors `1 - (b + delay) ^ (-rate)`; the second stage begins again with the factors of the first. -/
theorem online_stages (psi : ℝ → ℝ) (bound : (Nat → Nat → ℝ) → (Nat → Nat → ℝ) → ℝ) (p : Params) (hK : 0 < p.K) (x : Data)
    (hx : Corpus x) (len : Nat) (hl : ∀ d, d < x.D → x.len d = len) (plan : Plan) (hal : plan.rateAlgor = "kappa") (hs : 0 < plan.batchSize)
    (word topics : Nat → Nat → ℝ) (n m : Nat) :
    ∃ r1 r2 r, train psi bound p x { plan with iterations := n } word topics = .ok r1
      ∧ train psi bound p x { plan with iterations := m } r1.word r1.means = .ok r2
      ∧ train psi bound p x { plan with iterations := n + m } word topics = .ok r
      ∧ mass p x r2.word - (p.K * x.T * p.v + plan.batchSize * len) = (mass p x word - (p.K * x.T * p.v + plan.batchSize * len))
        * (∏ b ∈ Finset.range ((x.D / plan.batchSize + 1) * n), (1 - ((b : ℝ) + plan.rateDelay) ^ (-plan.forgettingRate)))
        * ∏ b ∈ Finset.range ((x.D / plan.batchSize + 1) * m), (1 - ((b : ℝ) + plan.rateDelay) ^ (-plan.forgettingRate))
      ∧ mass p x r.word - (p.K * x.T * p.v + plan.batchSize * len) = (mass p x word - (p.K * x.T * p.v + plan.batchSize * len))
        * ∏ b ∈ Finset.range ((x.D / plan.batchSize + 1) * (n + m)), (1 - ((b : ℝ) + plan.rateDelay) ^ (-plan.forgettingRate)) := by
  have one : ∀ N w0 t0, ∃ r, train psi bound p x { plan with iterations := N } w0 t0 = .ok r
      ∧ mass p x r.word - (p.K * x.T * p.v + plan.batchSize * len) = (mass p x w0 - (p.K * x.T * p.v + plan.batchSize * len))
        * ∏ b ∈ Finset.range ((x.D / plan.batchSize + 1) * N), (1 - ((b : ℝ) + plan.rateDelay) ^ (-plan.forgettingRate)) := by
    intro N w0 t0
    have h1 : usedBatchSize x { plan with iterations := N } = plan.batchSize := if_neg (by rw [hal]; decide)
    have h2 : batchCount x { plan with iterations := N } = x.D / plan.batchSize + 1 := if_neg (by rw [hal]; decide)
    obtain ⟨r, h3, -, h4⟩ := online_total psi bound p hK x hx len hl { plan with iterations := N } hal
      { word := w0, means := toMeans p x t0, d := -1, step := fun _ => 1
        gradStep := fun _ => 1 / (plan.batchSize : ℝ), exGrad := fun _ _ => 0, expGtg := fun _ => 0, visits := [] } rfl
      ((x.D / plan.batchSize + 1) * N)
    refine ⟨{ r with means := toDirichlet p x r.means }, ?_, h4⟩
    unfold train
    rw [if_neg hx.check, h1, h2, if_neg hs.ne', if_neg (not_not.2 (show Known plan.rateAlgor from .inr (.inl hal)))]
    dsimp only at h3 ⊢
    rw [h3]
  obtain ⟨r1, h1, e1⟩ := one n word topics
  obtain ⟨r2, h2, e2⟩ := one m r1.word r1.means
  obtain ⟨r, h, e⟩ := one (n + m) word topics
  exact ⟨r1, r2, r, h1, h2, h, by rw [e2, e1], e⟩

/-- One document of one word -/
def oneWord : Data := ⟨1, 1, fun _ _ => 1⟩

/-- One document at a time, with the steps 1/2, 1/3, ... -/
noncomputable def halves : Plan := newTrainPlan 1 1 2 1 1 1 "kappa"

/-- C303 is violated: after one iteration and one more the parameter of the only word is 16/9, after two at once it is 8/5. -/
theorem online_stages_violated (psi : ℝ → ℝ) (bound : (Nat → Nat → ℝ) → (Nat → Nat → ℝ) → ℝ) (topics : Nat → Nat → ℝ) :
    ∃ r1 r2 r, train psi bound ⟨1, fun _ => 1, 1⟩ oneWord { halves with iterations := 1 } (fun _ _ => 0) topics = .ok r1
      ∧ train psi bound ⟨1, fun _ => 1, 1⟩ oneWord { halves with iterations := 1 } r1.word r1.means = .ok r2
      ∧ train psi bound ⟨1, fun _ => 1, 1⟩ oneWord { halves with iterations := 2 } (fun _ _ => 0) topics = .ok r
      ∧ r2.word 0 0 = 16 / 9 ∧ r.word 0 0 = 8 / 5 := by
  have hx : Corpus oneWord := ⟨by decide, fun d _ => by simp [oneWord, Data.len]⟩
  obtain ⟨r1, r2, r, h1, h2, h3, h4, h5⟩ := online_stages psi bound ⟨1, fun _ => 1, 1⟩ (by decide : 0 < 1) oneWord hx 1
    (fun d _ => by simp [oneWord, Data.len]) halves rfl (by decide : 0 < 1) (fun _ _ => 0) topics 1 1
  refine ⟨r1, r2, r, h1, h2, h3, ?_, ?_⟩
  · norm_num [mass, oneWord, halves, newTrainPlan, Finset.prod_range_succ, Real.rpow_neg_one] at h4
    linarith
  · norm_num [mass, oneWord, halves, newTrainPlan, Finset.prod_range_succ, Real.rpow_neg_one] at h5
    linarith

end

/-! ## Examples -/

/-- Ten iterations of EM and five more are fifteen. -/
example (psi : ℝ → ℝ) (s : Mom.EmState) :
    Mom.emTrain psi ⟨2, fun _ => 1, fun _ => 1⟩ exX ⟨15, 0, false⟩ s
      = (Mom.emTrain psi ⟨2, fun _ => 1, fun _ => 1⟩ exX ⟨10, 0, false⟩ s >>= fun s => Mom.emTrain psi ⟨2, fun _ => 1, fun _ => 1⟩ exX ⟨5, 0, false⟩ s) :=
  em_stages psi _ exX 10 5 s

/-- Runs of the correlated topic model shorter than thirty iterations do not stop early: all the hypotheses hold. -/
example (oas : (Nat → Nat → ℝ) → Nat → Nat → ℝ) (bound like : Ctm.State → ℝ) (perp : ℝ → ℝ) (st : Ctm.State) :
    ∃ r1 r2 l1 l2 l, Ctm.train (Ctm.trainStep oas exX 2 1) bound like perp ⟨10, 5, 30, .all⟩ (Ctm.begin st) = .ok (r1, l1)
      ∧ Ctm.train (Ctm.trainStep oas exX 2 1) bound like perp ⟨15, 5, 30, .all⟩ (Ctm.begin r1) = .ok (r2, l2)
      ∧ Ctm.train (Ctm.trainStep oas exX 2 1) bound like perp ⟨25, 5, 30, .all⟩ (Ctm.begin st) = .ok (r2, l) := by
  have short : ∀ k : Nat, 5 ∣ k → k ≤ 30 → ∀ s : Ctm.State, ∃ r l,
      Ctm.train (Ctm.trainStep oas exX 2 1) bound like perp ⟨k, 5, 30, .all⟩ s = .ok (r, l) ∧ l.iters.length = k / 5 := by
    intro k h1 h2 s
    rcases CtmTrain.log_divides_partial (Ctm.trainStep oas exX 2 1) bound like perp ⟨k, (5 : Nat), 30, .all⟩ 5 (by decide) rfl h1 s with
      ⟨l, h, hi, -⟩ | ⟨j, l, hj, -, he⟩
    · exact ⟨_, l, h, by rw [hi]; simp⟩
    · have := he.min
      dsimp only at this hj
      omega
  obtain ⟨r1, l1, h1, e1⟩ := short 10 (by decide) (by decide) (Ctm.begin st)
  obtain ⟨r2, l2, h2, e2⟩ := short 15 (by decide) (by decide) (Ctm.begin r1)
  obtain ⟨r, l, h, e⟩ := short 25 (by decide) (by decide) (Ctm.begin st)
  have := ctm_stages oas exX 2 1 bound like perp 5 30 10 15 (by decide) (by decide) (by decide) (by decide) st r1 r2 r l1 l2 l h1 h2 h e1 e2 e
  exact ⟨r1, r2, l1, l2, l, h1, h2, by rw [this]; exact h⟩

example (inv : (Nat → Nat → ℝ) → Nat → Nat → ℝ) (cov : (Nat → Nat → ℝ) → (Nat → Nat → ℝ) → Nat → Nat → ℝ) (st : Ctm.BState) :
    Ctm.bohningTrain inv cov exX 2 1 (Ctm.bohningA 2) true 7 st
      = Ctm.bohningTrain inv cov exX 2 1 (Ctm.bohningA 2) true 4 (Ctm.bohningTrain inv cov exX 2 1 (Ctm.bohningA 2) true 3 st) :=
  bohning_stages inv cov exX 2 1 _ true 3 4 st

example (psi : ℝ → ℝ) (bound : (Nat → Nat → ℝ) → (Nat → Nat → ℝ) → ℝ) (word topics : Nat → Nat → ℝ) :
    ∃ r1 r2 r, VbPython.train psi bound ⟨2, fun _ => 1, 1⟩ exX (VbPython.newTrainPlan 3 0 1 1 1 1 "batch") word topics = .ok r1
      ∧ VbPython.train psi bound ⟨2, fun _ => 1, 1⟩ exX (VbPython.newTrainPlan 4 0 1 1 1 1 "batch") r1.word r1.means = .ok r2
      ∧ VbPython.train psi bound ⟨2, fun _ => 1, 1⟩ exX (VbPython.newTrainPlan 7 0 1 1 1 1 "batch") word topics = .ok r
      ∧ r2.word 1 2 = r.word 1 2 := by
  obtain ⟨r1, r2, r, h1, h2, h3, h4, -⟩ := vb_batch_stages_partial psi bound ⟨2, fun _ => 1, 1⟩ exX ex_corpus (VbPython.newTrainPlan 0 0 1 1 1 1 "batch") rfl
    3 4 word topics
  exact ⟨r1, r2, r, h1, h2, h3, h4 1 (by decide : 1 < 2) 2 (by decide)⟩

example (psi : ℝ → ℝ) (s : Vb.State) : ∃ t1 t2 t, Segments.vbTrain .f32 (fun _ => false) 4 2 = .ok t1
    ∧ Segments.vbTrain .f32 (fun _ => false) 6 2 = .ok t2 ∧ Segments.vbTrain .f32 (fun _ => false) (4 + 6) 2 = .ok t := by
  obtain ⟨t1, t2, t, h1, h2, h3, -⟩ := lda_stages_partial psi ⟨2, 3, fun _ => 1, 1⟩ RenumberCtm.exC
    (by decide : ∀ d, d < RenumberCtm.exC.lens.length → ∀ i, i < RenumberCtm.exC.len d → RenumberCtm.exC.w d i < 3) 2 4 6
    (by decide) (by decide) (by decide) (by decide) (by decide) s
  exact ⟨t1, t2, t, h1, h2, h3⟩

end Verif.Props.Stages
