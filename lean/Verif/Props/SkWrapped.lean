import Verif.Model.SkWrapped
import Verif.Props.SparseOut
import Verif.Props.Sklearn
import Mathlib.Algebra.BigOperators.Field

/-!
# Properties of the wrapped models of other libraries
-/

namespace Verif.Props.SkWrapped

open Verif LogUtils SkWrapped

/-! ## Construction -/

/-- Every batch size other than zero is refused -/
theorem online_raises (n : Int) (h : n ≠ 0) : construct n = .error .typeError := by
  rw [construct, if_neg h]
  decide +kernel

/-- With the whole corpus as one batch the model can be made -/
theorem batch_partial : construct 0 = .ok () := by decide +kernel

example : construct 100 = .error .typeError := online_raises 100 (by decide)

/-! ## Fitting -/

variable {X C R Y : Type}

theorem fit_skip (b : Base X C R Y) (s : State C R) (x : X) (resume : Bool) : (fit b s x resume).2.skipInit = false := rfl

/-- The flag is down between any two calls, however many there were and whether they failed -/
theorem flag_down (b : Base X C R Y) (r : R) (calls : List (X × Bool)) : (fitAll b (fresh r) calls).skipInit = false := by
  rcases List.eq_nil_or_concat calls with h | ⟨l, c, h⟩
  · rw [h]; rfl
  · rw [h, fitAll, List.concat_eq_append, List.foldl_append]
    rfl

/-- After any history a fit without `resume` starts from new topics, a fit with `resume` from the topics there are, and without topics it fails and
changes nothing -/
theorem fit_starts (b : Base X C R Y) (r : R) (calls : List (X × Bool)) (x : X) :
    let s := fitAll b (fresh r) calls
    (fit b s x false = ((b.estimate (b.init s.rng x).1 x).2, ⟨some (b.estimate (b.init s.rng x).1 x).1, (b.init s.rng x).2, false⟩))
      ∧ (∀ c, s.comps = some c → fit b s x true = ((b.estimate c x).2, ⟨some (b.estimate c x).1, s.rng, false⟩))
      ∧ (s.comps = none → fit b s x true = (.error .attributeError, s)) := by
  intro s
  have hs : s.skipInit = false := flag_down b r calls
  obtain ⟨cs, rg, sk⟩ : State C R := s
  simp only at hs
  subst hs
  refine ⟨rfl, ?_, ?_⟩
  · intro c hc
    simp only at hc
    subst hc
    rfl
  · intro hc
    simp only at hc
    subst hc
    rfl

/-- So what an ordinary fit returns does not depend on what was fitted before, but for the random numbers drawn -/
theorem fit_forgets (b : Base X C R Y) (r r' : R) (calls calls' : List (X × Bool)) (x : X)
    (h : (fitAll b (fresh r) calls).rng = (fitAll b (fresh r') calls').rng) :
    fit b (fitAll b (fresh r) calls) x false = fit b (fitAll b (fresh r') calls') x false := by
  rw [(fit_starts b r calls x).1, (fit_starts b r' calls' x).1, h]

/-- Topics are natural numbers, and words too; estimation adds them and fails for words above ten. -/
def exBase : Base Nat Nat Nat Nat := ⟨fun r x => (r * 100 + x, r + 1), fun c x => (c + x, if 10 < x then .error .valueError else .ok ()), fun c x => .ok (c + x)⟩

example : fit exBase (fitAll exBase (fresh 1) [(5, true), (3, false), (11, true), (4, true)]) 7 false
    = fit exBase (fitAll exBase (fresh 1) [(2, false)]) 7 false := fit_forgets exBase 1 1 _ _ 7 rfl

example : fit exBase (fitAll exBase (fresh 1) [(3, false), (11, true)]) 4 true = (.ok (), ⟨some 121, 2, false⟩) := rfl

/-! ## Scores -/

/-- The log-likelihood of a corpus: each count times the logarithm of the probability of its word, which is at least `tiny` -/
noncomputable def corpusLike (tiny : ℝ) (w : Csr ℝ) (K : Nat) (y φ : Nat → Nat → ℝ) : ℝ :=
  ∑ d ∈ Finset.range w.rows, ((w.row d).map (fun e => e.2 * Real.log (max (∑ k ∈ Finset.range K, y d k * φ k e.1) tiny))).sum

/-- The share of a word in a topic -/
noncomputable def share (c : Mat ℝ) (k t : Nat) : ℝ := c.get k t / ∑ u ∈ Finset.range c.cols, c.get k u

theorem list_range_sum (f : Nat → ℝ) (n : Nat) : ((List.range n).map f).sum = ∑ r ∈ Finset.range n, f r := by
  induction n with
  | zero => rfl
  | succ n ih => rw [List.range_succ, List.map_append, List.sum_append, ih, Finset.sum_range_succ]; simp

theorem data_sum (A : Csr ℝ) (h : A.WF) : A.data.sum = ∑ r ∈ Finset.range A.rows, ((A.row r).map Prod.snd).sum := by
  rw [Csr.data_eq A h, ← Csr.rows_flatten A h, List.map_flatten, List.sum_flatten, List.map_map, List.map_map, list_range_sum]
  rfl

theorem kernel_wf (A : Csr ℝ) (h : A.WF) (val : ℝ → Nat → Nat → ℝ) : (SparseKernels.kernel A val 0 0 A.rows).WF := by
  have hl : A.ptr (0 + A.rows) - A.ptr 0 = A.data.length := by rw [Nat.zero_add, h.zero, h.last, h.data]; rfl
  obtain ⟨p, e1, l1, -⟩ := Props.SparseKernels.kernelLoop_spec A h val 0 0 A.data A.rows (by omega) (by omega)
  rw [Nat.zero_add] at e1
  unfold SparseKernels.kernel
  rw [Props.SparseKernels.sliceRows_all A h]
  simp only
  rw [e1]
  exact ⟨h.len, h.zero, h.mono, h.last, l1.trans h.data, h.cols⟩

theorem product_sum (tiny : ℝ) (A : Csr ℝ) (h : A.WF) (y φ : Mat ℝ) :
    (SparseKernels.productOfSafeLnDot tiny A y φ 0 A.rows).data.sum = corpusLike tiny A y.cols y.get φ.get := by
  obtain ⟨h1, -, -, -, h5⟩ := Props.SparseKernels.product_of_safe_ln_dot_spec A h y φ tiny
  have hw : (SparseKernels.productOfSafeLnDot tiny A y φ 0 A.rows).WF := kernel_wf A h _
  rw [data_sum _ hw, corpusLike, h1]
  refine Finset.sum_congr rfl fun d hd => ?_
  rw [h5 d (Finset.mem_range.mp hd), List.map_map]
  rfl

/-- The score asked for: a log-likelihood, or the perplexity it gives -/
noncomputable def asked (method : Sklearn.Method) (w : Csr ℝ) (like : ℝ) : ℝ :=
  if method = .perplexityPoint ∨ method = .docCompletionPerplexityPoint then Real.exp (-like / w.data.sum) else like

theorem finish_spec (tiny : ℝ) (w : Words) (hw : w.m.WF) (hf : w.dt ≠ .int) (y φ : Typed) (hy : y.dt = w.dt) (hφ : φ.dt = w.dt)
    (method : Sklearn.Method) (hp : Props.Sklearn.Pointwise method) :
    finish tiny w y φ method = .ok (asked method w.m (corpusLike tiny w.m y.m.cols y.m.get φ.m.get)) := by
  have key : ∃ r, safeLnInto w.dt y.dt φ.dt w.m (fun v r c => v * SparseKernels.safeLn tiny (SparseKernels.dotProduct y.m φ.m r c)) 0 w.m.rows none
      = .ok r ∧ r.returned = (SparseKernels.productOfSafeLnDot tiny w.m y.m φ.m 0 w.m.rows).data := by
    obtain ⟨dt, m⟩ := w
    cases dt with
    | int => exact absurd rfl hf
    | f4 => exact ⟨_, rfl, rfl⟩
    | f8 =>
      refine ⟨_, by simp only [safeLnInto, and_self, if_true]; rfl, ?_⟩
      simp only
      rw [SparseKernels.productOfSafeLnDot, SparseKernels.kernel, Props.SparseKernels.sliceRows_all m hw]
  obtain ⟨r, hr, hr'⟩ := key
  rw [finish, if_neg (by simp [hy, hφ]), hr]
  simp only
  rw [hr', product_sum tiny w.m hw]
  rw [← Props.Sklearn.isPoint_iff] at hp
  cases method <;> simp_all [Sklearn.Method.isPerplexity, Sklearn.Method.isPoint, asked, RunMain.perplexityFromLike, wordCount]

/-- Given the topics of the documents, the score is the log-likelihood of the words, with each topic's words in proportion to its components -/
theorem score_lda (tiny : ℝ) (infer : Words → Py Typed) (split : Words → Words × Words) (comps : Typed) (x : Words) (hx : x.m.WF) (y : Typed)
    (hf : x.dt ≠ .int) (hy : y.dt = x.dt) (hc : comps.dt = x.dt) (method : Sklearn.Method) (hp : Props.Sklearn.Pointwise method) :
    scoreLda tiny infer split comps x (some y) false method
      = .ok (asked method x.m (corpusLike tiny x.m y.m.cols y.m.get (share comps.m))) := by
  have hp1 := (Props.Sklearn.isPoint_iff method).2 hp
  rw [scoreLda, target, if_neg (by simp [hp1])]
  exact finish_spec tiny x hx hf y ⟨comps.dt, componentDists comps.m⟩ hy hc method hp

/-- Without topics they are inferred from the words, or from the one part when words are to be completed, of which the other part is scored -/
theorem score_lda_inferred (tiny : ℝ) (infer : Words → Py Typed) (split : Words → Words × Words) (comps : Typed) (x : Words) (y : Typed)
    (method : Sklearn.Method) (hp : Props.Sklearn.Pointwise method) :
    (¬ Props.Sklearn.Completes method → infer x = .ok y →
        scoreLda tiny infer split comps x none false method = scoreLda tiny infer split comps x (some y) false method)
      ∧ (Props.Sklearn.Completes method → infer (split x).1 = .ok y →
        scoreLda tiny infer split comps x none false method = scoreLda tiny infer split comps (split x).2 (some y) false method) := by
  rw [← Props.Sklearn.isPoint_iff] at hp
  simp only [← Props.Sklearn.isDocCompletion_iff, Bool.not_eq_true]
  constructor
  · intro h1 h2
    simp [scoreLda, target, hp, h1, h2]
  · intro h1 h2
    simp [scoreLda, target, hp, h1, h2]

/-- The size of a topic's components has no influence -/
theorem score_scale (tiny : ℝ) (infer : Words → Py Typed) (split : Words → Words × Words) (comps : Typed) (a : Nat → ℝ) (ha : ∀ k, a k ≠ 0) (x : Words)
    (y : Option Typed) (state : Bool) (method : Sklearn.Method) :
    scoreLda tiny infer split ⟨comps.dt, ⟨comps.m.rows, comps.m.cols, fun k t => a k * comps.m.get k t⟩⟩ x y state method
      = scoreLda tiny infer split comps x y state method := by
  have : componentDists ⟨comps.m.rows, comps.m.cols, fun k t => a k * comps.m.get k t⟩ = componentDists comps.m := by
    unfold componentDists
    congr 1
    funext k t
    rw [← Finset.mul_sum, mul_div_mul_left _ _ (ha k)]
  simp only [scoreLda, this]

/-- A query state is refused always, alone or with topics; the two expected scores are not implemented -/
theorem score_refused (tiny : ℝ) (infer : Words → Py Typed) (split : Words → Words × Words) (comps : Typed) (x : Words) (y : Option Typed)
    (method : Sklearn.Method) :
    (∃ e, scoreLda tiny infer split comps x y true method = .error e)
      ∧ ∀ state, ¬ Props.Sklearn.Pointwise method → scoreLda tiny infer split comps x y state method = .error .notImplemented := by
  constructor
  · cases hp : method.isPoint <;> cases y <;> simp [scoreLda, target, hp]
  · intro state hp
    rw [← Props.Sklearn.isPoint_iff, Bool.not_eq_true] at hp
    simp [scoreLda, target, hp]

theorem finish_int (tiny : ℝ) (m : Csr ℝ) (y φ : Typed) (method : Sklearn.Method) : ∃ e, finish tiny ⟨.int, m⟩ y φ method = .error e := by
  have he : ∃ e, safeLnInto .int y.dt φ.dt m (fun v r c => v * SparseKernels.safeLn tiny (SparseKernels.dotProduct y.m φ.m r c)) 0 m.rows none
      = .error e := by
    rcases (Props.SparseOut.int_quotient_and_log_raise y.dt φ.dt m
      (fun v r c => v * SparseKernels.safeLn tiny (SparseKernels.dotProduct y.m φ.m r c)) 0 m.rows none).2 with h | ⟨-, -, h⟩
    · exact ⟨_, h⟩
    · exact ⟨_, h⟩
  obtain ⟨e, he⟩ := he
  refine ⟨.py e, ?_⟩
  rw [finish, if_neg (by simp)]
  simp only
  rw [he]

/-- Word counts that are stored as integers cannot be scored by either wrapper, whatever the topics and the method; the parts of a document are integers
too when its counts are -/
theorem score_integers (cast : DType → ℝ → ℝ) (tiny : ℝ) (infer : Words → Py Typed) (split : Words → Words × Words)
    (hs : ∀ w : Words, (split w).2.dt = w.dt) (comps : Typed) (sums : Nat → ℝ) (m : Csr ℝ) (y : Option Typed) (state : Bool) (method : Sklearn.Method) :
    (∃ e, scoreLda tiny infer split comps ⟨.int, m⟩ y state method = .error e)
      ∧ ∃ e, scoreHdp cast tiny infer split comps sums ⟨.int, m⟩ y state method = .error e := by
  have ht : ∀ x' y', target infer split ⟨.int, m⟩ y state method = .ok (x', y') → x'.dt = .int := by
    intro x' y' h
    unfold target at h
    split at h
    · exact absurd h (by simp)
    · split at h
      · exact absurd h (by simp)
      · exact absurd h (by simp)
      · cases h; rfl
      · split at h
        · split at h
          · exact absurd h (by simp)
          · cases h; exact hs _
        · split at h
          · exact absurd h (by simp)
          · cases h; rfl
  unfold scoreLda scoreHdp
  cases h : target infer split ⟨.int, m⟩ y state method with
  | error e => exact ⟨⟨e, rfl⟩, ⟨e, rfl⟩⟩
  | ok r =>
    obtain ⟨⟨dt, m'⟩, y'⟩ := r
    have := ht _ _ h
    simp only at this
    subst this
    exact ⟨finish_int tiny m' _ _ method, finish_int tiny m' _ _ method⟩

/-- For floating point words the process gives the same score as the topics it has learnt: dividing them by their sums twice changes nothing -/
theorem score_hdp (cast : DType → ℝ → ℝ) (tiny : ℝ) (infer : Words → Py Typed) (split : Words → Words × Words) (lam : Typed) (sums : Nat → ℝ)
    (hs : ∀ k, sums k ≠ 0) (x : Words) (hx : x.m.WF) (y : Typed) (hf : x.dt ≠ .int) (hy : y.dt = x.dt) (hc : lam.dt = x.dt)
    (method : Sklearn.Method) (hp : Props.Sklearn.Pointwise method) :
    scoreHdp cast tiny infer split lam sums x (some y) false method
      = .ok (asked method x.m (corpusLike tiny x.m y.m.cols y.m.get (share lam.m))) := by
  have hp1 := (Props.Sklearn.isPoint_iff method).2 hp
  rw [scoreHdp, target, if_neg (by simp [hp1])]
  simp only
  rw [astype, if_pos hy, astype, if_pos hc, finish_spec tiny x hx hf y ⟨lam.dt, componentDists (hdpComponents lam sums).m⟩ hy hc method hp]
  have : (componentDists (hdpComponents lam sums).m).get = share lam.m := by
    funext k t
    simp only [componentDists, hdpComponents, share]
    rw [← Finset.sum_div]
    exact div_div_div_cancel_right₀ (hs k) _ _
  rw [this]

/-- one document with two words -/
def exW : Csr ℝ := Csr.ofRows 2 [[(0, 2), (1, 1)]]

theorem exW_wf : exW.WF := Csr.ofRows_wf 2 _ (by simp; omega)

example : scoreLda (1 / 1000) (fun _ => .error .valueError) (fun w => (w, w)) ⟨.f8, ⟨2, 2, fun k t => if k = t then 3 else 1⟩⟩ ⟨.f8, exW⟩
    (some ⟨.f8, ⟨1, 2, fun _ _ => 1 / 2⟩⟩) false .logLikelihoodPoint = .ok (3 * Real.log (1 / 2)) := by
  rw [score_lda _ _ _ _ _ exW_wf _ (by decide) rfl rfl _ ⟨by decide, by decide⟩]
  have : exW.row 0 = [(0, 2), (1, 1)] := Csr.ofRows_row 2 [[(0, 2), (1, 1)]] 0 (by simp)
  have hr : exW.rows = 1 := rfl
  simp only [asked, corpusLike, hr, this, share, Finset.sum_range_succ, Finset.sum_range_zero]
  rw [if_neg (by decide)]
  norm_num
  ring

example : ∃ e, scoreLda (1 / 1000) (fun _ => .error .valueError) (fun w => (w, w)) ⟨.f8, ⟨2, 2, fun _ _ => 1⟩⟩ ⟨.int, exW⟩
    (some ⟨.f8, ⟨1, 2, fun _ _ => 1 / 2⟩⟩) false .logLikelihoodPoint = .error e :=
  (score_integers (fun _ a => a) _ _ _ (fun _ => rfl) _ (fun _ => 1) _ _ _ _).1

end Verif.Props.SkWrapped
