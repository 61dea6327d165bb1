import Verif.Model.Sklearn
import Mathlib.Tactic.ByContra

/-!
# The scikit-learn wrapper (C76–C78, C113–C118)
-/

namespace Verif.Props.Sklearn

open Verif Verif.Sklearn

variable {X M Q Y R : Type}

/-! ## What the calls do to the state -/

/-- The dataset object a call works on. -/
def target (w : Wrapper X M Q) (inp : Input X) : Obj X :=
  match inp with
  | .dataset o => o
  | .plain v => ⟨w.next, v⟩

theorem wrap_fst (w : Wrapper X M Q) (inp : Input X) : (wrap w inp).1 = target w inp := by cases inp <;> rfl

/-- Two states that differ in the object identities used up, if at all. -/
structure Same (w w' : Wrapper X M Q) : Prop where
  kind : w'.kind = w.kind
  model : w'.model = w.model
  lastQ : w'.lastQ = w.lastQ
  lastX : w'.lastX = w.lastX

theorem wrap_same (w : Wrapper X M Q) (inp : Input X) : Same w (wrap w inp).2 := by cases inp <;> exact ⟨rfl, rfl, rfl, rfl⟩

theorem wrap_iters (w : Wrapper X M Q) (inp : Input X) :
    (wrap w inp).2.iterations = w.iterations ∧ (wrap w inp).2.queryIterations = w.queryIterations := by cases inp <;> exact ⟨rfl, rfl⟩

theorem makeOrResume_same (md : Module X M Q Y R) {w w' : Wrapper X M Q} (h : Same w w') (o : Obj X) (b : Bool) :
    makeOrResume md w' o b = makeOrResume md w o b := by
  unfold makeOrResume
  rw [h.kind, h.model, h.lastQ, h.lastX]

/-- What a completed run leaves behind. -/
structure Completed (w' : Wrapper X M Q) (kind : Kind) (o : Obj X) (persist : Bool) (m : M) (q : Q) : Prop where
  kind : w'.kind = kind
  model : w'.model = some m
  lastX : w'.lastX = if persist then some o else none
  lastQ : w'.lastQ = if persist then some q else none

theorem setOrClear_completed (w : Wrapper X M Q) (o : Obj X) (m : M) (q : Q) (persist : Bool) :
    Completed (setOrClear { w with model := some m } o q persist) w.kind o persist m q := by
  unfold setOrClear
  cases persist <;> exact ⟨rfl, rfl, rfl, rfl⟩

/-- Exactly what `fit` does. -/
theorem fit_cases (md : Module X M Q Y R) (w : Wrapper X M Q) (inp : Input X) (kw : Kwargs) :
    (∃ e, startModel md w (target w inp).val = .error e ∧ (fit md w inp kw).1 = .error e ∧ Same w (fit md w inp kw).2)
    ∨ (∃ m e, startModel md w (target w inp).val = .ok m ∧ (fit md w inp kw).1 = .error e
        ∧ Same { w with model := some m } (fit md w inp kw).2
        ∧ (makeOrResume md { w with model := some m } (target w inp) kw.resume = .error e
          ∨ ∃ q, makeOrResume md { w with model := some m } (target w inp) kw.resume = .ok q
            ∧ md.train (target w inp).val m q (orDefault kw.iterations w.iterations) = .error e))
    ∨ (∃ m q m' q', startModel md w (target w inp).val = .ok m
        ∧ makeOrResume md { w with model := some m } (target w inp) kw.resume = .ok q
        ∧ md.train (target w inp).val m q (orDefault kw.iterations w.iterations) = .ok (m', q')
        ∧ (fit md w inp kw).1 = .ok ()
        ∧ Completed (fit md w inp kw).2 w.kind (target w inp) kw.persist m' q') := by
  have hs := wrap_same w inp
  have hf := wrap_fst w inp
  have hi := wrap_iters w inp
  generalize hw : wrap w inp = r at hs hf hi
  obtain ⟨o, w1⟩ := r
  simp only at hs hf hi
  subst hf
  have e1 : startModel md w1 (target w inp).val = startModel md w (target w inp).val := by unfold startModel; rw [hs.model]
  have hs1 : ∀ m : M, Same { w with model := some m } { w1 with model := some m } := fun m => ⟨hs.kind, rfl, hs.lastQ, hs.lastX⟩
  unfold fit
  rw [hw]
  simp only [e1]
  cases hm : startModel md w (target w inp).val with
  | error e => exact Or.inl ⟨e, rfl, rfl, hs⟩
  | ok m =>
    right
    simp only
    rw [makeOrResume_same md (hs1 m)]
    rw [show orDefault kw.iterations w1.iterations = orDefault kw.iterations w.iterations from by rw [hi.1]]
    cases hq : makeOrResume md { w with model := some m } (target w inp) kw.resume with
    | error e => exact Or.inl ⟨m, e, rfl, rfl, hs1 m, Or.inl hq⟩
    | ok q =>
      simp only
      cases ht : md.train (target w inp).val m q (orDefault kw.iterations w.iterations) with
      | error e => exact Or.inl ⟨m, e, rfl, rfl, hs1 m, Or.inr ⟨q, hq, ht⟩⟩
      | ok r =>
        obtain ⟨m', q'⟩ := r
        refine Or.inr ⟨m, q, m', q', rfl, hq, ht, rfl, ?_⟩
        exact hs.kind ▸ setOrClear_completed { w1 with model := some m } (target w inp) m' q' kw.persist

/-- Exactly what `transform` does. -/
theorem transform_cases (md : Module X M Q Y R) (w : Wrapper X M Q) (inp : Input X) (kw : Kwargs) :
    (w.model = none ∧ (transform md w inp kw).1 = .error .valueError ∧ Same w (transform md w inp kw).2)
    ∨ (∃ m e, w.model = some m ∧ (transform md w inp kw).1 = .error e ∧ Same w (transform md w inp kw).2
        ∧ (makeOrResume md w (target w inp) kw.resume = .error e
          ∨ ∃ q, makeOrResume md w (target w inp) kw.resume = .ok q
            ∧ md.query (target w inp).val m q (orDefault kw.iterations w.queryIterations) = .error e))
    ∨ (∃ m q m' q', w.model = some m
        ∧ makeOrResume md w (target w inp) kw.resume = .ok q
        ∧ md.query (target w inp).val m q (orDefault kw.iterations w.queryIterations) = .ok (m', q')
        ∧ (transform md w inp kw).1 = .ok (md.topicDists q')
        ∧ Completed (transform md w inp kw).2 w.kind (target w inp) kw.persist m' q') := by
  have hs := wrap_same w inp
  have hf := wrap_fst w inp
  have hi := wrap_iters w inp
  generalize hw : wrap w inp = r at hs hf hi
  obtain ⟨o, w1⟩ := r
  simp only at hs hf hi
  subst hf
  unfold transform
  rw [hw]
  simp only
  rw [hs.model]
  cases hm : w.model with
  | none => exact Or.inl ⟨rfl, rfl, hs⟩
  | some m =>
    right
    simp only
    rw [makeOrResume_same md hs]
    cases hq : makeOrResume md w (target w inp) kw.resume with
    | error e => exact Or.inl ⟨m, e, rfl, rfl, hs, Or.inl rfl⟩
    | ok q =>
      simp only
      have hi2 : w1.queryIterations = w.queryIterations := hi.2
      rw [show orDefault kw.iterations w1.queryIterations = orDefault kw.iterations w.queryIterations from by rw [hi2]]
      cases ht : md.query (target w inp).val m q (orDefault kw.iterations w.queryIterations) with
      | error e => exact Or.inl ⟨m, e, rfl, rfl, hs, Or.inr ⟨q, rfl, ht⟩⟩
      | ok r =>
        obtain ⟨m', q'⟩ := r
        refine Or.inr ⟨m, q, m', q', rfl, rfl, ht, rfl, ?_⟩
        exact hs.kind ▸ setOrClear_completed w1 (target w inp) m' q' kw.persist

/-- **C283**: a new wrapper has the iterations it was given; without query iterations it uses a tenth of them. -/
theorem new_wrapper_settings (kind : Kind) (next iterations : Nat) :
    (newWrapper kind next iterations none : Wrapper X M Q).iterations = iterations
      ∧ (newWrapper kind next iterations none : Wrapper X M Q).queryIterations = iterations / 10
      ∧ (∀ n, 0 < n → (newWrapper kind next iterations (some n) : Wrapper X M Q).queryIterations = n)
      ∧ (newWrapper kind next iterations (some 0) : Wrapper X M Q).queryIterations = iterations / 10 := by
  refine ⟨rfl, rfl, fun n hn => ?_, rfl⟩
  show (if n = 0 then _ else n) = n
  rw [if_neg (by omega)]

/-! ## Histories (C76) -/

/-- The states reachable by calls, together with the dataset object of the immediately preceding completed run if that run was
asked to persist its state.  A different module may be used in each call, for its functions may be random.  `find_…` with
`persist_query_state=False` does not count as a run; neither do calls that fail. -/
inductive Reach : Wrapper X M Q → Option (Obj X) → Prop
  | new (kind : Kind) (next iterations : Nat) (queryIterations : Option Nat) :
      Reach (newWrapper kind next iterations queryIterations) none
  | alloc {w : Wrapper X M Q} {h : Option (Obj X)} (n : Nat) : Reach w h → Reach { w with next := w.next + n } h
  | fitOk {w : Wrapper X M Q} {h : Option (Obj X)} {Y R : Type} (md : Module X M Q Y R) (inp : Input X) (kw : Kwargs) :
      Reach w h → (fit md w inp kw).1 = .ok () → Reach (fit md w inp kw).2 (if kw.persist then some (target w inp) else none)
  | fitError {w : Wrapper X M Q} {h : Option (Obj X)} {Y R : Type} (md : Module X M Q Y R) (inp : Input X) (kw : Kwargs) (e : PyErr) :
      Reach w h → (fit md w inp kw).1 = .error e → Reach (fit md w inp kw).2 h
  | transformOk {w : Wrapper X M Q} {h : Option (Obj X)} {Y R : Type} (md : Module X M Q Y R) (inp : Input X) (kw : Kwargs) (y : Y) :
      Reach w h → (transform md w inp kw).1 = .ok y →
      Reach (transform md w inp kw).2 (if kw.persist then some (target w inp) else none)
  | transformError {w : Wrapper X M Q} {h : Option (Obj X)} {Y R : Type} (md : Module X M Q Y R) (inp : Input X) (kw : Kwargs)
      (e : PyErr) : Reach w h → (transform md w inp kw).1 = .error e → Reach (transform md w inp kw).2 h
  | findOk {w : Wrapper X M Q} {h : Option (Obj X)} {Y R : Type} (md : Module X M Q Y R) (inp : Input X) (kw : Kwargs)
      (persist : Bool) (q : Option Q) : Reach w h → (findQueryState md w inp kw persist).1 = .ok q →
      Reach (findQueryState md w inp kw persist).2 (if persist then some (target w inp) else h)

/-- The persisted dataset and query state belong together, and the dataset is that of the history. -/
structure Consistent (w : Wrapper X M Q) (h : Option (Obj X)) : Prop where
  lastX : w.lastX = h
  both : w.lastX.isSome = w.lastQ.isSome

theorem Consistent.of_same {w w' : Wrapper X M Q} {h : Option (Obj X)} (hc : Consistent w h) (hs : Same w w') : Consistent w' h :=
  ⟨by rw [hs.lastX, hc.lastX], by rw [hs.lastX, hs.lastQ, hc.both]⟩

theorem Consistent.of_completed {w' : Wrapper X M Q} {k : Kind} {o : Obj X} {b : Bool} {m : M} {q : Q}
    (hs : Completed w' k o b m q) : Consistent w' (if b then some o else none) :=
  ⟨hs.lastX, by rw [hs.lastX, hs.lastQ]; cases b <;> rfl⟩

theorem consistent {w : Wrapper X M Q} {h : Option (Obj X)} (hr : Reach w h) : Consistent w h := by
  induction hr with
  | new => exact ⟨rfl, rfl⟩
  | alloc n _ ih => exact ⟨ih.lastX, ih.both⟩
  | fitOk md inp kw _ hok ih =>
    rcases fit_cases md _ inp kw with ⟨e, -, h2, -⟩ | ⟨m, e, -, h2, -⟩ | ⟨m, q, m', q', -, -, -, -, h2⟩
    · rw [h2] at hok; cases hok
    · rw [h2] at hok; cases hok
    · exact .of_completed h2
  | fitError md inp kw e _ herr ih =>
    rcases fit_cases md _ inp kw with ⟨e, -, -, h2⟩ | ⟨m, e, -, -, h2, -⟩ | ⟨m, q, m', q', -, -, -, h2, -⟩
    · exact ih.of_same h2
    · exact ⟨by rw [h2.lastX]; exact ih.lastX, by rw [h2.lastX, h2.lastQ]; exact ih.both⟩
    · rw [h2] at herr; cases herr
  | transformOk md inp kw y _ hok ih =>
    rcases transform_cases md _ inp kw with ⟨-, h2, -⟩ | ⟨m, e, -, h2, -⟩ | ⟨m, q, m', q', -, -, -, -, h2⟩
    · rw [h2] at hok; cases hok
    · rw [h2] at hok; cases hok
    · exact .of_completed h2
  | transformError md inp kw e _ herr ih =>
    rcases transform_cases md _ inp kw with ⟨-, -, h2⟩ | ⟨m, e, -, -, h2, -⟩ | ⟨m, q, m', q', -, -, -, h2, -⟩
    · exact ih.of_same h2
    · exact ih.of_same h2
    · rw [h2] at herr; cases herr
  | @findOk w h Y R md inp kw persist q _ hok ih =>
    unfold findQueryState at hok ⊢
    simp only at hok ⊢
    rcases transform_cases md w inp { kw with persist := true } with ⟨-, h2, -⟩ | ⟨m, e, -, h2, -⟩ | ⟨m, q, m', q', -, -, -, h1, h2⟩
    all_goals
      generalize transform md w inp { kw with persist := true } = r at *
      obtain ⟨r1, r2⟩ := r
      simp only at *
    · subst h2; cases hok
    · subst h2; cases hok
    · subst h1
      simp only
      cases persist with
      | true =>
        have := Consistent.of_completed h2
        simpa using this
      | false =>
        have hb := ih.both
        have hx := ih.lastX
        cases hq : w.lastQ with
        | none =>
          rw [hq] at hb
          have hn : w.lastX = none := by simpa using hb
          rw [hn] at hx
          constructor
          · simpa using hx
          · simp
        | some q0 =>
          rw [hq] at hb
          constructor
          · simpa using hx
          · simpa using hb

/-- **C76**: a fit or transform that resumes and succeeds is on the dataset object of the immediately preceding completed run,
which was asked to persist its state. -/
theorem resume_requires {w : Wrapper X M Q} {h : Option (Obj X)} (hr : Reach w h) (md : Module X M Q Y R) (inp : Input X) (kw : Kwargs)
    (hres : kw.resume = true) (hok : (fit md w inp kw).1 = .ok () ∨ ∃ y, (transform md w inp kw).1 = .ok y) :
    ∃ o, h = some o ∧ o.id = (target w inp).id := by
  have hc := consistent hr
  have key : ∀ (w' : Wrapper X M Q) (q : Q), w'.lastX = w.lastX → makeOrResume md w' (target w inp) kw.resume = .ok q →
      ∃ o, h = some o ∧ o.id = (target w inp).id := by
    intro w' q hx hq
    unfold makeOrResume at hq
    rw [hres, if_pos rfl, hx, hc.lastX] at hq
    cases h with
    | none => simp at hq
    | some o =>
      refine ⟨o, rfl, ?_⟩
      by_contra hne
      cases hl : w'.lastQ <;> rw [hl] at hq <;> simp [hne] at hq
  rcases hok with hok | ⟨y, hok⟩
  · rcases fit_cases md w inp kw with ⟨e, -, h2, -⟩ | ⟨m, e, -, h2, -⟩ | ⟨m, q, m', q', -, h2, -⟩
    · rw [h2] at hok; cases hok
    · rw [h2] at hok; cases hok
    · exact key { w with model := some m } q rfl h2
  · rcases transform_cases md w inp kw with ⟨-, h2, -⟩ | ⟨m, e, -, h2, -⟩ | ⟨m, q, m', q', -, h2, -⟩
    · rw [h2] at hok; cases hok
    · rw [h2] at hok; cases hok
    · exact key w q rfl h2

theorem resume_error {w : Wrapper X M Q} {h : Option (Obj X)} (hc : Consistent w h) (md : Module X M Q Y R) (o : Obj X)
    (hne : ∀ o', h = some o' → o'.id ≠ o.id) : makeOrResume md w o true = .error .valueError := by
  unfold makeOrResume
  rw [if_pos rfl]
  cases hx : w.lastX with
  | none => cases w.lastQ <;> rfl
  | some o' =>
    have := hne o' (by rw [← hc.lastX, hx])
    cases w.lastQ <;> simp [this]

/-- What remains of the second part of **C76**: with a model, resuming on another dataset object (or after a run that was not
asked to persist its state, or after no run) raises a `ValueError` and nothing changes. -/
theorem resume_rejected_partial {w : Wrapper X M Q} {h : Option (Obj X)} (hr : Reach w h) (m : M) (hm : w.model = some m)
    (md : Module X M Q Y R) (inp : Input X) (kw : Kwargs) (hres : kw.resume = true)
    (hne : ∀ o', h = some o' → o'.id ≠ (target w inp).id) :
    ((fit md w inp kw).1 = .error .valueError ∧ Same w (fit md w inp kw).2)
      ∧ ((transform md w inp kw).1 = .error .valueError ∧ Same w (transform md w inp kw).2) := by
  have hc := consistent hr
  have hst : startModel md w (target w inp).val = .ok m := by unfold startModel; rw [hm]
  have hw : { w with model := some m } = w := by rw [← hm]
  have he := resume_error hc md (target w inp) hne
  constructor
  · rcases fit_cases md w inp kw with ⟨e, h2, -⟩ | ⟨m', e, h2, h3, h4, h5⟩ | ⟨m', q, m'', q', h2, h3, -⟩
    · rw [hst] at h2; cases h2
    · rw [hst] at h2
      cases h2
      rw [hw, hres, he] at h5
      rw [hw] at h4
      rcases h5 with h5 | ⟨q, h5, -⟩
      · cases h5; exact ⟨h3, h4⟩
      · cases h5
    · rw [hst] at h2
      cases h2
      rw [hw, hres, he] at h3
      cases h3
  · rcases transform_cases md w inp kw with ⟨h2, -⟩ | ⟨m', e, h2, h3, h4, h5⟩ | ⟨m', q, m'', q', h2, h3, -⟩
    · rw [hm] at h2; cases h2
    · rw [hres, he] at h5
      rcases h5 with h5 | ⟨q, h5, -⟩
      · cases h5; exact ⟨h3, h4⟩
      · cases h5
    · rw [hres, he] at h3
      cases h3

/-- **C76** is violated: without a model, a fit that resumes raises a `ValueError` but leaves a new, untrained model behind; a
transform is then no longer rejected. -/
theorem failed_resume_leaves_model {w : Wrapper X M Q} (hr : Reach w none) (hm : w.model = none) (md : Module X M Q Y R)
    (o : Obj X) (kw : Kwargs) (hres : kw.resume = true) (m : M) (hnew : md.newModel o.val = .ok m) :
    (fit md w (.dataset o) kw).1 = .error .valueError
      ∧ (fit md w (.dataset o) kw).2.model = some m
      ∧ ∀ (q : Q) (m' : M) (q' : Q), w.kind.queryTakesDebug = true → md.newQuery o.val (some m) = .ok q →
          md.query o.val m q w.queryIterations = .ok (m', q') →
          (transform md (fit md w (.dataset o) kw).2 (.dataset o) {}).1 = .ok (md.topicDists q') := by
  have hc := consistent hr
  have he : makeOrResume md { w with model := some m } o true = .error .valueError :=
    resume_error (h := none) ⟨hc.lastX, hc.both⟩ md o (fun _ h => by cases h)
  have hf : fit md w (.dataset o) kw = (.error .valueError, { w with model := some m }) := by
    unfold fit wrap
    simp only [startModel, hm, hnew, hres, he]
  rw [hf]
  refine ⟨rfl, rfl, fun q m' q' hk hq hqq => ?_⟩
  unfold transform wrap makeOrResume
  simp only [Bool.false_eq_true, if_false, hk, if_true, hq]
  rw [show orDefault none w.queryIterations = w.queryIterations from rfl, hqq]

/-- **C76**: a transform without a model raises a `ValueError` and nothing changes. -/
theorem untrained_rejected (w : Wrapper X M Q) (hm : w.model = none) (md : Module X M Q Y R) (inp : Input X) (kw : Kwargs) :
    (transform md w inp kw).1 = .error .valueError ∧ Same w (transform md w inp kw).2 := by
  rcases transform_cases md w inp kw with ⟨-, h2, h3⟩ | ⟨m, e, h1, -⟩ | ⟨m, q, m', q', h1, -⟩
  · exact ⟨h2, h3⟩
  · rw [hm] at h1; cases h1
  · rw [hm] at h1; cases h1

/-! ## `fit_transform` (C77) -/

/-- **C77** is violated: `fit_transform` of a plain matrix never succeeds; if the fit succeeds it raises a `ValueError`. -/
theorem fit_transform_plain_fails (md : Module X M Q Y R) (w : Wrapper X M Q) (v : X) (kw : Kwargs) :
    (∀ y, (fitTransform md w (.plain v) kw).1 ≠ .ok y)
      ∧ ((fit md w (.plain v) { kw with persist := true }).1 = .ok () →
          (fitTransform md w (.plain v) kw).1 = .error .valueError) := by
  have hfit := fit_cases md w (.plain v) { kw with persist := true }
  have hnext : (fit md w (.plain v) { kw with persist := true }).2.next = w.next + 1 := by
    unfold fit wrap
    simp only
    split
    · rfl
    · split
      · rfl
      · split
        · rfl
        · rfl
  unfold fitTransform
  generalize hg : fit md w (.plain v) { kw with persist := true } = r at *
  obtain ⟨r1, w1⟩ := r
  simp only at hfit hnext ⊢
  cases r1 with
  | error e => exact ⟨fun y h => by simp at h, fun h => by simp at h⟩
  | ok u =>
    simp only
    have herr : (transform md w1 (.plain v) { kw with resume := true }).1 = .error .valueError := by
      rcases hfit with ⟨e, -, h2, -⟩ | ⟨m, e, -, h2, -⟩ | ⟨m, q, m', q', -, -, -, -, h2⟩
      · cases h2
      · cases h2
      · have hx : w1.lastX = some ⟨w.next, v⟩ := h2.lastX
        have hq : w1.lastQ = some q' := h2.lastQ
        unfold transform wrap makeOrResume
        simp only [h2.model, hx, hq, hnext, if_true]
        rw [if_neg (by omega)]
    refine ⟨fun y h => ?_, fun _ => herr⟩
    rw [herr] at h
    cases h

/-- What remains of **C77**: for a dataset object, `fit_transform` transforms with the query state left by the fit, and
succeeds if the module's functions do. -/
theorem fit_transform_dataset_partial (md : Module X M Q Y R) (w : Wrapper X M Q) (o : Obj X) (kw : Kwargs) (hres : kw.resume = false)
    (hk : w.kind.queryTakesDebug = true) (m m' m'' : M) (q q' q'' : Q) (hm : startModel md w o.val = .ok m)
    (hq : md.newQuery o.val (some m) = .ok q) (ht : md.train o.val m q (orDefault kw.iterations w.iterations) = .ok (m', q'))
    (hqq : md.query o.val m' q' (orDefault kw.iterations w.queryIterations) = .ok (m'', q'')) :
    (fitTransform md w (.dataset o) kw).1 = .ok (md.topicDists q'')
      ∧ Completed (fitTransform md w (.dataset o) kw).2 w.kind o kw.persist m'' q'' := by
  have hf : fit md w (.dataset o) { kw with persist := true }
      = (.ok (), { w with model := some m', lastX := some o, lastQ := some q' }) := by
    unfold fit wrap
    simp only [hm]
    unfold makeOrResume
    simp only [hres, Bool.false_eq_true, if_false, hk, if_true, hq, ht]
    rfl
  unfold fitTransform
  rw [hf]
  simp only
  unfold transform wrap makeOrResume
  simp only [if_true, hqq]
  exact ⟨trivial, setOrClear_completed { w with model := some m', lastX := some o, lastQ := some q' } o m'' q'' kw.persist⟩

/-! ## Scoring (C78, C114, C116) -/

/-- **C78**: both representations at once are rejected. -/
theorem score_both (md : Module X M Q Y R) (w : Wrapper X M Q) (inp : Input X) (y : Y) (q : Q) (method : Method) :
    (score md w inp (some y) (some q) method).1 = .error .valueError := rfl

/-- **C78**: bound-based methods are rejected for point representations. -/
theorem score_bound_of_point (md : Module X M Q Y R) (w : Wrapper X M Q) (inp : Input X) (y : Y) (method : Method)
    (hm : method = .logLikelihoodBoundOrSampled ∨ method = .perplexityBoundOrSampled) :
    (score md w inp (some y) none method).1 = .error .valueError := by
  rcases hm with rfl | rfl <;> rfl

/-- **C78** is violated: without a representation, bound-based methods never succeed. -/
theorem score_bound_of_nothing (md : Module X M Q Y R) (w : Wrapper X M Q) (inp : Input X) (method : Method)
    (hm : method = .logLikelihoodBoundOrSampled ∨ method = .perplexityBoundOrSampled) :
    (∀ r, (score md w inp none none method).1 ≠ .ok r)
      ∧ ((∃ y, (transform md (wrap w inp).2 (.dataset (target w inp)) {}).1 = .ok y) → w.kind.hasExpected = true →
          (score md w inp none none method).1 = .error .unboundLocalError) := by
  have h1 : method.isDocCompletion = false := by rcases hm with rfl | rfl <;> rfl
  have h2 : method.isPoint = false := by rcases hm with rfl | rfl <;> rfl
  have hf := wrap_fst w inp
  have hs := wrap_same w inp
  unfold score
  generalize wrap w inp = r at *
  obtain ⟨o, w1⟩ := r
  simp only at hf hs ⊢
  subst hf
  simp only [h1, Bool.false_eq_true, if_false]
  have htc := transform_cases md w1 (.dataset (target w inp)) {}
  generalize transform md w1 (.dataset (target w inp)) {} = r at *
  obtain ⟨r1, w2⟩ := r
  simp only at htc ⊢
  cases r1 with
  | error e => exact ⟨fun r h => by simp at h, fun ⟨y, h⟩ => by simp at h⟩
  | ok y =>
    have hk : w2.kind = w.kind := by
      rcases htc with ⟨-, h, -⟩ | ⟨m, e, -, h, -⟩ | ⟨m, q, m', q', -, -, -, -, h⟩
      · cases h
      · cases h
      · rw [h.kind, hs.kind]
    simp only
    unfold finish
    simp only [h2, Bool.false_eq_true, if_false, hk]
    cases w.kind.hasExpected
    · exact ⟨fun r h => by simp at h, fun _ h => by simp at h⟩
    · exact ⟨fun r h => by simp at h, fun _ _ => by simp⟩

/-- The methods that need no more than topics and words: all but the two that go by the bound -/
def Pointwise (method : Method) : Prop := method ≠ .logLikelihoodBoundOrSampled ∧ method ≠ .perplexityBoundOrSampled

theorem isPoint_iff (method : Method) : method.isPoint = true ↔ Pointwise method := by
  cases method <;> simp [Method.isPoint, Pointwise]

/-- The methods that infer the topics from one part of each document and score the other -/
def Completes (method : Method) : Prop := method = .docCompletionLogLikelihoodPoint ∨ method = .docCompletionPerplexityPoint

theorem isDocCompletion_iff (method : Method) : method.isDocCompletion = true ↔ Completes method := by
  cases method <;> simp [Method.isDocCompletion, Completes]

/-- What a score of the kind asked for is, given the logarithm of the likelihood. -/
def asked (md : Module X M Q Y R) (x : X) (method : Method) (r : R) : R :=
  match method with
  | .perplexityBoundOrSampled | .perplexityPoint | .docCompletionPerplexityPoint => md.perplexity r x
  | _ => r

theorem finish_point (md : Module X M Q Y R) (w : Wrapper X M Q) (x : X) (y : Y) (q : Option Q) (method : Method) (r : R)
    (hp : method.isPoint = true) (hk : w.kind ≠ .ldaGibbs ∨ method.isPerplexity = false) (hr : md.point x y w.model = .ok r) :
    finish md w x y q method = .ok (asked md x method r) := by
  unfold finish
  simp only [hp, if_true, hr]
  cases method <;> simp only [Method.isPoint, Bool.false_eq_true] at hp <;> simp only [Method.isPerplexity, Bool.false_eq_true, if_false, if_true]
  all_goals try rfl
  all_goals
    have hk' : w.kind ≠ .ldaGibbs := hk.resolve_right (by decide)
    have : w.kind.hasPerplexity = true := by cases hkk : w.kind <;> first | rfl | exact absurd hkk hk'
    rw [this]
    rfl

/-- What remains of **C78**: point-based methods with a point representation, for all models but the Gibbs sampler's. -/
theorem score_point_partial (md : Module X M Q Y R) (w : Wrapper X M Q) (o : Obj X) (y : Y) (method : Method)
    (hpt : Pointwise method) (hk : w.kind ≠ .ldaGibbs) (hk' : w.kind ≠ .ldaSvb) (q : Q) (hq : md.newQuery o.val w.model = .ok q)
    (r : R) (hr : md.point o.val y w.model = .ok r) :
    score md w (.dataset o) (some y) none method = (.ok (asked md o.val method r), w) := by
  have h1 : w.kind.queryTakesDebug = true := by cases hkk : w.kind <;> first | rfl | exact absurd hkk hk'
  have h2 : w.kind.amendable = true := by cases hkk : w.kind <;> first | rfl | exact absurd hkk hk
  have hp : method.isPoint = true := (isPoint_iff method).2 hpt
  unfold score wrap makeOrResume
  simp only [hp, if_true, Bool.false_eq_true, if_false, h1, hq, h2]
  rw [finish_point md w o.val y (some q) method r hp (Or.inl hk) hr]

/-- What remains of **C78**: without a representation, point-based methods other than document completion. -/
theorem score_nothing_partial (md : Module X M Q Y R) (w w' : Wrapper X M Q) (o : Obj X) (method : Method)
    (hp : method = .logLikelihoodPoint ∨ method = .perplexityPoint) (hk : w'.kind ≠ .ldaGibbs) (y : Y)
    (ht : transform md w (.dataset o) {} = (.ok y, w')) (r : R) (hr : md.point o.val y w'.model = .ok r) :
    score md w (.dataset o) none none method = (.ok (asked md o.val method r), w') := by
  have h1 : method.isDocCompletion = false := by rcases hp with rfl | rfl <;> rfl
  have h2 : method.isPoint = true := by rcases hp with rfl | rfl <;> rfl
  unfold score wrap
  simp only [h1, Bool.false_eq_true, if_false, ht]
  rw [finish_point md w' o.val y none method r h2 (Or.inl hk) hr]

/-- What remains of **C78**: document completion infers the topics from one part of each document and evaluates the other part. -/
theorem score_completion_partial (md : Module X M Q Y R) (w w' : Wrapper X M Q) (o : Obj X) (method : Method)
    (hpc : Completes method) (hk : w'.kind ≠ .ldaGibbs) (y : Y)
    (ht : transform md { w with next := w.next + 2 } (.dataset ⟨w.next, (md.split o.val).1⟩) {} = (.ok y, w')) (r : R)
    (hr : md.point (md.split o.val).2 y w'.model = .ok r) :
    score md w (.dataset o) none none method = (.ok (asked md (md.split o.val).2 method r), w') := by
  have hp : method.isDocCompletion = true := (isDocCompletion_iff method).2 hpc
  have h2 : method.isPoint = true := by rcases hpc with rfl | rfl <;> rfl
  unfold score wrap
  simp only [hp, if_true, ht]
  rw [finish_point md w' (md.split o.val).2 y none method r h2 (Or.inl hk) hr]

/-- **C114** is violated: scoring without a representation forgets the persisted query state and takes over the model that the
query returned. -/
theorem score_forgets (md : Module X M Q Y R) (w : Wrapper X M Q) (o : Obj X) (method : Method)
    (hdc : ¬ Completes method) (y : Y)
    (ht : (transform md w (.dataset o) {}).1 = .ok y) :
    (score md w (.dataset o) none none method).2.lastX = none
      ∧ (score md w (.dataset o) none none method).2.lastQ = none
      ∧ ∃ m q m' q', w.model = some m ∧ md.query o.val m q w.queryIterations = .ok (m', q')
          ∧ (score md w (.dataset o) none none method).2.model = some m' := by
  have hd : method.isDocCompletion = false := by rw [← Bool.not_eq_true, isDocCompletion_iff]; exact hdc
  have hst : (score md w (.dataset o) none none method).2 = (transform md w (.dataset o) {}).2 := by
    unfold score wrap
    simp only [hd, Bool.false_eq_true, if_false]
    generalize transform md w (.dataset o) {} = r at *
    obtain ⟨r1, r2⟩ := r
    simp only at ht
    subst ht
    rfl
  rw [hst]
  rcases transform_cases md w (.dataset o) {} with ⟨-, h, -⟩ | ⟨m, e, -, h, -⟩ | ⟨m, q, m', q', h1, -, h2, -, h⟩
  · rw [h] at ht; cases ht
  · rw [h] at ht; cases ht
  · exact ⟨h.lastX, h.lastQ, m, q, m', q', h1, h2, h.model⟩

/-- What remains of **C114**: scoring a given representation changes nothing. -/
theorem score_keeps_partial (md : Module X M Q Y R) (w : Wrapper X M Q) (inp : Input X) (y : Option Y) (q : Option Q) (method : Method)
    (h : y.isSome ∨ q.isSome) : Same w (score md w inp y q method).2 := by
  have hs := wrap_same w inp
  unfold score
  generalize wrap w inp = r at *
  obtain ⟨o, w1⟩ := r
  simp only at hs ⊢
  cases y with
  | none =>
    cases q with
    | none => simp at h
    | some q => exact hs
  | some y =>
    cases q with
    | none =>
      simp only
      split
      · split
        · exact hs
        · split <;> exact hs
      · exact hs
    | some q => exact hs

/-- **C116** is violated, exactly: with a query state, bound-based methods fail with an `AttributeError` for all models but two,
and perplexities fail for the Gibbs sampler's. -/
theorem score_missing_functions (md : Module X M Q Y R) (w : Wrapper X M Q) (o : Obj X) (q : Q) :
    (∀ method, method = .logLikelihoodBoundOrSampled ∨ method = .perplexityBoundOrSampled → w.kind ≠ .ldaCvb0 → w.kind ≠ .momVb →
        (score md w (.dataset o) none (some q) method).1 = .error .attributeError)
      ∧ (∀ r, w.kind = .ldaGibbs → md.point o.val (md.topicDists q) w.model = .ok r →
        (score md w (.dataset o) none (some q) .perplexityPoint).1 = .error .attributeError)
      ∧ (∀ y q', w.kind = .ldaGibbs → md.newQuery o.val w.model = .ok q' →
        (score md w (.dataset o) (some y) none .logLikelihoodPoint).1 = .error .valueError) := by
  refine ⟨fun method hm h1 h2 => ?_, fun r hk hr => ?_, fun y q' hk hq => ?_⟩
  · have h3 : method.isPoint = false := by rcases hm with rfl | rfl <;> rfl
    have h4 : w.kind.hasExpected = false := by
      cases hk : w.kind <;> first | rfl | exact absurd hk h1 | exact absurd hk h2
    unfold score wrap finish
    simp only [h3, h4, Bool.false_eq_true, if_false]
  · unfold score wrap finish
    simp [Method.isPoint, hr, Method.isPerplexity, hk, Kind.hasPerplexity]
  · unfold score wrap makeOrResume
    simp [Method.isPoint, hk, Kind.queryTakesDebug, Kind.amendable, hq]

/-- What remains of **C116**: with a query state, all methods work for two of the models, and point-based methods for all but
the Gibbs sampler's. -/
theorem score_query_partial (md : Module X M Q Y R) (w : Wrapper X M Q) (o : Obj X) (q : Q) (method : Method) (r : R)
    (h : (Pointwise method ∧ w.kind ≠ .ldaGibbs ∧ md.point o.val (md.topicDists q) w.model = .ok r)
      ∨ (¬ Pointwise method ∧ (w.kind = .ldaCvb0 ∨ w.kind = .momVb) ∧ md.expected o.val w.model q = .ok r)) :
    score md w (.dataset o) none (some q) method = (.ok (asked md o.val method r), w) := by
  rcases h with ⟨h1, h2, h3⟩ | ⟨h1, h2, h3⟩
  · unfold score wrap
    simp only
    rw [finish_point md w o.val _ (some q) method r ((isPoint_iff method).2 h1) (Or.inl h2) h3]
  · rw [← isPoint_iff, Bool.not_eq_true] at h1
    unfold score wrap finish
    have h4 : w.kind.hasExpected = true := by rcases h2 with h | h <;> rw [h] <;> rfl
    have h5 : w.kind.hasPerplexity = true := by rcases h2 with h | h <;> rw [h] <;> rfl
    simp only [h1, h4, h5, Bool.false_eq_true, if_false, if_true, h3]
    cases method <;> rfl

/-! ## Every kind can be fitted (C115) -/

theorem reach_kind_svb {w : Wrapper X M Q} {h : Option (Obj X)} (hr : Reach w h) : w.kind = .ldaSvb → w.lastX = none := by
  have noq : ∀ {Y R : Type} (md : Module X M Q Y R) (w' : Wrapper X M Q) (o : Obj X) (b : Bool) (q : Q), w'.kind = .ldaSvb → w'.lastX = none →
      makeOrResume md w' o b ≠ .ok q := by
    intro Y R md w' o b q hk hx
    unfold makeOrResume
    rw [hk, hx]
    cases b
    · simp [Kind.queryTakesDebug]
    · cases w'.lastQ <;> simp
  have nofit : ∀ {Y R : Type} (md : Module X M Q Y R) (w : Wrapper X M Q) (inp : Input X) (kw : Kwargs), w.lastX = none →
      (fit md w inp kw).2.kind = .ldaSvb → (fit md w inp kw).2.lastX = none := by
    intro Y R md w inp kw hx hk
    rcases fit_cases md w inp kw with ⟨e, -, -, h2⟩ | ⟨m, e, -, -, h2, -⟩ | ⟨m, q, m', q', -, h1, -, -, h2⟩
    · rw [h2.lastX, hx]
    · rw [h2.lastX]; exact hx
    · rw [h2.kind] at hk
      exact absurd h1 (noq md _ _ _ _ hk hx)
  have nokind : ∀ {Y R : Type} (md : Module X M Q Y R) (w : Wrapper X M Q) (inp : Input X) (kw : Kwargs),
      (transform md w inp kw).2.kind = w.kind ∧ (fit md w inp kw).2.kind = w.kind := by
    intro Y R md w inp kw
    constructor
    · rcases transform_cases md w inp kw with ⟨-, -, h2⟩ | ⟨m, e, -, -, h2, -⟩ | ⟨m, q, m', q', -, -, -, -, h2⟩
      · exact h2.kind
      · exact h2.kind
      · exact h2.kind
    · rcases fit_cases md w inp kw with ⟨e, -, -, h2⟩ | ⟨m, e, -, -, h2, -⟩ | ⟨m, q, m', q', -, h1, -, -, h2⟩
      · exact h2.kind
      · exact h2.kind
      · exact h2.kind
  have notr : ∀ {Y R : Type} (md : Module X M Q Y R) (w : Wrapper X M Q) (inp : Input X) (kw : Kwargs), w.lastX = none →
      w.kind = .ldaSvb → (transform md w inp kw).2.lastX = none ∧ ∀ y, (transform md w inp kw).1 ≠ .ok y := by
    intro Y R md w inp kw hx hk
    rcases transform_cases md w inp kw with ⟨-, h1, h2⟩ | ⟨m, e, -, h1, h2, -⟩ | ⟨m, q, m', q', -, h1, -, -, h2⟩
    · exact ⟨by rw [h2.lastX, hx], fun y h => by rw [h1] at h; cases h⟩
    · exact ⟨by rw [h2.lastX, hx], fun y h => by rw [h1] at h; cases h⟩
    · exact absurd h1 (noq md _ _ _ _ hk hx)
  induction hr with
  | new => intro _; rfl
  | alloc n _ ih => exact ih
  | fitOk md inp kw _ _ ih => intro hk; exact nofit md _ inp kw (ih ((nokind md _ inp kw).2 ▸ hk)) hk
  | fitError md inp kw e _ _ ih => intro hk; exact nofit md _ inp kw (ih ((nokind md _ inp kw).2 ▸ hk)) hk
  | transformOk md inp kw y _ _ ih =>
    intro hk
    have hk' := (nokind md _ inp kw).1 ▸ hk
    exact (notr md _ inp kw (ih hk') hk').1
  | transformError md inp kw e _ _ ih =>
    intro hk
    have hk' := (nokind md _ inp kw).1 ▸ hk
    exact (notr md _ inp kw (ih hk') hk').1
  | @findOk w h Y R md inp kw persist q _ hok ih =>
    intro hk
    have hkk := (nokind md w inp { kw with persist := true }).1
    have key := notr md w inp { kw with persist := true }
    unfold findQueryState at hok hk ⊢
    simp only at hok hk ⊢
    generalize transform md w inp { kw with persist := true } = r at *
    obtain ⟨r1, r2⟩ := r
    cases r1 with
    | error e => simp at hok
    | ok y =>
      simp only at hk hkk key ⊢
      have hk' : w.kind = .ldaSvb := by
        rw [← hkk]
        cases persist <;> simpa using hk
      exact absurd rfl ((key (ih hk') hk').2 y)

/-- **C115** is violated: the stochastic variational model can never be fitted, in no state that can be reached. -/
theorem svb_never_fits {w : Wrapper X M Q} {h : Option (Obj X)} (hr : Reach w h) (hk : w.kind = .ldaSvb) (md : Module X M Q Y R)
    (inp : Input X) (kw : Kwargs) : (fit md w inp kw).1 ≠ .ok () := by
  have hx := reach_kind_svb hr hk
  intro hok
  rcases fit_cases md w inp kw with ⟨e, -, h2, -⟩ | ⟨m, e, -, h2, -⟩ | ⟨m, q, m', q', -, h2, -⟩
  · rw [h2] at hok; cases hok
  · rw [h2] at hok; cases hok
  · unfold makeOrResume at h2
    simp only [hk, hx] at h2
    cases hb : kw.resume <;> rw [hb] at h2
    · simp [Kind.queryTakesDebug] at h2
    · simp at h2

/-- What remains of **C115**: every other kind is fitted if the module's functions succeed. -/
theorem others_fit_partial (md : Module X M Q Y R) (w : Wrapper X M Q) (hk : w.kind ≠ .ldaSvb) (inp : Input X) (kw : Kwargs)
    (hres : kw.resume = false) (m m' : M) (q q' : Q) (hm : startModel md w (target w inp).val = .ok m)
    (hq : md.newQuery (target w inp).val (some m) = .ok q)
    (ht : md.train (target w inp).val m q (orDefault kw.iterations w.iterations) = .ok (m', q')) :
    (fit md w inp kw).1 = .ok () ∧ (fit md w inp kw).2.model = some m' := by
  have h1 : w.kind.queryTakesDebug = true := by cases hkk : w.kind <;> first | rfl | exact absurd hkk hk
  have hmk : makeOrResume md { w with model := some m } (target w inp) kw.resume = .ok q := by
    unfold makeOrResume
    simp only [hres, Bool.false_eq_true, if_false, h1, if_true, hq]
  rcases fit_cases md w inp kw with ⟨e, h2, -⟩ | ⟨m1, e, h2, -, -, h3⟩ | ⟨m1, q1, m2, q2, h2, h3, h4, h5, h6⟩
  · rw [hm] at h2; cases h2
  · rw [hm] at h2
    cases h2
    rw [hmk] at h3
    rcases h3 with h3 | ⟨q1, h3, h4⟩
    · cases h3
    · cases h3; rw [ht] at h4; cases h4
  · rw [hm] at h2
    cases h2
    rw [hmk] at h3
    cases h3
    rw [ht] at h4
    cases h4
    exact ⟨h5, h6.model⟩

/-! ## Explicit numbers of iterations (C113) -/

/-- **C113** is violated: zero iterations are replaced by the default, for fits and transforms. -/
theorem zero_iterations_ignored (md : Module X M Q Y R) (w : Wrapper X M Q) (inp : Input X) (kw : Kwargs) :
    fit md w inp { kw with iterations := some 0 } = fit md w inp { kw with iterations := none }
      ∧ transform md w inp { kw with iterations := some 0 } = transform md w inp { kw with iterations := none } := ⟨rfl, rfl⟩

/-- What remains of **C113**: a positive number of iterations is what the module is asked for. -/
theorem iterations_honoured_partial (md : Module X M Q Y R) (w : Wrapper X M Q) (inp : Input X) (kw : Kwargs) (n : Nat) (hn : 0 < n)
    (hit : kw.iterations = some n) :
    ((fit md w inp kw).1 = .ok () → ∃ m q m' q', md.train (target w inp).val m q n = .ok (m', q') ∧ (fit md w inp kw).2.model = some m')
      ∧ (∀ y, (transform md w inp kw).1 = .ok y →
          ∃ m q m' q', md.query (target w inp).val m q n = .ok (m', q') ∧ y = md.topicDists q') := by
  have ho : ∀ d, orDefault kw.iterations d = n := by
    intro d
    unfold orDefault
    rw [hit]
    exact if_neg (by omega)
  constructor
  · intro hok
    rcases fit_cases md w inp kw with ⟨e, -, h2, -⟩ | ⟨m, e, -, h2, -⟩ | ⟨m, q, m', q', -, -, h2, -, h3⟩
    · rw [h2] at hok; cases hok
    · rw [h2] at hok; cases hok
    · rw [ho] at h2; exact ⟨m, q, m', q', h2, h3.model⟩
  · intro y hok
    rcases transform_cases md w inp kw with ⟨-, h2, -⟩ | ⟨m, e, -, h2, -⟩ | ⟨m, q, m', q', -, -, h2, h3, -⟩
    · rw [h2] at hok; cases hok
    · rw [h2] at hok; cases hok
    · rw [ho] at h2
      rw [h3] at hok
      cases hok
      exact ⟨m, q, m', q', h2, rfl⟩

/-! ## Names of methods (C117), metrics (C118) -/

theorem dropWhile_all {s : List Char} (h : ∀ c ∈ s, isSpace c = true) (t : List Char) :
    (s ++ t).dropWhile isSpace = t.dropWhile isSpace := by
  induction s with
  | nil => rfl
  | cons c s ih =>
    rw [List.cons_append, List.dropWhile_cons_of_pos (h c (by simp)), ih (fun c hc => h c (by simp [hc]))]

theorem strip_pad (l u r : List Char) (hl : ∀ c ∈ l, isSpace c = true) (hr : ∀ c ∈ r, isSpace c = true)
    (hu : ∀ c ∈ u, isSpace c = false) (hne : u ≠ []) : strip (l ++ u ++ r) = u := by
  unfold strip
  rw [List.append_assoc, dropWhile_all hl]
  obtain ⟨c, u', rfl⟩ := List.exists_cons_of_ne_nil hne
  rw [List.cons_append, List.dropWhile_cons_of_neg (by rw [hu c (by simp)]; decide), ← List.cons_append, List.reverse_append,
    dropWhile_all (s := r.reverse) (by simpa using hr)]
  obtain ⟨d, u'', hd⟩ : ∃ d u'', (c :: u').reverse = d :: u'' := List.exists_cons_of_ne_nil (by simp)
  have hdm : d ∈ c :: u' := by
    rw [← List.mem_reverse, hd]; simp
  rw [hd, List.dropWhile_cons_of_neg (by rw [hu d hdm]; decide), ← hd, List.reverse_reverse]

theorem takeWhile_mem {s : List Char} {c : Char} (h : c ∈ s.takeWhile isSpace) : isSpace c = true := by
  induction s with
  | nil => cases h
  | cons d s ih =>
    rw [List.takeWhile_cons] at h
    split at h
    · next hd =>
      rcases List.mem_cons.mp h with rfl | h
      · exact hd
      · exact ih h
    · cases h

theorem value_inj : ∀ m m' : Method, m.value = m'.value → m = m' := by
  intro m m'
  cases m <;> cases m' <;> decide +kernel

theorem value_ne_nil : ∀ m : Method, m.value ≠ [] := by
  intro m
  cases m <;> decide +kernel

theorem value_nospace : ∀ m : Method, ∀ c ∈ m.value, isSpace c = false := by
  intro m
  cases m <;> decide +kernel

theorem find_value (s : List Char) (m : Method) (h : s = m.value) : Method.all.find? (fun m' => s == m'.value) = some m := by
  subst h
  cases m <;> decide +kernel

theorem toLower_space (c : Char) (h : isSpace c = true) : c.toLower = c := by
  unfold isSpace at h
  unfold Char.toLower
  split
  · next h2 =>
    exfalso
    have : (65 : Nat) ≤ c.toNat := by
      have := h2.1
      simpa [UInt32.le_iff_toNat_le] using this
    simp at h
    omega
  · rfl

/-- White space among ASCII characters: tabulator, line and page breaks, the four separators and the space -/
def White (c : Char) : Prop := (9 ≤ c.toNat ∧ c.toNat ≤ 13) ∨ (28 ≤ c.toNat ∧ c.toNat ≤ 32)

instance (c : Char) : Decidable (White c) := inferInstanceAs (Decidable (_ ∨ _))

theorem isSpace_iff (c : Char) : isSpace c = true ↔ White c := by
  simp [isSpace, White]

/-- The names of the methods -/
def methodName : Method → String
  | .logLikelihoodPoint => "log_likelihood_point"
  | .logLikelihoodBoundOrSampled => "log_likelihood_expectation"
  | .perplexityPoint => "perplexity_point"
  | .perplexityBoundOrSampled => "perplexity_expectation"
  | .docCompletionLogLikelihoodPoint => "doc_completion_log_likelihood_point"
  | .docCompletionPerplexityPoint => "doc_completion_perplexity_point"

theorem methodName_value (m : Method) : (methodName m).toList = m.value := by cases m <;> rfl

/-- **C117**: the name of a method, in upper or lower case letters and with white space around it, is read as this method;
nothing else is read as the method. -/
theorem method_names (s : List Char) (m : Method) :
    Method.fromStr s = .ok m
      ↔ ∃ l u r, s = l ++ u ++ r ∧ (∀ c ∈ l, White c) ∧ (∀ c ∈ r, White c) ∧ u.map Char.toLower = (methodName m).toList := by
  rw [methodName_value]
  simp only [← isSpace_iff]
  constructor
  · intro h
    unfold Method.fromStr at h
    split at h
    · next m' hf =>
      cases h
      have h2 := List.find?_some hf
      simp only [beq_iff_eq] at h2
      refine ⟨s.takeWhile isSpace, strip s, ((s.dropWhile isSpace).reverse.takeWhile isSpace).reverse, ?_, ?_, ?_, h2⟩
      · unfold strip
        rw [List.append_assoc, ← List.reverse_append, List.takeWhile_append_dropWhile, List.reverse_reverse,
          List.takeWhile_append_dropWhile]
      · intro c hc; exact takeWhile_mem hc
      · intro c hc; exact takeWhile_mem (List.mem_reverse.mp hc)
    · cases h
  · rintro ⟨l, u, r, rfl, hl, hr, hu⟩
    have hns : ∀ c ∈ u, isSpace c = false := by
      intro c hc
      by_contra hcs
      rw [Bool.not_eq_false] at hcs
      have hm : c.toLower ∈ m.value := by rw [← hu]; exact List.mem_map_of_mem hc
      rw [toLower_space c hcs] at hm
      rw [value_nospace m c hm] at hcs
      cases hcs
    have hne : u ≠ [] := by
      rintro rfl
      exact value_ne_nil m hu.symm
    unfold Method.fromStr
    rw [strip_pad l u r hl hr hns hne, find_value _ m hu]

/-- **C118** is violated for tuples of length zero and one; exactly: -/
theorem metrics_short {α : Type} (vals : List α) : (vals.length < 2 → fromIblTuple vals = .error .indexError)
    ∧ (2 ≤ vals.length → fromIblTuple vals = .ok (vals[0]?, vals[1]?, vals[2]?)) := by
  rcases vals with - | ⟨a, - | ⟨b, - | ⟨c, l⟩⟩⟩
  · exact ⟨fun _ => rfl, fun h => by simp at h⟩
  · exact ⟨fun _ => rfl, fun h => by simp at h⟩
  · exact ⟨fun h => by simp at h, fun _ => rfl⟩
  · exact ⟨fun h => by simp only [List.length_cons] at h; omega, fun _ => by unfold fromIblTuple; simp [bind, Except.bind, pure, Except.pure]⟩

/-- What remains of **C118**: tuples of two or more. -/
theorem metrics_partial {α : Type} (vals : List α) (h : 2 ≤ vals.length) :
    fromIblTuple vals = .ok (vals[0]?, vals[1]?, vals[2]?) := (metrics_short vals).2 h

/-! ## Examples -/

/-- A module whose model counts training iterations. -/
def exMod : Module Nat Nat Nat Nat Nat where
  newModel := fun _ => .ok 0
  newQuery := fun x _ => .ok x
  train := fun _ m q n => .ok (m + n, q + 1)
  query := fun _ m q n => .ok (m, q + n)
  topicDists := fun q => q
  point := fun _ y _ => .ok y
  expected := fun _ _ q => .ok q
  perplexity := fun r _ => 2 ^ r
  split := fun x => (x, x)

def exW : Wrapper Nat Nat Nat := newWrapper .ldaCvb0 10 100 none

def exO : Obj Nat := ⟨3, 7⟩

/-- A fit that persists, then resuming on the same object. -/
example : ∃ w h, Reach w h ∧ h = some exO ∧ (transform exMod w (.dataset exO) { resume := true }).1 = .ok 18 :=
  ⟨(fit exMod exW (.dataset exO) { persist := true }).2, _, .fitOk exMod _ _ (.new .ldaCvb0 10 100 none) rfl, rfl, rfl⟩

example : (fit exMod exW (.dataset exO) { resume := true }).1 = .error .valueError
    ∧ (fit exMod exW (.dataset exO) { resume := true }).2.model = some 0 := by
  have h := failed_resume_leaves_model (w := exW) (.new .ldaCvb0 10 100 none) rfl exMod exO { resume := true } rfl 0 rfl
  exact ⟨h.1, h.2.1⟩

/-- The untrained model transforms. -/
example : (transform exMod (fit exMod exW (.dataset exO) { resume := true }).2 (.dataset exO) {}).1 = .ok 17 :=
  (failed_resume_leaves_model (w := exW) (.new .ldaCvb0 10 100 none) rfl exMod exO { resume := true } rfl 0 rfl).2.2 7 0 17
    rfl rfl rfl

example : (fitTransform exMod exW (.plain 7) {}).1 = .error .valueError :=
  (fit_transform_plain_fails exMod exW 7 {}).2 rfl

example : (fitTransform exMod exW (.dataset exO) {}).1 = .ok 18 :=
  (fit_transform_dataset_partial exMod exW exO {} rfl rfl 0 100 100 7 8 18 rfl rfl rfl rfl).1

example : (score exMod (fit exMod exW (.dataset exO) {}).2 (.dataset exO) none none .perplexityBoundOrSampled).1
    = .error .unboundLocalError :=
  (score_bound_of_nothing exMod _ (.dataset exO) _ (Or.inr rfl)).2 ⟨17, rfl⟩ rfl

example : (score exMod (fit exMod exW (.dataset exO) {}).2 (.dataset exO) (some 5) none .perplexityPoint).1 = .ok 32 :=
  congrArg Prod.fst (score_point_partial exMod _ exO 5 .perplexityPoint ⟨by decide, by decide⟩ (by decide) (by decide) 7 rfl 5 rfl)

example : (score exMod (fit exMod exW (.dataset exO) {}).2 (.dataset exO) none none .docCompletionPerplexityPoint).1 = .ok (2 ^ 17) := by
  exact congrArg Prod.fst (score_completion_partial exMod (fit exMod exW (.dataset exO) {}).2
    (transform exMod ⟨.ldaCvb0, some 100, none, none, 12, 100, 10⟩ (.dataset ⟨10, 7⟩) {}).2 exO .docCompletionPerplexityPoint (Or.inr rfl)
    (by decide) 17 rfl 17 rfl)

example : (score exMod (fit exMod exW (.dataset exO) { persist := true }).2 (.dataset exO) none none .logLikelihoodPoint).2.lastX
    = none :=
  (score_forgets exMod _ exO .logLikelihoodPoint (by unfold Completes; decide) 17 rfl).1

example (kw : Kwargs) : (fit exMod (newWrapper .ldaSvb 10 100 none : Wrapper Nat Nat Nat) (.dataset exO) kw).1 ≠ .ok () :=
  svb_never_fits (.new .ldaSvb 10 100 none) rfl exMod _ kw

example : (fit exMod exW (.dataset exO) { iterations := some 0 }).2.model = some 100 := by decide

example : Method.fromStr "  Perplexity_POINT\n".toList = .ok .perplexityPoint :=
  (method_names _ _).mpr ⟨"  ".toList, "Perplexity_POINT".toList, "\n".toList, by decide +kernel, by decide +kernel,
    by decide +kernel, by decide +kernel⟩

end Verif.Props.Sklearn
