import Mathlib.Data.List.GetD
import Verif.Model.Dmr
import Verif.Props.Gibbs

/-!
# Properties C59, C60, C91: Dirichlet-multinomial regression
-/

namespace Verif.Props.Dmr

open Verif Verif.Gibbs Verif.Dmr Verif.Props.Gibbs

/-! ## One call of the sampler -/

/-- the body of the loop of `sample` -/
def step (p : Params) (isQuery : Bool) (thin : Nat) (rnd : Nat → Rand) (x : State × Buffer × List Sample) (s : Nat) :
    Except Fault (State × Buffer × List Sample) :=
  match sweep p (if isQuery then 0 else 1) (rnd s) x.1.tables with
  | none => .error .badTopic
  | some t =>
    if (s + 1) % thin = 0 then
      (x.2.1.write x.1.count t.ndk).map (fun b => (takeSample p isQuery { x.1 with tables := t }, b, x.2.2 ++ [t.ndk]))
    else .ok ({ x.1 with tables := t }, x.2)

theorem sample_zero (p : Params) (isQuery : Bool) (thin : Nat) (rnd : Nat → Rand) (st : State) (buf : Buffer) :
    Dmr.sample p isQuery 0 thin rnd st buf = .ok ({ st with count := 0 }, buf, []) := rfl

theorem sample_succ (p : Params) (isQuery : Bool) (n thin : Nat) (rnd : Nat → Rand) (st : State) (buf : Buffer) :
    Dmr.sample p isQuery (n + 1) thin rnd st buf =
      (Dmr.sample p isQuery n thin rnd st buf).bind (fun x => step p isQuery thin rnd x n) := by
  unfold Dmr.sample
  rw [List.range_succ, List.foldlM_append]
  simp only [List.foldlM_cons, List.foldlM_nil, bind, pure, Except.pure]
  congr 1
  funext x
  unfold step
  rcases sweep p (if isQuery = true then 0 else 1) (rnd n) x.1.tables with _ | t
  · rfl
  · simp only
    split
    · rcases x.2.1.write x.1.count t.ndk with _ | b <;> rfl
    · rfl

/-- Sampling into a buffer is sampling, with the samples put into the slots 0, 1, … of the buffer. -/
structure Ran (p : Params) (isQuery : Bool) (n thin : Nat) (rnd : Nat → Rand) (st : State) (buf : Buffer)
    (r : State × Buffer × List Sample) : Prop where
  run : Gibbs.sample p isQuery n thin rnd st = some r.1
  count : r.1.count = n / thin
  taken : r.2.2.length = n / thin
  size : r.2.1.size = buf.size
  fits : n / thin ≤ buf.size
  slot : ∀ i, r.2.1.slot i = r.2.2.getD i (buf.slot i)
  /-- the samples are the tables after sweeps `thin`, `2 * thin`, … -/
  isSample : ∀ i, i < n / thin → ∃ s', Gibbs.sample p isQuery ((i + 1) * thin) thin rnd st = some s' ∧
    r.2.2[i]? = some s'.tables.ndk

theorem sample_ok (p : Params) (isQuery : Bool) (thin : Nat) (rnd : Nat → Rand) (st : State) (buf : Buffer) :
    ∀ n r, Dmr.sample p isQuery n thin rnd st buf = .ok r → Ran p isQuery n thin rnd st buf r := by
  intro n
  induction n with
  | zero =>
    intro r h
    rw [sample_zero] at h
    cases h
    refine ⟨rfl, by simp, by simp, rfl, by simp, fun i => by simp, fun i hi => ?_⟩
    simp at hi
  | succ n ih =>
    intro r h
    rw [sample_succ] at h
    rcases hn : Dmr.sample p isQuery n thin rnd st buf with e | x
    · rw [hn] at h; cases h
    rw [hn] at h
    have hx := ih x hn
    change step p isQuery thin rnd x n = .ok r at h
    unfold step at h
    have hdiv := count_step n thin
    rcases ht : sweep p (if isQuery then 0 else 1) (rnd n) x.1.tables with _ | t
    · rw [ht] at h; cases h
    rw [ht] at h
    simp only at h
    have hrun : Gibbs.sample p isQuery (n + 1) thin rnd st =
        some (if (n + 1) % thin = 0 then takeSample p isQuery { x.1 with tables := t } else { x.1 with tables := t }) := by
      rw [Gibbs.sample_succ, hx.run, Option.bind_some, ht, Option.bind_some]
    by_cases hmod : (n + 1) % thin = 0
    · rw [if_pos hmod] at h hrun hdiv
      unfold Buffer.write at h
      by_cases hlt : x.1.count < x.2.1.size
      · rw [if_pos hlt] at h
        cases h
        have hc := hx.count
        have htk := hx.taken
        have hsz := hx.size
        refine ⟨hrun, ?_, ?_, hx.size, by omega, ?_, ?_⟩
        · simp only [takeSample]; omega
        · simp only [List.length_append, List.length_singleton]; omega
        · intro i
          simp only
          by_cases hi : i = x.1.count
          · subst hi
            rw [Function.update_self, List.getD_append_right _ _ _ _ (by omega)]
            rw [show x.1.count - x.2.2.length = 0 by omega]; rfl
          · rw [Function.update_of_ne hi, hx.slot]
            by_cases hi2 : i < x.2.2.length
            · rw [List.getD_append _ _ _ _ hi2]
            · rw [List.getD_eq_default _ _ (by omega), List.getD_eq_default _ _ (by simp; omega)]
        · intro i hi
          simp only
          by_cases hi2 : i < x.2.2.length
          · rw [List.getElem?_append_left hi2]
            exact hx.isSample i (by omega)
          · have : i = x.2.2.length := by omega
            refine ⟨takeSample p isQuery { x.1 with tables := t }, ?_, by rw [this, List.getElem?_concat_length]; rfl⟩
            · have e : (i + 1) * thin = n + 1 := by
                rw [show i + 1 = (n + 1) / thin by omega]
                exact Nat.div_mul_cancel (Nat.dvd_of_mod_eq_zero hmod)
              rw [e]; exact hrun
      · rw [if_neg hlt] at h; cases h
    · rw [if_neg hmod] at h hrun hdiv
      cases h
      exact ⟨hrun, by simp only; rw [hx.count]; omega, by simp only; rw [hx.taken]; omega, hx.size,
        by have := hx.fits; omega, hx.slot, fun i hi => hx.isSample i (by omega)⟩

/-- When sampling itself succeeds, the only fault is a write outside of the buffer, and it happens exactly when the
buffer is too small for the samples. -/
theorem sample_fault_iff (p : Params) (isQuery : Bool) (thin : Nat) (rnd : Nat → Rand) (st : State)
    (buf : Buffer) : ∀ n, (Gibbs.sample p isQuery n thin rnd st).isSome →
    (n / thin ≤ buf.size ∧ ∃ r, Dmr.sample p isQuery n thin rnd st buf = .ok r) ∨
    (buf.size < n / thin ∧ Dmr.sample p isQuery n thin rnd st buf = .error .outsideBuffer) := by
  intro n
  induction n with
  | zero => intro _; left; exact ⟨by simp, _, rfl⟩
  | succ n ih =>
    intro hs
    rw [Gibbs.sample_succ] at hs
    rcases hg : Gibbs.sample p isQuery n thin rnd st with _ | s
    · rw [hg] at hs; cases hs
    have hdiv := count_step n thin
    rcases ih (by rw [hg]; rfl) with ⟨hfit, x, hx⟩ | ⟨hfit, hx⟩
    · have hran := sample_ok p isQuery thin rnd st buf n x hx
      have e : s = x.1 := Option.some.inj (hg.symm.trans hran.run)
      subst e
      rw [hg, Option.bind_some] at hs
      rcases ht : sweep p (if isQuery then 0 else 1) (rnd n) x.1.tables with _ | t
      · rw [ht] at hs; cases hs
      rw [sample_succ, hx]
      change _ ∨ _ ∧ step p isQuery thin rnd x n = _
      have hstep : ∀ e, (Except.ok x : Except Fault _).bind (fun x => step p isQuery thin rnd x n) = e ↔
        step p isQuery thin rnd x n = e := fun e => Iff.rfl
      simp only [hstep]
      unfold step
      rw [ht]
      simp only
      by_cases hmod : (n + 1) % thin = 0
      · rw [if_pos hmod] at hdiv ⊢
        unfold Buffer.write
        have hc := hran.count
        have hsz := hran.size
        by_cases hlt : x.1.count < x.2.1.size
        · left
          rw [if_pos hlt]
          exact ⟨by omega, _, rfl⟩
        · right
          rw [if_neg hlt]
          exact ⟨by omega, rfl⟩
      · rw [if_neg hmod] at hdiv ⊢
        left
        exact ⟨by omega, _, rfl⟩
    · right
      refine ⟨?_, ?_⟩
      · split at hdiv <;> omega
      · rw [sample_succ, hx]; rfl

/-! ## Training -/

/-- The weights give positive priors. -/
def GoodWeights (p : Params) (F : Nat) (X W : Nat → Nat → ℚ) : Prop := PositivePriors (withWeights p F X W)

theorem docOk_withWeights (p : Params) (F : Nat) (X W : Nat → Nat → ℚ) (s : Tables) :
    (DocOk (withWeights p F X W) s ∧ WordOk (withWeights p F X W) s) ↔ (DocOk p s ∧ WordOk p s) :=
  ⟨fun h => ⟨⟨h.1.ndk, h.1.zlt⟩, ⟨h.2.nkv, h.2.nk⟩⟩, fun h => ⟨⟨h.1.ndk, h.1.zlt⟩, ⟨h.2.nkv, h.2.nk⟩⟩⟩

/-- what holds before each round of the loop: `c` samples are taken in a round, `S` is the size of the buffer -/
structure LoopOk (p : Params) (c S r : Nat) (l : Loop) : Prop where
  tables : DocOk p l.st.tables ∧ WordOk p l.st.tables
  size : l.buf.size = S
  taken : l.taken.length = r * c
  sampleCount : l.sampleCount = r * c
  used : l.used.length = r
  slots : ∀ i, l.buf.slot i = if i < c ∧ 0 < r then l.taken.getD ((r - 1) * c + i) (fun _ _ => 0) else fun _ _ => 0
  history : ∀ j, j < r → l.used[j]? = some ((List.range (min ((j + 1) * c) S)).map
    (fun i => if i < c then l.taken.getD (j * c + i) (fun _ _ => 0) else fun _ _ => 0))
  nonzero : ∀ s ∈ l.taken, ∀ d, ∑ k ∈ Finset.range p.K, s d k = p.lens.getD d 0

theorem round_ok (p : Params) (hK : p.K ≤ 256) (F : Nat) (X : Nat → Nat → ℚ)
    (opt : List Sample → Nat → (Nat → Nat → ℚ) → Nat → Nat → ℚ) (wui thin S r : Nat) (rnd : Nat → Rand) (l l' : Loop)
    (h : LoopOk p (wui / thin) S r l) (hrun : Dmr.round p F X opt wui thin rnd l = .ok l') :
    LoopOk p (wui / thin) S (r + 1) l' := by
  unfold Dmr.round at hrun
  rcases hs : Dmr.sample (withWeights p F X l.W) false wui thin rnd l.st l.buf with e | x
  · rw [hs] at hrun; cases hrun
  rw [hs] at hrun
  have hr := sample_ok _ _ _ _ _ _ _ _ hs
  cases hrun
  set c := wui / thin with hc
  have hmul : (r + 1) * c = r * c + c := Nat.succ_mul r c
  have hslots : ∀ i, x.2.1.slot i = if i < c then (l.taken ++ x.2.2).getD (r * c + i) (fun _ _ => 0) else fun _ _ => 0 := by
    intro i
    rw [hr.slot]
    by_cases hi : i < c
    · rw [if_pos hi, List.getD_append_right _ _ _ _ (by rw [h.taken]; omega), h.taken,
        show r * c + i - r * c = i by omega]
      rw [List.getD_eq_getElem _ _ (by rw [hr.taken]; exact hi), List.getD_eq_getElem _ _ (by rw [hr.taken]; exact hi)]
    · rw [if_neg hi, List.getD_eq_default _ _ (by rw [hr.taken]; omega), h.slots, if_neg (by omega)]
  refine ⟨?_, ?_, ?_, ?_, ?_, ?_, ?_, ?_⟩
  · simp only
    exact (docOk_withWeights p F X l.W _).mp
      (Props.Gibbs.sample_ok (withWeights p F X l.W) hK wui thin rnd l.st x.1 ((docOk_withWeights p F X l.W _).mpr h.tables) hr.run)
  · exact hr.size.trans h.size
  · simp only [List.length_append]; rw [h.taken, hr.taken, hmul]
  · simp only; rw [h.sampleCount, hr.count, hmul]
  · simp only [List.length_append, List.length_singleton]; rw [h.used]
  · intro i
    simp only
    rw [hslots, Nat.add_sub_cancel]
    simp
  · intro j hj
    simp only
    rcases Nat.lt_or_ge j r with hlt | hge
    · rw [List.getElem?_append_left (by rw [h.used]; exact hlt), h.history j hlt]
      congr 1
      apply List.map_congr_left
      intro i _
      by_cases hi : i < c
      · rw [if_pos hi, if_pos hi, List.getD_append]
        rw [h.taken]
        have : (j + 1) * c ≤ r * c := Nat.mul_le_mul_right c hlt
        have : (j + 1) * c = j * c + c := Nat.succ_mul j c
        omega
      · rw [if_neg hi, if_neg hi]
    · have : j = r := by omega
      subst this
      rw [← h.used, List.getElem?_concat_length, h.used]
      congr 1
      unfold Buffer.upTo
      rw [h.sampleCount, hr.count, hr.size, h.size, ← hc, ← hmul]
      apply List.map_congr_left
      intro i _
      exact hslots i
  · intro s hs' d
    simp only at hs'
    rcases List.mem_append.mp hs' with hm | hm
    · exact h.nonzero s hm d
    · obtain ⟨i, hi, he⟩ := List.mem_iff_getElem.mp hm
      obtain ⟨s', h1, h2⟩ := hr.isSample i (by rw [← hr.taken]; exact hi)
      rw [List.getElem?_eq_getElem hi, he] at h2
      rw [Option.some.inj h2]
      have := Props.Gibbs.sample_ok (withWeights p F X l.W) hK _ _ _ _ _ ((docOk_withWeights p F X l.W _).mpr h.tables) h1
      exact docOk_sum _ _ this.1 d

theorem rounds_ok (p : Params) (hK : p.K ≤ 256) (F : Nat) (X : Nat → Nat → ℚ)
    (opt : List Sample → Nat → (Nat → Nat → ℚ) → Nat → Nat → ℚ) (wui thin S : Nat) (rnd : Nat → Nat → Rand) (n : Nat) :
    ∀ l l', LoopOk p (wui / thin) S 0 l →
    (List.range n).foldlM (fun l i => Dmr.round p F X opt wui thin (rnd (i + 1)) l) l = .ok l' →
    LoopOk p (wui / thin) S n l' := by
  induction n with
  | zero => intro l l' h hrun; cases hrun; exact h
  | succ n ih =>
    intro l l' h hrun
    rw [List.range_succ, List.foldlM_append] at hrun
    rcases hn : (List.range n).foldlM (fun l i => Dmr.round p F X opt wui thin (rnd (i + 1)) l) l with e | l1
    · rw [hn] at hrun; cases hrun
    rw [hn] at hrun
    refine round_ok p hK F X opt wui thin S n (rnd (n + 1)) l1 l' (ih l l1 h hn) ?_
    rcases hr : Dmr.round p F X opt wui thin (rnd (n + 1)) l1 with e | l2
    · simp only [bind, Except.bind, List.foldlM_cons, hr] at hrun; cases hrun
    · simp only [bind, Except.bind, List.foldlM_cons, List.foldlM_nil, pure, Except.pure, hr] at hrun
      exact hrun

/-- the start of the loop -/
theorem start_ok (p : Params) (hK : p.K ≤ 256) (F : Nat) (X : Nat → Nat → ℚ) (z : Nat → Nat) (hz : ValidTopics p z)
    (W : Nat → Nat → ℚ) (c S b : Nat) (rnd : Nat → Rand) (r : State × Buffer × List Sample)
    (hrun : Dmr.sample (withWeights p F X W) false b (b + 1) rnd
      ⟨sumSuffStats p.w p.lens (zeroTables z), fun _ _ => 0, fun _ _ => 0, 0⟩ (Buffer.zeros S) = .ok r) :
    LoopOk p c S 0 ⟨r.1, r.2.1, W, 0, [], []⟩ := by
  have hr := sample_ok _ _ _ _ _ _ _ _ hrun
  have h0 : b / (b + 1) = 0 := Nat.div_eq_of_lt (by omega)
  refine ⟨?_, hr.size, by simp, by simp, rfl, ?_, fun j hj => by omega, fun s hs => absurd hs (by simp)⟩
  · exact (docOk_withWeights p F X W _).mp
      (Props.Gibbs.sample_ok (withWeights p F X W) hK _ _ _ _ _ ((docOk_withWeights p F X W _).mpr (init_ok p z hz)) hr.run)
  · intro i
    simp only
    rw [hr.slot, List.getD_eq_default _ _ (by rw [hr.taken, h0]; omega)]
    simp [Buffer.zeros]

/-- **C60, exact behaviour.** The `j`-th weight update (from 0) is given `min ((j + 1) * c) S` samples, where `c` samples are
taken between updates and `S` is the size of the buffer: the `c` samples taken last, in slots `0 … c - 1`, and tables of
zeros, which were never sampled, in the others. -/
theorem updates_get (p : Params) (hK : p.K ≤ 256) (F : Nat) (X : Nat → Nat → ℚ)
    (opt : List Sample → Nat → (Nat → Nat → ℚ) → Nat → Nat → ℚ) (plan : Dmr.Plan) (z : Nat → Nat) (hz : ValidTopics p z)
    (W : Nat → Nat → ℚ) (rnd : Nat → Nat → Rand) (l : Loop)
    (hrun : Dmr.train p F X opt plan z W rnd = .ok (.ok l)) :
    let n := plan.iterations - plan.burnIn
    let c := plan.wui / plan.thin
    l.used.length = rounds n plan.wui ∧ l.taken.length = rounds n plan.wui * c ∧
    (∀ j, j < rounds n plan.wui → l.used[j]? = some ((List.range (min ((j + 1) * c) (n / plan.thin))).map
      (fun i => if i < c then l.taken.getD (j * c + i) (fun _ _ => 0) else fun _ _ => 0))) ∧
    (∀ s ∈ l.taken, ∀ d, ∑ k ∈ Finset.range p.K, s d k = p.lens.getD d 0) := by
  unfold Dmr.train at hrun
  split at hrun
  · cases hrun
  have hrun := Except.ok.inj hrun
  simp only [bind, Except.bind] at hrun
  split at hrun
  · cases hrun
  rename_i r hr
  have h0 := start_ok p hK F X z hz W (plan.wui / plan.thin) _ _ _ r hr
  have h := rounds_ok p hK F X opt plan.wui plan.thin _ rnd _ _ l h0 hrun
  exact ⟨h.used, h.taken, h.history, h.nonzero⟩

/-- **C60 (partial)** The first update is given exactly the samples taken so far.  Missing: all later updates. -/
theorem first_update_partial (p : Params) (hK : p.K ≤ 256) (F : Nat) (X : Nat → Nat → ℚ)
    (opt : List Sample → Nat → (Nat → Nat → ℚ) → Nat → Nat → ℚ) (plan : Dmr.Plan) (z : Nat → Nat) (hz : ValidTopics p z)
    (W : Nat → Nat → ℚ) (rnd : Nat → Nat → Rand) (l : Loop)
    (hrun : Dmr.train p F X opt plan z W rnd = .ok (.ok l))
    (h1 : 0 < rounds (plan.iterations - plan.burnIn) plan.wui)
    (hfit : plan.wui / plan.thin ≤ (plan.iterations - plan.burnIn) / plan.thin) :
    l.used[0]? = some (l.taken.take (plan.wui / plan.thin)) := by
  obtain ⟨_, ht, hu, _⟩ := updates_get p hK F X opt plan z hz W rnd l hrun
  rw [hu 0 h1]
  congr 1
  simp only [Nat.zero_add, Nat.one_mul, Nat.zero_mul]
  rw [Nat.min_eq_left hfit]
  have hle : plan.wui / plan.thin ≤ l.taken.length := by
    rw [ht]; exact Nat.le_mul_of_pos_left _ h1
  apply List.ext_getElem
  · simp [hle]
  · intro i hi1 hi2
    have hi : i < plan.wui / plan.thin := by simpa using hi1
    simp only [List.getElem_map, List.getElem_range, if_pos hi, List.getElem_take]
    rw [List.getD_eq_getElem _ _ (by omega)]

/-- **C60, violated** in every run with a second update and room for more samples than one round takes: the second
update is given, as sample number `c`, a table of zeros instead of the sample taken, although a document has words. -/
theorem second_update_gets_zeros (p : Params) (hK : p.K ≤ 256) (F : Nat) (X : Nat → Nat → ℚ)
    (opt : List Sample → Nat → (Nat → Nat → ℚ) → Nat → Nat → ℚ) (plan : Dmr.Plan) (z : Nat → Nat) (hz : ValidTopics p z)
    (W : Nat → Nat → ℚ) (rnd : Nat → Nat → Rand) (l : Loop)
    (hrun : Dmr.train p F X opt plan z W rnd = .ok (.ok l))
    (h2 : 1 < rounds (plan.iterations - plan.burnIn) plan.wui) (hc : 0 < plan.wui / plan.thin)
    (hroom : plan.wui / plan.thin < (plan.iterations - plan.burnIn) / plan.thin)
    (d : Nat) (hd : 0 < p.lens.getD d 0) :
    ∃ used s, l.used[1]? = some used ∧ used[plan.wui / plan.thin]? = some (fun _ _ => 0) ∧
      l.taken[plan.wui / plan.thin]? = some s ∧ s ≠ fun _ _ => 0 := by
  obtain ⟨_, ht, hu, hn⟩ := updates_get p hK F X opt plan z hz W rnd l hrun
  set c := plan.wui / plan.thin with hcdef
  have hlen : c < l.taken.length := by
    rw [ht]
    have := Nat.mul_le_mul_right c h2
    omega
  refine ⟨_, l.taken[c], hu 1 h2, ?_, List.getElem?_eq_getElem hlen, ?_⟩
  · rw [List.getElem?_map, List.getElem?_range (by omega)]
    simp
  · intro he
    have := hn _ (List.getElem_mem hlen) d
    rw [he] at this
    simp only [Finset.sum_const_zero] at this
    omega

/-! ## C59: the buffer -/

theorem sample_run (p : Params) (hK : p.K ≤ 256) (F : Nat) (X W : Nat → Nat → ℚ) (hW : GoodWeights p F X W)
    (hw : ValidWords p) (n thin : Nat) (rnd : Nat → Rand) (hr : ∀ i, GoodRand p (rnd i)) (st : State)
    (h : DocOk p st.tables ∧ WordOk p st.tables) :
    (Gibbs.sample (withWeights p F X W) false n thin rnd st).isSome := by
  obtain ⟨s, hs⟩ := sample_returns (withWeights p F X W) hK hW hw n thin rnd (fun i _ => hr i) st
    ((docOk_withWeights p F X W _).mpr h)
  rw [hs]; rfl

theorem rounds_pos (n wui : Nat) (hw : 0 < wui) : 0 < rounds n wui ↔ 0 < n := by
  unfold rounds
  constructor
  · intro h
    by_contra h0
    have : n = 0 := by omega
    subst this
    rw [Nat.div_eq_of_lt (by omega)] at h
    omega
  · intro h; exact Nat.div_pos (by omega) hw

/-- **C59, exact behaviour of training.** With positive priors and good draws, training stays inside of its buffer
exactly when there is nothing to sample or one round takes no more samples than the buffer holds. -/
theorem training_inside_buffer_iff (p : Params) (hK : p.K ≤ 256) (F : Nat) (X : Nat → Nat → ℚ)
    (opt : List Sample → Nat → (Nat → Nat → ℚ) → Nat → Nat → ℚ) (plan : Dmr.Plan) (z : Nat → Nat) (hz : ValidTopics p z)
    (hw : ValidWords p) (W : Nat → Nat → ℚ) (hW : GoodWeights p F X W) (hopt : ∀ u n W, GoodWeights p F X (opt u n W))
    (rnd : Nat → Nat → Rand) (hr : ∀ i j, GoodRand p (rnd i j)) (hb : plan.burnIn ≤ plan.iterations) (hwui : 0 < plan.wui) :
    let n := plan.iterations - plan.burnIn
    (Dmr.train p F X opt plan z W rnd = .ok (.error .outsideBuffer) ↔ 0 < n ∧ n / plan.thin < plan.wui / plan.thin) ∧
    ((∃ l, Dmr.train p F X opt plan z W rnd = .ok (.ok l)) ↔ n = 0 ∨ plan.wui / plan.thin ≤ n / plan.thin) := by
  intro n
  set S := n / plan.thin with hS
  set c := plan.wui / plan.thin with hc
  -- burn-in
  have hb0 := sample_fault_iff (withWeights p F X W) false (plan.burnIn + 1) (rnd 0)
    ⟨sumSuffStats p.w p.lens (zeroTables z), fun _ _ => 0, fun _ _ => 0, 0⟩ (Buffer.zeros S) plan.burnIn
    (sample_run p hK F X W hW hw _ _ _ (hr 0) _ (init_ok p z hz))
  have hb00 : plan.burnIn / (plan.burnIn + 1) = 0 := Nat.div_eq_of_lt (by omega)
  rw [hb00] at hb0
  obtain ⟨r, hrr⟩ : ∃ r, Dmr.sample (withWeights p F X W) false plan.burnIn (plan.burnIn + 1) (rnd 0)
      ⟨sumSuffStats p.w p.lens (zeroTables z), fun _ _ => 0, fun _ _ => 0, 0⟩ (Buffer.zeros S) = .ok r := by
    rcases hb0 with ⟨_, h⟩ | ⟨h, _⟩
    · exact h
    · omega
  have h0 := start_ok p hK F X z hz W c S _ _ r hrr
  have htrain : Dmr.train p F X opt plan z W rnd = .ok ((List.range (rounds n plan.wui)).foldlM
      (fun l i => Dmr.round p F X opt plan.wui plan.thin (rnd (i + 1)) l) ⟨r.1, r.2.1, W, 0, [], []⟩) := by
    unfold Dmr.train
    rw [if_neg (by omega)]
    simp only [bind, Except.bind]
    have hrr' : Dmr.sample (withWeights p F X W) false plan.burnIn (plan.burnIn + 1) (rnd 0)
      ⟨sumSuffStats p.w p.lens (zeroTables z), fun _ _ => 0, fun _ _ => 0, 0⟩
      (Buffer.zeros ((plan.iterations - plan.burnIn) / plan.thin)) = .ok r := hrr
    rw [hrr']
  -- one round
  have hround : ∀ i k l, LoopOk p c S k l → GoodWeights p F X l.W →
      (c ≤ S ∧ ∃ l', Dmr.round p F X opt plan.wui plan.thin (rnd i) l = .ok l' ∧ GoodWeights p F X l'.W) ∨
      (S < c ∧ Dmr.round p F X opt plan.wui plan.thin (rnd i) l = .error .outsideBuffer) := by
    intro i k l hl hlW
    have hf := sample_fault_iff (withWeights p F X l.W) false plan.thin (rnd i) l.st l.buf plan.wui
      (sample_run p hK F X l.W hlW hw _ _ _ (hr i) _ hl.tables)
    rw [hl.size, ← hc] at hf
    unfold Dmr.round
    rcases hf with ⟨h1, x, hx⟩ | ⟨h1, hx⟩
    · left
      refine ⟨h1, _, by rw [hx]; rfl, hopt _ _ _⟩
    · right
      exact ⟨h1, by rw [hx]; rfl⟩
  -- all rounds
  have hall : c ≤ S → ∀ m, ∃ l', (List.range m).foldlM
      (fun l i => Dmr.round p F X opt plan.wui plan.thin (rnd (i + 1)) l) ⟨r.1, r.2.1, W, 0, [], []⟩ = .ok l' ∧
      GoodWeights p F X l'.W := by
    intro hle m
    induction m with
    | zero => exact ⟨_, rfl, hW⟩
    | succ m ih =>
      obtain ⟨l1, h1, h2⟩ := ih
      have hl1 := rounds_ok p hK F X opt plan.wui plan.thin S rnd m _ l1 h0 h1
      rcases hround (m + 1) m l1 hl1 h2 with ⟨_, l2, h3, h4⟩ | ⟨h3, _⟩
      · refine ⟨l2, ?_, h4⟩
        rw [List.range_succ, List.foldlM_append, h1]
        simp only [bind, Except.bind, List.foldlM_cons, List.foldlM_nil, h3, pure, Except.pure]
      · omega
  have hbad : S < c → 0 < rounds n plan.wui → (List.range (rounds n plan.wui)).foldlM
      (fun l i => Dmr.round p F X opt plan.wui plan.thin (rnd (i + 1)) l) ⟨r.1, r.2.1, W, 0, [], []⟩ =
      .error .outsideBuffer := by
    intro hlt hpos
    obtain ⟨m, hm⟩ : ∃ m, rounds n plan.wui = m + 1 := ⟨rounds n plan.wui - 1, by omega⟩
    rw [hm, List.range_succ_eq_map, List.foldlM_cons]
    rcases hround 1 0 _ h0 hW with ⟨h1, _⟩ | ⟨_, h1⟩
    · omega
    · simp only [bind, Except.bind]
      rw [h1]
  rw [htrain]
  have hrp := rounds_pos n plan.wui hwui
  rcases Nat.lt_or_ge S c with hlt | hge
  · by_cases hn : 0 < n
    · rw [hbad hlt (hrp.mpr hn)]
      refine ⟨⟨fun _ => ⟨hn, hlt⟩, fun _ => rfl⟩, ⟨fun ⟨l, h⟩ => (by cases Except.ok.inj h), fun h => by omega⟩⟩
    · have hz0 : rounds n plan.wui = 0 := by by_contra h; exact hn (hrp.mp (Nat.pos_of_ne_zero h))
      rw [hz0]
      refine ⟨⟨fun h => (by cases Except.ok.inj h), fun h => absurd h.1 hn⟩,
        ⟨fun _ => .inl (by omega), fun _ => ⟨_, rfl⟩⟩⟩
  · obtain ⟨l', hl', _⟩ := hall hge (rounds n plan.wui)
    rw [hl']
    exact ⟨⟨fun h => (by cases Except.ok.inj h), fun h => absurd h.2 (by omega)⟩,
      ⟨fun _ => .inr hge, fun _ => ⟨l', rfl⟩⟩⟩

/-- **C59, violated in training.** With the default plan for 1 to 49 iterations a round takes 10 samples, and the
buffer holds fewer. -/
theorem default_training_plan (n : Nat) :
    let plan := Dmr.newTrainPlan n (-1) (-1) (-1)
    plan.iterations - plan.burnIn = n ∧ plan.wui / plan.thin = 10 ∧ 0 < plan.wui ∧
    (0 < n ∧ n / plan.thin < plan.wui / plan.thin ↔ 1 ≤ n ∧ n ≤ 49) := by
  unfold Dmr.newTrainPlan
  simp only [show ((-1 : Int) < 0) = True by simp, if_true]
  by_cases h1 : n ≤ 500
  · simp only [if_pos h1]; refine ⟨by omega, by simp, by omega, ?_⟩; constructor <;> intro h <;> omega
  · simp only [if_neg h1]
    by_cases h2 : n ≤ 1000
    · simp only [if_pos h2]; refine ⟨by omega, by simp, by omega, ?_⟩; constructor <;> intro h <;> omega
    · simp only [if_neg h2]; refine ⟨by omega, by simp, by omega, ?_⟩; constructor <;> intro h <;> omega

/-- **C59 (partial)** Training stays inside of its buffer if the interval between updates is not longer than the run after
burn-in.  Missing: shorter runs, and queries. -/
theorem training_inside_buffer_partial (plan : Dmr.Plan) (h : plan.wui ≤ plan.iterations - plan.burnIn) :
    plan.wui / plan.thin ≤ (plan.iterations - plan.burnIn) / plan.thin := Nat.div_le_div_right h

/-- The first call of a query's sampler for samples: it succeeds or not independently of the buffer. -/
def queryRuns (p : Params) (F : Nat) (X : Nat → Nat → ℚ) (φ vocabSum : Nat → Nat → ℚ) (plan : Dmr.Plan) (z : Nat → Nat)
    (W : Nat → Nat → ℚ) (rnd1 rnd2 : Nat → Rand) : Bool :=
  let nkv : Nat → Nat → Int := fun k v => ⌊φ k v * 1000000⌋
  let s := sumSuffStats p.w p.lens ⟨z, fun _ _ => 0, nkv, fun k => ∑ v ∈ Finset.range p.T, nkv k v⟩
  match Gibbs.sample (withWeights p F X W) true plan.burnIn (plan.burnIn + 1) rnd1 ⟨s, fun _ _ => 0, vocabSum, 0⟩ with
  | none => false
  | some st => (Gibbs.sample (withWeights p F X W) true plan.iterations plan.thin rnd2 st).isSome

/-- **C59, exact behaviour of queries.** Unless sampling fails for other reasons, a query writes outside of its buffer
exactly when thinning gives more samples over all iterations than over those after burn-in. -/
theorem query_inside_buffer_iff (p : Params) (F : Nat) (X : Nat → Nat → ℚ) (φ vocabSum : Nat → Nat → ℚ) (plan : Dmr.Plan)
    (z : Nat → Nat) (W : Nat → Nat → ℚ) (rnd1 rnd2 : Nat → Rand) (hb : plan.burnIn ≤ plan.iterations)
    (hrun : queryRuns p F X φ vocabSum plan z W rnd1 rnd2 = true) :
    (Dmr.query p F X φ vocabSum plan z W rnd1 rnd2 = .ok (.error .outsideBuffer) ↔
      (plan.iterations - plan.burnIn) / plan.thin < plan.iterations / plan.thin) ∧
    ((∃ r, Dmr.query p F X φ vocabSum plan z W rnd1 rnd2 = .ok (.ok r)) ↔
      (plan.iterations - plan.burnIn) / plan.thin = plan.iterations / plan.thin) := by
  unfold queryRuns at hrun
  simp only at hrun
  have hmono : (plan.iterations - plan.burnIn) / plan.thin ≤ plan.iterations / plan.thin :=
    Nat.div_le_div_right (by omega)
  unfold Dmr.query
  rw [if_neg (by omega)]
  simp only [bind, Except.bind]
  set s0 : State := ⟨sumSuffStats p.w p.lens ⟨z, fun _ _ => 0, fun k v => ⌊φ k v * 1000000⌋,
    fun k => ∑ v ∈ Finset.range p.T, ⌊φ k v * 1000000⌋⟩, fun _ _ => 0, vocabSum, 0⟩ with hs0
  set S := (plan.iterations - plan.burnIn) / plan.thin with hS
  rcases h1 : Gibbs.sample (withWeights p F X W) true plan.burnIn (plan.burnIn + 1) rnd1 s0 with _ | st
  · rw [h1] at hrun; cases hrun
  rw [h1] at hrun
  have hb00 : plan.burnIn / (plan.burnIn + 1) = 0 := Nat.div_eq_of_lt (by omega)
  have hb0 := sample_fault_iff (withWeights p F X W) true (plan.burnIn + 1) rnd1 s0 (Buffer.zeros S) plan.burnIn
    (by rw [h1]; rfl)
  rw [hb00] at hb0
  obtain ⟨r, hr⟩ : ∃ r, Dmr.sample (withWeights p F X W) true plan.burnIn (plan.burnIn + 1) rnd1 s0 (Buffer.zeros S) = .ok r := by
    rcases hb0 with ⟨_, h⟩ | ⟨h, _⟩
    · exact h
    · omega
  have hran := sample_ok _ _ _ _ _ _ _ _ hr
  have he : st = r.1 := Option.some.inj (h1.symm.trans hran.run)
  subst he
  have hf := sample_fault_iff (withWeights p F X W) true plan.thin rnd2 r.1 r.2.1 plan.iterations hrun
  have hsz : r.2.1.size = S := hran.size
  rw [hsz] at hf
  rw [hr]
  simp only
  rcases hf with ⟨h2, x, hx⟩ | ⟨h2, hx⟩
  · rw [hx]
    simp only [pure, Except.pure]
    refine ⟨⟨fun h => (by cases Except.ok.inj h), fun h => absurd h (by omega)⟩, ⟨fun _ => by omega, fun _ => ⟨_, rfl⟩⟩⟩
  · rw [hx]
    refine ⟨⟨fun _ => h2, fun _ => rfl⟩, ⟨fun ⟨_, h⟩ => (by cases Except.ok.inj h), fun h => by omega⟩⟩

/-- **C59, violated in queries.** With the default plan every query of 20 or more iterations writes outside of the buffer. -/
theorem default_query_plan (n : Nat) (h : 20 ≤ n) :
    let plan := Dmr.newTrainPlan n (-1) (-1) (-1)
    (plan.iterations - plan.burnIn) / plan.thin < plan.iterations / plan.thin := by
  unfold Dmr.newTrainPlan
  simp only [show ((-1 : Int) < 0) = True by simp, if_true]
  by_cases h1 : n ≤ 500
  · simp only [if_pos h1]; omega
  · simp only [if_neg h1]
    by_cases h2 : n ≤ 1000
    · simp only [if_pos h2]; omega
    · simp only [if_neg h2]; omega

/-- A burn-in given explicitly is taken out of the iterations, one chosen by default is added to them. -/
theorem plan_burnIn (n : Nat) (b t w : Int) :
    (b < 0 → (Dmr.newTrainPlan n b t w).iterations - (Dmr.newTrainPlan n b t w).burnIn = n) ∧
    (0 ≤ b → ((Dmr.newTrainPlan n b t w).iterations = n ∧ ((Dmr.newTrainPlan n b t w).burnIn : Int) = b)) := by
  unfold Dmr.newTrainPlan
  refine ⟨fun h => ?_, fun h => ?_⟩
  · simp only [if_pos h]; omega
  · simp only [if_neg (show ¬ b < 0 by omega)]
    exact ⟨trivial, by omega⟩

/-! ## C91: the priors -/

/-- **C91, violated.** A document without features has a prior of zero for every topic, whatever the weights. -/
theorem featureless_prior_zero (F : Nat) (X W : Nat → Nat → ℚ) (d k : Nat) (h : ∀ f, f < F → X d f = 0) :
    alphas F X W d k = 0 := by
  unfold alphas
  exact Finset.sum_eq_zero (fun f hf => by rw [h f (Finset.mem_range.mp hf), zero_mul])

/-- **C91** … and if it has a single word, that word cannot be sampled: all weights are zero, and no draw selects a
topic. -/
theorem featureless_single_word_fails (p : Params) (F : Nat) (X W : Nat → Nat → ℚ) (s : Tables) (t : Nat × Nat)
    (ht : t ∈ tokens p.lens) (hlen : p.lens.getD t.1 0 = 1) (h : ∀ f, f < F → X t.1 f = 0) (hs : DocOk p s)
    (delta : Int) (r : Nat) : resample (withWeights p F X W) delta r t s = none := by
  have hz : ∀ j, j < p.K → bump2 s.ndk t.1 (s.z t.2) (-1) t.1 j = 0 := by
    intro j hj
    have hsum := docOk_sum p s hs t.1
    rw [hlen] at hsum
    have hnn : ∀ k, 0 ≤ s.ndk t.1 k := fun k => by rw [hs.ndk]; exact cnt_nonneg _ _ _
    have hk : 1 ≤ s.ndk t.1 (s.z t.2) := by
      rw [hs.ndk]; exact cnt_pos _ t ht _ _ (by simp)
    have hzl := hs.zlt t ht
    rw [bump2_at]
    have hmem := Finset.mem_range.mpr hzl
    have e := Finset.add_sum_erase (Finset.range p.K) (fun k => s.ndk t.1 k) hmem
    have hrest : 0 ≤ ∑ k ∈ (Finset.range p.K).erase (s.z t.2), s.ndk t.1 k := Finset.sum_nonneg (fun k _ => hnn k)
    by_cases hjz : j = s.z t.2
    · subst hjz
      simp only [and_self, if_true]
      push_cast at hsum
      omega
    · rw [if_neg (by tauto), add_zero]
      have h1 := Finset.single_le_sum (f := fun k => s.ndk t.1 k) (s := (Finset.range p.K).erase (s.z t.2))
        (fun k _ => hnn k) (Finset.mem_erase.mpr ⟨hjz, Finset.mem_range.mpr hj⟩)
      have := hnn j
      push_cast at hsum
      omega
  have hdist : ∀ nkv nk v, ∑ j ∈ Finset.range p.K,
      topicWeights (withWeights p F X W) (bump2 s.ndk t.1 (s.z t.2) (-1)) nkv nk t.1 v j = 0 := by
    intro nkv nk v
    apply Finset.sum_eq_zero
    intro j hj
    unfold topicWeights
    rw [hz j (Finset.mem_range.mp hj)]
    simp only [withWeights]
    rw [featureless_prior_zero F X W t.1 j h]
    simp
  have hchoose : ∀ nkv nk v, chooseTopic p.K
      (topicWeights (withWeights p F X W) (bump2 s.ndk t.1 (s.z t.2) (-1)) nkv nk t.1 v) r = some (-1) := by
    intro nkv nk v
    unfold chooseTopic
    rw [hdist, mul_zero]
    rcases p.K with _ | K <;> unfold chooseLoop <;> simp
  unfold resample
  simp only
  rw [show (withWeights p F X W).K = p.K from rfl, hchoose]
  rfl

/-- **C91 (partial)** Positive weights – such as the initial ones – give positive priors to every document which has
features, none of them negative.  Missing: weights as fitted, which can be negative. -/
theorem priors_positive_partial (F : Nat) (X W : Nat → Nat → ℚ) (d k : Nat) (hW : ∀ f, f < F → 0 < W k f)
    (hX : ∀ f, f < F → 0 ≤ X d f) (hne : ∃ f, f < F ∧ X d f ≠ 0) : 0 < alphas F X W d k := by
  unfold alphas
  obtain ⟨f, hf, hfx⟩ := hne
  apply Finset.sum_pos'
  · intro g hg
    exact mul_nonneg (hX g (Finset.mem_range.mp hg)) (hW g (Finset.mem_range.mp hg)).le
  · exact ⟨f, Finset.mem_range.mpr hf, mul_pos (lt_of_le_of_ne (hX f hf) (Ne.symm hfx)) (hW f hf)⟩

theorem initial_weights_positive (k f : Nat) : 0 < initialWeights k f := by norm_num [initialWeights]

/-- Before the first update of the weights the prior of a document is, for each topic, a twentieth of the sum of its features. -/
theorem initial_prior (F : Nat) (X : Nat → Nat → ℚ) (d k : Nat) :
    alphas F X initialWeights d k = (∑ f ∈ Finset.range F, X d f) / 20 := by
  simp only [alphas, initialWeights, Finset.sum_div]
  exact Finset.sum_congr rfl fun f _ => by ring

/-- **C91, violated** also with negative weights. -/
theorem negative_weight_negative_prior : alphas 1 (fun _ _ => 1) (fun _ _ => -1) 0 0 < 0 := by
  norm_num [alphas]

/-! ## Examples -/

/-- features: one of value 1 for each document -/
def exX : Nat → Nat → ℚ := fun _ _ => 1

def exOpt : List Sample → Nat → (Nat → Nat → ℚ) → Nat → Nat → ℚ := fun _ _ W => W

theorem exP_good : GoodWeights exP 1 exX initialWeights :=
  ⟨fun _ _ _ _ => priors_positive_partial 1 exX initialWeights _ _ (fun _ _ => initial_weights_positive _ _)
    (fun _ _ => by norm_num [exX]) ⟨0, by omega, by norm_num [exX]⟩, fun _ _ => by simp [withWeights, exP]⟩

def exRnd : Nat → Nat → Rand := fun _ _ => exRand 0

theorem exRnd_good (i j : Nat) : GoodRand exP (exRnd i j) := exP_rand 0 (by omega)

/-- two documents, the plan for 20 iterations by default: memory is corrupted -/
example : Dmr.train exP 1 exX (fun _ _ _ => initialWeights) (Dmr.newTrainPlan 20 (-1) (-1) (-1)) (fun n => n % 2)
    initialWeights exRnd = .ok (.error .outsideBuffer) :=
  ((training_inside_buffer_iff exP (by decide) 1 exX (fun _ _ _ => initialWeights) (Dmr.newTrainPlan 20 (-1) (-1) (-1)) _
    exP_topics exP_words initialWeights exP_good (fun _ _ _ => exP_good) exRnd exRnd_good (by decide) (by decide)).1).mpr
    (by decide)

/-- a plan with three rounds which stays inside, so that C60 is about something -/
theorem exTrain : ∃ l, Dmr.train exP 1 exX (fun _ _ _ => initialWeights) ⟨12, 0, 2, 4⟩ (fun n => n % 2)
    initialWeights exRnd = .ok (.ok l) :=
  ((training_inside_buffer_iff exP (by decide) 1 exX (fun _ _ _ => initialWeights) ⟨12, 0, 2, 4⟩ _
    exP_topics exP_words initialWeights exP_good (fun _ _ _ => exP_good) exRnd exRnd_good (by decide) (by decide)).2).mpr
    (.inr (by decide))

example : ∃ l used s, Dmr.train exP 1 exX (fun _ _ _ => initialWeights) ⟨12, 0, 2, 4⟩ (fun n => n % 2)
    initialWeights exRnd = .ok (.ok l) ∧ l.used[1]? = some used ∧ used[2]? = some (fun _ _ => 0) ∧
    l.taken[2]? = some s ∧ s ≠ fun _ _ => 0 := by
  obtain ⟨l, hl⟩ := exTrain
  obtain ⟨u, s, h⟩ := second_update_gets_zeros exP (by decide) 1 exX _ ⟨12, 0, 2, 4⟩ _ exP_topics _ _ l hl (by decide)
    (by decide) (by decide) 0 (by decide)
  exact ⟨l, u, s, hl, h⟩

example : queryRuns exP 1 exX (fun _ _ => 1 / 3) (fun _ _ => 1) ⟨3, 1, 1, 1⟩ (fun n => n % 2) initialWeights exRand exRand
    = true := by decide +kernel

/-- a document of one word and no features -/
example : resample (withWeights ⟨2, 2, [1], fun _ => 0, fun _ _ => 0, fun _ => 1⟩ 1 (fun _ _ => 0) initialWeights) 1 12345
    (0, 0) (sumSuffStats (fun _ => 0) [1] (zeroTables (fun _ => 1))) = none :=
  featureless_single_word_fails ⟨2, 2, [1], fun _ => 0, fun _ _ => 0, fun _ => 1⟩ 1 (fun _ _ => 0) initialWeights _ (0, 0)
    (by decide) (by decide) (fun _ _ => rfl)
    (init_ok ⟨2, 2, [1], fun _ => 0, fun _ _ => 0, fun _ => 1⟩ (fun _ => 1) (fun _ _ => (by decide : 1 < 2))).1 1 12345

end Verif.Props.Dmr
