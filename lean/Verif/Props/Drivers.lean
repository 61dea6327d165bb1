import Mathlib.Tactic.Ring
import Mathlib.Data.List.Basic
import Verif.Model.RunMain

/-!
# The cross-validation drivers (C32, C33)
-/

namespace Verif.Props.Drivers

open Verif Verif.RunMain

/-- the fold's training, querying and scoring succeed -/
def scored (outcome : Nat → Outcome) (k : Nat) : Bool :=
  match outcome k with
  | .failed => false
  | .scored .. => true

/-- the fold's scores and its model is saved -/
def savesOk (outcome : Nat → Outcome) (k : Nat) : Bool :=
  match outcome k with
  | .failed => false
  | .scored _ _ _ _ saveFails => !saveFails

/-- the scores of a fold (zero if there are none) -/
def scores (outcome : Nat → Outcome) (k : Nat) : ℚ × ℚ × ℚ × ℚ :=
  match outcome k with
  | .failed => (0, 0, 0, 0)
  | .scored a b c d _ => (a, b, c, d)

/-- the successful folds among the first `n` -/
def goodFolds (outcome : Nat → Outcome) (n : Nat) : List Nat := (List.range n).filter (scored outcome)

/-- The state is what the first `s.fold` folds make it. -/
def Correct (outcome : Nat → Outcome) (save : Bool) (s : LoopState) : Prop :=
  s.attempted = List.range s.fold ∧
  s.finished = (goodFolds outcome s.fold).length ∧
  s.trainLike = ((goodFolds outcome s.fold).map (fun k => (scores outcome k).1)).sum ∧
  s.trainCount = ((goodFolds outcome s.fold).map (fun k => (scores outcome k).2.1)).sum ∧
  s.queryLike = ((goodFolds outcome s.fold).map (fun k => (scores outcome k).2.2.1)).sum ∧
  s.queryCount = ((goodFolds outcome s.fold).map (fun k => (scores outcome k).2.2.2)).sum ∧
  s.saved = if save then (List.range s.fold).filter (savesOk outcome) else []

theorem round_correct (outcome : Nat → Outcome) (save : Bool) (s : LoopState)
    (h : Correct outcome save s) :
    Correct outcome save (perplexityRound outcome save s) ∧
      (perplexityRound outcome save s).fold = s.fold + 1 := by
  obtain ⟨h1, h2, h3, h4, h5, h6, h7⟩ := h
  unfold perplexityRound
  rcases ho : outcome s.fold with _ | ⟨a, b, c, d, sf⟩
  · have hg : goodFolds outcome (s.fold + 1) = goodFolds outcome s.fold := by
      unfold goodFolds
      rw [List.range_succ, List.filter_append]
      simp [scored, ho]
    refine ⟨⟨?_, ?_, ?_, ?_, ?_, ?_, ?_⟩, by simp only [ho]⟩ <;> simp only [ho]
    · rw [h1, List.range_succ]
    · rw [hg, h2]
    · rw [hg, h3]
    · rw [hg, h4]
    · rw [hg, h5]
    · rw [hg, h6]
    · rw [h7, List.range_succ, List.filter_append]
      simp [savesOk, ho]
  · have hg : goodFolds outcome (s.fold + 1) = goodFolds outcome s.fold ++ [s.fold] := by
      unfold goodFolds
      rw [List.range_succ, List.filter_append]
      simp [scored, ho]
    have hs : scores outcome s.fold = (a, b, c, d) := by unfold scores; rw [ho]
    have hrange : (List.range (s.fold + 1)).filter (savesOk outcome) =
        (List.range s.fold).filter (savesOk outcome) ++ if sf then [] else [s.fold] := by
      rw [List.range_succ, List.filter_append]
      cases sf <;> simp [savesOk, ho]
    by_cases hsv : save = true ∧ ¬ sf = true
    · have hsf : sf = false := by simpa using hsv.2
      refine ⟨⟨?_, ?_, ?_, ?_, ?_, ?_, ?_⟩, by simp only [ho, if_pos hsv]⟩ <;> simp only [ho, if_pos hsv]
      · rw [h1, List.range_succ]
      · rw [hg, h2]; simp
      · rw [hg, h3]; simp [hs]
      · rw [hg, h4]; simp [hs]
      · rw [hg, h5]; simp [hs]
      · rw [hg, h6]; simp [hs]
      · rw [h7, hrange]; simp [hsv.1, hsf]
    · refine ⟨⟨?_, ?_, ?_, ?_, ?_, ?_, ?_⟩, by simp only [ho, if_neg hsv]⟩ <;> simp only [ho, if_neg hsv]
      · rw [h1, List.range_succ]
      · rw [hg, h2]; simp
      · rw [hg, h3]; simp [hs]
      · rw [hg, h4]; simp [hs]
      · rw [hg, h5]; simp [hs]
      · rw [hg, h6]; simp [hs]
      · rw [h7, hrange]
        cases save <;> cases sf <;> simp_all

theorem goodFolds_mono (outcome : Nat → Outcome) {a b : Nat} (h : a ≤ b) :
    (goodFolds outcome a).length ≤ (goodFolds outcome b).length := by
  obtain ⟨c, rfl⟩ := Nat.exists_eq_add_of_le h
  unfold goodFolds
  rw [List.range_add, List.filter_append, List.length_append]
  omega

theorem goodFolds_succ (outcome : Nat → Outcome) (n : Nat) :
    (goodFolds outcome (n + 1)).length ≤ (goodFolds outcome n).length + 1 := by
  unfold goodFolds
  rw [List.range_succ, List.filter_append, List.length_append]
  have : ((List.filter (scored outcome) [n])).length ≤ 1 := by
    rw [List.filter_cons]; split <;> simp
  omega

theorem loop_correct (outcome : Nat → Outcome) (save : Bool) (numFolds r : Nat) (fuel : Nat) :
    ∀ s : LoopState, Correct outcome save s → s.fold ≤ numFolds → numFolds < fuel + s.fold →
      s.finished ≤ r →
      (∀ k, k < s.fold → (goodFolds outcome k).length < r) →
      ∃ t, foldLoop (perplexityRound outcome save) numFolds r fuel s = some t ∧
        Correct outcome save t ∧ t.fold ≤ numFolds ∧ t.finished ≤ r ∧
        (∀ k, k < t.fold → (goodFolds outcome k).length < r) ∧ (t.fold = numFolds ∨ t.finished = r) := by
  induction fuel with
  | zero => intro s _ h1 h2; omega
  | succ fuel ih =>
    intro s hs h1 h2 h3 h4
    unfold foldLoop
    by_cases hc : s.fold < numFolds ∧ s.finished < r
    · rw [if_pos hc]
      obtain ⟨hr, hf⟩ := round_correct outcome save s hs
      apply ih _ hr
      · rw [hf]; omega
      · rw [hf]; omega
      · have e1 := hs.2.1
        have e2 := hr.2.1
        rw [hf] at e2
        have := goodFolds_succ outcome s.fold
        omega
      · intro k hk
        rw [hf] at hk
        rcases Nat.lt_or_ge k s.fold with h | h
        · exact h4 k h
        · have : k = s.fold := by omega
          rw [this, ← hs.2.1]; exact hc.2
    · rw [if_neg hc]
      refine ⟨s, rfl, hs, h1, h3, h4, ?_⟩
      rw [not_and_or] at hc
      omega

/-- C32: for every pattern of failures the driver terminates; it has attempted the folds
`0, 1, …` in order, each once, up to the first point at which the requested number succeeded (or all of
them); exactly the folds whose training, querying and scoring succeeded are counted, at most as many as
requested, and the totals are the sums over these; a failure to save changes only the saved files. -/
theorem perplexity_driver (outcome : Nat → Outcome) (save : Bool) (numFolds : Nat) (runCount : Int) :
    ∃ s, crossValPerplexity outcome save numFolds runCount =
        some (s, if goodFolds outcome s.fold = [] then .error .zeroDivisionError else .ok ()) ∧
      s.attempted = List.range s.fold ∧ s.fold ≤ numFolds ∧
      s.finished = (goodFolds outcome s.fold).length ∧
      s.finished ≤ effectiveRuns numFolds runCount ∧
      (s.fold = numFolds ∨ s.finished = effectiveRuns numFolds runCount) ∧
      (∀ k, k < s.fold → (goodFolds outcome k).length < effectiveRuns numFolds runCount) ∧
      s.trainLike = ((goodFolds outcome s.fold).map (fun k => (scores outcome k).1)).sum ∧
      s.trainCount = ((goodFolds outcome s.fold).map (fun k => (scores outcome k).2.1)).sum ∧
      s.queryLike = ((goodFolds outcome s.fold).map (fun k => (scores outcome k).2.2.1)).sum ∧
      s.queryCount = ((goodFolds outcome s.fold).map (fun k => (scores outcome k).2.2.2)).sum ∧
      s.saved = if save then (List.range s.fold).filter (savesOk outcome) else [] := by
  have hinit : Correct outcome save .init := by
    refine ⟨rfl, rfl, rfl, rfl, rfl, rfl, ?_⟩
    cases save <;> rfl
  obtain ⟨t, e1, ⟨h1, h2, h3, h4, h5, h6, h7⟩, e3, e4, e5, e6⟩ :=
    loop_correct outcome save numFolds (effectiveRuns numFolds runCount) (numFolds + 1) .init hinit
      (Nat.zero_le _) (by change numFolds < numFolds + 1 + 0; omega) (Nat.zero_le _)
      (fun k hk => absurd hk (Nat.not_lt_zero k))
  refine ⟨t, ?_, h1, e3, h2, e4, e6, e5, h3, h4, h5, h6, h7⟩
  unfold crossValPerplexity
  rw [e1]
  change some (t, if t.finished = 0 then (.error .zeroDivisionError : Py Unit) else .ok ()) = _
  rw [h2]
  simp only [List.length_eq_zero_iff]

/-- C33, for the perplexity driver: once the requested number of folds has succeeded, no other fold is
attempted. -/
theorem perplexity_truncation_partial (outcome : Nat → Outcome) (save : Bool) (numFolds : Nat) (r : Nat)
    (hr : 0 < r) :
    ∃ s res, crossValPerplexity outcome save numFolds r = some (s, res) ∧
      ((s.attempted.filter (scored outcome)).length ≤ r) ∧
      (r ≤ (goodFolds outcome numFolds).length → (s.attempted.filter (scored outcome)).length = r ∧
        ∀ k, s.attempted.getLast? = some k → scored outcome k = true) := by
  obtain ⟨s, e1, e2, e3, e4, e5, e6, e7, _⟩ := perplexity_driver outcome save numFolds r
  have heff : effectiveRuns numFolds (r : Int) = r := by
    unfold effectiveRuns
    rw [if_neg (by omega)]
    exact Int.toNat_natCast r
  rw [heff] at e5 e6 e7
  have hl : (s.attempted.filter (scored outcome)).length = s.finished := by rw [e2, e4]; rfl
  refine ⟨s, _, e1, by omega, ?_⟩
  intro hgood
  have hfin : s.finished = r := by
    rcases e6 with h | h
    · rw [h] at e4; omega
    · exact h
  refine ⟨by omega, ?_⟩
  intro k hk
  rw [e2] at hk
  rcases hf : s.fold with _ | n
  · rw [hf] at hk; simp at hk
  · rw [hf, List.range_succ, List.getLast?_append] at hk
    have hkn : n = k := by simpa using hk
    subst hkn
    by_contra hno
    have h1 := e7 n (by omega)
    have h2 : (goodFolds outcome (n + 1)).length = (goodFolds outcome n).length := by
      unfold goodFolds
      rw [List.range_succ, List.filter_append]
      simp [hno]
    rw [hf] at e4
    omega

theorem hashtag_round (outcome : Nat → Outcome) (save : Bool) (s : LoopState) :
    (hashtagRound outcome save s).fold = s.fold + 1 ∧
    (hashtagRound outcome save s).finished = s.finished ∧
    (hashtagRound outcome save s).attempted = s.attempted ++ [s.fold] := by
  unfold hashtagRound
  rcases ho : outcome s.fold with _ | ⟨a, b, c, d, sf⟩
  · simp only [ho]; exact ⟨trivial, trivial, trivial⟩
  · by_cases hsv : save = true ∧ ¬ sf = true
    · simp only [ho, if_pos hsv]; exact ⟨trivial, trivial, trivial⟩
    · simp only [ho, if_neg hsv]; exact ⟨trivial, trivial, trivial⟩

theorem hashtag_loop (outcome : Nat → Outcome) (save : Bool) (numFolds r : Nat) (hr : 0 < r) (fuel : Nat) :
    ∀ s : LoopState, s.finished = 0 → s.fold ≤ numFolds → numFolds < fuel + s.fold →
      s.attempted = List.range s.fold →
      ∃ t, foldLoop (hashtagRound outcome save) numFolds r fuel s = some t ∧
        t.attempted = List.range numFolds := by
  induction fuel with
  | zero => intro s _ h1 h2; omega
  | succ fuel ih =>
    intro s hs h1 h2 h3
    obtain ⟨e1, e2, e3⟩ := hashtag_round outcome save s
    unfold foldLoop
    by_cases hc : s.fold < numFolds
    · rw [if_pos ⟨hc, by omega⟩]
      apply ih _ (by rw [e2, hs]) (by rw [e1]; omega) (by rw [e1]; omega)
      rw [e3, e1, h3, List.range_succ]
    · rw [if_neg (by omega)]
      refine ⟨s, rfl, ?_⟩
      rw [h3]; congr 1; omega

/-- C33, exact behaviour of the hashtag driver: every fold is attempted, whatever was requested. -/
theorem hashtag_ignores_truncation (outcome : Nat → Outcome) (save : Bool) (numFolds : Nat)
    (runCount : Int) (hn : 1 < numFolds) :
    ∃ s, crossValHashtag outcome save numFolds runCount = some (.ok s) ∧
      s.attempted = List.range numFolds := by
  have hr : 0 < effectiveRuns numFolds runCount := by
    unfold effectiveRuns; split <;> omega
  obtain ⟨t, e1, e2⟩ := hashtag_loop outcome save numFolds _ hr (numFolds + 1) .init rfl (Nat.zero_le _)
    (by change numFolds < numFolds + 1 + 0; omega) rfl
  refine ⟨t, ?_, e2⟩
  unfold crossValHashtag
  rw [if_neg (by omega), e1]
  rfl

/-- C33 is violated: one fold requested, all succeed, and three are run. -/
theorem hashtag_truncation_wrong :
    ∃ s, crossValHashtag (fun _ => .scored 0 0 0 0 false) false 3 1 = some (.ok s) ∧
      s.attempted = [0, 1, 2] :=
  hashtag_ignores_truncation _ false 3 1 (by decide)

theorem tag_go (outcome : Nat → Py Unit) (numFolds : Nat) (fs : List Nat) : ∀ done,
    (∀ f ∈ fs, f < numFolds) → (∀ f ∈ fs, outcome f = .ok ()) →
    crossValTag.go outcome numFolds done fs = (done ++ fs, .ok ()) := by
  induction fs with
  | nil => intro done _ _; simp [crossValTag.go]
  | cons f fs ih =>
    intro done h1 h2
    unfold crossValTag.go
    rw [if_neg (by have := h1 f (by simp); omega), h2 f (by simp)]
    simp only
    rw [ih _ (fun x hx => h1 x (by simp [hx])) (fun x hx => h2 x (by simp [hx]))]
    simp

theorem tag_prefix (outcome : Nat → Py Unit) (numFolds : Nat) (fs : List Nat) : ∀ done,
    ∃ l, l <+: fs ∧ (crossValTag.go outcome numFolds done fs).1 = done ++ l := by
  induction fs with
  | nil => intro done; exact ⟨[], List.nil_prefix, by simp [crossValTag.go]⟩
  | cons f fs ih =>
    intro done
    have h1 : [f] <+: f :: fs := ⟨fs, rfl⟩
    unfold crossValTag.go
    by_cases hf : numFolds ≤ f
    · rw [if_pos hf]; exact ⟨[f], h1, rfl⟩
    · rw [if_neg hf]
      rcases ho : outcome f with e | u
      · exact ⟨[f], h1, rfl⟩
      · obtain ⟨l, h2, h3⟩ := ih (done ++ [f])
        refine ⟨f :: l, ?_, ?_⟩
        · exact List.cons_prefix_cons.mpr ⟨rfl, h2⟩
        · simp only [h3]; simp

/-- C33, for the tag driver: it never runs more folds than requested, and runs exactly those when they succeed. -/
theorem tag_truncation_partial (outcome : Nat → Py Unit) (numFolds r : Nat) (hn : 1 < numFolds) :
    (crossValTag outcome numFolds (some r)).1 <+: List.range r ∧
    (r ≤ numFolds → (∀ f, f < r → outcome f = .ok ()) →
      crossValTag outcome numFolds (some r) = (List.range r, .ok ())) := by
  unfold crossValTag
  rw [if_neg (by omega)]
  simp only [Option.getD_some]
  refine ⟨?_, ?_⟩
  · obtain ⟨l, h1, h2⟩ := tag_prefix outcome numFolds (List.range r) []
    rw [h2]; simpa using h1
  · intro hr hok
    rw [tag_go outcome numFolds _ [] (fun f hf => by rw [List.mem_range] at hf; omega)
      (fun f hf => hok f (List.mem_range.mp hf))]
    simp

/-- The expected tags of the tag driver are the held-out words, at the same positions, with counts limited to one. -/
theorem clip_spec (m : Csr ℚ) (lo hi : ℚ) (h : lo ≤ hi) :
    (csrClip m lo hi).indices = m.indices ∧ (csrClip m lo hi).indptr = m.indptr ∧ (csrClip m lo hi).data.length = m.data.length ∧
    ∀ i (hi' : i < m.data.length), ∃ v, (csrClip m lo hi).data[i]? = some v ∧ lo ≤ v ∧ v ≤ hi ∧
      (lo ≤ m.data[i] → m.data[i] ≤ hi → v = m.data[i]) ∧ (hi ≤ m.data[i] → v = hi) ∧ (m.data[i] ≤ lo → v = lo) := by
  refine ⟨rfl, rfl, List.length_map _, fun i hi' => ⟨min (max m.data[i] lo) hi, ?_, ?_, min_le_right _ _, ?_, ?_, ?_⟩⟩
  · show (m.data.map fun v => min (max v lo) hi)[i]? = _
    rw [List.getElem?_map, List.getElem?_eq_getElem hi']
    rfl
  · exact le_min (le_max_right _ _) h
  · intro h1 h2
    rw [max_eq_left h1, min_eq_left h2]
  · intro h1
    rw [max_eq_left (h.trans h1), min_eq_right h1]
  · intro h1
    rw [max_eq_right h1, min_eq_left h]

example : (csrClip ⟨1, 3, [0, 2], [0, 2], [3, 1]⟩ 0 1).data = [1, 1] := by decide +kernel

/-- Four folds, two requested, the second one fails and saving the third fails: folds 0, 1, 2 are
attempted, two are counted, and one model is saved. -/
example : ∃ s, crossValPerplexity (fun k => if k = 1 then .failed else .scored (-k - 1) 10 (-2) 5 (k = 2))
      true 4 2 = some (s, .ok ()) ∧ s.attempted = [0, 1, 2] ∧ s.finished = 2 ∧ s.trainLike = -4 ∧
      s.queryCount = 10 ∧ s.saved = [0] := by
  refine ⟨_, rfl, rfl, rfl, ?_, ?_, rfl⟩
  · decide +kernel
  · decide +kernel

end Verif.Props.Drivers
