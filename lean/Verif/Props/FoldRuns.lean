import Verif.Model.FoldRuns
import Verif.Props.Drivers

/-!
# Which folds an evaluation runs (C312, C313)
-/

namespace Verif.Props.FoldRuns

open Verif Verif.RunMain Verif.FoldRuns Verif.Props.Drivers

theorem runAll_ok (outcome : Nat → Py Unit) (fs : List Nat) : ∀ done, (∀ f ∈ fs, outcome f = .ok ()) →
    runAll outcome done fs = (done ++ fs, .ok ()) := by
  induction fs with
  | nil => intro done _; simp [runAll]
  | cons f fs ih =>
    intro done h
    unfold runAll
    rw [h f (by simp)]
    simp only
    rw [ih _ (fun g hg => h g (by simp [hg]))]
    simp

theorem runAll_append (outcome : Nat → Py Unit) (fs gs : List Nat) : ∀ done, (∀ f ∈ fs, outcome f = .ok ()) →
    runAll outcome done (fs ++ gs) = runAll outcome (done ++ fs) gs := by
  induction fs with
  | nil => intro done _; simp
  | cons f fs ih =>
    intro done h
    rw [List.cons_append]
    rw [runAll, h f (by simp)]
    simp only
    rw [ih _ (fun g hg => h g (by simp [hg]))]
    simp

theorem final_ok (l : List Nat) (h : l ≠ []) : final (l, .ok ()) = (l, .ok ()) := by
  simp [final, h]

theorem range_ne {n : Nat} (h : 1 ≤ n) : List.range n ≠ [] := by
  intro h'
  have := congrArg List.length h'
  simp at this
  omega

/-- The loop of the evaluation in the training documents, when no fold fails -/
theorem inSample_ok (outcome : Nat → Py Unit) (truncate : Int) (fs : List Nat) : ∀ count done, (∀ f ∈ fs, outcome f = .ok ()) →
    inSampleLoop outcome truncate count done fs =
      (done ++ if (count : Int) < truncate then fs.take (truncate - count).toNat else fs, .ok ()) := by
  induction fs with
  | nil => intro count done _; simp [inSampleLoop]
  | cons f fs ih =>
    intro count done h
    unfold inSampleLoop
    rw [h f (by simp)]
    simp only
    by_cases hc : ((count + 1 : Nat) : Int) = truncate
    · rw [if_pos hc, if_pos (by omega), show (truncate - count).toNat = 1 by omega]
      simp
    · rw [if_neg hc, ih _ _ (fun g hg => h g (by simp [hg]))]
      by_cases hl : (count : Int) < truncate
      · rw [if_pos hl, if_pos (by omega), show (truncate - count).toNat = (truncate - ((count + 1 : Nat) : Int)).toNat + 1 by omega]
        simp
      · rw [if_neg hl, if_neg (by omega)]
        simp

/-- The outcome of a fold for the perplexity -/
theorem scored_all (outcome : Nat → Py Unit) (n : Nat) (h : ∀ f < n, outcome f = .ok ()) :
    goodFolds (toOutcome outcome) n = List.range n := by
  unfold goodFolds
  rw [List.filter_eq_self]
  intro f hf
  unfold scored toOutcome
  rw [h f (List.mem_range.1 hf)]

/-- The perplexity, when no fold fails -/
theorem perplexity_ok (outcome : Nat → Py Unit) (n : Nat) (truncate : Int) (hn : 2 ≤ n) (h : ∀ f < n, outcome f = .ok ()) :
    perplexityRun outcome n truncate = some (List.range (if truncate < 1 then n else min truncate.toNat n), .ok ()) := by
  unfold perplexityRun
  rw [if_neg (by omega)]
  obtain ⟨s, e1, e2, e3, e4, e5, e6, e7, -⟩ := perplexity_driver (toOutcome outcome) false n truncate
  rw [e1]
  have hg := scored_all outcome s.fold (fun f hf => h f (by omega))
  rw [hg, List.length_range] at e4
  rw [hg]
  have hf : s.fold = if truncate < 1 then n else min truncate.toNat n := by
    unfold effectiveRuns at e5 e6
    split at e5 <;> split <;> simp_all <;> omega
  have hp : 1 ≤ s.fold := by
    rw [hf]
    split <;> omega
  rw [if_neg (range_ne hp)]
  simp only [Option.map_some, e2, hf]

/-- **C312, violated.** With the default of `--truncate-folds`, the evaluations of tags and hashtags, and of the precision and recall of
links, run no fold at all, and end with an `AttributeError`, whatever the data and the model. -/
theorem default_violated (outcome : Nat → Py Unit) (folds : Nat) (h : 2 ≤ folds) :
    run .tags outcome folds (-1) = some ([], .error .attributeError) ∧
    run .hashtags outcome folds (-1) = some ([], .error .attributeError) ∧
    run .linksPrecRec outcome folds (-1) = some ([], .error .attributeError) ∧ truncateDefault = -1 := by
  have h1 : tagsRun outcome folds (-1) = ([], .error .attributeError) := by
    unfold tagsRun
    rw [if_neg (by omega)]
    rfl
  refine ⟨?_, ?_, ?_, rfl⟩
  · rw [run, h1]
  · unfold run hashtagsRun
    rw [h1]
    rfl
  · unfold run linksPrecRecRun
    rw [if_neg (by omega)]
    rfl

/-- **C312, the part that holds.** The perplexity, the average precision of links and the evaluation in the training documents run every
fold once and in order without truncation. -/
theorem default_partial (outcome : Nat → Py Unit) (folds : Nat) (h : 2 ≤ folds) (hok : ∀ f < folds, outcome f = .ok ()) :
    run .perplexity outcome folds (-1) = some (List.range folds, .ok ()) ∧
    run .linksMap outcome folds (-1) = some (List.range folds, .ok ()) ∧
    run .linksInSample outcome folds (-1) = some (List.range folds, .ok ()) := by
  refine ⟨?_, ?_, ?_⟩
  · rw [run, perplexity_ok outcome folds (-1) h hok, if_pos (by omega)]
  · unfold run linksMapRun
    rw [if_neg (by omega), runAll_ok outcome _ [] (fun f hf => hok f (List.mem_range.1 hf))]
    rfl
  · unfold run linksInSampleRun
    rw [if_neg (by omega), inSample_ok outcome _ _ 0 [] (fun f hf => hok f (List.mem_range.1 hf)), if_neg (by omega), List.nil_append,
      final_ok _ (range_ne (by omega))]

/-- With a single fold, which is the default of `--folds`, only the perplexity can be evaluated. -/
theorem one_fold (outcome : Nat → Py Unit) (truncate : Int) :
    run .perplexity outcome 1 truncate = some ([0], outcome 0) ∧
    ∀ eval, eval ≠ .perplexity → run eval outcome 1 truncate = some ([], .error .assertionError) := by
  refine ⟨rfl, fun eval h => ?_⟩
  cases eval
  · exact absurd rfl h
  all_goals rfl

/-- **C313, the part that holds.** Truncated to `r` folds, the perplexity and the evaluation in the training documents run the first `r`
folds, or all of them if there are not as many; so do the evaluations of tags, and of precision and recall of links, if there are as
many. -/
theorem truncated_partial (outcome : Nat → Py Unit) (folds r : Nat) (h : 2 ≤ folds) (hr : 1 ≤ r) (hok : ∀ f < folds, outcome f = .ok ()) :
    run .perplexity outcome folds r = some (List.range (min r folds), .ok ()) ∧
    run .linksInSample outcome folds r = some (List.range (min r folds), .ok ()) ∧
    (r ≤ folds → run .tags outcome folds r = some (List.range r, .ok ()) ∧ run .linksPrecRec outcome folds r = some (List.range r, .ok ())) := by
  refine ⟨?_, ?_, fun hl => ⟨?_, ?_⟩⟩
  · rw [run, perplexity_ok outcome folds r h hok, if_neg (by omega), Int.toNat_natCast]
  · unfold run linksInSampleRun
    rw [if_neg (by omega), inSample_ok outcome _ _ 0 [] (fun f hf => hok f (List.mem_range.1 hf)), if_pos (by omega), List.nil_append,
      show ((r : Int) - ((0 : Nat) : Int)).toNat = r by omega, List.take_range, final_ok _ (range_ne (by omega))]
  · unfold run tagsRun
    rw [if_neg (by omega), runAll_ok _ _ [] (fun f hf => by
      have hf' : f < r := by simpa using hf
      rw [if_neg (by omega)]
      exact hok f (by omega)), List.nil_append, Int.toNat_natCast, final_ok _ (range_ne hr)]
  · unfold run linksPrecRecRun
    rw [if_neg (by omega), runAll_ok _ _ [] (fun f hf => by
      have hf' : f < r := by simpa using hf
      exact hok f (by omega)), List.nil_append, Int.toNat_natCast, final_ok _ (range_ne hr)]

/-- **C313, violated.** Truncated to more folds than there are, the evaluation of precision and recall of links runs more folds than
there are, and the evaluation of tags fails after the last one without its final results.  The average precision of links runs all
folds always, and so does the second part of the evaluation of hashtags. -/
theorem truncated_violated (outcome : Nat → Py Unit) (folds r : Nat) (h : 2 ≤ folds) (hr : 1 ≤ r) (hok : ∀ f, outcome f = .ok ()) :
    (folds < r → run .linksPrecRec outcome folds r = some (List.range r, .ok ()) ∧
      run .tags outcome folds r = some (List.range (folds + 1), .error .assertionError)) ∧
    run .linksMap outcome folds r = some (List.range folds, .ok ()) ∧
    (r ≤ folds → run .hashtags outcome folds r = some (List.range folds, .ok ())) := by
  refine ⟨fun hl => ⟨?_, ?_⟩, ?_, fun hl => ?_⟩
  · unfold run linksPrecRecRun
    rw [if_neg (by omega), runAll_ok _ _ [] (fun f _ => hok f), List.nil_append, Int.toNat_natCast, final_ok _ (range_ne hr)]
  · unfold run tagsRun
    obtain ⟨k, rfl⟩ := Nat.exists_eq_add_of_lt hl
    rw [if_neg (by omega), Int.toNat_natCast, show folds + k + 1 = folds + (1 + k) by omega, List.range_add, runAll_append _ _ _ [] (fun f hf => by
      rw [if_neg (by have := List.mem_range.1 hf; omega)]
      exact hok f), show 1 + k = k + 1 by omega, List.range_succ_eq_map, List.map_cons]
    rw [runAll, if_pos (by omega), List.nil_append]
    show some (final (List.range folds ++ [folds + 0], .error .assertionError)) = _
    rw [List.range_succ]
    rfl
  · unfold run linksMapRun
    rw [if_neg (by omega), runAll_ok outcome _ [] (fun f _ => hok f)]
    rfl
  · have h1 := (truncated_partial outcome folds r h hr (fun f _ => hok f)).2.2 hl
    obtain ⟨s, h2, h3⟩ := hashtag_ignores_truncation (toOutcome outcome) false folds r (by omega)
    have h4 : tagsRun outcome folds r = (List.range r, .ok ()) := Option.some.inj h1.1
    unfold run hashtagsRun
    rw [h4]
    simp only
    rw [h2]
    simp only [Option.map_some, h3]
    rw [if_neg (range_ne (by omega))]

/-- Five folds, of which two are asked for: nothing else is run by the perplexity, all are run for the average precision of links. -/
example : run .perplexity (fun _ => .ok ()) 5 2 = some ([0, 1], .ok ()) ∧ run .linksMap (fun _ => .ok ()) 5 2 = some ([0, 1, 2, 3, 4], .ok ()) :=
  ⟨(truncated_partial (fun _ => .ok ()) 5 2 (by decide) (by decide) (fun _ _ => rfl)).1,
    (truncated_violated (fun _ => .ok ()) 5 2 (by decide) (by decide) (fun _ => rfl)).2.1⟩

example : run .tags (fun _ => .ok ()) 2 3 = some ([0, 1, 2], .error .assertionError) ∧ run .linksPrecRec (fun _ => .ok ()) 2 3 = some ([0, 1, 2], .ok ()) :=
  ⟨((truncated_violated (fun _ => .ok ()) 2 3 (by decide) (by decide) (fun _ => rfl)).1 (by decide)).2,
    ((truncated_violated (fun _ => .ok ()) 2 3 (by decide) (by decide) (fun _ => rfl)).1 (by decide)).1⟩

end Verif.Props.FoldRuns
