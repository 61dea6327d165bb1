import Verif.Props.Dmr
import Verif.Props.GibbsRuns
import Verif.Model.DmrWeights

/-!
# Dirichlet-multinomial regression and the posterior

With the weights fixed, the topics are sampled from the posterior under the priors `X·W`.  The weights are fitted for the priors
`exp(X·W)`, which are different for all weights.
-/

namespace Verif.Props.DmrPosterior

open Verif Verif.Gibbs Verif.Dmr Verif.Props.Gibbs Verif.Props.GibbsPosterior Verif.Props.GibbsRuns Verif.Props.Dmr

/-- Sampling into a buffer that is large enough yields the states of sampling. -/
theorem sample_state (p : Params) (isQuery : Bool) (n thin : Nat) (rnd : Nat → Rand) (st : State) (buf : Buffer) (hfit : n / thin ≤ buf.size) :
    (∃ r, Dmr.sample p isQuery n thin rnd st buf = .ok r ∧ Gibbs.sample p isQuery n thin rnd st = some r.1 ∧ r.2.1.size = buf.size) ∨
    ((∃ e, Dmr.sample p isQuery n thin rnd st buf = .error e) ∧ Gibbs.sample p isQuery n thin rnd st = none) := by
  rcases hs : Gibbs.sample p isQuery n thin rnd st with _ | s
  · right
    rcases hd : Dmr.sample p isQuery n thin rnd st buf with e | r
    · exact ⟨⟨e, rfl⟩, rfl⟩
    · have := (sample_ok p isQuery thin rnd st buf n r hd).run
      rw [hs] at this
      cases this
  · left
    rcases sample_fault_iff p isQuery thin rnd st buf n (by rw [hs]; rfl) with ⟨_, r, hr⟩ | ⟨hlt, _⟩
    · have h := sample_ok p isQuery thin rnd st buf n r hr
      exact ⟨r, hr, by rw [← hs]; exact h.run, h.size⟩
    · omega

/-- The value of `G` if training succeeds -/
def value (G : Loop → ℚ) : Py (Except Fault Loop) → ℚ
  | .ok (.ok l) => G l
  | _ => 0

/-- The average of `G` after training in one round, over all random numbers -/
def trainAverage (p : Params) (F : Nat) (X : Nat → Nat → ℚ) (opt : List Sample → Nat → (Nat → Nat → ℚ) → Nat → Nat → ℚ)
    (plan : Dmr.Plan) (W : Nat → Nat → ℚ) (starts1 starts2 : Nat → Nat → Nat) (f : Assign p) (G : Loop → ℚ) : ℚ :=
  averageRuns p.lens.sum starts1 plan.burnIn fun rnd1 => averageRuns p.lens.sum starts2 plan.wui fun rnd2 =>
    value G (Dmr.train p F X opt plan (ext p f) W (fun i => if i = 0 then rnd1 else rnd2))

/-- A plan with one round, whose samples fit into the buffer -/
structure OneRound (plan : Dmr.Plan) : Prop where
  burnIn : plan.burnIn ≤ plan.iterations
  one : rounds (plan.iterations - plan.burnIn) plan.wui = 1
  fits : plan.wui / plan.thin ≤ (plan.iterations - plan.burnIn) / plan.thin
  thin : 1 ≤ plan.thin
  samples : plan.thin ≤ plan.wui

theorem train_one_round (p : Params) (F : Nat) (X : Nat → Nat → ℚ) (opt : List Sample → Nat → (Nat → Nat → ℚ) → Nat → Nat → ℚ)
    (plan : Dmr.Plan) (h : OneRound plan) (W : Nat → Nat → ℚ) (z : Nat → Nat) (rnd1 rnd2 : Nat → Rand) (G : State → ℚ) :
    value (fun l => G l.st) (Dmr.train p F X opt plan z W (fun i => if i = 0 then rnd1 else rnd2))
      = outcome (fun s => outcome G (Gibbs.sample (withWeights p F X W) false plan.wui plan.thin rnd2 s))
        (Gibbs.sample (withWeights p F X W) false plan.burnIn (plan.burnIn + 1) rnd1
          ⟨sumSuffStats p.w p.lens (zeroTables z), fun _ _ => 0, fun _ _ => 0, 0⟩) := by
  unfold Dmr.train
  rw [if_neg (by have := h.burnIn; omega)]
  simp only [h.one, bind, Except.bind, if_true]
  rcases sample_state (withWeights p F X W) false plan.burnIn (plan.burnIn + 1) rnd1
      ⟨sumSuffStats p.w p.lens (zeroTables z), fun _ _ => 0, fun _ _ => 0, 0⟩ (Buffer.zeros ((plan.iterations - plan.burnIn) / plan.thin))
      (by rw [Nat.div_eq_of_lt (by omega)]; exact Nat.zero_le _) with ⟨r, hr, hs, hsize⟩ | ⟨⟨e, he⟩, hs⟩
  · rw [hr, hs]
    simp only [outcome, List.range_one, List.foldlM_cons, List.foldlM_nil, bind, Except.bind, pure, Except.pure]
    unfold Dmr.round
    rcases sample_state (withWeights p F X W) false plan.wui plan.thin rnd2 r.1 r.2.1 (by rw [hsize]; exact h.fits) with
      ⟨r', hr', hs', _⟩ | ⟨⟨e, he⟩, hs'⟩
    · simp [hr', hs', Except.map, value]
    · simp [he, hs', Except.map, value]
  · rw [he, hs]
    rfl

/-- C209: in training with one round, averaged over all random numbers, the topic estimates are the posterior means under the priors
`X·W` of the weights it starts from, up to an error that vanishes geometrically with the length of the burn-in. -/
theorem one_round_estimates_partial (p : Params) (F : Nat) (X W : Nat → Nat → ℚ) (hW : GoodWeights p F X W) (hw : ValidWords p) (hK0 : 0 < p.K)
    (hK : p.K ≤ 256) (hT : 0 < p.T) :
    ∃ ρ : ℚ, 0 ≤ ρ ∧ ρ < 1 ∧ ∀ (opt : List Sample → Nat → (Nat → Nat → ℚ) → Nat → Nat → ℚ) (plan : Dmr.Plan) (starts1 starts2 : Nat → Nat → Nat)
      (f : Assign p), OneRound plan → ∀ d k, d < p.lens.length → k < p.K →
        |trainAverage p F X opt plan W starts1 starts2 f (fun l => topicEstimate d k l.st)
          - posteriorMean p (fun f => joint (withWeights p F X W) (ext p f)) (fun f => topicMean (withWeights p F X W) d k (ext p f))|
          ≤ ρ ^ plan.burnIn + p.lens.sum * p.K / (randMax * (1 - ρ)) := by
  obtain ⟨ρ, h0, h1, h⟩ := training_estimates (withWeights p F X W) hW hw hK0 hK hT
  refine ⟨ρ, h0, h1, ?_⟩
  intro opt plan starts1 starts2 f hplan d k hd hk
  have hb := hplan.burnIn
  obtain ⟨f', hf'⟩ : ∃ f' : Assign (withWeights p F X W), f' = f := ⟨f, rfl⟩
  have := (h ⟨plan.burnIn + plan.wui, plan.burnIn, plan.thin⟩ starts1 starts2 f' hplan.thin
    (by simp only [Nat.add_sub_cancel_left]; exact hplan.samples)).1 d k hd hk
  rw [GibbsRuns.trainAverage_eq] at this
  refine le_trans (le_of_eq ?_) this
  subst hf'
  congr 2
  unfold trainAverage sampleAverage
  simp only [Nat.add_sub_cancel_left]
  congr 1
  funext rnd1
  rw [← averageRuns_outcome]
  congr 1
  funext rnd2
  exact train_one_round p F X opt plan hplan W (ext p f') rnd1 rnd2 (topicEstimate d k)

/-- The priors with which topics are sampled, as real numbers -/
noncomputable def sampled (F : Nat) (X W : Nat → Nat → ℚ) (d k : Nat) : ℝ := ((alphas F X W d k : ℚ) : ℝ)

/-- C209, violated for all features and weights: the priors with which topics are sampled are smaller than those for which the weights
are fitted. -/
theorem sampled_below_fitted (q : DmrWeights.Problem) (X W : Nat → Nat → ℚ) (hX : q.X = fun d f => ((X d f : ℚ) : ℝ)) (d k : Nat) :
    sampled q.F X W d k + 1 ≤ DmrWeights.priors q (fun k f => ((W k f : ℚ) : ℝ)) k (fun f => ((W k f : ℚ) : ℝ)) d k := by
  unfold sampled DmrWeights.priors alphas
  rw [if_pos rfl, hX]
  push_cast
  exact Real.add_one_le_exp _

/-! ## Examples -/

theorem exPlan : OneRound ⟨13, 3, 2, 10⟩ := ⟨by decide, by decide, by decide, by decide, by decide⟩

/-- two documents, ten sweeps after a burn-in of three, and the initial weights -/
example : ∃ ρ : ℚ, 0 ≤ ρ ∧ ρ < 1 ∧
    |trainAverage exP 1 Dmr.exX exOpt ⟨13, 3, 2, 10⟩ initialWeights (fun _ _ => 0) (fun _ _ => 1) exF (fun l => topicEstimate 0 1 l.st)
      - posteriorMean exP (fun f => joint (withWeights exP 1 Dmr.exX initialWeights) (ext exP f))
        (fun f => topicMean (withWeights exP 1 Dmr.exX initialWeights) 0 1 (ext exP f))|
      ≤ ρ ^ 3 + exP.lens.sum * exP.K / (randMax * (1 - ρ)) := by
  obtain ⟨ρ, h0, h1, h⟩ := one_round_estimates_partial exP 1 Dmr.exX initialWeights exP_good exP_words (by decide) (by decide) (by decide)
  exact ⟨ρ, h0, h1, h exOpt ⟨13, 3, 2, 10⟩ _ _ exF exPlan 0 1 (by decide) (by decide)⟩

/-- one document, one feature, weights zero: the fitted prior is 1, the sampled one 0 -/
example : sampled 1 (fun _ _ => 1) (fun _ _ => 0) 0 0 + 1
    ≤ DmrWeights.priors ⟨1, 2, 1, fun _ _ => ((1 : ℚ) : ℝ), 1, fun _ _ _ => 1, 1, 1⟩ (fun _ _ => ((0 : ℚ) : ℝ)) 0 (fun _ => ((0 : ℚ) : ℝ)) 0 0 :=
  sampled_below_fitted ⟨1, 2, 1, fun _ _ => ((1 : ℚ) : ℝ), 1, fun _ _ _ => 1, 1, 1⟩ (fun _ _ => 1) (fun _ _ => 0) rfl 0 0

end Verif.Props.DmrPosterior
