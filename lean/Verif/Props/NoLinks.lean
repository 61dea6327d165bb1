import Verif.Props.RtmLearn

/-!
# Documents without links (C320)
-/

namespace Verif.Props.NoLinks

open Verif Verif.Rtm Verif.RtmLearn
open Verif.Mom (Data)

/-- The words, topics and prior are the same; the weights of the links may differ. -/
structure SameTopics (s s' : State) : Prop where
  word : s.word = s'.word
  means : s.means = s'.means
  prior : s.prior = s'.prior

/-- The same corpus without links, with any two link functions -/
structure Unlinked (e e' : Env) : Prop where
  psi : e.psi = e'.psi
  K : e.K = e'.K
  v : e.v = e'.v
  x : e.x = e'.x
  logFrequency : e.logFrequency = e'.logFrequency
  none : ∀ d, e.links d = []
  none' : ∀ d, e'.links d = []

theorem score_none (e : Env) (d : Nat) (h : e.links d = []) (word0 : Nat → Nat → ℝ) (s : State) (t k : Nat) :
    score e word0 s d t k
      = e.psi (word0 k t) - e.psi (∑ t' ∈ Finset.range e.x.T, word0 k t') + e.psi (s.prior k + (e.x.len d : ℝ) * s.means d k) := by
  unfold score linkScore
  rw [h]
  simp

/-- **C320**: the topics of the words of a document without links depend on the words, its own topics and the prior alone, not on the weights of the
links or the topics of other documents. -/
theorem topics_without_links (e e' : Env) (hpsi : e.psi = e'.psi) (hK : e.K = e'.K) (hx : e.x = e'.x) (d : Nat) (h : e.links d = []) (h' : e'.links d = [])
    (word0 : Nat → Nat → ℝ) (s s' : State) (hm : s.means d = s'.means d) (hp : s.prior = s'.prior) :
    inferTopics e word0 s d = inferTopics e' word0 s' d := by
  have hs : ∀ t, score e word0 s d t = score e' word0 s' d t := by
    intro t
    funext k
    rw [score_none e d h, score_none e' d h', hpsi, hx, hm, hp]
  funext t k
  unfold inferTopics
  rw [hs t, hK]

theorem visit_same {e e' : Env} (h : Unlinked e e') (word0 : Nat → Nat → ℝ) (d : Nat) {s s' : State} (hs : SameTopics s s') :
    SameTopics (visit e word0 s d) (visit e' word0 s' d) := by
  have hz := topics_without_links e e' h.psi h.K h.x d (h.none d) (h.none' d) word0 s s' (by rw [hs.means]) hs.prior
  refine ⟨?_, ?_, hs.prior⟩
  · show (fun k t => s.word k t + _ * _) = fun k t => s'.word k t + _ * _
    rw [hz, hs.word, h.x]
  · show (fun d' k => if d' = d ∧ k < e.K then _ else s.means d' k) = fun d' k => if d' = d ∧ k < e'.K then _ else s'.means d' k
    rw [hz, hs.means, h.x, h.K]

theorem sweep_same {e e' : Env} (h : Unlinked e e') {s s' : State} (hs : SameTopics s s') : SameTopics (sweep e s) (sweep e' s') := by
  unfold sweep
  rw [hs.word, h.x, h.v]
  have : ∀ (l : List Nat) (a a' : State), SameTopics a a' → SameTopics (l.foldl (visit e s'.word) a) (l.foldl (visit e' s'.word) a') := by
    intro l
    induction l with
    | nil => exact fun a a' ha => ha
    | cons d l ih => exact fun a a' ha => ih _ _ (visit_same h s'.word d ha)
  exact this _ _ _ ⟨rfl, hs.means, hs.prior⟩

theorem measured_same {e e' : Env} (h : Unlinked e e') {s s' : State} (hs : SameTopics s s') : SameTopics (measured e s) (measured e' s') := by
  refine ⟨hs.word, ?_, hs.prior⟩
  unfold measured
  simp only
  rw [hs.means, hs.prior, h.K, h.v, h.x]

theorem hyper_same {e e' : Env} (h : Unlinked e e') (rho reg rho' reg' : ℝ) (conv conv' : Nat → State → Bool) (itr : Nat) {s s' : State} (hs : SameTopics s s') :
    SameTopics (hyperUpdate e (learn e rho reg conv) itr s) (hyperUpdate e' (learn e' rho' reg' conv') itr s') := by
  unfold hyperUpdate
  split
  · refine ⟨hs.word, hs.means, ?_⟩
    show (fun k => if k = e.K then 0 else priorUpdate e.psi e.K e.x s k) = fun k => if k = e'.K then 0 else priorUpdate e'.psi e'.K e'.x s' k
    unfold priorUpdate
    rw [h.K, h.psi, h.x, hs.means, hs.prior]
  · exact hs

/-- Two outcomes agree: both are the same exception or states with the same topics. -/
def SameOutcome : Py State → Py State → Prop
  | .error a, .error b => a = b
  | .ok s, .ok s' => SameTopics s s'
  | _, _ => False

theorem loop_same {e e' : Env} (h : Unlinked e e') (rho reg rho' reg' : ℝ) (conv conv' : Nat → State → Bool)
    (hc : ∀ itr s s', SameTopics s s' → conv itr s = conv' itr s') (n : Nat) : ∀ (itr : Nat) (s s' : State), SameTopics s s' →
    SameOutcome (loop e (learn e rho reg conv) n itr s) (loop e' (learn e' rho' reg' conv') n itr s') := by
  induction n with
  | zero => exact fun _ _ _ hs => hs
  | succ n ih =>
    intro itr s s' hs
    have h1 := sweep_same h hs
    unfold loop iteration
    simp only [learn]
    obtain ⟨w, hw⟩ : ∃ w, w = inferWeights e rho reg (sweep e s) := ⟨_, rfl⟩
    obtain ⟨w', hw'⟩ : ∃ w, w = inferWeights e' rho' reg' (sweep e' s') := ⟨_, rfl⟩
    rw [← hw, ← hw']
    have h2 : SameTopics { sweep e s with weights := w } { sweep e' s' with weights := w' } := ⟨h1.word, h1.means, h1.prior⟩
    revert h2
    generalize ({ sweep e s with weights := w } : State) = a
    generalize ({ sweep e' s' with weights := w' } : State) = a'
    intro h2
    have h4 := measured_same h h2
    have h6 := hc itr _ _ h4
    rw [h.logFrequency]
    by_cases h0 : e'.logFrequency = 0
    · rw [if_pos h0, if_pos h0]
      rfl
    · rw [if_neg h0, if_neg h0]
      by_cases h3 : itr % e'.logFrequency = 0
      · rw [if_pos h3, if_pos h3]
        by_cases h5 : conv' itr (measured e' a') = true
        · simp only [h6.trans h5, h5, if_true]
          exact h4
        · have h7 := Bool.eq_false_of_not_eq_true h5
          simp only [h6.trans h7, h7, Bool.false_eq_true, if_false]
          exact ih _ _ _ (hyper_same h rho reg rho' reg' conv conv' itr h4)
      · rw [if_neg h3, if_neg h3]
        exact ih _ _ _ (hyper_same h rho reg rho' reg' conv conv' itr h2)

/-- **C320**: without links the words, topics and priors that the relational model learns depend neither on the link function nor on the weights of the
links that it starts from, the number of invented negative examples and the strength of the regularisation. -/
theorem train_without_links {e e' : Env} (h : Unlinked e e') (rho reg rho' reg' : ℝ) (conv conv' : Nat → State → Bool)
    (hc : ∀ itr s s', SameTopics s s' → conv itr s = conv' itr s') (n : Nat) (s s' : State) (hs : SameTopics s s') :
    SameOutcome (train e (learn e rho reg conv) n s) (train e' (learn e' rho' reg' conv') n s') := by
  unfold train
  rw [h.x]
  split
  · rfl
  · have h0 : SameTopics { s with means := VbPython.toMeans ⟨e.K, s.prior, e.v⟩ e'.x s.means }
        { s' with means := VbPython.toMeans ⟨e'.K, s'.prior, e'.v⟩ e'.x s'.means } := by
      refine ⟨hs.word, ?_, hs.prior⟩
      show VbPython.toMeans ⟨e.K, s.prior, e.v⟩ e'.x s.means = VbPython.toMeans ⟨e'.K, s'.prior, e'.v⟩ e'.x s'.means
      rw [h.K, h.v, hs.prior, hs.means]
    have h1 := loop_same h rho reg rho' reg' conv conv' hc n 0 _ _ h0
    revert h1
    generalize loop e (learn e rho reg conv) n 0 _ = a
    generalize loop e' (learn e' rho' reg' conv') n 0 _ = b
    intro h1
    rcases a with a | a <;> rcases b with b | b
    · exact h1
    · exact h1.elim
    · exact h1.elim
    · refine ⟨h1.word, ?_, h1.prior⟩
      show VbPython.toDirichlet ⟨e.K, a.prior, e.v⟩ e'.x a.means = VbPython.toDirichlet ⟨e'.K, b.prior, e'.v⟩ e'.x b.means
      rw [h.K, h.v, h1.prior, h1.means]

/-- **C320**: nor does the bound that is reported, from which it is decided when training ends. -/
theorem bound_without_links {e e' : Env} (h : Unlinked e e') (s s' : State) (hs : SameTopics s s') : varBound e s = varBound e' s' := by
  have ht : ∀ d, tokenTerm e s d = tokenTerm e' s' d := by
    intro d
    have hb : boundTopics e s d = boundTopics e' s' d := by
      show inferTopics e s.word _ d = inferTopics e' s'.word _ d
      rw [hs.word]
      refine topics_without_links e e' h.psi h.K h.x d (h.none d) (h.none' d) _ _ _ ?_ hs.prior
      show VbPython.toMeans ⟨e.K, s.prior, e.v⟩ e.x s.means d = VbPython.toMeans ⟨e'.K, s'.prior, e'.v⟩ e'.x s'.means d
      rw [h.K, h.v, h.x, hs.prior, hs.means]
    unfold tokenTerm
    rw [hb, h.psi, h.K, h.x, hs.means, hs.word]
  have hl : ∀ (e : Env), (∀ d, e.links d = []) → ∀ m w, linkTerm e m w = 0 := by
    intro e h0 m w
    unfold linkTerm pairs
    have : (List.range e.x.D).flatMap (fun d => (linksUpTo d (e.links d)).map fun j => (d, j)) = [] := by
      rw [List.flatMap_eq_nil_iff]
      intro d _
      rw [h0 d]
      rfl
    rw [this]
    rfl
  unfold varBound
  simp only [hl e h.none, hl e' h.none', ht]
  rw [h.psi, h.K, h.v, h.x, hs.prior, hs.means, hs.word]

/-! ## Examples -/

/-- Two documents without links, with a link function -/
noncomputable def exE (pdf cdf : ℝ → ℝ) : Env := ⟨id, pdf, cdf, 2, 1 / 10, ⟨2, 2, fun d t => d + t + 1⟩, fun _ => [], 1⟩

theorem exU (pdf cdf pdf' cdf' : ℝ → ℝ) : Unlinked (exE pdf cdf) (exE pdf' cdf') := ⟨rfl, rfl, rfl, rfl, rfl, fun _ => rfl, fun _ => rfl⟩

/-- A starting point, with weights of the links -/
noncomputable def exS (w : Nat → ℝ) : State := ⟨fun k t => k + t + 1, fun d k => d + k + 1, w, fun _ => 1⟩

example (w w' : Nat → ℝ) (pdf cdf pdf' cdf' : ℝ → ℝ) : SameOutcome
    (train (exE pdf cdf) (learn (exE pdf cdf) 10 1 fun _ _ => false) 7 (exS w))
    (train (exE pdf' cdf') (learn (exE pdf' cdf') 0 5 fun _ _ => false) 7 (exS w')) :=
  train_without_links (exU pdf cdf pdf' cdf') 10 1 0 5 (fun _ _ => false) (fun _ _ => false) (fun _ _ _ _ => rfl) 7 (exS w) (exS w') ⟨rfl, rfl, rfl⟩

/-- Stopping by the bound is covered. -/
example (e e' : Env) (h : Unlinked e e') (stop : Nat → ℝ → Bool) (itr : Nat) (s s' : State) (hs : SameTopics s s') :
    stop itr (varBound e s) = stop itr (varBound e' s') := by rw [bound_without_links h s s' hs]

/-- With a link the weights do matter. -/
example : ∃ s s' : State, SameTopics s s' ∧ linkScore ⟨id, fun _ => 1, fun _ => 1, 1, 1, ⟨2, 1, fun _ _ => 1⟩, fun d => [1 - d], 1⟩ s 0 0
    ≠ linkScore ⟨id, fun _ => 1, fun _ => 1, 1, 1, ⟨2, 1, fun _ _ => 1⟩, fun d => [1 - d], 1⟩ s' 0 0 := by
  refine ⟨⟨fun _ _ => 1, fun _ _ => 1, fun _ => 1, fun _ => 1⟩, ⟨fun _ _ => 1, fun _ _ => 1, fun _ => 0, fun _ => 1⟩, ⟨rfl, rfl, rfl⟩, ?_⟩
  unfold linkScore
  norm_num [Mom.Data.len]

end Verif.Props.NoLinks
