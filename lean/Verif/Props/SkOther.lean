import Mathlib.Algebra.BigOperators.Group.Finset.Basic
import Mathlib.Data.List.MinMax
import Mathlib.Tactic.IntervalCases
import Verif.Model.SkOther

/-!
# The arguments of the wrapped models, and the dictionary for gensim (C289, C290, C291)
-/

namespace Verif.Props.SkOther

open Verif Verif.SkOther

variable {V : Type}

/-! ## Parameters that are reported (C289) -/

/-- The parameters of the constructor that a new object has as attributes -/
def kept : Wrapped → List String
  | .lda => ["n_components", "doc_topic_prior", "topic_word_prior", "default_scoring_method"]
  | .hdp => ["default_scoring_method"]

theorem construct_lda (given : String → V) (apply : String → V → V) (lit dflt : String → V) :
    ∃ obj, construct .lda true given apply lit dflt = .ok obj := ⟨_, rfl⟩

theorem construct_hdp (batch : Bool) (given : String → V) (apply : String → V → V) (lit dflt : String → V) :
    ∃ obj, construct .hdp batch given apply lit dflt = .ok obj := by
  cases batch <;> exact ⟨_, rfl⟩

/-- **C289**: of the parameters of the constructor a new object has exactly `kept` as attributes, with the values given. -/
theorem kept_iff_partial (c : Wrapped) (batch : Bool) (given : String → V) (apply : String → V → V) (lit dflt : String → V)
    (obj : String → Option V) (h : construct c batch given apply lit dflt = .ok obj) (name : String) (hn : name ∈ c.args) :
    (name ∈ kept c → obj name = some (given name)) ∧ (name ∉ kept c → obj name = none) := by
  cases c with
  | lda =>
    cases batch with
    | true =>
      cases h
      simp only [Wrapped.args, ldaArgs, List.mem_cons, List.not_mem_nil, or_false] at hn
      rcases hn with rfl | rfl | rfl | rfl | rfl | rfl | rfl | rfl | rfl | rfl | rfl | rfl | rfl | rfl | rfl | rfl | rfl | rfl | rfl <;>
        exact ⟨fun h => by first | rfl | exact absurd h (by decide), fun h => by first | rfl | exact absurd (by decide) h⟩
    | false => cases h
  | hdp =>
    cases batch <;>
    · cases h
      simp only [Wrapped.args, hdpArgs, List.mem_cons, List.not_mem_nil, or_false] at hn
      rcases hn with rfl | rfl | rfl | rfl | rfl | rfl | rfl | rfl | rfl | rfl | rfl | rfl | rfl | rfl | rfl | rfl | rfl | rfl | rfl | rfl | rfl <;>
        exact ⟨fun h => by first | rfl | exact absurd h (by decide), fun h => by first | rfl | exact absurd (by decide) h⟩

theorem mapM_missing {α β : Type} (f : α → Py β) (e : PyErr) (he : ∀ a, f a = .error e ∨ ∃ b, f a = .ok b) : ∀ (l : List α) (a : α),
    a ∈ l → f a = .error e → l.mapM f = .error e := by
  intro l
  induction l with
  | nil => exact fun a ha => absurd ha (by simp)
  | cons x l ih =>
    intro a ha hfa
    rw [List.mapM_cons]
    rcases he x with hx | ⟨b, hx⟩
    · rw [hx]
      rfl
    · rw [hx]
      rcases List.mem_cons.mp ha with rfl | ha'
      · rw [hfa] at hx
        cases hx
      · have := ih a ha' hfa
        simp only [bind, Except.bind]
        rw [this]

/-- **C289** is violated: no wrapped model can report its parameters, so it cannot be cloned either. -/
theorem get_params_violation (c : Wrapped) (batch : Bool) (given : String → V) (apply : String → V → V) (lit dflt : String → V)
    (obj : String → Option V) (h : construct c batch given apply lit dflt = .ok obj) : getParams c obj = .error .attributeError := by
  unfold getParams
  have hn : "iterations" ∈ c.args := by cases c <;> decide
  have hk : "iterations" ∉ kept c := by cases c <;> decide
  have := (kept_iff_partial c batch given apply lit dflt obj h "iterations" hn).2 hk
  refine mapM_missing _ .attributeError (fun a => ?_) c.args "iterations" hn (by rw [this])
  cases obj a with
  | none => exact .inl rfl
  | some v => exact .inr ⟨_, rfl⟩

/-! ## Arguments that have an effect (C290) -/

/-- The arguments that have an effect, for constructors that succeed; `batch` says whether `batchSize == 0`. -/
def used : Wrapped → Bool → List String
  | .lda, _ => ["n_components", "doc_topic_prior", "topic_word_prior", "iterations", "seed", "debug", "perp_tolerance", "default_scoring_method"]
  | .hdp, true => ["dictionary", "n_components", "iterations", "expected_corpus_size", "forgetting_rate", "rate_delay", "seed", "default_scoring_method"]
  | .hdp, false => ["dictionary", "n_components", "iterations", "batchSize", "forgetting_rate", "rate_delay", "seed", "default_scoring_method"]

theorem lookup_mem {α : Type} (name : String) (a : α) : ∀ l : List (String × α), l.lookup name = some a → (name, a) ∈ l := by
  intro l
  induction l with
  | nil => intro h; cases h
  | cons p l ih =>
    obtain ⟨n, b⟩ := p
    intro h
    rw [List.lookup_cons] at h
    split at h
    · next he =>
      cases h
      rw [eq_of_beq he]
      exact List.mem_cons_self
    · exact List.mem_cons_of_mem _ (ih h)

/-- **C290**: objects made with arguments that agree on those in `used` are the same. -/
theorem same_of_used (c : Wrapped) (batch : Bool) (hb : c = .lda → batch = true) (given given' : String → V) (apply : String → V → V) (lit dflt : String → V)
    (h : ∀ name ∈ used c batch, given name = given' name) :
    construct c batch given apply lit dflt = construct c batch given' apply lit dflt := by
  have hd : given "default_scoring_method" = given' "default_scoring_method" := h _ (by cases c <;> cases batch <;> decide)
  have he : ∀ p ∈ c.call batch, p.2.eval given apply lit = p.2.eval given' apply lit := by
    cases c with
    | lda =>
      obtain rfl := hb rfl
      simp only [used, List.mem_cons, List.not_mem_nil, or_false, forall_eq_or_imp, forall_eq] at h
      obtain ⟨h1, h2, h3, h4, h5, h6, h7, h8⟩ := h
      simp [Wrapped.call, ldaBatch, Source.eval, h1, h2, h3, h4, h5, h6, h7]
    | hdp =>
      cases batch <;>
      · simp only [used, List.mem_cons, List.not_mem_nil, or_false, forall_eq_or_imp, forall_eq] at h
        obtain ⟨h1, h2, h3, h4, h5, h6, h7, h8⟩ := h
        simp [Wrapped.call, hdpCall, Source.eval, h1, h2, h3, h4, h5, h6, h7]
  unfold construct
  split
  · rfl
  · congr 1
    funext name
    rw [hd]
    cases hl : (c.call batch).lookup name with
    | none => rfl
    | some s =>
      have := he _ (lookup_mem name s _ hl)
      simp only at this
      simp only [this]

/-- **C290** is violated by the wrapped HDP: the priors over topics and words have no effect. -/
theorem hdp_prior_violation (batch : Bool) (given given' : String → V) (apply : String → V → V) (lit dflt : String → V)
    (h : ∀ name, name ≠ "doc_topic_prior" → name ≠ "topic_word_prior" → given name = given' name) :
    construct .hdp batch given apply lit dflt = construct .hdp batch given' apply lit dflt := by
  refine same_of_used .hdp batch (by simp) given given' apply lit dflt (fun name hn => h name ?_ ?_)
  · rintro rfl
    cases batch <;> exact absurd hn (by decide)
  · rintro rfl
    cases batch <;> exact absurd hn (by decide)

/-- **C290** for the wrapped LDA of scikit-learn: the priors, the number of topics and of iterations, and the tolerance are passed on.
Missing: the wrapped HDP, whose own parameters keep their defaults, and mini-batches, which the constructor refuses. -/
theorem lda_passes_partial (given : String → V) (apply : String → V → V) (lit dflt : String → V) (obj : String → Option V)
    (h : construct .lda true given apply lit dflt = .ok obj) :
    obj "doc_topic_prior" = some (given "doc_topic_prior") ∧ obj "topic_word_prior" = some (given "topic_word_prior")
      ∧ obj "n_components" = some (given "n_components") ∧ obj "max_iter" = some (given "iterations")
      ∧ obj "perp_tol" = some (given "perp_tolerance") ∧ obj "random_state" = some (apply "RandomState" (given "seed"))
      ∧ obj "verbose" = some (apply "int" (given "debug")) ∧ obj "learning_method" = some (lit "batch") := by
  cases h
  exact ⟨rfl, rfl, rfl, rfl, rfl, rfl, rfl, rfl⟩

/-- **C290**: what the wrapped HDP passes on; the parameters `alpha`, `gamma` and `eta` of its priors keep their defaults. -/
theorem hdp_passes (batch : Bool) (given : String → V) (apply : String → V → V) (lit dflt : String → V) (obj : String → Option V)
    (h : construct .hdp batch given apply lit dflt = .ok obj) :
    obj "alpha" = some (dflt "alpha") ∧ obj "gamma" = some (dflt "gamma") ∧ obj "eta" = some (dflt "eta")
      ∧ obj "T" = some (given "n_components") ∧ obj "K" = some (given "n_components") ∧ obj "max_chunks" = some (given "iterations")
      ∧ obj "id2word" = some (given "dictionary") ∧ obj "kappa" = some (given "forgetting_rate") ∧ obj "tau" = some (given "rate_delay")
      ∧ obj "random_state" = some (apply "RandomState" (given "seed"))
      ∧ obj "chunksize" = some (given (if batch then "expected_corpus_size" else "batchSize")) := by
  cases batch <;>
  · cases h
    exact ⟨rfl, rfl, rfl, rfl, rfl, rfl, rfl, rfl, rfl, rfl, rfl⟩

/-- **C290**: the wrapped LDA refuses mini-batches. -/
theorem lda_online_refused (given : String → V) (apply : String → V → V) (lit dflt : String → V) :
    construct .lda false given apply lit dflt = .error .typeError := rfl

/-! ## The dictionary for gensim (C291) -/

/-- `m` is one more than the greatest word that occurs, or zero if none does. -/
def TopWord (D T : Nat) (words : Nat → Nat → Nat) (m : Nat) : Prop :=
  (∀ d < D, ∀ w < T, words d w ≠ 0 → w < m) ∧ (m = 0 ∨ ∃ d < D, m - 1 < T ∧ words d (m - 1) ≠ 0)

theorem mem_docFreqs (D T : Nat) (words : Nat → Nat → Nat) (p : Nat × Nat) :
    p ∈ (docFreqs D T words).flatten ↔ ∃ d < D, p.1 < T ∧ words d p.1 ≠ 0 ∧ p.2 = words d p.1 := by
  unfold docFreqs
  simp only [List.mem_flatten, List.mem_map, List.mem_range]
  constructor
  · rintro ⟨l, ⟨d, hd, rfl⟩, hp⟩
    obtain ⟨w, hw, rfl⟩ := List.mem_map.mp hp
    rw [List.mem_filter, List.mem_range] at hw
    exact ⟨d, hd, hw.1, by simpa using hw.2, rfl⟩
  · rintro ⟨d, hd, ht, hw, hp⟩
    refine ⟨_, ⟨d, hd, rfl⟩, List.mem_map.mpr ⟨p.1, ?_, ?_⟩⟩
    · rw [List.mem_filter, List.mem_range]
      exact ⟨ht, by simpa using hw⟩
    · rw [← hp]

theorem foldl_max_spec (l : List Nat) : ∀ a, a ≤ l.foldl max a ∧ (∀ x ∈ l, x ≤ l.foldl max a) ∧ (l.foldl max a = a ∨ l.foldl max a ∈ l) := by
  induction l with
  | nil => intro a; simp
  | cons x l ih =>
    intro a
    obtain ⟨h1, h2, h3⟩ := ih (max a x)
    rw [List.foldl_cons]
    refine ⟨le_trans (le_max_left _ _) h1, fun y hy => ?_, ?_⟩
    · rcases List.mem_cons.mp hy with rfl | hy'
      · exact le_trans (le_max_right _ _) h1
      · exact h2 y hy'
    · rcases h3 with h3 | h3
      · rw [h3]
        rcases le_total a x with h | h
        · right
          rw [max_eq_right h]
          exact List.mem_cons_self
        · left
          exact max_eq_left h
      · exact .inr (List.mem_cons_of_mem _ h3)

/-- **C291**: the tokens are the numbers up to the greatest word that occurs. -/
theorem dictionary_tokens (D T : Nat) (words : Nat → Nat → Nat) :
    ∃ m, TopWord D T words m ∧ (gensimDictionary D T words).token2id = (List.range m).map (fun i => (toString i, i)) := by
  refine ⟨_, ?_, rfl⟩
  obtain ⟨-, h2, h3⟩ := foldl_max_spec ((docFreqs D T words).flatten.map (fun p => p.1 + 1)) 0
  refine ⟨fun d hd w hw hne => ?_, ?_⟩
  · have : (w, words d w) ∈ (docFreqs D T words).flatten := (mem_docFreqs D T words _).mpr ⟨d, hd, hw, hne, rfl⟩
    exact h2 (w + 1) (List.mem_map.mpr ⟨_, this, rfl⟩)
  · rcases h3 with h3 | h3
    · exact .inl h3
    · right
      obtain ⟨p, hp, he⟩ := List.mem_map.mp h3
      obtain ⟨d, hd, ht, hne, -⟩ := (mem_docFreqs D T words p).mp hp
      refine ⟨d, hd, ?_, ?_⟩ <;> rw [← he, Nat.add_sub_cancel] <;> assumption

/-- **C291** for corpora in which the last word of the vocabulary occurs: there is one token for each word, numbered as in the word
matrix; otherwise there are fewer.  Missing: the names of the tokens. -/
theorem dictionary_complete_partial (D T : Nat) (words : Nat → Nat → Nat) (hT : 0 < T) :
    ((gensimDictionary D T words).token2id.map Prod.snd = List.range T ↔ ∃ d < D, words d (T - 1) ≠ 0)
      ∧ (gensimDictionary D T words).token2id.length ≤ T := by
  obtain ⟨m, ⟨h1, h2⟩, he⟩ := dictionary_tokens D T words
  have hm : m ≤ T := by
    rcases h2 with rfl | ⟨d, hd, hlt, -⟩
    · omega
    · omega
  rw [he]
  refine ⟨?_, by simpa using hm⟩
  rw [List.map_map, show (Prod.snd ∘ fun i : Nat => (toString i, i)) = id from rfl, List.map_id]
  constructor
  · intro h
    have : m = T := by simpa using congrArg List.length h
    subst this
    rcases h2 with rfl | ⟨d, hd, -, hne⟩
    · omega
    · exact ⟨d, hd, hne⟩
  · rintro ⟨d, hd, hne⟩
    have := h1 d hd (T - 1) (by omega) hne
    rw [show m = T by omega]

/-- **C291** is violated: if the last words of the vocabulary do not occur in the dataset, the dictionary does not have them. -/
theorem dictionary_short_violation (D T : Nat) (words : Nat → Nat → Nat) (hT : 0 < T) (h : ∀ d < D, words d (T - 1) = 0) :
    (gensimDictionary D T words).token2id.length < T ∧ T - 1 ∉ (gensimDictionary D T words).token2id.map Prod.snd := by
  obtain ⟨m, ⟨h1, h2⟩, he⟩ := dictionary_tokens D T words
  have hm : m < T := by
    rcases h2 with rfl | ⟨d, hd, hlt, hne⟩
    · exact hT
    · by_contra hge
      have : m - 1 = T - 1 := by omega
      rw [this] at hne
      exact hne (h d hd)
  rw [he]
  refine ⟨by simpa using hm, ?_⟩
  rw [List.map_map, show (Prod.snd ∘ fun i : Nat => (toString i, i)) = id from rfl, List.map_id, List.mem_range]
  omega

/-- **C291** is violated: no token has the name that the documentation promises. -/
theorem dictionary_names_violation (D T : Nat) (words : Nat → Nat → Nat) (i : Nat) :
    ("word-" ++ toString i, i) ∉ (gensimDictionary D T words).token2id := by
  obtain ⟨m, -, he⟩ := dictionary_tokens D T words
  rw [he]
  intro h
  obtain ⟨j, -, hj⟩ := List.mem_map.mp h
  rw [Prod.mk.injEq] at hj
  obtain ⟨h1, rfl⟩ := hj
  have := congrArg String.length h1
  rw [String.length_append] at this
  have h5 : "word-".length = 5 := rfl
  omega

/-- **C291**: the numbers of documents and words, and in how many documents each word occurs. -/
theorem dictionary_counts (D T : Nat) (words : Nat → Nat → Nat) :
    (gensimDictionary D T words).numDocs = D
      ∧ (∀ w < T, (gensimDictionary D T words).dfs w = ((Finset.range D).filter (fun d => words d w ≠ 0)).card)
      ∧ (gensimDictionary D T words).numPos = ∑ d ∈ Finset.range D, ∑ w ∈ Finset.range T, words d w := by
  refine ⟨by simp [gensimDictionary, fromCorpus, docFreqs], fun w hw => ?_, ?_⟩
  · show ((docFreqs D T words).filter _).length = _
    unfold docFreqs
    rw [List.filter_map, List.length_map]
    rw [show (Finset.range D).filter (fun d => words d w ≠ 0) = ((List.range D).filter (fun d => words d w ≠ 0)).toFinset by
      ext d
      simp]
    rw [List.toFinset_card_of_nodup (List.nodup_range.filter _)]
    congr 1
    refine List.filter_congr (fun d _ => ?_)
    by_cases h : words d w = 0
    · simp [Function.comp_def, h]
      intro x _ hne hx
      subst hx
      exact hne h
    · simp [Function.comp_def, h, hw]
  · show ((docFreqs D T words).flatten.map Prod.snd).sum = _
    unfold docFreqs
    induction D with
    | zero => rfl
    | succ D ih =>
      rw [List.range_succ, List.map_append, List.flatten_append, List.map_append, List.sum_append, ih, Finset.sum_range_succ]
      congr 1
      simp only [List.map_cons, List.map_nil, List.flatten_cons, List.flatten_nil, List.append_nil, List.map_map]
      clear ih
      induction T with
      | zero => rfl
      | succ T ih =>
        rw [List.range_succ, List.filter_append, List.map_append, List.sum_append, ih, Finset.sum_range_succ]
        congr 1
        by_cases h : words D T = 0
        · simp [h]
        · simp [h]

/-! ## Examples -/

example : ∃ obj, construct .lda true (fun n => n) (fun f v => f ++ v) (fun s => s) (fun _ => "default") = .ok obj
    ∧ obj "n_components" = some "n_components" ∧ obj "iterations" = none ∧ obj "max_iter" = some "iterations" ∧ obj "n_jobs" = some "default"
    ∧ getParams .lda obj = .error .attributeError :=
  ⟨_, rfl, rfl, rfl, rfl, rfl, get_params_violation .lda true (fun n => n) (fun f v => f ++ v) (fun s => s) (fun _ => "default") _ rfl⟩

/-- Arguments that differ in the prior over topics -/
example : construct .hdp true (fun n => if n = "doc_topic_prior" then 1 else 0) (fun _ v => v) (fun _ => 7) (fun _ => 9)
    = construct .hdp true (fun n => if n = "doc_topic_prior" then 2 else (0 : Nat)) (fun _ v => v) (fun _ => 7) (fun _ => 9) :=
  hdp_prior_violation true _ _ _ _ _ (fun name h _ => by simp [h])

example : "iterations" ∈ Wrapped.lda.args ∧ "iterations" ∉ kept .lda := by decide

/-- Two documents, three words of which the last does not occur -/
def exWords : Nat → Nat → Nat := fun d w => if d = 0 ∧ w = 0 then 2 else if d = 1 ∧ w < 2 then 1 else 0

example : (gensimDictionary 2 3 exWords).token2id = [("0", 0), ("1", 1)] ∧ (gensimDictionary 2 3 exWords).dfs 0 = 2
    ∧ (gensimDictionary 2 3 exWords).numPos = 4 := by decide +kernel

example : (gensimDictionary 2 3 exWords).token2id.length < 3 :=
  (dictionary_short_violation 2 3 exWords (by decide) (by decide)).1

example : (gensimDictionary 2 2 exWords).token2id.map Prod.snd = List.range 2 :=
  (dictionary_complete_partial 2 2 exWords (by decide)).1.mpr ⟨1, by decide, by decide⟩

end Verif.Props.SkOther
