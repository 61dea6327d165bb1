import Verif.Props.GibbsPosterior

/-!
# Averages over the random numbers of the Gibbs sampler
-/

namespace Verif.Props.GibbsRuns

open Verif Verif.Gibbs Verif.Props.Gibbs Verif.Props.GibbsPosterior
open Verif.GibbsChain (runBy Kernel)

/-! ## Averages over random numbers -/

/-- The average over all numbers `rand()` can return except zero (with which the sampler writes outside its tables, see C54) -/
def average (h : Nat → ℚ) : ℚ := (∑ r ∈ Finset.Icc 1 randMax, h r) / randMax

/-- The average over all random numbers for the tokens at the positions given -/
def averageDraws : List Nat → ((Nat → Nat) → ℚ) → ℚ
  | [], H => H (fun _ => 1)
  | n :: ns, H => average fun r => averageDraws ns fun dr => H (Function.update dr n r)

/-- The average over all random numbers for the tokens in the sweeps before `n`, with given starting points in the documents -/
def averageRuns (N : Nat) (starts : Nat → Nat → Nat) : Nat → ((Nat → Rand) → ℚ) → ℚ
  | 0, H => H (fun i => ⟨starts i, fun _ => 1⟩)
  | n + 1, H => averageRuns N starts n fun rnd => averageDraws (List.range N) fun dr => H (Function.update rnd n ⟨starts n, dr⟩)

/-- The value of `G` if there is a result -/
def outcome {α : Type} (G : α → ℚ) : Option α → ℚ
  | none => 0
  | some x => G x

theorem outcome_bind {α β : Type} (G : β → ℚ) (o : Option α) (g : α → Option β) :
    outcome G (o.bind g) = outcome (fun x => outcome G (g x)) o := by
  cases o <;> rfl

theorem randMax_pos : (0 : ℚ) < randMax := by unfold randMax; norm_num

theorem average_const (c : ℚ) : average (fun _ => c) = c := by
  unfold average
  rw [Finset.sum_const, Nat.card_Icc, Nat.add_sub_cancel, nsmul_eq_mul, mul_div_assoc, mul_comm, div_mul_cancel₀ _ randMax_pos.ne']

theorem average_comm (h : Nat → Nat → ℚ) : average (fun r => average (h r)) = average (fun r => average fun r' => h r' r) := by
  unfold average
  rw [← Finset.sum_div, ← Finset.sum_div, Finset.sum_comm]

theorem averageDraws_const (l : List Nat) (c : ℚ) : averageDraws l (fun _ => c) = c := by
  induction l with
  | nil => rfl
  | cons n l ih => simp only [averageDraws, ih, average_const]

theorem averageDraws_outcome {α : Type} (l : List Nat) (o : Option α) (H : α → (Nat → Nat) → ℚ) :
    averageDraws l (fun dr => outcome (fun x => H x dr) o) = outcome (fun x => averageDraws l (H x)) o := by
  cases o with
  | none => exact averageDraws_const l 0
  | some x => rfl

theorem averageRuns_const (N : Nat) (starts : Nat → Nat → Nat) (n : Nat) (c : ℚ) : averageRuns N starts n (fun _ => c) = c := by
  induction n with
  | zero => rfl
  | succ n ih => simp only [averageRuns, averageDraws_const, ih]

theorem averageRuns_outcome {α : Type} (N : Nat) (starts : Nat → Nat → Nat) (n : Nat) (o : Option α) (H : α → (Nat → Rand) → ℚ) :
    averageRuns N starts n (fun rnd => outcome (fun x => H x rnd) o) = outcome (fun x => averageRuns N starts n (H x)) o := by
  cases o with
  | none => exact averageRuns_const N starts n 0
  | some x => rfl

theorem averageDraws_perm (l l' : List Nat) (h : l.Perm l') : l.Nodup → ∀ H, averageDraws l H = averageDraws l' H := by
  induction h with
  | nil => exact fun _ _ => rfl
  | cons n h ih =>
    intro hnd H
    have := (List.nodup_cons.1 hnd).2
    simp only [averageDraws, ih this]
  | swap n m l =>
    intro hnd H
    have hne : m ≠ n := by
      intro h
      subst h
      simp at hnd
    show average (fun r => average fun r' => averageDraws l fun dr => H (Function.update (Function.update dr n r') m r))
      = average (fun r => average fun r' => averageDraws l fun dr => H (Function.update (Function.update dr m r') n r))
    rw [average_comm]
    simp only [Function.update_comm hne]
  | trans h1 h2 ih1 ih2 =>
    intro hnd H
    rw [ih1 hnd, ih2 ((h1.nodup_iff).1 hnd)]

/-! ## One token -/

/-- The share of the random numbers that choose topic `k` for token `t` -/
def share (p : Params) (delta : Int) (s : Tables) (t : Nat × Nat) (k : Nat) : ℚ :=
  ((Finset.Icc 1 randMax).filter fun r => chooseTopic p.K (weights p delta s t) r = some (k : Int)).card / randMax

theorem chosen (p : Params) (delta : Int) (s : Tables) (t : Nat × Nat) (hK : 0 < p.K) (hpos : ∀ k, k < p.K → 0 < weights p delta s t k)
    (r : Nat) (hr : r ∈ Finset.Icc 1 randMax) : ∃ k : Nat, k < p.K ∧ chooseTopic p.K (weights p delta s t) r = some (k : Int) := by
  obtain ⟨h1, h2⟩ := Finset.mem_Icc.1 hr
  obtain ⟨k, hk, h, _⟩ := chosen_topic_valid_partial p.K (weights p delta s t)
    (Finset.sum_pos (fun j hj => hpos j (Finset.mem_range.1 hj)) ⟨0, Finset.mem_range.2 hK⟩) r h1 h2
  exact ⟨k, hk, h⟩

theorem split_choice (p : Params) (delta : Int) (s : Tables) (t : Nat × Nat) (hK : 0 < p.K)
    (hpos : ∀ k, k < p.K → 0 < weights p delta s t k) (G : Nat → ℚ) (h : Nat → ℚ)
    (hG : ∀ r ∈ Finset.Icc 1 randMax, ∀ k, k < p.K → chooseTopic p.K (weights p delta s t) r = some (k : Int) → h r = G k) :
    average h = ∑ k ∈ Finset.range p.K, share p delta s t k * G k := by
  have h1 : ∀ r ∈ Finset.Icc 1 randMax, h r
      = ∑ k ∈ Finset.range p.K, if chooseTopic p.K (weights p delta s t) r = some (k : Int) then G k else 0 := by
    intro r hr
    obtain ⟨k, hk, hc⟩ := chosen p delta s t hK hpos r hr
    rw [hG r hr k hk hc, hc]
    have : ∀ j : Nat, (some (k : Int) = some (j : Int)) ↔ k = j := fun j => by simp
    simp only [this]
    rw [Finset.sum_ite_eq, if_pos (Finset.mem_range.2 hk)]
  unfold average
  rw [Finset.sum_congr rfl h1, Finset.sum_comm, Finset.sum_div]
  refine Finset.sum_congr rfl fun k _ => ?_
  rw [← Finset.sum_filter, Finset.sum_const, nsmul_eq_mul]
  unfold share
  ring

/-- C202: averaged over the random numbers, the new tables are those of the topics in the shares in which the topics are chosen. -/
theorem token_average (p : Params) (hK0 : 0 < p.K) (hK : p.K ≤ 256) (delta : Int) (s : Tables) (t : Nat × Nat)
    (hpos : ∀ k, k < p.K → 0 < weights p delta s t k) (F : Tables → ℚ) :
    average (fun r => outcome F (resample p delta r t s)) = ∑ k ∈ Finset.range p.K, share p delta s t k * F (moved p delta s t k) := by
  refine split_choice p delta s t hK0 hpos (fun k => F (moved p delta s t k)) _ ?_
  intro r _ k hk hc
  rw [(resample_moves p hK delta r t s k hk).2 hc]
  rfl

theorem share_sum (p : Params) (hK0 : 0 < p.K) (delta : Int) (s : Tables) (t : Nat × Nat)
    (hpos : ∀ k, k < p.K → 0 < weights p delta s t k) : ∑ k ∈ Finset.range p.K, share p delta s t k = 1 := by
  have := split_choice p delta s t hK0 hpos (fun _ => 1) (fun _ => 1) (fun _ _ _ _ _ => rfl)
  rw [average_const] at this
  simpa using this.symm

theorem share_nonneg (p : Params) (delta : Int) (s : Tables) (t : Nat × Nat) (k : Nat) : 0 ≤ share p delta s t k :=
  div_nonneg (Nat.cast_nonneg _) randMax_pos.le

/-- The shares are the chances, up to one in `RAND_MAX`. -/
theorem share_close (p : Params) (delta : Int) (s : Tables) (t : Nat × Nat)
    (hpos : ∀ k, k < p.K → 0 < weights p delta s t k) (k : Nat) (hk : k < p.K) :
    |share p delta s t k - chance p delta s t k| ≤ 1 / randMax := by
  have hset : (Finset.Icc 1 randMax).filter (fun r => chooseTopic p.K (weights p delta s t) r = some (k : Int))
      = (Finset.range (randMax + 1)).filter fun r => chooseTopic p.K (weights p delta s t) r = some (k : Int) := by
    ext r
    rw [Finset.mem_filter, Finset.mem_filter, Finset.mem_Icc, Finset.mem_range]
    constructor
    · rintro ⟨h, h'⟩
      exact ⟨by omega, h'⟩
    · rintro ⟨h, h'⟩
      refine ⟨⟨?_, by omega⟩, h'⟩
      rcases Nat.eq_zero_or_pos r with rfl | hr
      · rw [zero_draw_selects_no_topic] at h'
        simp at h'
      · exact hr
  have := draws_of_topic p.K (weights p delta s t) (fun j hj => (hpos j hj).le)
    (Finset.sum_pos (fun j hj => hpos j (Finset.mem_range.1 hj)) ⟨k, Finset.mem_range.2 hk⟩) k hk
  unfold share chance
  rw [hset]
  rw [le_div_iff₀ randMax_pos, ← abs_of_pos randMax_pos, ← abs_mul, abs_of_pos randMax_pos, sub_mul, div_mul_cancel₀ _ randMax_pos.ne',
    mul_comm (_ / _)]
  exact this.le

/-! ## One sweep -/

theorem tok_exists (p : Params) (i : Fin p.lens.sum) : ∃ d, (d, (i : Nat)) ∈ tokens p.lens := by
  have h : (i : Nat) ∈ (tokens p.lens).map Prod.snd := by
    unfold tokens
    rw [tokensFrom_snd, List.mem_range'_1]
    have := i.2
    omega
  obtain ⟨t, ht, h⟩ := List.mem_map.1 h
  exact ⟨t.1, by rw [← h]; exact ht⟩

/-- The token at a position -/
noncomputable def tok (p : Params) (i : Fin p.lens.sum) : Nat × Nat := ((tok_exists p i).choose, i)

theorem tok_mem (p : Params) (i : Fin p.lens.sum) : tok p i ∈ tokens p.lens := (tok_exists p i).choose_spec

theorem tok_eq (p : Params) (t : Nat × Nat) (ht : t ∈ tokens p.lens) : tok p ⟨t.2, tokens_lt _ _ ht⟩ = t :=
  List.inj_on_of_nodup_map (tokens_nodup p.lens) (tok_mem p _) ht rfl

/-- The shares as chances of the steps on assignments -/
noncomputable def shares (p : Params) (delta : Int) (tab : Assign p → Tables) (f : Assign p) (i : Fin p.lens.sum) (k : Fin p.K) : ℚ :=
  share p delta (tab f) (tok p i) k

theorem shares_kernel {p : Params} {delta : Int} {J : Assign p → ℚ} {tab : Assign p → Tables} (h : Walk p delta J tab) :
    Kernel (shares p delta tab) := by
  refine ⟨fun f i k => share_nonneg _ _ _ _ _, ?_⟩
  intro f i
  have := share_sum p (Nat.zero_lt_of_lt (f i).2) delta (tab f) (tok p i) (h.weight f _ (tok_mem p i))
  rwa [Finset.sum_range] at this

theorem shares_close {p : Params} {delta : Int} {J : Assign p → ℚ} {tab : Assign p → Tables} (h : Walk p delta J tab)
    (f : Assign p) (i : Fin p.lens.sum) (k : Fin p.K) : |shares p delta tab f i k - GibbsChain.cond J f i k| ≤ 1 / randMax := by
  have h1 := h.chance f (tok p i) (tok_mem p i) k
  have h2 : (⟨(tok p i).2, tokens_lt _ _ (tok_mem p i)⟩ : Fin p.lens.sum) = i := rfl
  rw [h2] at h1
  rw [← h1]
  exact share_close p delta (tab f) (tok p i) (h.weight f _ (tok_mem p i)) k k.2

theorem foldlM_congr {σ β : Type} (l : List β) (F G : σ → β → Option σ) (h : ∀ b ∈ l, ∀ s, F s b = G s b) : ∀ s,
    l.foldlM F s = l.foldlM G s := by
  induction l with
  | nil => exact fun _ => rfl
  | cons b l ih =>
    intro s
    rw [List.foldlM_cons, List.foldlM_cons, h b List.mem_cons_self]
    congr 1
    exact funext fun s' => ih (fun b' hb' => h b' (List.mem_cons_of_mem _ hb')) s'

theorem order_average {p : Params} {delta : Int} {J : Assign p → ℚ} {tab : Assign p → Tables} (h : Walk p delta J tab)
    (hK : p.K ≤ 256) (F : Tables → ℚ) (order : List (Nat × Nat)) : (∀ t ∈ order, t ∈ tokens p.lens) → (order.map Prod.snd).Nodup →
    ∀ f, averageDraws (order.map Prod.snd) (fun dr => outcome F (order.foldlM (fun s t => resample p delta (dr t.2) t s) (tab f)))
      = runBy (shares p delta tab) (order.filterMap (idx p)) (fun g => F (tab g)) f := by
  induction order with
  | nil => exact fun _ _ _ => rfl
  | cons t order ih =>
    intro hmem hnd f
    have ht := hmem t List.mem_cons_self
    obtain ⟨hnt, hnd'⟩ := List.nodup_cons.1 hnd
    have hidx : idx p t = some ⟨t.2, tokens_lt _ _ ht⟩ := dif_pos (tokens_lt _ _ ht)
    rw [List.filterMap_cons_some hidx, List.map_cons]
    have h1 : ∀ (r : Nat) (dr : Nat → Nat), outcome F ((t :: order).foldlM (fun s t' => resample p delta (Function.update dr t.2 r t'.2) t' s) (tab f))
        = outcome (fun s => outcome F (order.foldlM (fun s t' => resample p delta (dr t'.2) t' s) s)) (resample p delta r t (tab f)) := by
      intro r dr
      rw [List.foldlM_cons]
      show outcome F (Option.bind _ _) = _
      rw [outcome_bind, Function.update_self]
      congr 1
      funext s
      congr 1
      refine foldlM_congr order _ _ ?_ s
      intro t' ht' s'
      rw [Function.update_of_ne]
      intro heq
      exact hnt (heq ▸ List.mem_map_of_mem ht')
    show average (fun r => averageDraws (order.map Prod.snd) fun dr => outcome F ((t :: order).foldlM
      (fun s t' => resample p delta (Function.update dr t.2 r t'.2) t' s) (tab f))) = _
    simp only [h1, averageDraws_outcome]
    have hKpos : 0 < p.K := Nat.zero_lt_of_lt (f ⟨t.2, tokens_lt _ _ ht⟩).2
    rw [token_average p hKpos hK delta (tab f) t (h.weight f t ht), Finset.sum_range]
    refine Finset.sum_congr rfl fun k _ => ?_
    rw [h.move f t ht k, ih (fun t' ht' => hmem t' (List.mem_cons_of_mem _ ht')) hnd']
    unfold shares
    rw [tok_eq p t ht]

/-- Averaged over its random numbers, a sweep is a walk on the assignments. -/
theorem sweep_average {p : Params} {delta : Int} {J : Assign p → ℚ} {tab : Assign p → Tables} (h : Walk p delta J tab)
    (hK : p.K ≤ 256) (F : Tables → ℚ) (start : Nat → Nat) (f : Assign p) :
    averageDraws (List.range p.lens.sum) (fun dr => outcome F (sweep p delta ⟨start, dr⟩ (tab f)))
      = runBy (shares p delta tab) ((sweepOrder start p.lens).filterMap (idx p)) (fun g => F (tab g)) f := by
  have hperm : ((sweepOrder start p.lens).map Prod.snd).Perm (List.range p.lens.sum) := by
    have := (sweepFrom_perm start p.lens 0 0).map Prod.snd
    rwa [tokensFrom_snd, ← List.range_eq_range'] at this
  have hnd : ((sweepOrder start p.lens).map Prod.snd).Nodup := hperm.nodup_iff.2 List.nodup_range
  rw [← averageDraws_perm _ _ hperm hnd]
  exact order_average h hK F _ (fun t ht => mem_sweep _ _ t ht) hnd f

/-! ## Whole runs -/

/-- The average of `G` after `sample`, over all random numbers -/
def sampleAverage (p : Params) (isQuery : Bool) (thin : Nat) (starts : Nat → Nat → Nat) (n : Nat) (G : State → ℚ) (st : State) : ℚ :=
  averageRuns p.lens.sum starts n fun rnd => outcome G (sample p isQuery n thin rnd st)

theorem sampleAverage_succ (p : Params) (isQuery : Bool) (thin : Nat) (starts : Nat → Nat → Nat) (n : Nat) (G : State → ℚ) (st : State) :
    sampleAverage p isQuery thin starts (n + 1) G st = sampleAverage p isQuery thin starts n (fun st' =>
      averageDraws (List.range p.lens.sum) fun dr => outcome (fun s =>
        G (if (n + 1) % thin = 0 then takeSample p isQuery { st' with tables := s } else { st' with tables := s }))
        (sweep p (if isQuery then 0 else 1) ⟨starts n, dr⟩ st'.tables)) st := by
  unfold sampleAverage
  show averageRuns p.lens.sum starts n _ = _
  congr 1
  funext rnd
  rw [← averageDraws_outcome]
  congr 1
  funext dr
  dsimp only
  rw [sample_succ, outcome_bind, Function.update_self]
  have hsame : sample p isQuery n thin (Function.update rnd n ⟨starts n, dr⟩) st = sample p isQuery n thin rnd st := by
    unfold sample
    refine foldlM_congr _ _ _ ?_ _
    intro m hm s
    rw [Function.update_of_ne (by have := List.mem_range.1 hm; omega)]
  rw [hsame]
  congr 1
  funext st'
  rw [outcome_bind]
  rfl

/-- The positions visited in the sweeps before `n` -/
def visits (p : Params) (starts : Nat → Nat → Nat) (n : Nat) : List (Fin p.lens.sum) :=
  ((List.range n).map fun m => (sweepOrder (starts m) p.lens).filterMap (idx p)).flatten

theorem visits_succ (p : Params) (starts : Nat → Nat → Nat) (n : Nat) :
    visits p starts (n + 1) = visits p starts n ++ (sweepOrder (starts n) p.lens).filterMap (idx p) := by
  unfold visits
  simp [List.range_succ]

/-- A statistic that `sample` adds up -/
structure Accum (p : Params) (isQuery : Bool) (stat : State → ℚ) (F : Tables → ℚ) : Prop where
  keep : ∀ st s, stat { st with tables := s } = stat st
  reset : ∀ st, stat { st with count := 0 } = stat st
  take : ∀ st, stat (takeSample p isQuery st) = stat st + F st.tables

/-- The average sum of the samples -/
theorem sampleAverage_sum {p : Params} {isQuery : Bool} {J : Assign p → ℚ} {tab : Assign p → Tables}
    (h : Walk p (if isQuery then 0 else 1) J tab) (hK : p.K ≤ 256) (thin : Nat) (starts : Nat → Nat → Nat) (stat : State → ℚ)
    (F : Tables → ℚ) (ha : Accum p isQuery stat F) (n : Nat) : ∀ (G : State → ℚ) (Φ : Assign p → ℚ),
    (∀ st g, st.tables = tab g → st.count = n / thin → G st = stat st + Φ g) → ∀ (st : State) (f : Assign p), st.tables = tab f →
    sampleAverage p isQuery thin starts n G st
      = stat st
        + ∑ i ∈ Finset.range n, (if (i + 1) % thin = 0 then
            runBy (shares p (if isQuery then 0 else 1) tab) (visits p starts (i + 1)) (fun g => F (tab g)) f else 0)
        + runBy (shares p (if isQuery then 0 else 1) tab) (visits p starts n) Φ f := by
  obtain ⟨c, hc⟩ : ∃ c, c = shares p (if isQuery then 0 else 1) tab := ⟨_, rfl⟩
  have hker : Kernel c := hc ▸ shares_kernel h
  induction n with
  | zero =>
    intro G Φ hG st f hf
    show G { st with count := 0 } = stat st + 0 + Φ f
    rw [hG { st with count := 0 } f hf (Nat.zero_div thin).symm, ha.reset, add_zero]
  | succ n ih =>
    intro G Φ hG st f hf
    rw [sampleAverage_succ, ih _ (runBy c ((sweepOrder (starts n) p.lens).filterMap (idx p))
      (fun y => (if (n + 1) % thin = 0 then F (tab y) else 0) + Φ y)) ?_ st f hf]
    · rw [Finset.sum_range_succ, ← hc, ← GibbsChain.runBy_append, ← visits_succ, GibbsChain.runBy_add]
      have hif : runBy c (visits p starts (n + 1)) (fun g => if (n + 1) % thin = 0 then F (tab g) else 0) f
          = if (n + 1) % thin = 0 then runBy c (visits p starts (n + 1)) (fun g => F (tab g)) f else 0 := by
        split_ifs
        · rfl
        · exact GibbsChain.runBy_const c hker _ 0 f
      rw [hif]
      ring
    · intro st' g hg hcount
      rw [hg, sweep_average h hK, ← hc, ← GibbsChain.runBy_const_add c hker]
      congr 1
      funext y
      have hcs := count_step n thin
      split_ifs with hthin
      · rw [if_pos hthin] at hcs
        rw [hG _ y rfl (by rw [hcs, ← hcount]; rfl), ha.take, ha.keep]
        show stat st' + F (tab y) + Φ y = _
        ring
      · rw [if_neg hthin] at hcs
        rw [hG _ y rfl (by rw [hcs, ← hcount]; rfl), ha.keep]
        ring

theorem visits_good (p : Params) (starts : Nat → Nat → Nat) (n : Nat) :
    ∀ l ∈ (List.range n).map (fun m => (sweepOrder (starts m) p.lens).filterMap (idx p)), l.length = p.lens.sum ∧ ∀ i, i ∈ l := by
  intro l hl
  obtain ⟨m, _, rfl⟩ := List.mem_map.1 hl
  exact sweep_positions p (starts m)

theorem thin_count (n thin : Nat) : (∑ i ∈ Finset.range n, if (i + 1) % thin = 0 then (1 : ℚ) else 0) = ((n / thin : Nat) : ℚ) := by
  induction n with
  | zero => simp
  | succ n ih =>
    rw [Finset.sum_range_succ, ih, count_step]
    split_ifs <;> push_cast <;> ring

/-- Averaged over all random numbers, the mean of the samples of a run is close to the expected value under `J`. -/
theorem run_average {p : Params} {isQuery : Bool} {J : Assign p → ℚ} {tab : Assign p → Tables}
    (h : Walk p (if isQuery then 0 else 1) J tab) (hK : p.K ≤ 256) :
    ∃ ρ : ℚ, 0 ≤ ρ ∧ ρ < 1 ∧ ∀ (burn n thin : Nat) (starts1 starts2 : Nat → Nat → Nat) (stat : State → ℚ) (F : Tables → ℚ) (lo hi : ℚ),
      1 ≤ thin → thin ≤ n → Accum p isQuery stat F → (∀ f, lo ≤ F (tab f) ∧ F (tab f) ≤ hi) →
      ∀ (st : State) (f : Assign p), st.tables = tab f → stat st = 0 →
      |sampleAverage p isQuery (burn + 1) starts1 burn (fun st => sampleAverage p isQuery thin starts2 n (fun st => stat st / st.count) st) st
        - posteriorMean p J (fun f => F (tab f))|
        ≤ (ρ ^ burn + p.lens.sum * p.K / (randMax * (1 - ρ))) * (hi - lo) := by
  obtain ⟨ρ, h0, h1, hconv⟩ := GibbsChain.noisy_converges J h.pos p.lens.sum
  refine ⟨ρ, h0, h1, ?_⟩
  intro burn n thin starts1 starts2 stat F lo hi ht htn ha hF st f hst hzero
  obtain ⟨c, hc⟩ : ∃ c, c = shares p (if isQuery then 0 else 1) tab := ⟨_, rfl⟩
  have hker : Kernel c := hc ▸ shares_kernel h
  obtain ⟨m, hm⟩ : ∃ m : ℚ, m = ((n / thin : Nat) : ℚ) := ⟨_, rfl⟩
  have hmpos : 0 < m := by
    rw [hm]
    have : 0 < n / thin := Nat.div_pos htn ht
    exact_mod_cast this
  have ha' : Accum p isQuery (fun st => stat st / m) (fun s => F s / m) :=
    ⟨fun st s => by rw [ha.keep], fun st => by rw [ha.reset], fun st => by rw [ha.take, add_div]⟩
  have hΔ : 0 ≤ hi - lo := by have := hF f; linarith
  have hinner : ∀ (st : State) (g : Assign p), st.tables = tab g →
      sampleAverage p isQuery thin starts2 n (fun st => stat st / st.count) st = stat st / m
        + ∑ i ∈ Finset.range n, (if (i + 1) % thin = 0 then runBy c (visits p starts2 (i + 1)) (fun g => F (tab g) / m) g else 0) := by
    intro st g hg
    rw [sampleAverage_sum h hK thin starts2 (fun st => stat st / m) (fun s => F s / m) ha' n _ (fun _ => 0) ?_ st g hg, ← hc,
      GibbsChain.runBy_const c hker, add_zero]
    intro st' g' _ hcount
    rw [hcount, ← hm, add_zero]
  rw [sampleAverage_sum h hK (burn + 1) starts1 (fun st => stat st / m) (fun s => F s / m) ha' burn _ (fun g =>
    ∑ i ∈ Finset.range n, (if (i + 1) % thin = 0 then runBy c (visits p starts2 (i + 1)) (fun g => F (tab g) / m) g else 0)) ?_ st f hst]
  swap
  · intro st' g hg _
    exact hinner st' g hg
  have hnone : (∑ i ∈ Finset.range burn, (if (i + 1) % (burn + 1) = 0 then
      runBy (shares p (if isQuery then 0 else 1) tab) (visits p starts1 (i + 1)) (fun g => F (tab g) / m) f else 0)) = 0 := by
    refine Finset.sum_eq_zero fun i hi => ?_
    have := Finset.mem_range.1 hi
    rw [Nat.mod_eq_of_lt (by omega), if_neg (by omega)]
  rw [hnone]
  rw [hzero, zero_div, zero_add, zero_add, ← hc, GibbsChain.runBy_sum]
  obtain ⟨μ, hμ⟩ : ∃ μ, μ = posteriorMean p J (fun f => F (tab f)) := ⟨_, rfl⟩
  obtain ⟨e, he⟩ : ∃ e : ℚ, e = p.lens.sum * p.K / (randMax * (1 - ρ)) := ⟨_, rfl⟩
  have hρ : 0 < 1 - ρ := by linarith
  have he' : (p.lens.sum : ℚ) * (p.K * (1 / randMax)) / (1 - ρ) = e := by
    rw [he]
    have := randMax_pos.ne'
    field_simp
  have hterm : ∀ i, |runBy c (visits p starts1 burn ++ visits p starts2 (i + 1)) (fun g => F (tab g)) f - μ| ≤ (ρ ^ burn + e) * (hi - lo) := by
    intro i
    have h2 := hconv c hker (1 / randMax) (div_nonneg zero_le_one randMax_pos.le) (fun z j k => hc ▸ shares_close h z j k)
      ((List.range burn).map (fun m => (sweepOrder (starts1 m) p.lens).filterMap (idx p))
        ++ (List.range (i + 1)).map (fun m => (sweepOrder (starts2 m) p.lens).filterMap (idx p))) (by
        intro l hl
        rcases List.mem_append.1 hl with hl | hl
        · exact visits_good p starts1 burn l hl
        · exact visits_good p starts2 (i + 1) l hl) (fun g => F (tab g)) lo hi hF f
    rw [he', List.flatten_append, List.length_append, List.length_map, List.length_map, List.length_range, List.length_range] at h2
    refine (le_of_eq ?_).trans (h2.trans ?_)
    · rw [hμ]; rfl
    · refine mul_le_mul_of_nonneg_right ?_ hΔ
      have : ρ ^ (burn + (i + 1)) ≤ ρ ^ burn := pow_le_pow_of_le_one h0 h1.le (by omega)
      linarith
  have hval : ∀ i ∈ Finset.range n,
      runBy c (visits p starts1 burn) (fun g => if (i + 1) % thin = 0 then runBy c (visits p starts2 (i + 1)) (fun g => F (tab g) / m) g else 0) f
      = (if (i + 1) % thin = 0 then (1 : ℚ) else 0) * (m⁻¹ * runBy c (visits p starts1 burn ++ visits p starts2 (i + 1)) (fun g => F (tab g)) f) := by
    intro i _
    split_ifs
    · rw [one_mul, ← GibbsChain.runBy_mul, GibbsChain.runBy_append]
      congr 2
      funext g
      simp only [div_eq_inv_mul]
    · rw [GibbsChain.runBy_const c hker, zero_mul]
  rw [Finset.sum_congr rfl hval, ← hμ, ← he]
  have hone : (∑ i ∈ Finset.range n, (if (i + 1) % thin = 0 then (1 : ℚ) else 0) * m⁻¹) = 1 := by
    rw [← Finset.sum_mul, thin_count, ← hm, mul_inv_cancel₀ hmpos.ne']
  have hdiff : (∑ i ∈ Finset.range n, (if (i + 1) % thin = 0 then (1 : ℚ) else 0)
        * (m⁻¹ * runBy c (visits p starts1 burn ++ visits p starts2 (i + 1)) (fun g => F (tab g)) f)) - μ
      = ∑ i ∈ Finset.range n, (if (i + 1) % thin = 0 then (1 : ℚ) else 0) * m⁻¹
        * (runBy c (visits p starts1 burn ++ visits p starts2 (i + 1)) (fun g => F (tab g)) f - μ) := by
    simp only [mul_sub, Finset.sum_sub_distrib]
    rw [← Finset.sum_mul, hone, one_mul]
    simp only [mul_assoc]
  rw [hdiff]
  calc _ ≤ ∑ i ∈ Finset.range n, |(if (i + 1) % thin = 0 then (1 : ℚ) else 0) * m⁻¹
        * (runBy c (visits p starts1 burn ++ visits p starts2 (i + 1)) (fun g => F (tab g)) f - μ)| := Finset.abs_sum_le_sum_abs _ _
    _ ≤ ∑ i ∈ Finset.range n, (if (i + 1) % thin = 0 then (1 : ℚ) else 0) * m⁻¹ * ((ρ ^ burn + e) * (hi - lo)) := by
        refine Finset.sum_le_sum fun i _ => ?_
        have hw : 0 ≤ (if (i + 1) % thin = 0 then (1 : ℚ) else 0) * m⁻¹ := by
          refine mul_nonneg ?_ (inv_nonneg.2 hmpos.le)
          split_ifs <;> norm_num
        rw [abs_mul, abs_of_nonneg hw]
        exact mul_le_mul_of_nonneg_left (hterm i) hw
    _ = (ρ ^ burn + e) * (hi - lo) := by rw [← Finset.sum_mul, hone, one_mul]

/-! ## Training -/

/-- The average of `G` after `train`, over all random numbers, from the assignment `f` -/
def trainAverage (p : Params) (plan : Plan) (starts1 starts2 : Nat → Nat → Nat) (f : Assign p) (G : State → ℚ) : ℚ :=
  averageRuns p.lens.sum starts1 plan.burnIn fun rnd1 => averageRuns p.lens.sum starts2 (plan.iterations - plan.burnIn) fun rnd2 =>
    outcome G (train p plan (ext p f) rnd1 rnd2)

theorem trainAverage_eq (p : Params) (plan : Plan) (starts1 starts2 : Nat → Nat → Nat) (f : Assign p) (G : State → ℚ) :
    trainAverage p plan starts1 starts2 f G = sampleAverage p false (plan.burnIn + 1) starts1 plan.burnIn
      (fun st => sampleAverage p false plan.thin starts2 (plan.iterations - plan.burnIn) G st)
      ⟨start p f, fun _ _ => 0, fun _ _ => 0, 0⟩ := by
  unfold trainAverage sampleAverage
  congr 1
  funext rnd1
  rw [← averageRuns_outcome]
  congr 1
  funext rnd2
  rw [← outcome_bind]
  rfl

/-- The topic estimate of a state, and the word estimate -/
def topicEstimate (d k : Nat) (st : State) : ℚ := outcome (fun θ => θ d k) (topicDists st.topicSum st.count)

def wordEstimate (k v : Nat) (st : State) : ℚ := outcome (fun φ => φ k v) (wordDists ⟨st.vocabSum, st.count⟩)

theorem topicEstimate_eq (d k : Nat) (st : State) : topicEstimate d k st = st.topicSum d k / st.count := by
  unfold topicEstimate topicDists
  split_ifs with h
  · simp [outcome, h]
  · rfl

theorem wordEstimate_eq (k v : Nat) (st : State) : wordEstimate k v st = st.vocabSum k v / st.count := by
  unfold wordEstimate wordDists
  split_ifs with h
  · have : st.count = 0 := h
    simp [outcome, this]
  · rfl

theorem docCount_le (p : Params) (z : Nat → Nat) (d k : Nat) : docCount p z d k ≤ p.lens.getD d 0 := by
  have h2 : (docCount p z d k : Int) ≤ ((tokens p.lens).countP (fun t => decide (t.1 = d)) : Int) := by
    rw [docCount_eq]
    unfold cnt
    refine Int.ofNat_le.2 (List.countP_mono_left fun t _ ht => ?_)
    simp only [Bool.and_eq_true, decide_eq_true_eq] at ht ⊢
    exact ht.1
  rw [tokens_doc] at h2
  exact_mod_cast h2

theorem wordCount_le (p : Params) (z : Nat → Nat) (k v : Nat) : wordCount p z k v ≤ topicCount p z k := by
  have h2 : (wordCount p z k v : Int) ≤ (topicCount p z k : Int) := by
    rw [wordCount_eq, topicCount_eq]
    unfold cnt
    refine Int.ofNat_le.2 (List.countP_mono_left fun t _ ht => ?_)
    simp only [Bool.and_eq_true, decide_eq_true_eq] at ht ⊢
    exact ht.1
  exact_mod_cast h2

/-- The topic distribution of a document expected given the topics of its tokens -/
def topicMean (p : Params) (d k : Nat) (z : Nat → Nat) : ℚ :=
  ((docCount p z d k : ℚ) + p.a d k) / ((p.lens.getD d 0 : ℚ) + ∑ j ∈ Finset.range p.K, p.a d j)

/-- The word distribution of a topic expected given the topics of all tokens -/
def wordMean (p : Params) (k v : Nat) (z : Nat → Nat) : ℚ :=
  ((wordCount p z k v : ℚ) + p.b v) / ((topicCount p z k : ℚ) + ∑ u ∈ Finset.range p.T, p.b u)

theorem topicMean_bounds (p : Params) (ha : ∀ d k, d < p.lens.length → k < p.K → 0 < p.a d k) (d k : Nat) (hd : d < p.lens.length) (hk : k < p.K) (z : Nat → Nat) :
    0 ≤ topicMean p d k z ∧ topicMean p d k z ≤ 1 := by
  have hasum : p.a d k ≤ ∑ j ∈ Finset.range p.K, p.a d j :=
    Finset.single_le_sum (f := p.a d) (fun j hj => (ha d j hd (Finset.mem_range.1 hj)).le) (Finset.mem_range.2 hk)
  have hak := ha d k hd hk
  have hc : ((docCount p z d k : ℚ)) ≤ (p.lens.getD d 0 : ℚ) := by exact_mod_cast docCount_le p z d k
  have hc0 : (0 : ℚ) ≤ (docCount p z d k : ℚ) := Nat.cast_nonneg _
  exact ⟨div_nonneg (by linarith) (by linarith), (div_le_one (by linarith)).2 (by linarith)⟩

theorem wordMean_bounds (p : Params) (hp : PositivePriors p) (k v : Nat) (hv : v < p.T) (z : Nat → Nat) :
    0 ≤ wordMean p k v z ∧ wordMean p k v z ≤ 1 := by
  have hbsum : p.b v ≤ ∑ u ∈ Finset.range p.T, p.b u :=
    Finset.single_le_sum (f := p.b) (fun j hj => (hp.2 j (Finset.mem_range.1 hj)).le) (Finset.mem_range.2 hv)
  have hb := hp.2 v hv
  have hc : ((wordCount p z k v : ℚ)) ≤ (topicCount p z k : ℚ) := by exact_mod_cast wordCount_le p z k v
  have hc0 : (0 : ℚ) ≤ (wordCount p z k v : ℚ) := Nat.cast_nonneg _
  exact ⟨div_nonneg (by linarith) (by linarith), (div_le_one (by linarith)).2 (by linarith)⟩

/-- C202: averaged over all random numbers, the estimates of topics and words that training returns are the posterior means, up to
an error that vanishes geometrically with the length of the burn-in and a term that is due to the finite number of random numbers. -/
theorem training_estimates (p : Params) (hp : PositivePriors p) (hw : ValidWords p) (hK0 : 0 < p.K) (hK : p.K ≤ 256) (hT : 0 < p.T) :
    ∃ ρ : ℚ, 0 ≤ ρ ∧ ρ < 1 ∧ ∀ (plan : Plan) (starts1 starts2 : Nat → Nat → Nat) (f : Assign p),
      1 ≤ plan.thin → plan.thin ≤ plan.iterations - plan.burnIn →
      (∀ d k, d < p.lens.length → k < p.K →
        |trainAverage p plan starts1 starts2 f (topicEstimate d k)
          - posteriorMean p (fun f => joint p (ext p f)) (fun f => topicMean p d k (ext p f))|
          ≤ ρ ^ plan.burnIn + p.lens.sum * p.K / (randMax * (1 - ρ))) ∧
      (∀ k v, k < p.K → v < p.T →
        |trainAverage p plan starts1 starts2 f (wordEstimate k v)
          - posteriorMean p (fun f => joint p (ext p f)) (fun f => wordMean p k v (ext p f))|
          ≤ ρ ^ plan.burnIn + p.lens.sum * p.K / (randMax * (1 - ρ))) := by
  obtain ⟨ρ, h0, h1, h⟩ := run_average (isQuery := false) (train_walk p hp hw hK0 hT) hK
  refine ⟨ρ, h0, h1, ?_⟩
  intro plan starts1 starts2 f ht htn
  constructor
  · intro d k hd hk
    have hF : ∀ f, ((start p f).ndk d k + p.a d k) / ((p.lens.getD d 0 : ℚ) + p.aSum d) = topicMean p d k (ext p f) := by
      intro f
      rw [start_eq]
      simp only [Int.cast_natCast]
      rfl
    have := h plan.burnIn (plan.iterations - plan.burnIn) plan.thin starts1 starts2 (fun st => st.topicSum d k)
      (fun s => ((s.ndk d k : ℚ) + p.a d k) / ((p.lens.getD d 0 : ℚ) + p.aSum d)) 0 1 ht htn
      ⟨fun _ _ => rfl, fun _ => rfl, fun _ => rfl⟩ (fun f => by
        rw [hF]; exact topicMean_bounds p hp.1 d k hd hk _) ⟨start p f, fun _ _ => 0, fun _ _ => 0, 0⟩ f rfl rfl
    rw [sub_zero, mul_one] at this
    simp only [hF] at this
    rw [trainAverage_eq]
    have hfun : topicEstimate d k = fun st => st.topicSum d k / (st.count : ℚ) := funext (topicEstimate_eq d k)
    rw [hfun]
    exact this
  · intro k v hk hv
    have hF : ∀ f, ((start p f).nkv k v + p.b v) / (((start p f).nk k : ℚ) + p.bSum) = wordMean p k v (ext p f) := by
      intro f
      rw [start_eq]
      simp only [Int.cast_natCast]
      rfl
    have := h plan.burnIn (plan.iterations - plan.burnIn) plan.thin starts1 starts2 (fun st => st.vocabSum k v)
      (fun s => ((s.nkv k v : ℚ) + p.b v) / ((s.nk k : ℚ) + p.bSum)) 0 1 ht htn
      ⟨fun _ _ => rfl, fun _ => rfl, fun _ => rfl⟩ (fun f => by
        rw [hF]; exact wordMean_bounds p hp k v hv _) ⟨start p f, fun _ _ => 0, fun _ _ => 0, 0⟩ f rfl rfl
    rw [sub_zero, mul_one] at this
    simp only [hF] at this
    rw [trainAverage_eq]
    have hfun : wordEstimate k v = fun st => st.vocabSum k v / (st.count : ℚ) := funext (wordEstimate_eq k v)
    rw [hfun]
    exact this

/-! ## Querying -/

/-- The joint probability of the topics and the words of the documents queried, up to a factor: the words of topic `k` have
probabilities proportional to `c k`, which sum to `s k`. -/
def queryJoint (p : Params) (c : Nat → Nat → ℚ) (s : Nat → ℚ) (z : Nat → Nat) : ℚ :=
  topicProb p (docCount p z) * ∏ n ∈ Finset.range p.lens.sum, c (z n) (p.w n) / s (z n)

/-- The tables during a query: the words of the topics remain as they are. -/
def queryTables (p : Params) (nkv : Nat → Nat → Int) (nk : Nat → Int) (f : Assign p) : Tables :=
  ⟨ext p f, fun d k => (docCount p (ext p f) d k : Int), nkv, nk⟩

/-- In a query the assignments are drawn from their conditional probabilities given the words of the topics. -/
theorem query_walk (p : Params) (ha : ∀ d k, d < p.lens.length → k < p.K → 0 < p.a d k) (hK : 0 < p.K)
    (nkv : Nat → Nat → Int) (nk : Nat → Int)
    (hc : ∀ n k, n < p.lens.sum → k < p.K → (0 : ℚ) < nkv k (p.w n) + p.b (p.w n)) (hs : ∀ k, k < p.K → (0 : ℚ) < nk k + p.bSum) :
    Walk p 0 (fun f => queryJoint p (fun k v => nkv k v + p.b v) (fun k => nk k + p.bSum) (ext p f)) (queryTables p nkv nk) := by
  have htp : ∀ m, 0 < topicProb p m := by
    intro m
    refine Finset.prod_pos fun d hd => ?_
    have hd := Finset.mem_range.1 hd
    refine div_pos (Finset.prod_pos fun k hk => rise_pos _ (ha d k hd (Finset.mem_range.1 hk)) _) (rise_pos _ ?_ _)
    exact Finset.sum_pos (fun k hk => ha d k hd (Finset.mem_range.1 hk)) ⟨0, Finset.mem_range.2 hK⟩
  have hext : ∀ (f : Assign p) n, ext p f n < p.K := by
    intro f n
    unfold ext
    split_ifs
    · exact (f _).2
    · exact hK
  have hfac : ∀ (f : Assign p) n, n < p.lens.sum → (0 : ℚ) < (nkv (ext p f n) (p.w n) + p.b (p.w n)) / (nk (ext p f n) + p.bSum) :=
    fun f n hn => div_pos (hc n _ hn (hext f n)) (hs _ (hext f n))
  have hb2 : ∀ i j, bump2 nkv i j (-0) = nkv := by
    intro i j; funext x y; rw [bump2_at]; split_ifs <;> simp
  have hb2' : ∀ i j, bump2 nkv i j 0 = nkv := by
    intro i j; funext x y; rw [bump2_at]; split_ifs <;> simp
  have hb1 : ∀ i, bump nk i (-0) = nk := by
    intro i; funext x; rw [bump_at]; split_ifs <;> simp
  have hb1' : ∀ i, bump nk i 0 = nk := by
    intro i; funext x; rw [bump_at]; split_ifs <;> simp
  have hweights : ∀ (f : Assign p) t, t ∈ tokens p.lens → ∃ m : Nat → Nat → Nat,
      (∀ j, docCount p (Function.update (ext p f) t.2 j) = fun d k => m d k + if d = t.1 ∧ k = j then 1 else 0) ∧
      (∀ d k, (m d k : Int) = bump2 (fun d k => (docCount p (ext p f) d k : Int)) t.1 (ext p f t.2) (-1) d k) ∧
      weights p 0 (queryTables p nkv nk f) t = fun k =>
        (m t.1 k + p.a t.1 k) * (nkv k (p.w t.2) + p.b (p.w t.2)) / (nk k + p.bSum) := by
    intro f t ht
    obtain ⟨m, hm, hm'⟩ := doc_without p (ext p f) t ht
    refine ⟨m, hm', hm, ?_⟩
    funext k
    unfold weights topicWeights queryTables
    dsimp only
    rw [hb2, hb1, ← hm]
    push_cast
    rfl
  have hposw : ∀ f t, t ∈ tokens p.lens → ∀ k, k < p.K → 0 < weights p 0 (queryTables p nkv nk f) t k := by
    intro f t ht k hk
    obtain ⟨m, _, _, hw⟩ := hweights f t ht
    rw [hw]
    have hd : t.1 < p.lens.length := by
      have := tokens_doc_lt p.lens 0 0 t ht; omega
    refine div_pos (mul_pos ?_ (hc _ _ (tokens_lt _ _ ht) hk)) (hs k hk)
    have := ha t.1 k hd hk
    positivity
  refine ⟨?_, ?_, ?_, hposw⟩
  · intro f
    exact mul_pos (htp _) (Finset.prod_pos fun n hn => hfac f n (Finset.mem_range.1 hn))
  · intro f t ht k
    obtain ⟨m, hm', hm, _⟩ := hweights f t ht
    unfold moved queryTables
    dsimp only
    rw [hb2, hb2', hb1, hb1', ext_update, hm']
    congr 1
    funext d j
    rw [bump2_at, ← hm]
    push_cast
    rfl
  · intro f t ht k
    obtain ⟨m, hm', hm, hw⟩ := hweights f t ht
    have hd : t.1 < p.lens.length := by
      have := tokens_doc_lt p.lens 0 0 t ht; omega
    have ht2 := tokens_lt _ _ ht
    obtain ⟨C, hC⟩ : ∃ C : ℚ, C = topicProb p m * ∏ n ∈ (Finset.range p.lens.sum).erase t.2,
      (nkv (ext p f n) (p.w n) + p.b (p.w n)) / (nk (ext p f n) + p.bSum) := ⟨_, rfl⟩
    have hCpos : 0 < C := by
      rw [hC]
      exact mul_pos (htp _) (Finset.prod_pos fun n hn => hfac f n (Finset.mem_range.1 (Finset.mem_of_mem_erase hn)))
    have hJ : ∀ j : Fin p.K, queryJoint p (fun k v => nkv k v + p.b v) (fun k => nk k + p.bSum)
        (ext p (Function.update f ⟨t.2, ht2⟩ j)) = C * weights p 0 (queryTables p nkv nk f) t j := by
      intro j
      unfold queryJoint
      rw [ext_update, hm' j, topicProb_bump p m t.1 j hd j.2, ← Finset.mul_prod_erase _ _ (Finset.mem_range.2 ht2), Function.update_self,
        Finset.prod_congr rfl (fun n hn => by rw [Function.update_of_ne (Finset.ne_of_mem_erase hn)]), hw, hC]
      ring
    unfold chance GibbsChain.cond
    simp only [hJ]
    rw [← Finset.mul_sum, mul_div_mul_left _ _ hCpos.ne', Finset.sum_range]

/-- The average of `G` after `query`, over all random numbers, from the assignment `f` -/
def queryAverage (p : Params) (m : Model) (plan : Plan) (starts1 starts2 : Nat → Nat → Nat) (f : Assign p) (G : State → ℚ) : ℚ :=
  averageRuns p.lens.sum starts1 plan.burnIn fun rnd1 => averageRuns p.lens.sum starts2 (plan.iterations - plan.burnIn) fun rnd2 =>
    outcome (fun r => G r.2) (query p m plan (ext p f) rnd1 rnd2)

/-- What a query adds to the words of the topics: the model's word distribution in millionths, rounded down, and the words of the
documents queried as the first, random assignment has them -/
def queryWords (p : Params) (φ : Nat → Nat → ℚ) (z : Nat → Nat) (k v : Nat) : Int := ⌊φ k v * 1000000⌋ + wordCount p z k v

def queryTotals (p : Params) (φ : Nat → Nat → ℚ) (z : Nat → Nat) (k : Nat) : Int :=
  (∑ v ∈ Finset.range p.T, ⌊φ k v * 1000000⌋) + topicCount p z k

theorem queryAverage_eq (p : Params) (m : Model) (φ : Nat → Nat → ℚ) (hφ : wordDists m = some φ) (plan : Plan)
    (starts1 starts2 : Nat → Nat → Nat) (f : Assign p) (G : State → ℚ) :
    queryAverage p m plan starts1 starts2 f G = sampleAverage { p with b := fun _ => 0 } true (plan.burnIn + 1) starts1 plan.burnIn
      (fun st => sampleAverage { p with b := fun _ => 0 } true plan.thin starts2 (plan.iterations - plan.burnIn) G st)
      ⟨queryTables { p with b := fun _ => 0 } (queryWords p φ (ext p f)) (queryTotals p φ (ext p f)) f, fun _ _ => 0, m.vocabSum, 0⟩ := by
  have htab : sumSuffStats p.w p.lens ⟨ext p f, fun _ _ => 0, fun k v => ⌊φ k v * 1000000⌋, fun k => ∑ v ∈ Finset.range p.T, ⌊φ k v * 1000000⌋⟩
      = queryTables { p with b := fun _ => 0 } (queryWords p φ (ext p f)) (queryTotals p φ (ext p f)) f := by
    rw [sumSuffStats_eq]
    unfold queryTables queryWords queryTotals
    simp only [wordCount_eq, topicCount_eq, zero_add]
    congr 1
    funext d k
    exact (docCount_eq p (ext p f) d k).symm
  unfold queryAverage sampleAverage
  congr 1
  funext rnd1
  rw [← averageRuns_outcome]
  congr 1
  funext rnd2
  unfold query
  rw [hφ]
  show outcome _ (Option.bind (sample _ true _ _ rnd1 ⟨sumSuffStats p.w p.lens _, _, _, _⟩) _) = _
  rw [htab, outcome_bind]
  congr 1
  funext st
  show outcome _ (Option.bind _ _) = _
  rw [outcome_bind]
  rfl

/-- C203: averaged over all random numbers, the topic estimates of a query are the posterior means for word distributions that are
the model's, rounded down to millionths, plus the words of the documents themselves as first assigned at random. -/
theorem query_estimates (p : Params) (ha : ∀ d k, d < p.lens.length → k < p.K → 0 < p.a d k) (hK0 : 0 < p.K) (hK : p.K ≤ 256)
    (hw : ValidWords p) (m : Model) (φ : Nat → Nat → ℚ) (hφ : wordDists m = some φ)
    (hpos : ∀ k v, k < p.K → v < p.T → 1 / 1000000 ≤ φ k v) (hT : 0 < p.T) (f : Assign p) :
    ∃ ρ : ℚ, 0 ≤ ρ ∧ ρ < 1 ∧ ∀ (plan : Plan) (starts1 starts2 : Nat → Nat → Nat),
      1 ≤ plan.thin → plan.thin ≤ plan.iterations - plan.burnIn → ∀ d k, d < p.lens.length → k < p.K →
        |queryAverage p m plan starts1 starts2 f (topicEstimate d k)
          - posteriorMean p (fun g => queryJoint p (fun k v => queryWords p φ (ext p f) k v) (fun k => queryTotals p φ (ext p f) k) (ext p g))
            (fun g => topicMean p d k (ext p g))|
          ≤ ρ ^ plan.burnIn + p.lens.sum * p.K / (randMax * (1 - ρ)) := by
  have hfl : ∀ k v, k < p.K → v < p.T → 1 ≤ ⌊φ k v * 1000000⌋ := by
    intro k v hk hv
    rw [Int.le_floor]
    have := hpos k v hk hv
    push_cast
    linarith
  have hcpos : ∀ n k, n < p.lens.sum → k < p.K → (0 : ℚ) < queryWords p φ (ext p f) k (p.w n) + 0 := by
    intro n k hn hk
    have h1 := hfl k (p.w n) hk (hw n hn)
    have h2 : (0 : Int) < queryWords p φ (ext p f) k (p.w n) := by unfold queryWords; omega
    rw [add_zero]
    exact_mod_cast h2
  have hspos : ∀ k, k < p.K → (0 : ℚ) < queryTotals p φ (ext p f) k + ({ p with b := fun _ => 0 } : Params).bSum := by
    intro k hk
    have h1 : 0 < ∑ v ∈ Finset.range p.T, ⌊φ k v * 1000000⌋ :=
      Finset.sum_pos (fun v hv => by have := hfl k v hk (Finset.mem_range.1 hv); omega) ⟨0, Finset.mem_range.2 hT⟩
    have h2 : (0 : Int) < queryTotals p φ (ext p f) k := by unfold queryTotals; omega
    have h3 : ({ p with b := fun _ => 0 } : Params).bSum = 0 := by unfold Params.bSum; simp
    rw [h3, add_zero]
    exact_mod_cast h2
  have hwalk := query_walk { p with b := fun _ => 0 } ha hK0 (queryWords p φ (ext p f)) (queryTotals p φ (ext p f)) hcpos hspos
  obtain ⟨ρ, h0, h1, h⟩ := run_average (isQuery := true) hwalk hK
  refine ⟨ρ, h0, h1, ?_⟩
  intro plan starts1 starts2 ht htn d k hd hk
  have hbz : ({ p with b := fun _ => 0 } : Params).bSum = 0 := by unfold Params.bSum; simp
  have := h plan.burnIn (plan.iterations - plan.burnIn) plan.thin starts1 starts2 (fun st => st.topicSum d k)
    (fun s => ((s.ndk d k : ℚ) + p.a d k) / ((p.lens.getD d 0 : ℚ) + p.aSum d)) 0 1 ht htn
    ⟨fun _ _ => rfl, fun _ => rfl, fun _ => rfl⟩ (fun g => by
      exact topicMean_bounds p ha d k hd hk (ext p g))
    ⟨queryTables { p with b := fun _ => 0 } (queryWords p φ (ext p f)) (queryTotals p φ (ext p f)) f, fun _ _ => 0, m.vocabSum, 0⟩ f rfl rfl
  rw [sub_zero, mul_one] at this
  rw [queryAverage_eq p m φ hφ]
  have hfun : topicEstimate d k = fun st => st.topicSum d k / (st.count : ℚ) := funext (topicEstimate_eq d k)
  rw [hfun]
  refine le_trans (le_of_eq ?_) this
  congr 2
  unfold posteriorMean
  simp only [hbz, add_zero]
  rfl

/-! ## Examples -/

/-- the corpus of four tokens: training estimates from 10 iterations, a burn-in of 3 and thinning 4 -/
example : ∃ ρ : ℚ, 0 ≤ ρ ∧ ρ < 1 ∧
    |trainAverage exP ⟨13, 3, 4⟩ (fun _ _ => 0) (fun _ _ => 1) exF (topicEstimate 0 1)
      - posteriorMean exP (fun f => joint exP (ext exP f)) (fun f => topicMean exP 0 1 (ext exP f))|
      ≤ ρ ^ 3 + 4 * 2 / (randMax * (1 - ρ)) := by
  obtain ⟨ρ, h0, h1, h⟩ := training_estimates exP exP_priors exP_words (by decide) (by decide) (by decide)
  exact ⟨ρ, h0, h1, by
    have := (h ⟨13, 3, 4⟩ (fun _ _ => 0) (fun _ _ => 1) exF (by decide) (by decide)).1 0 1 (by decide) (by decide)
    exact_mod_cast this⟩

/-- averages over the random numbers of one token -/
example : average (fun r => outcome (fun s => (s.ndk 0 1 : ℚ)) (resample exP 1 r (0, 0) (start exP exF)))
    = ∑ k ∈ Finset.range 2, share exP 1 (start exP exF) (0, 0) k * ((moved exP 1 (start exP exF) (0, 0) k).ndk 0 1 : ℚ) :=
  token_average exP (by decide) (by decide) 1 _ (0, 0)
    ((train_walk exP exP_priors exP_words (by decide) (by decide)).weight exF (0, 0) (by decide)) _

/-- One document with one token, two topics, two words -/
def exQ : Params := ⟨2, 2, [1], fun _ => 0, fun _ _ => 1 / 2, fun _ => 1 / 10⟩

/-- the token has topic `k` -/
def exAll (k : Fin 2) : Assign exQ := fun _ => k

/-- a model of one sample whose two topics have the same words -/
def exM : Model := ⟨fun _ _ => 1 / 2, 1⟩

theorem exM_dists : wordDists exM = some (fun _ _ => 1 / 2) := by
  unfold wordDists
  rw [if_neg (by decide)]
  simp [exM]

/-- **C203, violated.** The topics that a query finds depend on the random assignment it starts from, however long it runs: of two
topics with the same words the one that was assigned first is the more probable one. -/
theorem query_depends_on_start : ∃ (φ : Nat → Nat → ℚ), wordDists exM = some φ ∧
    posteriorMean exQ (fun g => queryJoint exQ (fun k v => queryWords exQ φ (ext exQ (exAll 0)) k v)
        (fun k => queryTotals exQ φ (ext exQ (exAll 0)) k) (ext exQ g)) (fun g => topicMean exQ 0 0 (ext exQ g))
      > 1 / 2 ∧
    posteriorMean exQ (fun g => queryJoint exQ (fun k v => queryWords exQ φ (ext exQ (exAll 1)) k v)
        (fun k => queryTotals exQ φ (ext exQ (exAll 1)) k) (ext exQ g)) (fun g => topicMean exQ 0 0 (ext exQ g))
      < 1 / 2 := by
  refine ⟨_, exM_dists, ?_, ?_⟩ <;> decide +kernel

/-- the hypotheses of `query_estimates` for this model -/
example : ∃ ρ : ℚ, 0 ≤ ρ ∧ ρ < 1 ∧ ∀ (plan : Plan) (starts1 starts2 : Nat → Nat → Nat),
      1 ≤ plan.thin → plan.thin ≤ plan.iterations - plan.burnIn → ∀ d k, d < 1 → k < 2 →
        |queryAverage exQ exM plan starts1 starts2 (exAll 0) (topicEstimate d k)
          - posteriorMean exQ (fun g => queryJoint exQ (fun k v => queryWords exQ (fun _ _ => 1 / 2) (ext exQ (exAll 0)) k v)
              (fun k => queryTotals exQ (fun _ _ => 1 / 2) (ext exQ (exAll 0)) k) (ext exQ g))
            (fun g => topicMean exQ d k (ext exQ g))|
          ≤ ρ ^ plan.burnIn + exQ.lens.sum * exQ.K / (randMax * (1 - ρ)) :=
  query_estimates exQ (fun _ _ _ _ => by norm_num [exQ]) (by decide) (by decide) (fun _ _ => by show 0 < 2; decide) exM _ exM_dists
    (fun _ _ _ _ => by norm_num) (by decide) (exAll 0)

end Verif.Props.GibbsRuns
