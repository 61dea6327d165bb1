import Verif.Model.RunCli
import Verif.Props.SoftSplit
import Verif.Props.DataSetOps

/-!
# The command line program (C215 to C221)
-/

namespace Verif.Props.RunCli

open Verif Verif.RunCli

/-! ## Element types -/

/-- The documented names: a letter of either case and a size in bytes or bits -/
def Name (s : List Char) (t : DType) : Prop :=
  ∃ c size, s = c :: size ∧ match t with
    | .float64 => (c = 'f' ∨ c = 'F') ∧ (size = ['8'] ∨ size = ['6', '4'])
    | .float32 => (c = 'f' ∨ c = 'F') ∧ (size = ['4'] ∨ size = ['3', '2'])
    | .int32 => (c = 'i' ∨ c = 'I') ∧ (size = ['4'] ∨ size = ['3', '2'])
    | .uint16 => (c = 'u' ∨ c = 'U') ∧ (size = ['2'] ∨ size = ['1', '6'])

theorem parseDtype_ok (s : List Char) (t : DType) : parseDtype s = .ok t ↔ Name s t := by
  constructor
  · intro h
    unfold parseDtype at h
    split at h
    · cases h
      rename_i hs
      simp only [List.mem_cons, List.not_mem_nil, or_false] at hs
      rcases hs with rfl | rfl | rfl | rfl <;> exact ⟨_, _, rfl, by decide, by decide⟩
    split at h
    · cases h
      rename_i hs
      simp only [List.mem_cons, List.not_mem_nil, or_false] at hs
      rcases hs with rfl | rfl | rfl | rfl <;> exact ⟨_, _, rfl, by decide, by decide⟩
    split at h
    · cases h
      rename_i hs
      simp only [List.mem_cons, List.not_mem_nil, or_false] at hs
      rcases hs with rfl | rfl | rfl | rfl <;> exact ⟨_, _, rfl, by decide, by decide⟩
    split at h
    · cases h
      rename_i hs
      simp only [List.mem_cons, List.not_mem_nil, or_false] at hs
      rcases hs with rfl | rfl | rfl | rfl <;> exact ⟨_, _, rfl, by decide, by decide⟩
    · cases h
  · rintro ⟨c, size, rfl, h⟩
    cases t <;> rcases h with ⟨rfl | rfl, rfl | rfl⟩ <;> decide +kernel

theorem parseDtype_error (s : List Char) : (∃ t, Name s t) ∨ parseDtype s = .error .valueError := by
  rcases h : parseDtype s with e | t
  · right
    unfold parseDtype at h
    repeat' split at h
    all_goals cases h
    rfl
  · exact Or.inl ⟨t, (parseDtype_ok s t).1 h⟩

/-- C215: a single name stands for both types; anything else without a colon is refused. -/
theorem dtypes_one_partial (s : List Char) (hs : ':' ∉ s) :
    (∀ t, Name (strip s) t → parseDtypes s = .ok (t, t)) ∧ ((∀ t, ¬ Name (strip s) t) → parseDtypes s = .error .valueError) := by
  have hsp : s.splitOn ':' = [s] := List.splitOn_eq_singleton hs
  unfold parseDtypes
  rw [hsp]
  dsimp only [List.map]
  constructor
  · intro t ht
    rw [(parseDtype_ok _ t).2 ht]
    rfl
  · intro h
    rcases parseDtype_error (strip s) with ⟨t, ht⟩ | he
    · exact absurd ht (h t)
    · rw [he]
      rfl

/-- C215: two names are read in order; if one of the two is not a name the option is refused. -/
theorem dtypes_two_partial (a b : List Char) (ha : ':' ∉ a) (hb : ':' ∉ b) :
    (∀ t u, Name (strip a) t → Name (strip b) u → parseDtypes (a ++ ':' :: b) = .ok (t, u)) ∧
    (((∀ t, ¬ Name (strip a) t) ∨ ∀ t, ¬ Name (strip b) t) → parseDtypes (a ++ ':' :: b) = .error .valueError) := by
  have hsp : (a ++ ':' :: b).splitOn ':' = [a, b] := by
    rw [List.splitOn_append_cons_self_of_not_mem ha, List.splitOn_eq_singleton hb]
  unfold parseDtypes
  rw [hsp]
  dsimp only [List.map]
  constructor
  · intro t u ht hu
    rw [(parseDtype_ok _ t).2 ht, (parseDtype_ok _ u).2 hu]
    rfl
  · intro h
    rcases parseDtype_error (strip a) with ⟨t, ht⟩ | he
    · rw [(parseDtype_ok _ t).2 ht]
      rcases parseDtype_error (strip b) with ⟨u, hu⟩ | he
      · rcases h with h | h
        · exact absurd ht (h t)
        · exact absurd hu (h u)
      · rw [he]
        rfl
    · rw [he]
      rfl

/-- C215: whatever follows a second colon is accepted and ignored. -/
theorem dtypes_violation (a b rest : List Char) (ha : ':' ∉ a) (hb : ':' ∉ b) (t u : DType) (ht : Name (strip a) t) (hu : Name (strip b) u) :
    parseDtypes (a ++ ':' :: (b ++ ':' :: rest)) = .ok (t, u) := by
  have hsp : (a ++ ':' :: (b ++ ':' :: rest)).splitOn ':' = a :: b :: rest.splitOn ':' := by
    rw [List.splitOn_append_cons_self_of_not_mem ha, List.splitOn_append_cons_self_of_not_mem hb]
  unfold parseDtypes
  rw [hsp]
  dsimp only [List.map]
  rw [(parseDtype_ok _ t).2 ht, (parseDtype_ok _ u).2 hu]
  rfl

/-! ## Feature masks -/

/-- A mask as it is written: `label:number` pairs with commas between them -/
def writeMask (str : Int → List Char) (mask : List (List Char × Int)) : List Char := [','].intercalate (mask.map fun p => p.1 ++ ':' :: str p.2)

/-- C216: a mask is read as it was written. -/
theorem mask_read (toInt : List Char → Py Int) (str : Int → List Char) (hstr : ∀ i, toInt (str i) = .ok i ∧ ',' ∉ str i ∧ ':' ∉ str i)
    (mask : List (List Char × Int)) (hne : mask ≠ []) (hl : ∀ p ∈ mask, ',' ∉ p.1 ∧ ':' ∉ p.1) :
    parseFeaturesMask toInt (some (writeMask str mask)) = .ok (some mask) := by
  have hsp : (writeMask str mask).splitOn ',' = mask.map fun p => p.1 ++ ':' :: str p.2 := by
    refine List.splitOn_intercalate ',' (fun l hmem => ?_) (by simpa using hne)
    obtain ⟨p, hp, rfl⟩ := List.mem_map.1 hmem
    simp [(hl p hp).1, (hstr p.2).2.1]
  have hm : ∀ m : List (List Char × Int), (∀ p ∈ m, ',' ∉ p.1 ∧ ':' ∉ p.1) →
      (m.map fun p => p.1 ++ ':' :: str p.2).mapM (parsePart toInt) = .ok m := by
    intro m
    induction m with
    | nil => intro _; rfl
    | cons p m ih =>
      intro hm
      have hp : parsePart toInt (p.1 ++ ':' :: str p.2) = .ok p := by
        unfold parsePart
        rw [List.splitOn_append_cons_self_of_not_mem (hm p (by simp)).2, List.splitOn_eq_singleton (hstr p.2).2.2]
        dsimp only
        rw [(hstr p.2).1]
        rfl
      rw [List.map_cons, List.mapM_cons, hp, ih fun q hq => hm q (by simp [hq])]
      rfl
  unfold parseFeaturesMask
  dsimp only
  rw [hsp, hm mask hl]
  rfl

/-- C216: no mask is no mask. -/
theorem mask_none (toInt : List Char → Py Int) : parseFeaturesMask toInt none = .ok none := rfl

/-- C216: an entry without a colon is refused. -/
theorem mask_refused (toInt : List Char → Py Int) (part : List Char) (hp : ':' ∉ part) (hc : ',' ∉ part) :
    parseFeaturesMask toInt (some part) = .error .indexError := by
  unfold parseFeaturesMask
  dsimp only
  rw [List.splitOn_eq_singleton hc]
  rw [List.mapM_cons]
  have : parsePart toInt part = .error .indexError := by
    unfold parsePart
    rw [List.splitOn_eq_singleton hp]
  rw [this]
  rfl

/-! ## File names -/

theorem append_cons_inj {α : Type} {x : α} : ∀ (a b u v : List α), x ∉ a → x ∉ b → a ++ x :: u = b ++ x :: v → a = b ∧ u = v
  | [], [], u, v, _, _, h => ⟨rfl, by simpa using h⟩
  | [], c :: b, u, v, _, hb, h => by
    simp only [List.nil_append, List.cons_append, List.cons.injEq] at h
    exact absurd (by simp [h.1]) hb
  | c :: a, [], u, v, ha, _, h => by
    simp only [List.nil_append, List.cons_append, List.cons.injEq] at h
    exact absurd (by simp [h.1]) ha
  | c :: a, d :: b, u, v, ha, hb, h => by
    simp only [List.cons_append, List.cons.injEq] at h
    simp only [List.mem_cons, not_or] at ha hb
    obtain ⟨h1, h2⟩ := append_cons_inj a b u v ha.2 hb.2 h.2
    exact ⟨by rw [h.1, h1], h2⟩

/-- C217: files of one model in one directory differ if the numbers of topics, the numbers of latent features, the folds or the minutes differ. -/
theorem file_partial (str : Nat → List Char) (hinj : Function.Injective str) (hstr : ∀ n, '_' ∉ str n) (name dir : List Char)
    (K K' : Nat) (P P' : Option Nat) (fold fold' : Nat) (stamp stamp' : List Char)
    (h : saveFile str name K P fold dir stamp = saveFile str name K' P' fold' dir stamp') :
    K = K' ∧ P.getD 0 = P'.getD 0 ∧ fold = fold' ∧ stamp = stamp' := by
  unfold saveFile newModelFile at h
  simp only [List.append_assoc, List.append_cancel_left_eq, List.cons_append, List.nil_append, List.cons.injEq, true_and] at h
  obtain ⟨h1, h⟩ := append_cons_inj _ _ _ _ (hstr K) (hstr K') h
  simp only [List.cons.injEq, true_and] at h
  obtain ⟨h2, h⟩ := append_cons_inj _ _ _ _ (hstr _) (hstr _) h
  simp only [List.cons.injEq, true_and] at h
  obtain ⟨h3, h⟩ := append_cons_inj _ _ _ _ (hstr _) (hstr _) h
  exact ⟨hinj h1, hinj h2, hinj h3, List.append_cancel_right h⟩

/-- C217: models of different kinds are saved in the same file, whatever the number of topics, fold, directory and minute. -/
theorem file_violation (str : Nat → List Char) (K : Nat) (P : Option Nat) (fold : Nat) (dir stamp : List Char) :
    ∀ p ∈ [("lda_cvb", "lda_cvb0"), ("mom_em", "mom_gibbs"), ("stm_yv_bohning", "stm_uv_vecy_bohning")],
      saveFile str (modelName p.1) K P fold dir stamp = saveFile str (modelName p.2) K P fold dir stamp := by
  intro p hp
  simp only [List.mem_cons, List.not_mem_nil, or_false] at hp
  rcases hp with rfl | rfl | rfl <;> rfl

/-- C217: so are models whose names differ in slashes and hyphens only. -/
theorem file_clean (str : Nat → List Char) (name name' : List Char) (h : cleanName name = cleanName name') (K : Nat) (P : Option Nat) (fold : Nat)
    (dir stamp : List Char) : saveFile str name K P fold dir stamp = saveFile str name' K P fold dir stamp := by
  unfold saveFile newModelFile
  rw [h]

/-! ## Hashtags are held out -/

/-- C218: with the proportion that `run` uses no hashtag is removed from the held-out documents, and all scores of all models are zero. -/
theorem hashtag_violation (tags : List Nat) (rand : Nat → ℚ) (hrand : ∀ n, 0 ≤ rand n) (probs : Csr ℚ → Nat → List Nat) (words : Csr ℚ) (hw : words.WF)
    (hp : ∀ w t, (probs w t).Perm (List.range words.rows)) (tag m : Nat) :
    hashtagEval tags hashtagProp rand probs words tag m = (0, 0) ∧
    ∀ d t, d < words.rows → (RunMain.softSplit words tags rand hashtagProp).1.entry d t = words.entry d t := by
  refine ⟨?_, fun d t hd => (SoftSplit.soft_split_none words hw tags rand hrand d hd t).1⟩
  unfold hashtagEval hashtagScores
  dsimp only
  have hz : (((probs (RunMain.softSplit words tags rand hashtagProp).1 tag).drop
      ((probs (RunMain.softSplit words tags rand hashtagProp).1 tag).length - m)).reverse.map
      fun d => (RunMain.softSplit words tags rand hashtagProp).2.entry d tag).sum = 0 := by
    apply List.sum_eq_zero
    intro x hx
    obtain ⟨d, hd, rfl⟩ := List.mem_map.1 hx
    have hd := List.mem_of_mem_drop (List.mem_reverse.1 hd)
    exact (SoftSplit.soft_split_none words hw tags rand hrand d (List.mem_range.1 ((hp _ _).mem_iff.1 hd)) tag).2
  rw [hz]
  simp

/-- C218: the parameter documented as the proportion of the tags to keep is the proportion removed: asked to keep all, the split removes all. -/
theorem tag_prop_violation (words : Csr ℚ) (hw : words.WF) (tags : List Nat) (rand : Nat → ℚ) (d t : Nat) (hd : d < words.rows) (ht : t ∈ tags) :
    (RunMain.softSplit words tags rand 1).1.entry d t = 0 := (SoftSplit.soft_split_all words hw tags rand 1 rfl d hd t ht).1

/-- C218: with proportion one the held-out documents have no hashtags left, and the scores are those of the documents' own hashtags. -/
theorem hashtag_partial (tags : List Nat) (rand : Nat → ℚ) (probs : Csr ℚ → Nat → List Nat) (words : Csr ℚ) (hw : words.WF)
    (hp : ∀ w t, (probs w t).Perm (List.range words.rows)) (tag : Nat) (ht : tag ∈ tags) (m : Nat) :
    (∀ d t, d < words.rows → t ∈ tags → (RunMain.softSplit words tags rand 1).1.entry d t = 0) ∧
    hashtagEval tags 1 rand probs words tag m
      = hashtagScores words.rows (probs (RunMain.softSplit words tags rand 1).1 tag) (fun d => words.entry d tag) m := by
  refine ⟨fun d t hd ht => (SoftSplit.soft_split_all words hw tags rand 1 rfl d hd t ht).1, ?_⟩
  have hc : ∀ d, d < words.rows → (RunMain.softSplit words tags rand 1).2.entry d tag = words.entry d tag :=
    fun d hd => (SoftSplit.soft_split_all words hw tags rand 1 rfl d hd tag ht).2
  unfold hashtagEval hashtagScores
  dsimp only
  rw [List.map_congr_left (l := List.range words.rows) fun d hd => hc d (List.mem_range.1 hd)]
  rw [List.map_congr_left (l := (List.drop _ (probs _ tag)).reverse) fun d hd =>
    hc d (List.mem_range.1 ((hp _ _).mem_iff.1 (List.mem_of_mem_drop (List.mem_reverse.1 hd))))]

/-! ## Hashtag scores are proportions -/

theorem sum_le_length (l : List ℚ) (h : ∀ x ∈ l, x ≤ 1) : l.sum ≤ l.length := by
  induction l with
  | nil => simp
  | cons a l ih =>
    rw [List.sum_cons, List.length_cons]
    push_cast
    linarith [h a (by simp), ih fun x hx => h x (by simp [hx])]

/-- What the scores count: the held-out occurrences among the documents ranked highest, and among all documents -/
theorem scores_matched (D : Nat) (order : List Nat) (ho : order.Perm (List.range D)) (check : Nat → ℚ) (hc : ∀ d, 0 ≤ check d) (m : Nat) :
    0 ≤ (((order.drop (order.length - m)).reverse).map check).sum ∧
    (((order.drop (order.length - m)).reverse).map check).sum ≤ ((List.range D).map check).sum := by
  have hnn : ∀ l : List Nat, ∀ x ∈ l.map check, 0 ≤ x := by
    intro l x hx
    obtain ⟨d, _, rfl⟩ := List.mem_map.1 hx
    exact hc d
  refine ⟨List.sum_nonneg (hnn _), ?_⟩
  rw [List.map_reverse, List.sum_reverse]
  rw [← (ho.map check).sum_eq]
  exact (List.Sublist.map check (List.drop_sublist _ _)).sum_le_sum (hnn _)

/-- C219: if no held-out document has a hashtag more than once, precision and recall are between 0 and 1, and recall is 1 once `m` covers all documents. -/
theorem scores_partial (D : Nat) (order : List Nat) (ho : order.Perm (List.range D)) (check : Nat → ℚ) (hc : ∀ d, check d = 0 ∨ check d = 1) (m : Nat)
    (hm : 0 < m) :
    (0 ≤ (hashtagScores D order check m).1 ∧ (hashtagScores D order check m).1 ≤ 1) ∧
    (0 ≤ (hashtagScores D order check m).2 ∧ (hashtagScores D order check m).2 ≤ 1) ∧
    (D ≤ m → (∃ d, d < D ∧ check d = 1) → (hashtagScores D order check m).2 = 1) := by
  have h0 : ∀ d, 0 ≤ check d := fun d => by rcases hc d with h | h <;> rw [h]; exact zero_le_one
  have h1 : ∀ d, check d ≤ 1 := fun d => by rcases hc d with h | h <;> rw [h]; exact zero_le_one
  obtain ⟨hp, hle⟩ := scores_matched D order ho check h0 m
  have hlm : (((order.drop (order.length - m)).reverse).map check).sum ≤ m := by
    refine (sum_le_length _ fun x hx => ?_).trans ?_
    · obtain ⟨d, _, rfl⟩ := List.mem_map.1 hx
      exact h1 d
    · rw [List.length_map, List.length_reverse, List.length_drop]
      exact_mod_cast (by omega : order.length - (order.length - m) ≤ m)
  have hm' : (0 : ℚ) < m := by exact_mod_cast hm
  unfold hashtagScores
  dsimp only
  refine ⟨⟨div_nonneg hp hm'.le, (div_le_one hm').2 hlm⟩, ⟨div_nonneg hp (zero_le_one.trans (le_max_right _ _)),
    (div_le_one (lt_of_lt_of_le one_pos (le_max_right _ _))).2 ((le_min hlm hle).trans (le_max_left _ _))⟩, ?_⟩
  intro hD ⟨d, hd, hd1⟩
  have hall : (((order.drop (order.length - m)).reverse).map check).sum = ((List.range D).map check).sum := by
    have : order.length = D := by rw [ho.length_eq, List.length_range]
    rw [show order.length - m = 0 by omega, List.drop_zero, List.map_reverse, List.sum_reverse, (ho.map check).sum_eq]
  have hone : 1 ≤ ((List.range D).map check).sum := by
    rw [← hd1]
    refine List.single_le_sum (fun x hx => ?_) _ (List.mem_map_of_mem (List.mem_range.2 hd))
    obtain ⟨e, _, rfl⟩ := List.mem_map.1 hx
    exact h0 e
  rw [hall]
  have hmin : min (m : ℚ) ((List.range D).map check).sum = ((List.range D).map check).sum := min_eq_right (hall ▸ hlm)
  rw [hmin, max_eq_left hone, div_self (by linarith)]

/-- C219: a hashtag that held-out documents repeat gives precisions and recalls above any bound. -/
theorem scores_violation (B : Nat) : hashtagScores 10 (List.range 10) (fun _ => (B : ℚ) + 1) 10 = ((B : ℚ) + 1, (B : ℚ) + 1) := by
  unfold hashtagScores
  dsimp only
  have hs : ((List.range 10).map fun _ => (B : ℚ) + 1).sum = 10 * ((B : ℚ) + 1) := by
    simp
    ring
  have hd : ((List.range 10).drop ((List.range 10).length - 10)).reverse.map (fun _ => (B : ℚ) + 1) = (List.range 10).map fun _ => (B : ℚ) + 1 := by
    simp [List.range_succ]
  rw [hd, hs]
  have hB : (0 : ℚ) ≤ B := Nat.cast_nonneg B
  rw [min_eq_left (by push_cast; linarith), max_eq_left (by norm_num)]
  push_cast
  rw [mul_div_cancel_left₀ _ (by norm_num : (10 : ℚ) ≠ 0)]

/-! ## Evaluation by features -/

/-- One round of the evaluation: trained on the documents without any of the features left, queried on those with the first one -/
def Round {κ : Type} (ds : DataSet κ) (f : Mat ℚ) (left : List (List Char × Nat)) (r : List Char × DataSet κ × DataSet κ × List Nat) : Prop :=
  match left with
  | [] => False
  | (label, i) :: _ => r.1 = label ∧ (∀ d, d ∈ r.2.2.2 ↔ d < f.rows ∧ ∀ p ∈ left, f.get d p.2 = 0) ∧
      ∃ qu : List Nat, (∀ d, d ∈ qu ↔ d < f.rows ∧ f.get d i ≠ 0) ∧ (∀ d, d ∈ r.2.2.2 → d ∉ qu) ∧
        DataSetSplit.MatRows ds.words r.2.2.2 r.2.1.words ∧ DataSetSplit.MatRows ds.words qu r.2.2.1.words

/-- C220: the evaluation has one round for each feature of the mask; none trains on a document that it queries. -/
theorem outsample_rounds {κ : Type} (ds : DataSet κ) (f L : Mat ℚ) (hf : ds.feats = some f) (hL : ds.links = some L)
    (hnn : ∀ d j, f.get d j = 0 ∨ 1 / 10 ^ 30 < f.get d j) : ∀ (mask : List (List Char × Nat)) rs, outsample ds mask = .ok rs →
    rs.length = mask.length ∧ ∀ i r, rs[i]? = some r → Round ds f (mask.drop i) r
  | [], rs, h => by
    cases h
    exact ⟨rfl, fun i r hr => by simp at hr⟩
  | (label, i) :: rest, rs, h => by
    unfold outsample at h
    rcases hs : ds.splitOnFeature (i :: rest.map Prod.snd) with e | ⟨d1, d2, tr⟩
    · rw [hs] at h
      cases h
    rw [hs] at h
    rcases ho : outsample ds rest with e | rs'
    · rw [ho] at h
      cases h
    rw [ho] at h
    cases h
    obtain ⟨hlen, ih⟩ := outsample_rounds ds f L hf hL hnn rest rs' ho
    refine ⟨by simp [hlen], fun j r hr => ?_⟩
    cases j with
    | zero =>
      simp only [List.getElem?_cons_zero, Option.some.injEq] at hr
      subst hr
      obtain ⟨h1, qu, h2, h3, h4, h5, -⟩ := DataSetOps.split_on_feature_partial ds f L i (rest.map Prod.snd) d1 d2 tr hf hL hnn hs
      refine ⟨rfl, fun d => ?_, qu, h2, h3, h4, h5⟩
      rw [h1]
      unfold DataSetOps.NoneSet
      constructor
      · rintro ⟨a, b⟩
        refine ⟨a, fun p hp => ?_⟩
        rcases List.mem_cons.1 hp with rfl | hp
        · exact b _ (by simp)
        · exact b _ (List.mem_cons_of_mem _ (List.mem_map_of_mem hp))
      · rintro ⟨a, b⟩
        refine ⟨a, fun j hj => ?_⟩
        rcases List.mem_cons.1 hj with rfl | hj
        · exact b (label, j) (by simp)
        · obtain ⟨p, hp, rfl⟩ := List.mem_map.1 hj
          exact b p (List.mem_cons_of_mem _ hp)
    | succ j =>
      exact ih j r (by simpa using hr)

/-- C220: documents that are trained on in one round are trained on in all later rounds. -/
theorem outsample_grows {κ : Type} (ds : DataSet κ) (f L : Mat ℚ) (hf : ds.feats = some f) (hL : ds.links = some L)
    (hnn : ∀ d j, f.get d j = 0 ∨ 1 / 10 ^ 30 < f.get d j) (mask : List (List Char × Nat)) rs (h : outsample ds mask = .ok rs)
    (i j : Nat) (hij : i ≤ j) r r' (hi : rs[i]? = some r) (hj : rs[j]? = some r') (d : Nat) (hd : d ∈ r.2.2.2) : d ∈ r'.2.2.2 := by
  obtain ⟨-, hr⟩ := outsample_rounds ds f L hf hL hnn mask rs h
  have h1 := hr i r hi
  have h2 := hr j r' hj
  have hsub : ∀ p ∈ mask.drop j, p ∈ mask.drop i := by
    intro p hp
    rw [show j = i + (j - i) by omega, ← List.drop_drop] at hp
    exact List.mem_of_mem_drop hp
  unfold Round at h1 h2
  cases hmi : mask.drop i with
  | nil => rw [hmi] at h1; exact h1.elim
  | cons p ps =>
    cases hmj : mask.drop j with
    | nil => rw [hmj] at h2; exact h2.elim
    | cons q qs =>
      rw [hmi] at h1 hsub
      rw [hmj] at h2 hsub
      obtain ⟨ha, hb⟩ := (h1.2.1 d).1 hd
      exact (h2.2.1 d).2 ⟨ha, fun p hp => hb p (hsub p hp)⟩

/-! ## The program -/

/-- C221: the program never evaluates anything: if its options can be read and the files loaded, it ends with `TypeError` at the pruning. -/
theorem run_violation {α β : Type} (toInt : List Char → Py Int) (mask : Option (List Char)) (dtype : List Char) (load : Py α) (evaluate : α → DType → Py β) :
    (∀ r, run toInt mask dtype load evaluate ≠ .ok r) ∧
    ∀ l t data, parseFeaturesMask toInt mask = .ok l → parseDtypes dtype = .ok t → load = .ok data →
      run toInt mask dtype load evaluate = .error .typeError := by
  have hc : callWith pruneParams ["min_doc_len", "min_link_count"] = .error .typeError := by decide
  constructor
  · intro r h
    unfold run at h
    rw [hc] at h
    rcases h1 : parseFeaturesMask toInt mask with e | l <;> rw [h1] at h
    · cases h
    rcases h2 : parseDtypes dtype with e | t <;> rw [h2] at h
    · cases h
    rcases h3 : load with e | data <;> rw [h3] at h <;> cases h
  · intro l t data hl ht hd
    unfold run
    rw [hl, ht, hd, hc]
    rfl

/-! ## Examples -/

example : parseDtypes "f4: F64".toList = .ok (.float32, .float64) :=
  (dtypes_two_partial "f4".toList " F64".toList (by decide) (by decide)).1 _ _ ⟨'f', ['4'], by decide, by decide⟩ ⟨'F', ['6', '4'], by decide, by decide⟩

example : parseDtypes "f4:f8:anything".toList = .ok (.float32, .float64) :=
  dtypes_violation "f4".toList "f8".toList "anything".toList (by decide) (by decide) _ _ ⟨'f', ['4'], by decide, by decide⟩
    ⟨'f', ['8'], by decide, by decide⟩

example : parseDtypes "f2".toList = .error .valueError := by decide +kernel

/-- Numbers written in unary -/
def exStr (n : Nat) : List Char := List.replicate n '1'

example : parseFeaturesMask (fun s => .ok s.length) (some "a:11,b:1".toList) = .ok (some [("a".toList, 2), ("b".toList, 1)]) := by decide +kernel

/-- The label `a:1` with number 5 is read as the label `a` with number 1. -/
example : parseFeaturesMask (fun s => .ok s.length) (some "a:1:11111".toList) = .ok (some [("a".toList, 1)]) := by decide +kernel

example : Function.Injective exStr ∧ ∀ n, '_' ∉ exStr n :=
  ⟨fun a b h => by simpa [exStr] using congrArg List.length h, fun n h => by
    have := List.eq_of_mem_replicate h
    revert this
    decide⟩

example : saveFile exStr "lda/vb".toList 2 none 3 "d".toList "t".toList = "d/lda_vb_k_11_p__fold_111_t.pkl".toList := by decide +kernel

/-- Three documents, the hashtag is word 1; the last two have it. -/
def exWords : Csr ℚ := ⟨3, 2, [0, 1, 3, 4], [0, 0, 1, 1], [1, 2, 1, 1]⟩

example : hashtagEval [1] 1 (fun _ => 0) (fun _ _ => [0, 1, 2]) exWords 1 2 = (1, 1) := by decide +kernel

example : hashtagEval [1] 0 (fun _ => 0) (fun _ _ => [0, 1, 2]) exWords 1 2 = (0, 0) := by decide +kernel

/-- Four documents with the features 0 to 2 -/
def exDs : DataSet Nat := ⟨⟨4, 1, fun d _ => d + 1⟩, some ⟨4, 3, fun d j => if d = j + 1 then 1 else 0⟩, some ⟨4, 4, fun _ _ => 1⟩, none, .none, [0, 1, 2, 3]⟩

example : (outsample exDs [(['a'], 0), (['b'], 1)]).toOption.map (fun rs => rs.map fun r => r.2.2.2) = some [[0, 3], [0, 1, 3]] := by decide +kernel

example : run (α := Nat) (β := Nat) (fun _ => .ok 1) none "f4".toList (.ok 3) (fun _ _ => .ok 1) = .error .typeError := by decide +kernel

end Verif.Props.RunCli
