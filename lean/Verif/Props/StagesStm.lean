import Verif.Props.RenumberStm

/-!
# Training the topic models with features in two stages (C311)

Training for some iterations, and for some more from the model and the state returned, without stopping early.
-/

namespace Verif.Props.StagesStm

open Verif Verif.Stm
open Verif.Mom (Data)
open Verif.Props.Renumber Verif.Props.RenumberCtm Verif.Props.RenumberStm

variable {inv : Nat → (Nat → Nat → ℝ) → Nat → Nat → ℝ} {p : Params} {x : Data} {X : Nat → Nat → ℝ}

/-! ## stm_yv -/

theorem steps_s (n : Nat) (st : StmYv.State) : ((StmYv.trainStep inv p x X)^[n] st).s = st.s := by
  induction n generalizing st with
  | zero => rfl
  | succ n ih =>
    rw [Function.iterate_succ_apply, ih]
    rfl

/-- **C311** (stm_yv): `n` iterations and `m` more are `n + m` iterations. -/
theorem yv_stages (inv : Nat → (Nat → Nat → ℝ) → Nat → Nat → ℝ) (p : Params) (x : Data) (X : Nat → Nat → ℝ) (n m : Nat) (st : StmYv.State) :
    StmYv.train inv p x X m (StmYv.train inv p x X n st) = StmYv.train inv p x X (n + m) st := by
  have h : (StmYv.train inv p x X n st).s = fun _ => 0 := steps_s n _
  have h2 : StmYv.train inv p x X (n + m) st = (StmYv.trainStep inv p x X)^[m] (StmYv.train inv p x X n st) := by
    unfold StmYv.train
    rw [Nat.add_comm n m, Function.iterate_add_apply]
  rw [h2]
  generalize StmYv.train inv p x X n st = r at h
  unfold StmYv.train
  rw [← h]

/-! ## stm_uv_vecy_bohning -/

/-- Equal within the sizes of the tables -/
abbrev Within (p : Params) (x : Data) : Stm.State → Stm.State → Prop :=
  SameModel (Equiv.refl _) (Equiv.refl _) (Equiv.refl _) (Equiv.refl _) (Equiv.refl _) p x

theorem numbers_refl (p : Params) (x : Data) : Numbers (Equiv.refl _) (Equiv.refl _) (Equiv.refl _) (Equiv.refl _) (Equiv.refl _) p x x :=
  ⟨⟨keeps_refl _, keeps_refl _, rfl, rfl, fun _ _ _ _ => rfl⟩, keeps_refl _, keeps_refl _, keeps_refl _, fun _ _ _ _ => rfl⟩

theorem spec_within (n : Nat) (st : Stm.State) : Within p x (uvTrain inv p x X n st) ((uvStep inv (Props.Stm.own p.K x) p x X)^[n] st) := by
  obtain ⟨a1, a2, a3, a4, a5, a6, a7⟩ := Props.Stm.uv_train_spec inv p x X n st
  refine ⟨fun i _ j _ => ?_, fun i _ j _ => ?_, fun i _ j _ => ?_, fun i _ j _ => ?_, fun i _ j _ => ?_, fun i _ j _ => ?_, fun d hd k _ => ?_,
    fun d hd k _ => ?_⟩
  · rw [a1]; rfl
  · rw [a2]; rfl
  · rw [a3]; rfl
  · rw [a4]; rfl
  · rw [a5]; rfl
  · rw [a6]; rfl
  · exact (congrFun (a7 d hd).1 k).symm
  · exact (congrFun (a7 d hd).2 k).symm

theorem within_symm {s r : Stm.State} (h : Within p x s r) : Within p x r s :=
  ⟨fun i hi j hj => (h.A i hi j hj).symm, fun i hi j hj => (h.Y i hi j hj).symm, fun i hi j hj => (h.RY i hi j hj).symm,
    fun i hi j hj => (h.V i hi j hj).symm, fun i hi j hj => (h.sig i hi j hj).symm, fun i hi j hj => (h.vocab i hi j hj).symm,
    fun i hi j hj => (h.means i hi j hj).symm, fun i hi j hj => (h.varcs i hi j hj).symm⟩

theorem within_trans {s r t : Stm.State} (h : Within p x s r) (h' : Within p x r t) : Within p x s t :=
  ⟨fun i hi j hj => (h'.A i hi j hj).trans (h.A i hi j hj), fun i hi j hj => (h'.Y i hi j hj).trans (h.Y i hi j hj),
    fun i hi j hj => (h'.RY i hi j hj).trans (h.RY i hi j hj), fun i hi j hj => (h'.V i hi j hj).trans (h.V i hi j hj),
    fun i hi j hj => (h'.sig i hi j hj).trans (h.sig i hi j hj), fun i hi j hj => (h'.vocab i hi j hj).trans (h.vocab i hi j hj),
    fun i hi j hj => (h'.means i hi j hj).trans (h.means i hi j hj), fun i hi j hj => (h'.varcs i hi j hj).trans (h.varcs i hi j hj)⟩

/-- Training does not read the covariance. -/
theorem uv_sig (m : Nat) (st : Stm.State) (sig : Nat → Nat → ℝ) : uvTrain inv p x X (m + 1) { st with sig := sig } = uvTrain inv p x X (m + 1) st := rfl

/-- **C311** (stm_uv_vecy_bohning): the second stage ends where a single run ends, within the sizes of the tables, though the documents are sorted and
put back in between, and the covariance is scaled (it is computed anew before it is used).  The inverse depends on the entries of the matrix only. -/
theorem uv_stages (hinv : FollowsInv inv) (p : Params) (x : Data) (X : Nat → Nat → ℝ) (n m : Nat) (st : Stm.State) (c : Nat → Nat → ℝ)
    (_ : trainedCovariance p x n (uvTrain inv p x X n st) = .ok c) :
    Within p x (uvTrain inv p x X (n + (m + 1)) st) (uvTrain inv p x X (m + 1) { uvTrain inv p x X n st with sig := c }) := by
  rw [uv_sig]
  have h1 := uv_train hinv (numbers_refl p x) (X := X) (X' := X) (fun _ _ _ _ => rfl) (m + 1) (within_symm (spec_within (inv := inv) (X := X) n st))
  have h2 := spec_within (inv := inv) (p := p) (x := x) (X := X) (m + 1) ((uvStep inv (Props.Stm.own p.K x) p x X)^[n] st)
  rw [← Function.iterate_add_apply, Nat.add_comm (m + 1) n] at h2
  exact within_trans (within_trans (spec_within (n + (m + 1)) st) (within_symm h2)) h1

/-- Training with the exact inverse, three iterations and four more -/
example : ∃ c, trainedCovariance exP exX 3 (uvTrain StmCov.exactInv exP exX (exT 1) 3 exS) = .ok c
    ∧ Within exP exX (uvTrain StmCov.exactInv exP exX (exT 1) 7 exS)
      (uvTrain StmCov.exactInv exP exX (exT 1) 4 { uvTrain StmCov.exactInv exP exX (exT 1) 3 exS with sig := c }) :=
  ⟨_, rfl, uv_stages exact_follows exP exX (exT 1) 3 3 exS _ rfl⟩

end Verif.Props.StagesStm
