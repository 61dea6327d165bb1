import Verif.Model.Py

/-!
# Lengths of documents as arrays

The models compute the lengths of the documents as `np.squeeze(np.asarray(W.sum(axis=1)))` and use them as a vector.  Arrays are modelled
with their shape and a function from indices to entries.
-/

namespace Verif.SingleDoc

open Verif

/-- An array: its shape and its entries (numpy's arrays, as used for `docLens` in lda_vb_python.py:125) -/
structure Arr where
  shape : List Nat
  get : List Nat → Nat

/-- `np.asarray(W.sum(axis=1))`: a column (lda_vb_python.py:125, rtm.py:121) -/
def column (D : Nat) (lens : Nat → Nat) : Arr := ⟨[D, 1], fun i => lens (i.getD 0 0)⟩

/-- The index in the original array for an index in the squeezed array (numpy; lda_vb_python.py:125) -/
def unsqueeze : List Nat → List Nat → List Nat
  | [], _ => []
  | n :: s, i => if n = 1 then 0 :: unsqueeze s i else i.headD 0 :: unsqueeze s i.tail

/-- `np.squeeze`: dimensions of length one are removed. (numpy; lda_vb_python.py:125, rtm.py:121) -/
def squeeze (a : Arr) : Arr := ⟨a.shape.filter (· ≠ 1), fun i => a.get (unsqueeze a.shape i)⟩

/-- `docLens` (ctm.py:134, ctm_bohning.py:155, ctm_bohning_fast.py:155, stm_yv_bohning.py:139, stm_uv_vecy_bohning.py:138,
stm_yv_bohning_fake_online.py:141, lda_vb_python.py:125, mom_gibbs.py:116, rtm.py:121, mom_em.py:346, lda_gibbs_fast.pyx:310,
common.py:216) -/
def docLens (D : Nat) (lens : Nat → Nat) : Arr := squeeze (column D lens)

/-- `a[:,np.newaxis]` (lda_vb_python.py:133, rtm.py:126) -/
def newAxis (a : Arr) : Py Arr :=
  match a.shape with
  | [] => .error .indexError
  | n :: s => .ok ⟨n :: 1 :: s, fun i => a.get (i.headD 0 :: i.tail.tail)⟩

/-- `a[d]` (lda_vb_python.py:299, 327) -/
def entry (a : Arr) (d : Nat) : Py Nat :=
  match a.shape with
  | [n] => if d < n then .ok (a.get [d]) else .error .indexError
  | _ => .error .indexError

/-- `a.shape[0]` (lda_gibbs.py:192, 233) -/
def firstDim (a : Arr) : Py Nat :=
  match a.shape with
  | [] => .error .indexError
  | n :: _ => .ok n

/-- `m * c` for a `D × K` matrix and a column with `D` rows, the factor of entry `(d, k)` (lda_vb_python.py:133, rtm.py:126) -/
def scaleRows (D : Nat) (c : Arr) (m : Nat → Nat → Int) : Py (Nat → Nat → Int) :=
  if c.shape = [D, 1] then .ok fun d k => m d k * c.get [d, 0] else .error .valueError

/-- `newQueryState` (lda_vb_python.py:125-136, mom_gibbs.py:116-127, rtm.py:121-130): `dists` are the random topic distributions, here
with entries in integers, and `prior` is `topicPrior`. -/
def newTopicDists (D : Nat) (lens : Nat → Nat) (dists : Nat → Nat → Int) (prior : Nat → Int) : Py (Nat → Nat → Int) := do
  let c ← newAxis (docLens D lens)
  let m ← scaleRows D c dists
  .ok fun d k => m d k + prior k

/-- The term `n[:,np.newaxis] * m` in an iteration of `train` and `query` (ctm.py:262, 350; ctm_bohning.py:270, 350;
ctm_bohning_fast.py:272, 358; stm_yv.py:278, 370; stm_yv_bohning.py:275, 387; stm_uv_vecy_bohning.py:303, 404;
stm_yv_bohning_fake_online.py:317, 419) and in `var_bound` (ctm.py:440, ctm_bohning.py:446, stm_yv.py:478, stm_yv_bohning.py:502), and of
the likelihood of a mixture (mom_em.py:352) -/
def lengthTerm (D : Nat) (lens : Nat → Nat) (m : Nat → Nat → Int) : Py (Nat → Nat → Int) := do
  let c ← newAxis (docLens D lens)
  scaleRows D c m

/-- The number of documents in `train` and `query` (lda_gibbs.py:192, 233) -/
def gibbsDocCount (D : Nat) (lens : Nat → Nat) : Py Nat := firstDim (docLens D lens)

/-- The lengths `n[d]` that the loops over the documents use (ctm.py:354, ctm_bohning.py:281, 356; stm_yv_bohning.py:401-403) -/
def lengthsRead (D : Nat) (lens : Nat → Nat) : Py (List Nat) := (List.range D).mapM (entry (docLens D lens))

end Verif.SingleDoc
