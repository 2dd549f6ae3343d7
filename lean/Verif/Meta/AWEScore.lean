import Verif.Meta.AWE
import Mathlib.Data.List.Forall2
import Mathlib.Data.List.GetD

/-!
Model of the scores of `AccuracyWeightedEnsemble` (meta/accuracy_weighted_ensemble.py 231-257,
316-421): training, the score of a model on a chunk, and cross-validation of the new model; C246,
C247.

Simplifications: an estimator is given by its `fit` (if it has one; the classifiers of the package
inherit one that is `partial_fit` without classes, core/base.py 373-401), its `partial_fit` and its
rows of `predict_proba`; the folds that `KFold` draws are arbitrary; exact rational arithmetic.
-/

namespace Verif.Meta.AWEScore

variable {X M : Type}

/-- An estimator: `fit` (`none`: it raises `NotImplementedError`), `partial_fit`, `predict_proba`. -/
structure Est (X M : Type) where
  fit : Option (M → List (X × Int) → M)
  partialFit : M → List (X × Int) → List Int → M
  proba : M → X → List ℚ

/-- `train_model`, lines 253-257. -/
def trainModel (e : Est X M) (m : M) (data : List (X × Int)) (labels : List Int) : M :=
  match e.fit with
  | some f => f m data
  | none => e.partialFit m data labels

/-- One turn of the loop of `compute_score`, lines 345-351. -/
def labelError (labels : List Int) (row : List ℚ) (c : Int) : Except PyErr ℚ :=
  if c ∈ labels then
    match row[labels.idxOf c]? with
    | some p => .ok ((1 - p) * (1 - p))
    | none => .error .indexError
  else .ok 1

/-- The loop of `compute_score`, lines 343-351. -/
def sumError (e : Est X M) (m : M) (labels : List Int) : List (X × Int) → Except PyErr ℚ
  | [] => .ok 0
  | (x, c) :: rest =>
    match labelError labels (e.proba m x) c with
    | .error err => .error err
    | .ok a =>
      match sumError e m labels rest with
      | .error err => .error err
      | .ok b => .ok (a + b)

/-- `compute_score`, lines 339-353. -/
def computeScore (e : Est X M) (m : M) (labels : List Int) (data : List (X × Int)) : Except PyErr ℚ :=
  if data = [] then .error .zeroDivision else (sumError e m labels data).map (· / data.length)

/-- The loop over the folds, lines 380-389: `copy_model.estimator` is trained on and on. -/
def cvLoop (e : Est X M) (labels : List Int) (n : ℚ) :
    List (List (X × Int) × List (X × Int)) → M → ℚ → Except PyErr ℚ
  | [], _, acc => .ok acc
  | (train, test) :: rest, m, acc =>
    match computeScore e (trainModel e m train labels) labels test with
    | .error err => .error err
    | .ok s => cvLoop e labels n rest (trainModel e m train labels) (acc + s / n)

/-- `compute_score_crossvalidation`, lines 373-389, for the new model; `base` is the copy of the base
estimator. -/
def cvScore (e : Est X M) (base : M) (labels : List Int) (splits : List (List (X × Int) × List (X × Int))) :
    Except PyErr ℚ := cvLoop e labels splits.length splits base 0

/-- The splits of `KFold` for given folds (line 380): every fold is once the test set, the others
are the training set. -/
def splitsOf {S : Type} (folds : List (List S)) : List (List S × List S) :=
  (List.range folds.length).map fun j => ((folds.eraseIdx j).flatten, folds.getD j [])

/-! ### Specification -/

/-- Score of the test set by a new copy of the base estimator that was trained on the training set
only. -/
def heldOut (e : Est X M) (base : M) (labels : List Int) (split : List (X × Int) × List (X × Int)) : Except PyErr ℚ :=
  computeScore e (trainModel e base split.1 labels) labels split.2

/-- The model after the training sets of the splits up to `j`, one after the other. -/
def trainedUpTo (e : Est X M) (base : M) (labels : List Int) (splits : List (List (X × Int) × List (X × Int))) (j : Nat) : M :=
  ((splits.take (j + 1)).map Prod.fst).foldl (fun m tr => trainModel e m tr labels) base

/-! ### Proofs: cross-validation -/

theorem cvLoop_batch (e : Est X M) (f : M → List (X × Int) → M) (hf : e.fit = some f) (hr : ∀ m m' d, f m d = f m' d)
    (base : M) (labels : List Int) (n : ℚ) (splits : List (List (X × Int) × List (X × Int))) (vals : List ℚ)
    (h : List.Forall₂ (fun sp v => heldOut e base labels sp = .ok v) splits vals) (m : M) (acc : ℚ) :
    cvLoop e labels n splits m acc = .ok (acc + (vals.map (· / n)).sum) := by
  induction h generalizing m acc with
  | nil => simp [cvLoop]
  | @cons sp v sps vs h1 _ ih =>
    obtain ⟨tr, te⟩ := sp
    have ht : trainModel e m tr labels = trainModel e base tr labels := by
      simp only [trainModel, hf]; exact hr _ _ _
    unfold cvLoop
    rw [ht]
    unfold heldOut at h1
    simp only at h1
    rw [h1]
    simp only
    rw [ih]
    simp [add_assoc]

/-- C246 (partial): for a base estimator with a `fit` that starts anew, the cross-validation score is
the mean over the folds of the score of a model trained on the other folds only.  Missing (and
false): estimators whose `fit` goes on from what they have learned, as that of the package does. -/
theorem C246_batch_partial (e : Est X M) (f : M → List (X × Int) → M) (hf : e.fit = some f)
    (hr : ∀ m m' d, f m d = f m' d) (base : M) (labels : List Int)
    (splits : List (List (X × Int) × List (X × Int))) (vals : List ℚ)
    (h : List.Forall₂ (fun sp v => heldOut e base labels sp = .ok v) splits vals) :
    cvScore e base labels splits = .ok (vals.sum / splits.length) := by
  unfold cvScore
  rw [cvLoop_batch e f hf hr base labels _ splits vals h]
  congr 1
  rw [zero_add]
  generalize (splits.length : ℚ) = n
  clear h hf hr
  induction vals with
  | nil => simp
  | cons v vs ih => simp only [List.map_cons, List.sum_cons, ih]; ring

theorem cvLoop_incremental (e : Est X M) (labels : List Int) (n : ℚ)
    (splits : List (List (X × Int) × List (X × Int))) (base : M) (acc : ℚ) (vals : List ℚ)
    (hl : vals.length = splits.length)
    (h : ∀ (j : Nat) (hj : j < splits.length), computeScore e (trainedUpTo e base labels splits j) labels (splits[j]).2 =
      .ok (vals.getD j 0)) :
    cvLoop e labels n splits base acc = .ok (acc + (vals.map (· / n)).sum) := by
  induction splits generalizing base acc vals with
  | nil =>
    have : vals = [] := List.length_eq_zero_iff.mp (by simpa using hl)
    simp [cvLoop, this]
  | cons sp sps ih =>
    obtain ⟨tr, te⟩ := sp
    cases vals with
    | nil => simp at hl
    | cons v vs =>
      have h0 := h 0 (by simp)
      have h0 : computeScore e (trainModel e base tr labels) labels te = .ok v := by simpa [trainedUpTo] using h0
      unfold cvLoop
      rw [h0]
      simp only
      rw [ih (trainModel e base tr labels) (acc + v / n) vs (by simpa using hl)]
      · simp [add_assoc]
      · intro j hj
        have := h (j + 1) (by simpa using hj)
        simpa [trainedUpTo] using this

/-- C246 (violated): the model that scores fold `j` has been trained on the training sets of all splits
up to `j`, one after the other; from the second split on, the whole test set is part of what it
has been given before.  (Only for an estimator that forgets, as in `C246_batch_partial`, this
does not matter; those of the package do not.) -/
theorem C246_incremental_violated (e : Est X M) (base : M) (labels : List Int)
    (folds : List (List (X × Int))) (vals : List ℚ) (hl : vals.length = folds.length)
    (h : ∀ (j : Nat) (hj : j < folds.length),
      computeScore e (trainedUpTo e base labels (splitsOf folds) j) labels folds[j] = .ok (vals.getD j 0)) :
    cvScore e base labels (splitsOf folds) = .ok (vals.sum / folds.length) ∧
    ∀ (j : Nat) (hj : j < folds.length), 0 < j → ∀ s ∈ folds[j],
      ∃ tr ∈ ((splitsOf folds).take j).map Prod.fst, s ∈ tr := by
  have hlen : (splitsOf folds).length = folds.length := by simp [splitsOf]
  constructor
  · unfold cvScore
    rw [cvLoop_incremental e labels _ (splitsOf folds) base 0 vals (by rw [hl, hlen])]
    · congr 1
      rw [zero_add, hlen]
      generalize (folds.length : ℚ) = n
      clear h hl
      induction vals with
      | nil => simp
      | cons v vs ih => simp only [List.map_cons, List.sum_cons, ih]; ring
    · intro j hj
      have hj' : j < folds.length := by rw [← hlen]; exact hj
      have := h j hj'
      have e2 : ((splitsOf folds)[j]).2 = folds[j] := by simp [splitsOf, List.getElem?_eq_getElem hj']
      rw [e2]; exact this
  · intro j hj h0 s hs
    refine ⟨(folds.eraseIdx 0).flatten, ?_, ?_⟩
    · refine List.mem_map.mpr ⟨((folds.eraseIdx 0).flatten, folds.getD 0 []), ?_, rfl⟩
      refine List.mem_iff_getElem?.mpr ⟨0, ?_⟩
      rw [List.getElem?_take, if_pos h0]
      have : 0 < folds.length := by omega
      simp [splitsOf, this]
    · cases folds with
      | nil => simp at hj
      | cons f fs =>
        cases j with
        | zero => omega
        | succ j =>
          simp only [List.eraseIdx_cons_zero, List.mem_flatten]
          exact ⟨fs[j]'(by simpa using hj), List.getElem_mem _, by simpa using hs⟩

/-- An estimator that learns by heart and gives probability 0 to everything it has not seen (two
classes); `fit` is `partial_fit`. -/
def rote : Est Nat (List (Nat × Int)) where
  fit := some fun m d => m ++ d
  partialFit := fun m d _ => m ++ d
  proba := fun m x => [if (x, 0) ∈ m then 1 else 0, if (x, 1) ∈ m then 1 else 0]

/-- C246 (violated), concretely: a model that only learns by heart has error 1 on every held-out fold,
but the cross-validation score is 1/3. -/
theorem C246_rote_violated :
    let folds := [[((1 : Nat), (0 : Int)), (2, 1)], [(3, 0), (4, 1)], [(5, 0), (6, 1)]]
    (splitsOf folds).map (fun sp => (heldOut rote [] [0, 1] sp).toOption) = [some 1, some 1, some 1] ∧
    (cvScore rote [] [0, 1] (splitsOf folds)).toOption = some (1 / 3) := by decide +kernel

/-- A batch estimator for which the score is the mean of the held-out scores. -/
example :
    let e : Est Nat (List (Nat × Int)) := { rote with fit := some fun _ d => d }
    (cvScore e [] [0, 1] (splitsOf [[((1 : Nat), (0 : Int)), (2, 1)], [(3, 0), (4, 1)], [(5, 0), (6, 1)]])).toOption =
      some 1 := by decide +kernel

/-! ### Proofs: the column of a label -/

/-- C247 (partial): when the labels of the chunk are `0, …, k-1`, or the columns of `predict_proba` are
in the order of the sorted labels of the chunk, the error of a row is computed from the
probability of its own label.  Here `p c` is the probability of label `c`. -/
theorem C247_columns_partial (labels : List Int) (hn : labels.Nodup) (p : Int → ℚ) (row : List ℚ) (c : Int) (hc : c ∈ labels)
    (h : row = labels.map p ∨
      (∃ k : Nat, labels = (List.range k).map (fun i : Nat => (i : Int)) ∧ ∀ i : Nat, i < k → row[i]? = some (p i))) :
    labelError labels row c = .ok ((1 - p c) ^ 2) := by
  have hi := List.idxOf_lt_length_iff.mpr hc
  have hget : labels[labels.idxOf c]? = some c := by rw [List.getElem?_eq_getElem hi, List.getElem_idxOf hi]
  have hr : row[labels.idxOf c]? = some (p c) := by
    rcases h with rfl | ⟨k, hk, hrow⟩
    · rw [List.getElem?_map, hget]; rfl
    · have hik : labels.idxOf c < k := by rw [hk] at hi; simpa [hk] using hi
      have hval : ((labels.idxOf c : Nat) : Int) = c := by
        have := hget
        generalize labels.idxOf c = i at this hik
        rw [hk, List.getElem?_map, List.getElem?_range hik] at this
        simpa using this
      rw [hrow _ hik, hval]
  unfold labelError
  rw [if_pos hc, hr]
  simp only
  congr 1
  ring

/-- Probability 1 for class `c`, in the column of that number (as the classifiers of the package
report it). -/
def oneHot (n c : Nat) : List ℚ := (List.range n).map fun i => if i = c then 1 else 0

theorem sumError_const (e : Est X M) (m : M) (labels : List Int) (data : List (X × Int))
    (h : ∀ d ∈ data, labelError labels (e.proba m d.1) d.2 = .ok 1) : sumError e m labels data = .ok data.length := by
  induction data with
  | nil => simp [sumError]
  | cons d data ih =>
    obtain ⟨x, c⟩ := d
    unfold sumError
    rw [h (x, c) (by simp)]
    simp only
    rw [ih fun d hd => h d (by simp [hd])]
    simp only [List.length_cons]
    congr 1
    push_cast
    ring

/-- C247 (violated): when no label of the chunk is equal to its position among the labels (for example
the labels 1 and 2), a classifier that gives probability 1 to the right class of every row gets
the worst possible score 1, and so weight 0. -/
theorem C247_perfect_violated (e : Est X M) (m : M) (labels : List Int) (n : Nat) (hlen : labels.length ≤ n)
    (hshift : ∀ (i : Nat) (hi : i < labels.length), labels[i] ≠ (i : Int)) (data : List (X × Int)) (hd : data ≠ [])
    (hlab : ∀ d ∈ data, d.2 ∈ labels) (hperf : ∀ d ∈ data, ∃ c : Nat, (c : Int) = d.2 ∧ e.proba m d.1 = oneHot n c)
    (base : ℚ) (hb : base ≤ 1) :
    computeScore e m labels data = .ok 1 ∧ AWE.weight base 1 = 0 := by
  constructor
  · have : ∀ d ∈ data, labelError labels (e.proba m d.1) d.2 = .ok 1 := by
      intro d hdm
      obtain ⟨c, hc, hp⟩ := hperf d hdm
      have hm := hlab d hdm
      have hi := List.idxOf_lt_length_iff.mpr hm
      have hne : labels.idxOf d.2 ≠ c := by
        intro he
        have := hshift _ hi
        rw [List.getElem_idxOf hi, he, hc] at this
        exact this rfl
      unfold labelError
      rw [if_pos hm, hp]
      simp [oneHot, List.getElem?_map, List.getElem?_range (lt_of_lt_of_le hi hlen), hne]
    unfold computeScore
    rw [if_neg hd, sumError_const e m labels data this]
    have : (data.length : ℚ) ≠ 0 := by
      have := List.length_pos_iff.mpr hd
      exact_mod_cast this.ne'
    simp [Except.map, this]
  · unfold AWE.weight
    exact max_eq_left (by linarith)

theorem sumError_index (e : Est X M) (m : M) (labels : List Int) (data : List (X × Int)) (d : X × Int) (hd : d ∈ data)
    (hc : d.2 ∈ labels) (hs : (e.proba m d.1).length ≤ labels.idxOf d.2) : sumError e m labels data = .error .indexError := by
  have hcase : ∀ row c, (∃ a, labelError labels row c = .ok a) ∨ labelError labels row c = .error .indexError := by
    intro row c
    unfold labelError
    by_cases h : c ∈ labels
    · rw [if_pos h]
      cases row[labels.idxOf c]? with
      | none => exact .inr rfl
      | some p => exact .inl ⟨_, rfl⟩
    · rw [if_neg h]; exact .inl ⟨_, rfl⟩
  induction data with
  | nil => simp at hd
  | cons a data ih =>
    obtain ⟨x, c⟩ := a
    unfold sumError
    rcases hcase (e.proba m x) c with ⟨v, hv⟩ | hv
    · rw [hv]
      rcases List.mem_cons.mp hd with rfl | hd
      · unfold labelError at hv
        simp only at hc hs
        rw [if_pos hc, List.getElem?_eq_none hs] at hv
        cases hv
      · simp only [ih hd]
    · rw [hv]

/-- C247 (violated): when the copy trained on the first training set answers with rows that end before
the position of a label in the first test set (rows of the package end at the largest label
trained so far), scoring the new model raises `IndexError`, and with it `partial_fit`. -/
theorem C247_rare_class_violated (e : Est X M) (base : M) (labels : List Int) (train test : List (X × Int))
    (rest : List (List (X × Int) × List (X × Int))) (d : X × Int) (hd : d ∈ test) (hc : d.2 ∈ labels)
    (hs : (e.proba (trainModel e base train labels) d.1).length ≤ labels.idxOf d.2) :
    cvScore e base labels ((train, test) :: rest) = .error .indexError := by
  unfold cvScore cvLoop computeScore
  rw [if_neg (by rintro rfl; simp at hd), sumError_index e _ labels test d hd hc hs]
  rfl

/-- Relative frequencies of the labels `0, …, max` seen so far. -/
def freq : Est Nat (List Int) where
  fit := some fun m d => m ++ d.map Prod.snd
  partialFit := fun m d _ => m ++ d.map Prod.snd
  proba := fun m _ => (List.range ((m.foldl max 0).toNat + 1)).map fun i => (m.count (i : Int) : ℚ) / m.length

/-- Class 1 occurs once in the chunk, in the first test set. -/
example :
    (match cvScore freq [] [0, 1] (splitsOf [[(1, 1)], [(2, 0)], [(3, 0)]]) with
      | .error .indexError => true
      | _ => false) = true ∧
    (cvScore freq [] [0, 1] (splitsOf [[(2, 0)], [(1, 1)], [(3, 0)]])).toOption.isSome = true := by decide +kernel

/-- Labels 1 and 2, columns 0, 1, 2; the classifier knows the answer. -/
example :
    let e : Est Int Unit := ⟨none, fun m _ _ => m, fun _ x => oneHot 3 x.toNat⟩
    (computeScore e () [1, 2] [(1, 1), (2, 2), (1, 1)]).toOption = some 1 ∧
    (computeScore e () [0, 1] [(1, 1), (0, 0), (1, 1)]).toOption = some 0 := by decide +kernel

end Verif.Meta.AWEScore
