import Verif.Streams.Loading

/-!
The `classes` that evaluators pass to `partial_fit`: `evaluation/evaluate_prequential.py` 290-367, `evaluate_holdout.py` 241-287,
`evaluate_prequential_delayed.py` 290-318 and 393-421; C260.

Simplifications: one model (all get the same); batches are counted only; `np.unique` of lists of different length, which older versions
of numpy take as labels themselves (newer ones raise `ValueError`), returns them in any order.
-/

namespace Verif.Evaluation.Classes

open Verif Verif.Streams.Loading

/-- Values of `target_values` and of `classes`. -/
inductive Arg
  | labels (l : List ℚ)
  | perTarget (ls : List (List ℚ))
  | types (n : Nat)
  deriving DecidableEq

/-- `stream.target_values`, data_stream.py 408-415, file_stream.py 309-315. -/
def targetValues (i : Info) : Arg :=
  match i.targets with
  | .classes _ vs => if i.nTargets = 1 then .labels vs.flatten else .perTarget vs
  | .numbers n => .types n

/-- `numpy.unique`. -/
def npUnique : Arg → Except PyErr Arg
  | .labels l => .ok (.labels (unique l))
  | .perTarget ls => if ls.all (fun l => decide (l.length = (ls.headD []).length)) then .ok (.labels (unique ls.flatten)) else .ok (.perTarget ls.dedup)
  | .types n => if n ≤ 1 then .ok (.types n) else .error .typeError

/-- Task of the evaluation. -/
inductive Task
  | classification | regression | mtClassification | mtRegression
  deriving DecidableEq

/-- Pre-training (evaluate_prequential.py 296-309, evaluate_prequential_delayed.py 402-419) and first batch of holdout (evaluate_holdout.py 260-275). -/
def strictFirst (t : Task) (tv : Arg) : Except PyErr (Option Arg) :=
  match t with
  | .classification => .ok (some tv)
  | .mtClassification => (npUnique tv).map some
  | _ => .ok none

/-- First batch without pre-training, evaluate_prequential.py 343-355, evaluate_prequential_delayed.py 294-307. -/
def looseFirst (t : Task) (tv : Arg) : Option Arg :=
  if t ≠ .regression ∧ t ≠ .mtRegression then some tv else none

/-- The loop over `n` batches with its flag `first_run`. -/
def loop (t : Task) (tv : Arg) : Bool → Nat → List (Option Arg)
  | _, 0 => []
  | first, n + 1 => (if first then looseFirst t tv else none) :: loop t tv false n

/-- `EvaluatePrequential` and `EvaluatePrequentialDelayed`: the `classes` of the calls of `partial_fit`, `none` if left out. -/
def prequential (t : Task) (tv : Arg) (pretrain : Nat) (n : Nat) : Except PyErr (List (Option Arg)) :=
  if pretrain > 0 then (strictFirst t tv).map fun c => c :: loop t tv false n else .ok (loop t tv true n)

/-- `EvaluateHoldout`. -/
def holdout (t : Task) (tv : Arg) : Nat → Except PyErr (List (Option Arg))
  | 0 => .ok []
  | n + 1 => (strictFirst t tv).map fun c => c :: loop t tv false n

theorem loop_false (t : Task) (tv : Arg) (n : Nat) : loop t tv false n = List.replicate n none := by
  induction n with
  | zero => rfl
  | succ n ih => simp [loop, ih, List.replicate_succ]

/-- C260 (what holds): a stream of one integer target, in a classification task. Every evaluator passes the labels of the stream,
each once and in order, to the first call of `partial_fit` and nothing to the others. -/
theorem C260_single_partial (cat : List Int) (xcols : List Column) (y : Column) (i : Info) (hy : y.dtype = .int)
    (hx : Numeric false xcols) (hyn : Numeric false [y]) (hrows : height [y] = height xcols) (hc : ValidCat xcols.length cat)
    (hi : loadXy false cat xcols [y] = .ok i) :
    ∃ l, Lists l (nums y) ∧
      (∀ p n, 0 < p → prequential .classification (targetValues i) p n = .ok (some (.labels l) :: List.replicate n none)) ∧
      (∀ n, prequential .classification (targetValues i) 0 (n + 1) = .ok (some (.labels l) :: List.replicate n none)) ∧
      (∀ n, holdout .classification (targetValues i) (n + 1) = .ok (some (.labels l) :: List.replicate n none)) := by
  obtain ⟨i', h1, h2⟩ := C258_apart_partial false cat xcols [y] hx hyn (by simp) hrows hc
  rw [hi] at h1
  cases h1
  obtain ⟨_, _, h3, _, _, _, h4, _⟩ := h2
  obtain ⟨k, vs, e1, e2, e3, _⟩ := h4 (by simpa using hy)
  simp only [List.length_singleton] at e2
  obtain ⟨l, rfl⟩ := List.length_eq_one_iff.1 e2
  have htv : targetValues i = .labels l := by
    unfold targetValues
    rw [e1]
    simp only
    rw [h3]
    simp
  refine ⟨l, e3 0 y l rfl rfl, ?_, ?_, ?_⟩
  · intro p n hp
    rw [htv]
    simp [prequential, hp, strictFirst, Except.map, loop_false]
  · intro n
    rw [htv]
    simp [prequential, loop, looseFirst, loop_false]
  · intro n
    rw [htv]
    simp [holdout, strictFirst, Except.map, loop_false]

/-- C260 (what holds): regression learners never get `classes`. -/
theorem C260_regression_partial (t : Task) (ht : t = .regression ∨ t = .mtRegression) (tv : Arg) (p n : Nat) :
    (∃ k, prequential t tv p n = .ok (List.replicate k none)) ∧ holdout t tv n = .ok (List.replicate n none) := by
  have hs : strictFirst t tv = .ok none := by rcases ht with rfl | rfl <;> rfl
  have hl : looseFirst t tv = none := by
    unfold looseFirst
    rw [if_neg]
    rcases ht with rfl | rfl <;> simp
  constructor
  · unfold prequential
    by_cases hp : p > 0
    · refine ⟨n + 1, ?_⟩
      rw [if_pos hp, hs, loop_false]; rfl
    · refine ⟨n, ?_⟩
      rw [if_neg hp]
      cases n with
      | zero => rfl
      | succ n => simp [loop, hl, loop_false, List.replicate_succ]
  · cases n with
    | zero => rfl
    | succ n => simp only [holdout, hs, loop_false]; rfl

/-- C260 (what holds): several targets with equally many labels each. Holdout evaluation, and the others with pre-training, pass all labels of all
targets, each once and in order. -/
theorem C260_multi_partial (vs : List (List ℚ)) (k : Nat) (i : Info) (hi : i.targets = .classes k vs) (hn : i.nTargets ≠ 1)
    (m : Nat) (hlen : ∀ l ∈ vs, l.length = m) :
    ∃ l, Lists l vs.flatten ∧
      (∀ p n, 0 < p → prequential .mtClassification (targetValues i) p n = .ok (some (.labels l) :: List.replicate n none)) ∧
      (∀ n, holdout .mtClassification (targetValues i) (n + 1) = .ok (some (.labels l) :: List.replicate n none)) := by
  have htv : targetValues i = .perTarget vs := by
    unfold targetValues
    rw [hi]
    simp [hn]
  have hu : npUnique (.perTarget vs) = .ok (.labels (unique vs.flatten)) := by
    simp only [npUnique]
    rw [if_pos]
    rw [List.all_eq_true]
    intro l hl
    rw [decide_eq_true_eq]
    cases vs with
    | nil => cases hl
    | cons a vs => rw [hlen l hl]; exact (hlen a (by simp)).symm
  refine ⟨unique vs.flatten, unique_lists _, ?_, ?_⟩
  · intro p n hp
    rw [htv]
    simp [prequential, hp, strictFirst, hu, Except.map, loop_false]
  · intro n
    rw [htv]
    simp [holdout, strictFirst, hu, Except.map, loop_false]

/-- Two binary targets, three batches. -/
example : (holdout .mtClassification (.perTarget [[0, 1], [0, 1]]) 3).toOption = some [some (.labels [0, 1]), none, none] := by decide +kernel

/-- C260 (violated): without pre-training, prequential evaluation passes a list of lists for several targets, whatever the labels. -/
theorem C260_no_pretraining_violated (vs : List (List ℚ)) (k : Nat) (i : Info) (hi : i.targets = .classes k vs) (hn : i.nTargets ≠ 1) (n : Nat) :
    prequential .mtClassification (targetValues i) 0 (n + 1) = .ok (some (.perTarget vs) :: List.replicate n none) := by
  have htv : targetValues i = .perTarget vs := by
    unfold targetValues
    rw [hi]
    simp [hn]
  rw [htv]
  simp [prequential, loop, looseFirst, loop_false]

/-- C260 (violated): with pre-training too, if the targets have different numbers of labels. -/
theorem C260_ragged_violated : (prequential .mtClassification (.perTarget [[0, 1], [0, 1, 2]]) 5 1).toOption =
    some [some (.perTarget [[0, 1], [0, 1, 2]]), none] := by decide +kernel

/-- C260 (violated): a stream loaded from a floating point array, evaluated with classification metrics, passes the type `float` as the only class. -/
theorem C260_float_array_violated (names : List String) (cols : List (List ℚ)) (hlen : names.length = cols.length) (h2 : 2 ≤ cols.length)
    (hnd : names.Nodup) (p n : Nat) (hp : 0 < p) :
    ∃ i, loadTable false (-1) 1 [] (ofFloats names cols) = .ok i ∧
      prequential .classification (targetValues i) p n = .ok (some (.types 1) :: List.replicate n none) := by
  obtain ⟨i, h1, h3⟩ := C258_float_array_violated names cols hlen h2 hnd
  refine ⟨i, h1, ?_⟩
  have htv : targetValues i = .types 1 := by
    unfold targetValues
    rw [h3]
  rw [htv]
  simp [prequential, hp, strictFirst, Except.map, loop_false]

end Verif.Evaluation.Classes
