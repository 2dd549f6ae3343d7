import Verif.Common

/-!
Model of the evaluation loops of `evaluation/evaluate_prequential.py` and
`evaluation/evaluate_holdout.py`, with `_check_progress` of `base_evaluator.py`.

Simplifications: a learner is an arbitrary state with arbitrary `fit` and
`predict` functions that do not raise; every learner has its own log of the calls
made on it and of the pairs scored for it, the learners do not share state.  The
`classes` argument of the first `partial_fit`, timing, printing and the metric
reports are not modelled (scores enter the log).  The wall-clock test is an
arbitrary function of the iteration number.
-/

namespace Verif.Evaluation

/-- What the evaluator does with one learner, in order. -/
inductive Ev (X Y P : Type) where
  | train (batch : List (X × Y))
  | predict (xs : List X)
  | score (y : Y) (p : P)
  deriving DecidableEq

/-- A stream: `n_remaining_samples`, `has_more_samples`, `next_sample` of
`data/data_stream.py` (`len = some n`) or of a generator (`len = none`). -/
structure Src (ρ : Type) where
  row : Nat → ρ
  len : Option Nat

variable {σ X Y P ρ : Type}

/-- `next_sample(n)` at position `i`; short at the end of a finite stream. -/
def Src.take (s : Src ρ) (i n : Nat) : List ρ :=
  match s.len with
  | none => (List.range' i n).map s.row
  | some L => (List.range' i (min n (L - i))).map s.row

/-- `has_more_samples()`. -/
def Src.hasMore (s : Src ρ) (i : Nat) : Bool :=
  match s.len with
  | none => true
  | some L => i < L

/-- `n_remaining_samples()`: -1 for an endless stream. -/
def Src.nRemaining (s : Src ρ) (i : Nat) : Int :=
  match s.len with
  | none => -1
  | some L => (L : Int) - i

/-- One learner under evaluation. -/
structure Learner (σ X Y P : Type) where
  fit : σ → List (X × Y) → σ
  predict : σ → List X → List P × σ
  state : σ
  log : List (Ev X Y P)

/-- `model[i].partial_fit(X, y)`. -/
def Learner.train (m : Learner σ X Y P) (b : List (X × Y)) : Learner σ X Y P :=
  { m with state := m.fit m.state b, log := m.log ++ [.train b] }

/-- `model[i].predict(X)` followed by `add_result(y[i], prediction[j][i])` for
every `i`: evaluate_prequential.py 324-339, evaluate_holdout.py 307-324. -/
def Learner.test (m : Learner σ X Y P) (b : List (X × Y)) : Learner σ X Y P :=
  let r := m.predict m.state (b.map Prod.fst)
  { m with
    state := r.2
    log := m.log ++ .predict (b.map Prod.fst) ::
      ((b.map Prod.snd).zip r.1).map fun q => .score q.1 q.2 }

/-- `actual_max_samples`, evaluate_prequential.py 286-288, evaluate_holdout.py 233-235. -/
def actualMax (s : Src ρ) (i maxSamples : Nat) : Int :=
  if s.nRemaining i == -1 || s.nRemaining i > maxSamples then maxSamples else s.nRemaining i

/-- `_check_progress`, base_evaluator.py 241-256: the `ZeroDivisionError`. -/
def checkProgress (total : Int) : Except PyErr Unit :=
  if total / 20 == 0 then .error .zeroDivision else .ok ()

/-- Result of a run: learners, position in the stream, whether an exception ended it. -/
structure Result (σ X Y P : Type) where
  learners : List (Learner σ X Y P)
  idx : Nat
  error : Option PyErr

/-- The loop of `_train_and_test`, evaluate_prequential.py 316-381.  The
`except BaseException` (377-381) prints and leaves the loop.  `none`: out of fuel. -/
def preqLoop (s : Src (X × Y)) (batch : Nat) (amax : Int) (timeOk : Nat → Bool) :
    Nat → Nat → Nat → Nat → List (Learner σ X Y P) → Option (Result σ X Y P)
  | 0, _, _, _, _ => none
  | fuel + 1, k, idx, count, ms =>
    if (count : Int) < amax && timeOk k && s.hasMore idx then
      let b := s.take idx batch
      let ms := ms.map fun m => m.test b
      match checkProgress amax with
      | .error e => some ⟨ms, idx + batch, some e⟩
      | .ok () =>
        preqLoop s batch amax timeOk fuel (k + 1) (idx + batch) (count + batch)
          (ms.map fun m => m.train b)
    else some ⟨ms, idx, none⟩

/-- `_train_and_test`, evaluate_prequential.py 266-394, for a stream at position
`idx`. -/
def prequential (s : Src (X × Y)) (idx pretrain batch maxSamples : Nat) (timeOk : Nat → Bool)
    (fuel : Nat) (ms : List (Learner σ X Y P)) : Option (Result σ X Y P) :=
  let amax := actualMax s idx maxSamples
  if pretrain > 0 then
    preqLoop s batch amax timeOk fuel 0 (idx + pretrain) pretrain
      (ms.map fun m => m.train (s.take idx pretrain))
  else preqLoop s batch amax timeOk fuel 0 idx 0 ms

/-- `perform_test`, evaluate_holdout.py 289-299: `cnt` is `performance_sampling_cnt`. -/
def performTest (dynamic : Bool) (nWait testSize count cnt : Nat) (amax : Int) : Bool :=
  (if dynamic then decide (count ≥ nWait * (cnt + 1) + testSize * cnt)
   else ((count : Int) - testSize) % nWait == 0) || (count : Int) ≥ amax

/-- The loop of `_periodic_holdout`, evaluate_holdout.py 251-335.  `test` is the
static test set. -/
def holdLoop (s : Src (X × Y)) (dynamic : Bool) (batch nWait testSize : Nat) (amax : Int)
    (timeOk : Nat → Bool) (test : List (X × Y)) :
    Nat → Nat → Nat → Nat → Nat → List (Learner σ X Y P) → Option (Result σ X Y P)
  | 0, _, _, _, _, _ => none
  | fuel + 1, k, idx, count, cnt, ms =>
    if (count : Int) < amax && timeOk k && s.hasMore idx then
      let b := s.take idx batch
      let ms := ms.map fun m => m.train b
      match checkProgress amax with
      | .error e => some ⟨ms, idx + batch, some e⟩
      | .ok () =>
        if !dynamic && nWait == 0 then some ⟨ms, idx + batch, some .zeroDivision⟩
        else if performTest dynamic nWait testSize (count + batch) cnt amax then
          if dynamic then
            let t := s.take (idx + batch) testSize
            holdLoop s dynamic batch nWait testSize amax timeOk test fuel (k + 1)
              (idx + batch + testSize) (count + batch + t.length) (cnt + 1)
              (ms.map fun m => m.test t)
          else
            holdLoop s dynamic batch nWait testSize amax timeOk test fuel (k + 1)
              (idx + batch) (count + batch) (cnt + 1) (ms.map fun m => m.test test)
        else
          holdLoop s dynamic batch nWait testSize amax timeOk test fuel (k + 1)
            (idx + batch) (count + batch) cnt ms
    else some ⟨ms, idx, none⟩

/-- `_periodic_holdout`, evaluate_holdout.py 228-345. -/
def holdout (s : Src (X × Y)) (idx : Nat) (dynamic : Bool) (batch nWait testSize maxSamples : Nat)
    (timeOk : Nat → Bool) (fuel : Nat) (ms : List (Learner σ X Y P)) :
    Option (Result σ X Y P) :=
  let amax := actualMax s idx maxSamples
  if dynamic then holdLoop s dynamic batch nWait testSize amax timeOk [] fuel 0 idx 0 0 ms
  else holdLoop s dynamic batch nWait testSize amax timeOk (s.take idx testSize) fuel 0
    (idx + testSize) testSize 0 ms

end Verif.Evaluation
