import Verif.Evaluation.Props
import Verif.Streams.TimeManager

/-!
Model of `evaluation/evaluate_prequential_delayed.py` on top of the model of
`data/time_manager.py`.

Simplifications: the list of models is one learner whose state is the tuple of
their states and whose prediction for a row is the list of their predictions
(`_predict_samples` transposes the predictions to this form, and
`_transform_predictions_model` transposes back); learners do not raise; metric
reports and timing are not modelled.
-/

namespace Verif.Evaluation.Delayed

open Verif.Streams

/-- One row of a `TemporalDataStream`: features, label, times, weight. -/
structure Sample (τ X Y ω : Type) where
  x : X
  y : Y
  arrival : τ
  available : τ
  weight : ω
  deriving DecidableEq

/-- What the evaluator does, in order.  `drain` marks the end of the main loop. -/
inductive DEv (τ X Y P ω : Type) where
  | predict (ps : List (Sample τ X Y ω × P))
  | score (ps : List (Sample τ X Y ω × P))
  | train (b : List (Sample τ X Y ω)) (weights : Option (List ω))
  | drain

variable {σ τ X Y P ω : Type} [LinearOrder τ]

/-- `sort_values(by='available_time')`, as in the model of the time manager. -/
abbrev Sorter (τ X Y P ω : Type) :=
  List (TM.Row τ (Sample τ X Y ω × P) ω) → List (TM.Row τ (Sample τ X Y ω × P) ω)

/-- The learner's methods. -/
structure Methods (σ X Y P ω : Type) where
  fit : σ → List (X × Y) → Option (List ω) → σ
  predict : σ → List X → List P × σ

/-- State of the evaluator: learner, queue, `global_sample_count`, log. -/
structure DState (σ τ X Y P ω : Type) where
  learner : σ
  tm : TM.State τ (Sample τ X Y ω × P) ω
  count : Nat
  log : List (DEv τ X Y P ω)

/-- `partial_fit(X, y, sample_weight)`. -/
def fitOn (M : Methods σ X Y P ω) (d : DState σ τ X Y P ω) (b : List (Sample τ X Y ω))
    (ws : Option (List ω)) : DState σ τ X Y P ω :=
  { d with
    learner := M.fit d.learner (b.map fun s => (s.x, s.y)) ws
    log := d.log ++ [.train b ws] }

/-- `_update_classifiers`, lines 290-318. -/
def updateClassifiers (M : Methods σ X Y P ω) (d : DState σ τ X Y P ω) (b : List (Sample τ X Y ω))
    (ws : Option (List ω)) : DState σ τ X Y P ω :=
  if b.length > 0 then { fitOn M d b ws with count := d.count + b.length } else d

/-- `_update_metrics_delayed`, lines 320-335: the scores, then `_check_progress`.
The state is updated even if the latter raises. -/
def updateMetrics (amax : Int) (d : DState σ τ X Y P ω) (ps : List (Sample τ X Y ω × P)) :
    DState σ τ X Y P ω × Except PyErr Unit :=
  if ps.length > 0 then ({ d with log := d.log ++ [.score ps] }, checkProgress amax)
  else (d, .ok ())

/-- `_predict_samples`, lines 355-372. -/
def predictOn (M : Methods σ X Y P ω) (d : DState σ τ X Y P ω) (b : List (Sample τ X Y ω)) :
    DState σ τ X Y P ω × List (Sample τ X Y ω × P) :=
  let r := M.predict d.learner (b.map Sample.x)
  ({ d with learner := r.2, log := d.log ++ [.predict (b.zip r.1)] }, b.zip r.1)

/-- `sample_weight` returned by the stream: `None` without weights. -/
def weightsOf (weighted : Bool) (b : List (Sample τ X Y ω)) : Option (List ω) :=
  if weighted then some (b.map Sample.weight) else none

/-- One iteration of the main loop, lines 430-463, with the error that ends it. -/
def iter (M : Methods σ X Y P ω) (sort : Sorter τ X Y P ω) (weighted : Bool)
    (amax : Int) (d : DState σ τ X Y P ω) (b : List (Sample τ X Y ω)) :
    DState σ τ X Y P ω × Except PyErr Unit :=
  match b.getLast? with
  | none => (d, .error .indexError)
  | some newest =>
    let (rows, tm) := TM.getAvailable (TM.updateTimestamp d.tm newest.arrival)
    let ps := rows.map TM.Row.payload
    let ws := weightsOf weighted b
    match updateMetrics amax { d with tm := tm } ps with
    | (d, .error e) => (d, .error e)
    | (d, .ok ()) =>
      let d := updateClassifiers M d (ps.map Prod.fst) ws
      let (d, qs) := predictOn M d b
      ({ d with
         tm := TM.updateQueue sort d.tm (qs.map fun q => (q, q.1.arrival, q.1.available)) ws }, .ok ())

/-- The main loop, lines 427-468; an exception ends it.  Returns the position too. -/
def mainLoop (M : Methods σ X Y P ω) (sort : Sorter τ X Y P ω)
    (s : Src (Sample τ X Y ω)) (weighted : Bool) (batch : Nat) (amax : Int) (timeOk : Nat → Bool) :
    Nat → Nat → Nat → DState σ τ X Y P ω → Option (Nat × DState σ τ X Y P ω)
  | 0, _, _, _ => none
  | fuel + 1, k, idx, d =>
    if (d.count : Int) < amax && timeOk k && s.hasMore idx then
      match iter M sort weighted amax d (s.take idx batch) with
      | (d, .error _) => some (idx + batch, d)
      | (d, .ok ()) => mainLoop M sort s weighted batch amax timeOk fuel (k + 1) (idx + batch) d
    else some (idx, d)

/-- The loop that empties the queue, lines 470-483: exceptions propagate. -/
def drainLoop (M : Methods σ X Y P ω) (batch : Nat) (amax : Int) :
    Nat → DState σ τ X Y P ω → Option (Except PyErr (DState σ τ X Y P ω))
  | 0, _ => none
  | fuel + 1, d =>
    if TM.hasMore d.tm then
      match TM.nextSample d.tm batch with
      | .error e => some (.error e)
      | .ok (rows, tm) =>
        let ps := rows.map TM.Row.payload
        match updateMetrics amax { d with tm := tm } ps with
        | (_, .error e) => some (.error e)
        | (d, .ok ()) => drainLoop M batch amax fuel (updateClassifiers M d (ps.map Prod.fst) none)
    else some (.ok d)

/-- `_train_and_test`, lines 374-496.  `self.time_manager` exists only if there
was a pre-training block (423); without one, the `AttributeError` in the main loop
is swallowed and the one at line 472 is raised. -/
def evaluate (M : Methods σ X Y P ω) (sort : Sorter τ X Y P ω)
    (s : Src (Sample τ X Y ω)) (weighted : Bool) (idx pretrain batch maxSamples : Nat)
    (timeOk : Nat → Bool) (fuel : Nat) (s0 : σ) :
    Option (Except PyErr (Nat × DState σ τ X Y P ω)) :=
  let amax := actualMax s idx maxSamples
  if pretrain > 0 then
    let b := s.take idx pretrain
    match b.getLast? with
    | none => some (.error .indexError)
    | some newest =>
      let d0 : DState σ τ X Y P ω := ⟨s0, TM.init newest.arrival, 0, []⟩
      let d := { fitOn M d0 b (weightsOf weighted b) with count := pretrain }
      match mainLoop M sort s weighted batch amax timeOk fuel 0 (idx + pretrain) d with
      | none => none
      | some (idx', d) =>
        match drainLoop M batch amax fuel { d with log := d.log ++ [.drain] } with
        | none => none
        | some (.error e) => some (.error e)
        | some (.ok d) => some (.ok (idx', d))
  else some (.error .attributeError)

/-- `_transform_model_predictions`, lines 337-343 (columns of the model by sample
matrix with `m` models and `n` samples) and, read the other way round,
`_transform_predictions_model`, lines 345-353. -/
def transpose {P : Type} [Inhabited P] (rows cols : Nat) (a : List (List P)) : List (List P) :=
  (List.range cols).map fun j => (List.range rows).map fun i => (a[i]!)[j]!

/-! ### Specification -/

/-- Samples trained on, in order. -/
def trained : List (DEv τ X Y P ω) → List (Sample τ X Y ω)
  | [] => []
  | .train b _ :: l => b ++ trained l
  | _ :: l => trained l

/-- Predictions made, in order: the sample and its prediction. -/
def predicted : List (DEv τ X Y P ω) → List (Sample τ X Y ω × P)
  | [] => []
  | .predict ps :: l => ps ++ predicted l
  | _ :: l => predicted l

/-- Pairs scored, in order: the sample (with its label) and the prediction. -/
def scored : List (DEv τ X Y P ω) → List (Sample τ X Y ω × P)
  | [] => []
  | .score ps :: l => ps ++ scored l
  | _ :: l => scored l

/-- The main loop is over. -/
def drained : List (DEv τ X Y P ω) → Bool
  | [] => false
  | .drain :: _ => true
  | _ :: l => drained l

/-- Learner state after the calls of a log. -/
def replay (M : Methods σ X Y P ω) : List (DEv τ X Y P ω) → σ → σ
  | [], s => s
  | .train b ws :: l, s => replay M l (M.fit s (b.map fun s => (s.x, s.y)) ws)
  | .predict ps :: l, s => replay M l (M.predict s (ps.map fun p => p.1.x)).2
  | _ :: l, s => replay M l s

/-- Every training step after the first (`pre`, the pre-training block) is on
samples that were predicted before and not trained on before, whose predictions
were just scored, and, unless the main loop is over, whose labels are available
at the newest arrival time of the batch that is predicted next. -/
def TrainsAvailable (pre : List (Sample τ X Y ω)) (log : List (DEv τ X Y P ω)) : Prop :=
  ∀ l1 b ws l2, log = l1 ++ .train b ws :: l2 →
    (l1 = [] ∧ b = pre) ∨
    ((trained l1 ++ b).Subperm (pre ++ (predicted l1).map Prod.fst) ∧
     (∃ l0 ps, l1 = l0 ++ [.score ps] ∧ ps.map Prod.fst = b) ∧
     (drained l1 = true ∨ ∃ ps l3 newest, l2 = .predict ps :: l3 ∧
       (ps.map Prod.fst).getLast? = some newest ∧ ∀ x ∈ b, x.available ≤ newest.arrival))

/-- Every prediction is the learner's, in the state it has at that point. -/
def PredictsNow (M : Methods σ X Y P ω) (s0 : σ) (log : List (DEv τ X Y P ω)) : Prop :=
  ∀ l1 ps l2, log = l1 ++ .predict ps :: l2 →
    ps.map Prod.snd = (M.predict (replay M l1 s0) (ps.map fun p => p.1.x)).1

end Verif.Evaluation.Delayed
