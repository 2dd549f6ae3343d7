import Verif.Evaluation.Model
import Verif.Evaluation.FileBuffer
import Mathlib.Logic.Function.Basic

/-!
Model of what an evaluator object keeps between two calls of `evaluate`:
`evaluation/base_evaluator.py` (constructor 37-74, `_init_metrics` 265-318, `_update_metrics`
320-535, `_init_file` 543-602, `_update_file` 604-649, `_flush_file_buffer` 651-656,
`_reset_globals` 671-672), `evaluation/evaluate_prequential.py` (176-394),
`evaluation/evaluate_holdout.py` (154-345), `evaluation/evaluate_prequential_delayed.py`
(202-496).  C271.

Simplifications: stream and models are an arbitrary state `σ` with arbitrary operations that
may raise; a result is any value `Q`; the "mean" measurements hold the results added, the
"current" ones the last `win` of them (C06, C11, C47, C49); a line of the report is any
function of the parameters, the sample id and the two; the data buffer is the list of the
lines made from it; `add_result` does not raise and streams do not answer `None`; writes
succeed; plots and time measurements are left out.  `_check_configuration` accepts (an
evaluation it rejects changes no attribute used here before it is set again).
-/

namespace Verif.Evaluation.Reuse

/-- The parameters of an evaluator that `set_params` can change (core/base.py 174-210): those
of the three constructors that matter here. -/
structure Par where
  nWait : Nat
  maxSamples : Nat
  batch : Nat
  pretrain : Nat
  testSize : Nat
  dynamic : Bool
  restart : Bool
  output : Option Nat
  deriving DecidableEq

/-- Attributes used by all evaluators: `global_sample_count`, the two kinds of measurements
(`win` is the window of the second), `_data_buffer`, `_file_buffer`, `_file_buffer_size`,
`actual_max_samples`, `update_count` and `first_run` (attributes in the delayed evaluator,
local variables elsewhere), and the files on disk. -/
structure Ev (Q : Type) where
  count : Nat
  mean : List Q
  win : Nat
  cur : List Q
  rows : List (List Char)
  text : List Char
  size : Nat
  amax : Int
  upd : Nat
  first : Bool
  files : Nat → List Char

/-- One job for `evaluate`: stream and models (`σ`), their batches (`β`), the time manager
of delayed evaluations (`T`, data/time_manager.py). -/
structure Job (σ β T Q : Type) where
  /-- `n_remaining_samples()` -/
  remaining : σ → Int
  /-- time limit and `has_more_samples()` -/
  more : Nat → σ → Bool
  /-- `next_sample(n)` -/
  fetch : Nat → σ → σ × Except PyErr β
  /-- number of rows of a batch -/
  len : β → Nat
  /-- `partial_fit` of all models; the flag is `first_run` -/
  train : Bool → β → σ → σ × Option PyErr
  /-- `predict` of all models, paired with the labels -/
  predict : β → σ → σ × Except PyErr (List Q)
  /-- `TimeManager(arrival_time[-1])` -/
  tmNew : β → Except PyErr T
  /-- `update_timestamp`, `get_available_samples` -/
  avail : β → T → T × Except PyErr (List Q × β)
  /-- `_predict_samples`, `update_queue` -/
  enqueue : β → σ → T → (σ × T) × Option PyErr
  /-- `time_manager.has_more_samples()` -/
  tmMore : T → Bool
  /-- `time_manager.next_sample(n)` -/
  tmNext : Nat → T → T × Except PyErr (List Q × β)
  /-- the configuration and header written by `_init_file` -/
  header : Par → List Char
  /-- `_update_metrics` and the line of `_update_file` -/
  fmt : Par → Int → List Q → List Q → Except PyErr (List Char)
  /-- `evaluation_summary` -/
  summary : Par → List (List Char) → Option PyErr
  /-- `stream.restart()` -/
  restart : σ → σ

variable {σ β T Q : Type}

/-- `add_result` on both measurements (evaluate_prequential.py 338-339). -/
def Ev.add (e : Ev Q) (q : Q) : Ev Q :=
  { e with mean := e.mean ++ [q], cur := lastN e.win (e.cur ++ [q]) }

/-- `_flush_file_buffer`, base_evaluator.py 651-656. -/
def flush (p : Par) (e : Ev Q) : Ev Q :=
  match p.output with
  | none => e
  | some f =>
    let s := File.flush ⟨e.files f, e.text, e.size⟩
    { e with files := Function.update e.files f s.file, text := s.buf, size := s.size }

/-- `_update_metrics` (320-535) with `_update_file` (604-649): the line of this report is
added to the buffer of the file, if there is one. -/
def report (gs : List Char → Nat) (limit : Nat) (J : Job σ β T Q) (p : Par) (sid : Int) (e : Ev Q) :
    Ev Q × Option PyErr :=
  match J.fmt p sid e.mean e.cur with
  | .error x => (e, some x)
  | .ok l =>
    let e := { e with rows := e.rows ++ [l] }
    match p.output with
    | none => (e, none)
    | some f =>
      let s := File.update gs limit ⟨e.files f, e.text, e.size⟩ l
      ({ e with files := Function.update e.files f s.file, text := s.buf, size := s.size }, none)

/-- `_reset_globals` 671-672, `_init_metrics` 265-318, `_init_file` 543-602 (`'w+'` empties the
file), and the start of the three methods: `actual_max_samples`
(evaluate_prequential.py 286-288), `first_run`, `update_count`. -/
def start (J : Job σ β T Q) (p : Par) (nSliding : Nat) (st : σ) (e : Ev Q) : Ev Q :=
  { e with
    count := 0
    mean := []
    win := nSliding
    cur := []
    rows := []
    amax := if J.remaining st == -1 || J.remaining st > p.maxSamples then p.maxSamples
            else J.remaining st
    upd := 0
    first := true
    files := match p.output with
      | none => e.files
      | some f => Function.update e.files f (J.header p) }

/-- End of the three methods (evaluate_prequential.py 383-394): flush, summary, restart. -/
def finish (J : Job σ β T Q) (p : Par) (st : σ) (e : Ev Q) : σ × Ev Q × Option PyErr :=
  let e := flush p e
  match J.summary p e.rows with
  | some x => (st, e, some x)
  | none => (if p.restart then J.restart st else st, e, none)

/-- Whether a report is due (evaluate_prequential.py 369-371 with `actual_max_samples`,
evaluate_prequential_delayed.py 330-332 with `max_samples` as the limit). -/
def due (nWait count upd : Nat) (limit : Int) : Bool :=
  count % nWait == 0 || (count : Int) ≥ limit || count > nWait * (upd + 1)

/-- The loop of `EvaluatePrequential._train_and_test`, evaluate_prequential.py 316-381: every
exception ends it.  `none`: out of fuel. -/
def preqLoop (gs : List Char → Nat) (limit : Nat) (J : Job σ β T Q) (p : Par) :
    Nat → Nat → σ → Ev Q → Option (σ × Ev Q)
  | 0, _, _, _ => none
  | fuel + 1, k, st, e =>
    if (e.count : Int) < e.amax && J.more k st then
      match J.fetch p.batch st with
      | (st, .error _) => some (st, e)
      | (st, .ok b) =>
        match J.predict b st with
        | (st, .error _) => some (st, e)
        | (st, .ok qs) =>
          let e := qs.foldl Ev.add { e with count := e.count + p.batch }
          match checkProgress e.amax with
          | .error _ => some (st, e)
          | .ok () =>
            match J.train e.first b st with
            | (st, some _) => some (st, e)
            | (st, none) =>
              let e := { e with first := false }
              if p.nWait = 0 then some (st, e)
              else if due p.nWait e.count e.upd e.amax then
                match report gs limit J p ((e.count : Int) - p.batch) e with
                | (e, some _) => some (st, e)
                | (e, none) => preqLoop gs limit J p fuel (k + 1) st { e with upd := e.upd + 1 }
              else preqLoop gs limit J p fuel (k + 1) st e
    else some (st, e)

/-- `EvaluatePrequential.evaluate`, evaluate_prequential.py 250-264 and 286-394: what becomes
of stream and models, of the attributes, and the exception raised.  Exceptions of
pre-training (291-312) are passed on. -/
def prequential (gs : List Char → Nat) (limit fuel : Nat) (J : Job σ β T Q) (p : Par)
    (nSliding : Nat) (st : σ) (e : Ev Q) : Option (σ × Ev Q × Option PyErr) :=
  let e := start J p nSliding st e
  if p.pretrain > 0 then
    match J.fetch p.pretrain st with
    | (st, .error x) => some (st, e, some x)
    | (st, .ok b) =>
      match J.train true b st with
      | (st, some x) => some (st, e, some x)
      | (st, none) =>
        (preqLoop gs limit J p fuel 0 st { e with count := p.pretrain, first := false }).map
          fun r => finish J p r.1 r.2
  else (preqLoop gs limit J p fuel 0 st e).map fun r => finish J p r.1 r.2

/-- The test set, lines 301-307: fetched now with `dynamic_test_set`, the attributes `X_test`
and `y_test` otherwise (an `AttributeError` if they do not exist). -/
def testSet (J : Job σ β T Q) (p : Par) (st : σ) (x : Option β) : σ × Except PyErr β :=
  if p.dynamic then J.fetch p.testSize st
  else
    match x with
    | some z => (st, .ok z)
    | none => (st, .error .attributeError)

/-- The loop of `EvaluateHoldout._periodic_holdout`, evaluate_holdout.py 250-335; `cnt` is
`performance_sampling_cnt`, `x` the attributes `X_test`, `y_test`. -/
def holdLoop (gs : List Char → Nat) (limit : Nat) (J : Job σ β T Q) (p : Par) :
    Nat → Nat → Nat → σ → Option β → Ev Q → Option (σ × Option β × Ev Q)
  | 0, _, _, _, _, _ => none
  | fuel + 1, k, cnt, st, x, e =>
    if (e.count : Int) < e.amax && J.more k st then
      match J.fetch p.batch st with
      | (st, .error _) => some (st, x, e)
      | (st, .ok b) =>
        let e := { e with count := e.count + p.batch }
        match J.train e.first b st with
        | (st, some _) => some (st, x, e)
        | (st, none) =>
          let e := { e with first := false }
          match checkProgress e.amax with
          | .error _ => some (st, x, e)
          | .ok () =>
            if !p.dynamic && p.nWait == 0 then some (st, x, e)
            else if performTest p.dynamic p.nWait p.testSize e.count cnt e.amax then
              match testSet J p st x with
              | (st, .error _) => some (st, x, e)
              | (st, .ok z) =>
                let e := if p.dynamic then { e with count := e.count + J.len z } else e
                match J.predict z st with
                | (st, .error _) => some (st, some z, e)
                | (st, .ok qs) =>
                  match report gs limit J p ((qs.foldl Ev.add e).count : Int) (qs.foldl Ev.add e) with
                  | (e, some _) => some (st, some z, e)
                  | (e, none) => holdLoop gs limit J p fuel (k + 1) (cnt + 1) st (some z) e
            else holdLoop gs limit J p fuel (k + 1) cnt st x e
    else some (st, x, e)

/-- `EvaluateHoldout.evaluate`, evaluate_holdout.py 212-226 and 237-345. -/
def holdout (gs : List Char → Nat) (limit fuel : Nat) (J : Job σ β T Q) (p : Par)
    (nSliding : Nat) (st : σ) (x : Option β) (e : Ev Q) :
    Option ((σ × Ev Q × Option PyErr) × Option β) :=
  let e := start J p nSliding st e
  if p.dynamic then
    (holdLoop gs limit J p fuel 0 0 st x e).map fun r => (finish J p r.1 r.2.2, r.2.1)
  else
    match J.fetch p.testSize st with
    | (st, .error err) => some ((st, e, some err), x)
    | (st, .ok z) =>
      (holdLoop gs limit J p fuel 0 0 st (some z) { e with count := p.testSize }).map
        fun r => (finish J p r.1 r.2.2, r.2.1)

/-- `_update_metrics_delayed`, evaluate_prequential_delayed.py 320-335. -/
def updateMetricsDelayed (gs : List Char → Nat) (limit : Nat) (J : Job σ β T Q) (p : Par)
    (qs : List Q) (e : Ev Q) : Ev Q × Option PyErr :=
  if qs = [] then (e, none)
  else
    let e := qs.foldl Ev.add e
    match checkProgress e.amax with
    | .error x => (e, some x)
    | .ok () =>
      if p.nWait = 0 then (e, some .zeroDivision)
      else if due p.nWait e.count e.upd p.maxSamples then
        match report gs limit J p ((e.count : Int) - p.batch) e with
        | (e, some x) => (e, some x)
        | (e, none) => ({ e with upd := e.upd + 1 }, none)
      else (e, none)

/-- `_update_classifiers`, evaluate_prequential_delayed.py 290-318. -/
def updateClassifiers (J : Job σ β T Q) (b : β) (st : σ) (e : Ev Q) : (σ × Ev Q) × Option PyErr :=
  if J.len b > 0 then
    match J.train e.first b st with
    | (st, some x) => ((st, e), some x)
    | (st, none) => ((st, { e with first := false, count := e.count + J.len b }), none)
  else ((st, e), none)

/-- One iteration of the main loop of the delayed evaluation, lines 430-463: state, time
manager, attributes, and the exception that ends the loop. -/
def delayedIter (gs : List Char → Nat) (limit : Nat) (J : Job σ β T Q) (p : Par) (st : σ)
    (tm : Option T) (e : Ev Q) : (σ × Option T × Ev Q) × Option PyErr :=
  match J.fetch p.batch st with
  | (st, .error x) => ((st, tm, e), some x)
  | (st, .ok b) =>
    match tm with
    | none => ((st, none, e), some .attributeError)
    | some t =>
      match J.avail b t with
      | (t, .error x) => ((st, some t, e), some x)
      | (t, .ok (qs, d)) =>
        match updateMetricsDelayed gs limit J p qs e with
        | (e, some x) => ((st, some t, e), some x)
        | (e, none) =>
          match updateClassifiers J d st e with
          | ((st, e), some x) => ((st, some t, e), some x)
          | ((st, e), none) =>
            match J.enqueue b st t with
            | ((st, t), x) => ((st, some t, e), x)

/-- The main loop, lines 427-468. -/
def delayedLoop (gs : List Char → Nat) (limit : Nat) (J : Job σ β T Q) (p : Par) :
    Nat → Nat → σ → Option T → Ev Q → Option (σ × Option T × Ev Q)
  | 0, _, _, _, _ => none
  | fuel + 1, k, st, tm, e =>
    if (e.count : Int) < e.amax && J.more k st then
      match delayedIter gs limit J p st tm e with
      | (r, some _) => some r
      | ((st, tm, e), none) => delayedLoop gs limit J p fuel (k + 1) st tm e
    else some (st, tm, e)

/-- The loop that empties the queue, lines 470-483: exceptions are passed on. -/
def drainLoop (gs : List Char → Nat) (limit : Nat) (J : Job σ β T Q) (p : Par) :
    Nat → σ → Option T → Ev Q → Option ((σ × Option T × Ev Q) × Option PyErr)
  | 0, _, _, _ => none
  | _ + 1, st, none, e => some ((st, none, e), some .attributeError)
  | fuel + 1, st, some t, e =>
    if J.tmMore t then
      match J.tmNext p.batch t with
      | (t, .error x) => some ((st, some t, e), some x)
      | (t, .ok (qs, d)) =>
        match updateMetricsDelayed gs limit J p qs e with
        | (e, some x) => some ((st, some t, e), some x)
        | (e, none) =>
          match updateClassifiers J d st e with
          | ((st, e), some x) => some ((st, some t, e), some x)
          | ((st, e), none) => drainLoop gs limit J p fuel st (some t) e
    else some ((st, some t, e), none)

/-- The two loops and the end of the delayed evaluation, lines 425-496. -/
def delayedRest (gs : List Char → Nat) (limit fuel : Nat) (J : Job σ β T Q) (p : Par)
    (st : σ) (tm : Option T) (e : Ev Q) : Option ((σ × Ev Q × Option PyErr) × Option T) :=
  match delayedLoop gs limit J p fuel 0 st tm e with
  | none => none
  | some (st, tm, e) =>
    match drainLoop gs limit J p fuel st tm e with
    | none => none
    | some ((st, tm, e), some x) => some ((st, e, some x), tm)
    | some ((st, tm, e), none) => some (finish J p st e, tm)

/-- `EvaluatePrequentialDelayed.evaluate`, evaluate_prequential_delayed.py 274-288 and
384-496: the time manager is only made after pre-training (423). -/
def delayed (gs : List Char → Nat) (limit fuel : Nat) (J : Job σ β T Q) (p : Par)
    (nSliding : Nat) (st : σ) (tm : Option T) (e : Ev Q) :
    Option ((σ × Ev Q × Option PyErr) × Option T) :=
  let e := start J p nSliding st e
  if p.pretrain > 0 then
    match J.fetch p.pretrain st with
    | (st, .error x) => some ((st, e, some x), tm)
    | (st, .ok b) =>
      match J.train true b st with
      | (st, some x) => some ((st, e, some x), tm)
      | (st, none) =>
        let e := { e with count := p.pretrain, first := false }
        match J.tmNew b with
        | .error x => some ((st, e, some x), tm)
        | .ok t => delayedRest gs limit fuel J p st (some t) e
  else delayedRest gs limit fuel J p st tm e

/-- The three classes. -/
inductive Kind
  | prequential | holdout | delayed
  deriving DecidableEq

/-- An evaluator object. -/
structure Obj (β T Q : Type) where
  kind : Kind
  par : Par
  nSliding : Nat
  ev : Ev Q
  xtest : Option β
  tm : Option T

/-- The parameter that the constructor copies to `n_sliding` (evaluate_prequential.py 225,
evaluate_holdout.py 185, evaluate_prequential_delayed.py 249). -/
def windowPar : Kind → Par → Nat
  | .holdout, p => p.testSize
  | _, p => p.nWait

/-- The constructors (base_evaluator.py 37-74, evaluate_prequential.py 188-225,
evaluate_holdout.py 166-185, evaluate_prequential_delayed.py 214-249). -/
def construct (k : Kind) (p : Par) (files : Nat → List Char) : Obj β T Q :=
  ⟨k, p, windowPar k p, ⟨0, [], 0, [], [], [], 0, 0, 0, true, files⟩, none, none⟩

/-- `evaluate`: the outcome for the caller and the object afterwards. -/
def evaluate (gs : List Char → Nat) (limit fuel : Nat) (J : Job σ β T Q) (st : σ)
    (o : Obj β T Q) : Option ((σ × Ev Q × Option PyErr) × Obj β T Q) :=
  match o.kind with
  | .prequential => (prequential gs limit fuel J o.par o.nSliding st o.ev).map fun r =>
      (r, { o with ev := r.2.1 })
  | .holdout => (holdout gs limit fuel J o.par o.nSliding st o.xtest o.ev).map fun r =>
      (r.1, { o with ev := r.1.2.1, xtest := r.2 })
  | .delayed => (delayed gs limit fuel J o.par o.nSliding st o.tm o.ev).map fun r =>
      (r.1, { o with ev := r.1.2.1, tm := r.2 })

/-- What happens to an evaluator: `set_params` (core/base.py 174-210, `setattr` for every
parameter given) or `evaluate` with its job, streams and models. -/
inductive Op (σ β T Q : Type)
  | set (p : Par)
  | eval (fuel : Nat) (J : Job σ β T Q) (st : σ)

/-- One of them; `none`: out of fuel.  The second component: the exception raised, if any. -/
def step (gs : List Char → Nat) (limit : Nat) (o : Obj β T Q) :
    Op σ β T Q → Option (Obj β T Q × Option PyErr)
  | .set p => some ({ o with par := p }, none)
  | .eval fuel J st => (evaluate gs limit fuel J st o).map fun r => (r.2, r.1.2.2)

/-- The life of an evaluator: the object and the exceptions its evaluations ended with.  Files
written by others in between do not matter: `evaluate` empties its own. -/
def life (gs : List Char → Nat) (limit : Nat) :
    Obj β T Q → List (Op σ β T Q) → Option (Obj β T Q × List (Option PyErr))
  | o, [] => some (o, [])
  | o, op :: ops =>
    match step gs limit o op with
    | none => none
    | some (o, x) => (life gs limit o ops).map fun r => (r.1, x :: r.2)

/-! ### The buffer of the file -/

/-- Nothing waits to be written. -/
def Clean (e : Ev Q) : Prop := e.text = [] ∧ e.size = 0

/-- What waits has a positive size. -/
def Sized (e : Ev Q) : Prop := e.text ≠ [] → 0 < e.size

theorem Clean.sized {e : Ev Q} (h : Clean e) : Sized e := fun hn => absurd h.1 hn

/-- During an evaluation: what waits has a size, and without a file nothing waits. -/
def Fine (p : Par) (e : Ev Q) : Prop := Sized e ∧ (p.output = none → Clean e)

theorem Clean.fine {p : Par} {e : Ev Q} (h : Clean e) : Fine p e := ⟨h.sized, fun _ => h⟩

/-- A property of the attributes that only depends on the lines and the file, and that reports
preserve. -/
structure Good (gs : List Char → Nat) (limit : Nat) (J : Job σ β T Q) (p : Par) (I : Ev Q → Prop) :
    Prop where
  keep : ∀ e e', I e → e'.rows = e.rows → e'.text = e.text → e'.size = e.size →
    e'.files = e.files → I e'
  rep : ∀ sid e, I e → I (report gs limit J p sid e).1

theorem foldl_add_fields (qs : List Q) (e : Ev Q) :
    (qs.foldl Ev.add e).rows = e.rows ∧ (qs.foldl Ev.add e).text = e.text ∧
    (qs.foldl Ev.add e).size = e.size ∧ (qs.foldl Ev.add e).files = e.files := by
  induction qs generalizing e with
  | nil => exact ⟨rfl, rfl, rfl, rfl⟩
  | cons q qs ih => exact ih (e.add q)

theorem Good.add {gs : List Char → Nat} {limit : Nat} {J : Job σ β T Q} {p : Par} {I : Ev Q → Prop}
    (G : Good gs limit J p I) {e : Ev Q} (h : I e) (qs : List Q) : I (qs.foldl Ev.add e) :=
  have f := foldl_add_fields qs e
  G.keep e _ h f.1 f.2.1 f.2.2.1 f.2.2.2

theorem preqLoop_good {gs : List Char → Nat} {limit : Nat} {J : Job σ β T Q} {p : Par}
    {I : Ev Q → Prop} (G : Good gs limit J p I) (fuel k : Nat) (st : σ) (e : Ev Q) (r : σ × Ev Q)
    (h : I e) (hr : preqLoop gs limit J p fuel k st e = some r) : I r.2 := by
  induction fuel generalizing k st e with
  | zero => cases hr
  | succ fuel ih =>
    unfold preqLoop at hr
    by_cases hc : ((e.count : Int) < e.amax && J.more k st) = true
    · rw [if_pos hc] at hr
      rcases hf : J.fetch p.batch st with ⟨st1, _ | b⟩
      · rw [hf] at hr; cases hr; exact h
      rw [hf] at hr; simp only at hr
      rcases hp : J.predict b st1 with ⟨st2, _ | qs⟩
      · rw [hp] at hr; cases hr; exact h
      rw [hp] at hr; simp only at hr
      have h0 : I { e with count := e.count + p.batch } := G.keep e _ h rfl rfl rfl rfl
      have h1 := G.add h0 qs
      generalize qs.foldl Ev.add { e with count := e.count + p.batch } = e1 at hr h1
      cases hq : checkProgress e1.amax with
      | error x => rw [hq] at hr; cases hr; exact h1
      | ok _ =>
        rw [hq] at hr; simp only at hr
        rcases ht : J.train e1.first b st2 with ⟨st3, _ | x⟩
        · rw [ht] at hr; simp only at hr
          have h2 : I { e1 with first := false } := G.keep e1 _ h1 rfl rfl rfl rfl
          by_cases hn : p.nWait = 0
          · rw [if_pos hn] at hr; cases hr; exact h2
          rw [if_neg hn] at hr
          by_cases hd : due p.nWait e1.count e1.upd e1.amax = true
          · rw [if_pos hd] at hr
            have h3 := G.rep ((e1.count : Int) - p.batch) _ h2
            rcases hu : report gs limit J p ((e1.count : Int) - p.batch)
              { e1 with first := false } with ⟨e2, _ | x⟩
            · rw [hu] at hr h3; simp only at hr
              refine ih _ _ _ ?_ hr
              exact G.keep e2 _ h3 rfl rfl rfl rfl
            · rw [hu] at hr h3; cases hr; exact h3
          · rw [if_neg hd] at hr; exact ih _ _ _ h2 hr
        · rw [ht] at hr; cases hr; exact h1
    · rw [if_neg hc] at hr; cases hr; exact h

theorem holdLoop_good {gs : List Char → Nat} {limit : Nat} {J : Job σ β T Q} {p : Par}
    {I : Ev Q → Prop} (G : Good gs limit J p I) (fuel k cnt : Nat) (st : σ) (x : Option β) (e : Ev Q)
    (r : σ × Option β × Ev Q) (h : I e) (hr : holdLoop gs limit J p fuel k cnt st x e = some r) :
    I r.2.2 := by
  induction fuel generalizing k cnt st x e with
  | zero => cases hr
  | succ fuel ih =>
    unfold holdLoop at hr
    by_cases hc : ((e.count : Int) < e.amax && J.more k st) = true
    · rw [if_pos hc] at hr
      rcases hf : J.fetch p.batch st with ⟨st1, _ | b⟩
      · rw [hf] at hr; cases hr; exact h
      rw [hf] at hr; simp only at hr
      have h1 : I { e with count := e.count + p.batch } := G.keep e _ h rfl rfl rfl rfl
      rcases ht : J.train e.first b st1 with ⟨st2, _ | err⟩
      · rw [ht] at hr; simp only at hr
        have h2 : I { e with count := e.count + p.batch, first := false } :=
          G.keep e _ h rfl rfl rfl rfl
        cases hq : checkProgress e.amax with
        | error err => rw [hq] at hr; cases hr; exact h2
        | ok _ =>
          rw [hq] at hr; simp only at hr
          by_cases hz : (!p.dynamic && p.nWait == 0) = true
          · rw [if_pos hz] at hr; cases hr; exact h2
          rw [if_neg hz] at hr
          by_cases hd : performTest p.dynamic p.nWait p.testSize (e.count + p.batch) cnt e.amax = true
          · rw [if_pos hd] at hr
            rcases hw : testSet J p st2 x with ⟨st3, _ | z⟩
            · rw [hw] at hr; cases hr; exact h2
            rw [hw] at hr; simp only at hr
            have h3 : I (if p.dynamic then { e with
                count := e.count + p.batch + J.len z, first := false }
                else { e with count := e.count + p.batch, first := false }) := by
              cases p.dynamic
              · exact h2
              · exact G.keep e _ h rfl rfl rfl rfl
            generalize (if p.dynamic then { e with
                count := e.count + p.batch + J.len z, first := false }
                else { e with count := e.count + p.batch, first := false }) = e1 at hr h3
            rcases hp : J.predict z st3 with ⟨st4, _ | qs⟩
            · rw [hp] at hr; cases hr; exact h3
            rw [hp] at hr; simp only at hr
            have h4 := G.rep ((qs.foldl Ev.add e1).count : Int) _ (G.add h3 qs)
            rcases hu : report gs limit J p ((qs.foldl Ev.add e1).count : Int)
              (qs.foldl Ev.add e1) with ⟨e2, _ | err⟩
            · rw [hu] at hr h4; simp only at hr; exact ih _ _ _ _ _ h4 hr
            · rw [hu] at hr h4; cases hr; exact h4
          · rw [if_neg hd] at hr; exact ih _ _ _ _ _ h2 hr
      · rw [ht] at hr; cases hr; exact h1
    · rw [if_neg hc] at hr; cases hr; exact h

theorem updateMetricsDelayed_good {gs : List Char → Nat} {limit : Nat} {J : Job σ β T Q} {p : Par}
    {I : Ev Q → Prop} (G : Good gs limit J p I) (qs : List Q) (e : Ev Q) (h : I e) :
    I (updateMetricsDelayed gs limit J p qs e).1 := by
  unfold updateMetricsDelayed
  by_cases hn : qs = []
  · rw [if_pos hn]; exact h
  rw [if_neg hn]; simp only
  have h1 := G.add h qs
  generalize qs.foldl Ev.add e = e1 at h1
  cases checkProgress e1.amax with
  | error x => exact h1
  | ok _ =>
    simp only
    by_cases hz : p.nWait = 0
    · rw [if_pos hz]; exact h1
    rw [if_neg hz]
    by_cases hd : due p.nWait e1.count e1.upd p.maxSamples = true
    · rw [if_pos hd]
      have h2 := G.rep ((e1.count : Int) - p.batch) _ h1
      rcases hu : report gs limit J p ((e1.count : Int) - p.batch) e1 with ⟨e2, _ | x⟩
      · rw [hu] at h2; exact G.keep e2 _ h2 rfl rfl rfl rfl
      · rw [hu] at h2; exact h2
    · rw [if_neg hd]; exact h1

theorem updateClassifiers_good {gs : List Char → Nat} {limit : Nat} {J : Job σ β T Q} {p : Par}
    {I : Ev Q → Prop} (G : Good gs limit J p I) (b : β) (st : σ) (e : Ev Q) (h : I e) :
    I (updateClassifiers J b st e).1.2 := by
  unfold updateClassifiers
  by_cases hl : J.len b > 0
  · rw [if_pos hl]
    rcases J.train e.first b st with ⟨st1, _ | x⟩
    · exact G.keep e _ h rfl rfl rfl rfl
    · exact h
  · rw [if_neg hl]; exact h

theorem delayedIter_good {gs : List Char → Nat} {limit : Nat} {J : Job σ β T Q} {p : Par}
    {I : Ev Q → Prop} (G : Good gs limit J p I) (st : σ) (tm : Option T) (e : Ev Q) (h : I e) :
    I (delayedIter gs limit J p st tm e).1.2.2 := by
  unfold delayedIter
  rcases J.fetch p.batch st with ⟨st1, _ | b⟩
  · exact h
  cases tm with
  | none => exact h
  | some t =>
    simp only
    rcases J.avail b t with ⟨t1, _ | ⟨qs, d⟩⟩
    · exact h
    simp only
    have h1 := updateMetricsDelayed_good G qs e h
    rcases hu : updateMetricsDelayed gs limit J p qs e with ⟨e1, _ | x⟩
    · rw [hu] at h1; simp only
      have h2 := updateClassifiers_good G d st1 e1 h1
      rcases hv : updateClassifiers J d st1 e1 with ⟨⟨st2, e2⟩, _ | x⟩
      · rw [hv] at h2; exact h2
      · rw [hv] at h2; exact h2
    · rw [hu] at h1; exact h1

theorem delayedLoop_good {gs : List Char → Nat} {limit : Nat} {J : Job σ β T Q} {p : Par}
    {I : Ev Q → Prop} (G : Good gs limit J p I) (fuel k : Nat) (st : σ) (tm : Option T) (e : Ev Q)
    (r : σ × Option T × Ev Q) (h : I e) (hr : delayedLoop gs limit J p fuel k st tm e = some r) :
    I r.2.2 := by
  induction fuel generalizing k st tm e with
  | zero => cases hr
  | succ fuel ih =>
    unfold delayedLoop at hr
    by_cases hc : ((e.count : Int) < e.amax && J.more k st) = true
    · rw [if_pos hc] at hr
      have h1 := delayedIter_good G st tm e h
      rcases hu : delayedIter gs limit J p st tm e with ⟨⟨st1, tm1, e1⟩, _ | x⟩
      · rw [hu] at hr h1; exact ih _ _ _ _ h1 hr
      · rw [hu] at hr h1; cases hr; exact h1
    · rw [if_neg hc] at hr; cases hr; exact h

theorem drainLoop_good {gs : List Char → Nat} {limit : Nat} {J : Job σ β T Q} {p : Par}
    {I : Ev Q → Prop} (G : Good gs limit J p I) (fuel : Nat) (st : σ) (tm : Option T) (e : Ev Q)
    (r : (σ × Option T × Ev Q) × Option PyErr) (h : I e)
    (hr : drainLoop gs limit J p fuel st tm e = some r) : I r.1.2.2 := by
  induction fuel generalizing st tm e with
  | zero => cases tm <;> cases hr
  | succ fuel ih =>
    cases tm with
    | none => cases hr; exact h
    | some t =>
      unfold drainLoop at hr
      by_cases hm : J.tmMore t = true
      · rw [if_pos hm] at hr
        rcases hn : J.tmNext p.batch t with ⟨t1, _ | ⟨qs, d⟩⟩
        · rw [hn] at hr; cases hr; exact h
        rw [hn] at hr; simp only at hr
        have h1 := updateMetricsDelayed_good G qs e h
        rcases hu : updateMetricsDelayed gs limit J p qs e with ⟨e1, _ | x⟩
        · rw [hu] at h1 hr; simp only at hr
          have h2 := updateClassifiers_good G d st e1 h1
          rcases hv : updateClassifiers J d st e1 with ⟨⟨st2, e2⟩, _ | x⟩
          · rw [hv] at h2 hr; exact ih _ _ _ h2 hr
          · rw [hv] at h2 hr; cases hr; exact h2
        · rw [hu] at h1 hr; cases hr; exact h1
      · rw [if_neg hm] at hr; cases hr; exact h

/-- What an evaluation of any kind did: it ended before its loop (nothing reported), or it
ended normally (flush, summary, restart), or - delayed evaluations only - an exception left it
while the queue was emptied. -/
theorem evaluate_cases {gs : List Char → Nat} {limit fuel : Nat} {J : Job σ β T Q} {st : σ}
    {o : Obj β T Q} {r : (σ × Ev Q × Option PyErr) × Obj β T Q} {I : Ev Q → Prop}
    (G : Good gs limit J o.par I) (h0 : I (start J o.par o.nSliding st o.ev))
    (hr : evaluate gs limit fuel J st o = some r) :
    (r.2.kind = o.kind ∧ r.2.par = o.par ∧ r.2.nSliding = o.nSliding ∧ r.2.ev = r.1.2.1) ∧
    ((r.1.2.2 ≠ none ∧ r.2.ev.rows = [] ∧ r.2.ev.text = o.ev.text ∧ r.2.ev.size = o.ev.size ∧
        r.2.ev.files = (start J o.par o.nSliding st o.ev).files) ∨
     (∃ st' e', I e' ∧ r.1 = finish J o.par st' e') ∨
     (o.kind = .delayed ∧ r.1.2.2 ≠ none ∧ I r.2.ev)) := by
  unfold evaluate at hr
  cases hk : o.kind with
  | prequential =>
    rw [hk] at hr; simp only [Option.map_eq_some_iff] at hr
    obtain ⟨a, ha, rfl⟩ := hr
    refine ⟨⟨rfl, rfl, rfl, rfl⟩, ?_⟩
    unfold prequential at ha
    simp only at ha
    by_cases hp : o.par.pretrain > 0
    · rw [if_pos hp] at ha
      rcases hf : J.fetch o.par.pretrain st with ⟨st1, x | b⟩
      · rw [hf] at ha; cases ha; exact .inl ⟨by simp, rfl, rfl, rfl, rfl⟩
      rw [hf] at ha; simp only at ha
      rcases ht : J.train true b st1 with ⟨st2, _ | x⟩
      · rw [ht] at ha; simp only [Option.map_eq_some_iff] at ha
        obtain ⟨c, hc, rfl⟩ := ha
        refine .inr (.inl ⟨_, _, preqLoop_good G _ _ _ _ _ ?_ hc, rfl⟩)
        exact G.keep _ _ h0 rfl rfl rfl rfl
      · rw [ht] at ha; cases ha; exact .inl ⟨by simp, rfl, rfl, rfl, rfl⟩
    · rw [if_neg hp, Option.map_eq_some_iff] at ha
      obtain ⟨c, hc, rfl⟩ := ha
      exact .inr (.inl ⟨_, _, preqLoop_good G _ _ _ _ _ h0 hc, rfl⟩)
  | holdout =>
    rw [hk] at hr; simp only [Option.map_eq_some_iff] at hr
    obtain ⟨a, ha, rfl⟩ := hr
    refine ⟨⟨rfl, rfl, rfl, rfl⟩, ?_⟩
    unfold holdout at ha
    simp only at ha
    by_cases hp : o.par.dynamic = true
    · rw [if_pos hp, Option.map_eq_some_iff] at ha
      obtain ⟨c, hc, rfl⟩ := ha
      exact .inr (.inl ⟨_, _, holdLoop_good G _ _ _ _ _ _ _ h0 hc, rfl⟩)
    · rw [if_neg hp] at ha
      rcases hf : J.fetch o.par.testSize st with ⟨st1, x | b⟩
      · rw [hf] at ha; cases ha; exact .inl ⟨by simp, rfl, rfl, rfl, rfl⟩
      rw [hf] at ha; simp only [Option.map_eq_some_iff] at ha
      obtain ⟨c, hc, rfl⟩ := ha
      refine .inr (.inl ⟨_, _, holdLoop_good G _ _ _ _ _ _ _ ?_ hc, rfl⟩)
      exact G.keep _ _ h0 rfl rfl rfl rfl
  | delayed =>
    rw [hk] at hr; simp only [Option.map_eq_some_iff] at hr
    obtain ⟨a, ha, rfl⟩ := hr
    refine ⟨⟨rfl, rfl, rfl, rfl⟩, ?_⟩
    have rest : ∀ st1 tm1 e1, I e1 → delayedRest gs limit fuel J o.par st1 tm1 e1 = some a →
        (∃ st' e', I e' ∧ a.1 = finish J o.par st' e') ∨ (a.1.2.2 ≠ none ∧ I a.1.2.1) := by
      intro st1 tm1 e1 h1 hd
      unfold delayedRest at hd
      cases hl : delayedLoop gs limit J o.par fuel 0 st1 tm1 e1 with
      | none => rw [hl] at hd; cases hd
      | some r1 =>
        obtain ⟨st2, tm2, e2⟩ := r1
        rw [hl] at hd; simp only at hd
        have h2 := delayedLoop_good G _ _ _ _ _ _ h1 hl
        rcases hq : drainLoop gs limit J o.par fuel st2 tm2 e2 with _ | ⟨⟨st3, tm3, e3⟩, _ | x⟩
        · rw [hq] at hd; cases hd
        · have h3 := drainLoop_good G _ _ _ _ _ h2 hq
          rw [hq] at hd; cases hd
          exact .inl ⟨_, _, h3, rfl⟩
        · have h3 := drainLoop_good G _ _ _ _ _ h2 hq
          rw [hq] at hd; cases hd
          exact .inr ⟨by simp, h3⟩
    have close : ((∃ st' e', I e' ∧ a.1 = finish J o.par st' e') ∨ (a.1.2.2 ≠ none ∧ I a.1.2.1)) →
        ((a.1.2.2 ≠ none ∧ a.1.2.1.rows = [] ∧ a.1.2.1.text = o.ev.text ∧ a.1.2.1.size = o.ev.size ∧
          a.1.2.1.files = (start J o.par o.nSliding st o.ev).files) ∨
        (∃ st' e', I e' ∧ a.1 = finish J o.par st' e') ∨
        (Kind.delayed = .delayed ∧ a.1.2.2 ≠ none ∧ I a.1.2.1)) := by
      rintro (h | h)
      · exact .inr (.inl h)
      · exact .inr (.inr ⟨rfl, h.1, h.2⟩)
    unfold delayed at ha
    simp only at ha
    by_cases hp : o.par.pretrain > 0
    · rw [if_pos hp] at ha
      rcases hf : J.fetch o.par.pretrain st with ⟨st1, x | b⟩
      · rw [hf] at ha; cases ha; exact .inl ⟨by simp, rfl, rfl, rfl, rfl⟩
      rw [hf] at ha; simp only at ha
      rcases ht : J.train true b st1 with ⟨st2, _ | x⟩
      · rw [ht] at ha; simp only at ha
        cases hn : J.tmNew b with
        | error x => rw [hn] at ha; cases ha; exact .inl ⟨by simp, rfl, rfl, rfl, rfl⟩
        | ok t =>
          rw [hn] at ha
          refine close (rest _ _ _ ?_ ha)
          exact G.keep _ _ h0 rfl rfl rfl rfl
      · rw [ht] at ha; cases ha; exact .inl ⟨by simp, rfl, rfl, rfl, rfl⟩
    · rw [if_neg hp] at ha
      exact close (rest _ _ _ h0 ha)

/-! ### Nothing waits after an evaluation -/

theorem fine_good {gs : List Char → Nat} (hg : ∀ l, 0 < gs l) {limit : Nat} {J : Job σ β T Q}
    {p : Par} : Good gs limit J p (Fine p) := by
  refine ⟨?_, ?_⟩
  · intro e e' h _ ht hs _
    unfold Fine Sized Clean at *
    rw [ht, hs]; exact h
  · intro sid e h
    unfold report
    cases J.fmt p sid e.mean e.cur with
    | error x => exact h
    | ok l =>
      simp only
      cases ho : p.output with
      | none => exact ⟨h.1, fun _ => h.2 ho⟩
      | some f =>
        refine ⟨fun _ => ?_, fun hn => by rw [ho] at hn; cases hn⟩
        exact (File.update_inv gs hg limit ⟨e.files f, e.text, e.size⟩ l h.1).2

theorem Fine.flush {p : Par} {e : Ev Q} (h : Fine p e) : Clean (flush p e) := by
  unfold Reuse.flush
  cases ho : p.output with
  | none => exact h.2 ho
  | some f =>
    simp only [Clean, File.flush]
    by_cases hs : e.size > 0
    · rw [if_pos hs]; exact ⟨rfl, rfl⟩
    · rw [if_neg hs]
      refine ⟨?_, by simpa using hs⟩
      by_contra hne
      exact hs (h.1 hne)

theorem finish_ev (J : Job σ β T Q) (p : Par) (st : σ) (e : Ev Q) :
    (finish J p st e).2.1 = flush p e := by
  unfold finish
  simp only
  cases J.summary p (flush p e).rows <;> rfl

theorem life_fixed {gs : List Char → Nat} {limit : Nat} (ops : List (Op σ β T Q)) (o o' : Obj β T Q)
    (xs : List (Option PyErr)) (hr : life gs limit o ops = some (o', xs)) :
    o'.kind = o.kind ∧ o'.nSliding = o.nSliding := by
  induction ops generalizing o xs with
  | nil => cases hr; exact ⟨rfl, rfl⟩
  | cons op ops ih =>
    unfold life at hr
    cases op with
    | set p =>
      simp only [step, Option.map_eq_some_iff, Prod.mk.injEq] at hr
      obtain ⟨⟨o2, ys⟩, hl, rfl, rfl⟩ := hr
      have := ih { o with par := p } ys hl
      exact this
    | eval fuel J st =>
      simp only [step] at hr
      cases he : evaluate gs limit fuel J st o with
      | none => rw [he] at hr; cases hr
      | some r =>
        rw [he] at hr
        simp only [Option.map_some, Option.map_eq_some_iff, Prod.mk.injEq] at hr
        obtain ⟨⟨o2, ys⟩, hl, rfl, rfl⟩ := hr
        have G : Good gs limit J o.par fun _ : Ev Q => True :=
          ⟨fun _ _ _ _ _ _ _ => trivial, fun _ _ _ => trivial⟩
        obtain ⟨⟨k1, -, n1, -⟩, -⟩ := evaluate_cases G trivial he
        obtain ⟨a, b⟩ := ih _ _ hl
        exact ⟨a.trans k1, b.trans n1⟩

/-- The state an evaluator is in between evaluations: what it was made with, and nothing
waits to be written (unless a delayed evaluation has failed). -/
theorem life_inv {gs : List Char → Nat} (hg : ∀ l, 0 < gs l) {limit : Nat} (ops : List (Op σ β T Q))
    (o o' : Obj β T Q) (xs : List (Option PyErr)) (h : Clean o.ev)
    (hr : life gs limit o ops = some (o', xs)) :
    o'.kind = o.kind ∧ o'.nSliding = o.nSliding ∧
    ((o.kind = .delayed → ∀ x ∈ xs, x = none) → Clean o'.ev) := by
  induction ops generalizing o xs with
  | nil => cases hr; exact ⟨rfl, rfl, fun _ => h⟩
  | cons op ops ih =>
    unfold life at hr
    cases op with
    | set p =>
      simp only [step, Option.map_eq_some_iff, Prod.mk.injEq] at hr
      obtain ⟨⟨o2, ys⟩, hl, rfl, rfl⟩ := hr
      obtain ⟨a, b, c⟩ := ih _ _ (by exact h) hl
      exact ⟨a, b, fun hx => c fun hk y hy => hx hk y (List.mem_cons_of_mem _ hy)⟩
    | eval fuel J st =>
      simp only [step] at hr
      cases he : evaluate gs limit fuel J st o with
      | none => rw [he] at hr; cases hr
      | some r =>
        rw [he] at hr
        simp only [Option.map_some, Option.map_eq_some_iff, Prod.mk.injEq] at hr
        obtain ⟨⟨o2, ys⟩, hl, rfl, rfl⟩ := hr
        have h0 : Fine o.par (start J o.par o.nSliding st o.ev) := (show Clean _ from h).fine
        obtain ⟨⟨k1, -, n1, e1⟩, hcases⟩ := evaluate_cases (fine_good hg) h0 he
        by_cases hd : o.kind = .delayed ∧ r.1.2.2 ≠ none
        · -- a delayed evaluation that raised: nothing to show
          obtain ⟨a, b⟩ := life_fixed _ _ _ _ hl
          exact ⟨a.trans k1, b.trans n1, fun hx => absurd (hx hd.1 _ List.mem_cons_self) hd.2⟩
        · have hc : Clean r.2.ev := by
            rcases hcases with ⟨-, -, h2, h3, -⟩ | ⟨st', e', hI, hf⟩ | ⟨h1, h2, -⟩
            · unfold Clean; rw [h2, h3]; exact h
            · rw [e1, hf, finish_ev]; exact hI.flush
            · exact absurd ⟨h1, h2⟩ hd
          obtain ⟨a, b, c⟩ := ih _ _ hc hl
          refine ⟨a.trans k1, b.trans n1, fun hx => c fun hk y hy => ?_⟩
          exact hx (k1.symm.trans hk) y (List.mem_cons_of_mem _ hy)

/-- With `dynamic_test_set` the test set left by an earlier evaluation is not used. -/
theorem holdLoop_dynamic {gs : List Char → Nat} {limit : Nat} {J : Job σ β T Q} {p : Par}
    (hd : p.dynamic = true) (fuel k cnt : Nat) (st : σ) (x x' : Option β) (e : Ev Q) :
    (holdLoop gs limit J p fuel k cnt st x e).map (fun r => (r.1, r.2.2)) =
    (holdLoop gs limit J p fuel k cnt st x' e).map (fun r => (r.1, r.2.2)) := by
  induction fuel generalizing k cnt st x x' e with
  | zero => rfl
  | succ fuel ih =>
    unfold holdLoop
    by_cases hc : ((e.count : Int) < e.amax && J.more k st) = true
    · rw [if_pos hc, if_pos hc]
      rcases J.fetch p.batch st with ⟨st1, _ | b⟩
      · rfl
      simp only
      rcases J.train e.first b st1 with ⟨st2, _ | err⟩
      · simp only
        cases checkProgress e.amax with
        | error err => rfl
        | ok _ =>
          simp only [testSet, hd, Bool.not_true, Bool.false_and, Bool.false_eq_true, if_false, if_true]
          by_cases hp : performTest true p.nWait p.testSize (e.count + p.batch) cnt e.amax = true
          · rw [if_pos hp, if_pos hp]
            rcases J.fetch p.testSize st2 with ⟨st3, _ | z⟩
            · rfl
            · rfl
          · rw [if_neg hp, if_neg hp]; exact ih _ _ _ _ _ _
      · rfl
    · rw [if_neg hc, if_neg hc]; rfl

/-! ### C271 -/

/-- **C271**, what holds.  Whatever an evaluator has been through (evaluations, also ones that
ended with an exception, and changes of parameters), and whatever has become of the files in
between: `evaluate` does to stream and models, measures, reports, writes and raises what a new
evaluator with the present parameters would, provided that `n_wait` (`test_size` for holdout
evaluation) is what it was constructed with and, for delayed evaluation, that there is a
pre-training block and no earlier evaluation has raised. -/
theorem C271_reuse_partial (gs : List Char → Nat) (hg : ∀ l, 0 < gs l) (limit : Nat) (k : Kind)
    (p0 : Par) (files0 : Nat → List Char) (ops : List (Op σ β T Q)) (o : Obj β T Q)
    (xs : List (Option PyErr)) (hl : life gs limit (construct k p0 files0) ops = some (o, xs))
    (hw : match k with
      | .holdout => o.par.testSize = p0.testSize
      | _ => o.par.nWait = p0.nWait)
    (hd : k = .delayed → 0 < o.par.pretrain ∧ ∀ x ∈ xs, x = none)
    (files : Nat → List Char) (fuel : Nat) (J : Job σ β T Q) (st : σ) :
    (evaluate gs limit fuel J st { o with ev := { o.ev with files := files } }).map Prod.fst =
    (evaluate gs limit fuel J st (construct k o.par files)).map Prod.fst := by
  obtain ⟨hk, hn, hc⟩ := life_inv hg ops _ _ _ ⟨rfl, rfl⟩ hl
  obtain ⟨ht, hs⟩ := hc fun h => (hd h).2
  have hk : o.kind = k := hk
  have hn : o.nSliding = windowPar k o.par := by
    refine hn.trans ?_
    cases k <;> exact hw.symm
  have he : start J o.par o.nSliding st { o.ev with files := files } =
      start J o.par (windowPar k o.par) st
        (⟨0, [], 0, [], [], [], 0, 0, 0, true, files⟩ : Ev Q) := by
    unfold start
    simp only [hn, ht, hs]
  unfold evaluate construct
  simp only [hk]
  cases k with
  | prequential =>
    simp only [Option.map_map]
    unfold prequential
    rw [he]
    rfl
  | holdout =>
    simp only [Option.map_map]
    unfold holdout
    rw [he]
    simp only
    cases hy : o.par.dynamic with
    | true =>
      simp only [if_true, Option.map_map]
      have := congrArg (Option.map fun r : σ × Ev Q => finish J o.par r.1 r.2)
        (holdLoop_dynamic (gs := gs) (limit := limit) (J := J) (p := o.par) hy fuel 0 0 st o.xtest
          none (start J o.par (windowPar .holdout o.par) st
            (⟨0, [], 0, [], [], [], 0, 0, 0, true, files⟩ : Ev Q)))
      rw [Option.map_map, Option.map_map] at this
      exact this
    | false =>
      simp only [Bool.false_eq_true, if_false]
      rcases J.fetch o.par.testSize st with ⟨st1, x | z⟩
      · rfl
      · simp only [Option.map_map]; rfl
  | delayed =>
    simp only [Option.map_map]
    unfold delayed
    rw [he]
    simp only [if_pos (hd rfl).1]
    rcases J.fetch o.par.pretrain st with ⟨st1, x | b⟩
    · rfl
    simp only
    rcases J.train true b st1 with ⟨st2, _ | x⟩
    · simp only
      cases J.tmNew b <;> rfl
    · rfl

/-- While an evaluation with the result file `f` runs, file and buffer together are the header,
what waited before, and the lines reported. -/
theorem told_good {gs : List Char → Nat} (hg : ∀ l, 0 < gs l) {limit : Nat} {J : Job σ β T Q}
    {p : Par} {f : Nat} (hf : p.output = some f) (H : List Char) (old : Nat → List Char) :
    Good gs limit J p fun e : Ev Q => e.files f ++ e.text = H ++ File.written e.rows ∧ Sized e ∧
      ∀ g, g ≠ f → e.files g = old g := by
  refine ⟨?_, ?_⟩
  · intro e e' h hr ht hs hfl
    unfold Sized at *
    rw [hr, ht, hs, hfl]; exact h
  · intro sid e ⟨h1, h2, h3⟩
    unfold report
    cases J.fmt p sid e.mean e.cur with
    | error x => exact ⟨h1, h2, h3⟩
    | ok l =>
      simp only [hf]
      have := File.update_inv gs hg limit ⟨e.files f, e.text, e.size⟩ l h2
      refine ⟨?_, fun _ => this.2, fun g hg' => ?_⟩
      · simp only [Function.update_self]
        rw [this.1]
        simp only [h1, File.written, List.flatMap_append, List.flatMap_cons, List.flatMap_nil,
          List.append_nil, List.append_assoc]
      · simp only [Function.update_of_ne hg']; exact h3 g hg'

/-- The result file after an evaluation that was not left while its queue was emptied:
the header, what waited from before, and its own lines; other files are not touched. -/
theorem file_holds {gs : List Char → Nat} (hg : ∀ l, 0 < gs l) {limit fuel : Nat} {J : Job σ β T Q}
    {st : σ} {o : Obj β T Q} {r : (σ × Ev Q × Option PyErr) × Obj β T Q} {f : Nat}
    (hf : o.par.output = some f) (hs : Sized o.ev)
    (hr : evaluate gs limit fuel J st o = some r) (hx : o.kind = .delayed → r.1.2.2 = none)
    (hq : o.kind = .delayed ∨ o.ev.text = []) :
    r.1.2.1.files f = J.header o.par ++ o.ev.text ++ File.written r.1.2.1.rows ∧
    ∀ g, g ≠ f → r.1.2.1.files g = o.ev.files g := by
  have h0 : (fun e : Ev Q => e.files f ++ e.text =
      (J.header o.par ++ o.ev.text) ++ File.written e.rows ∧ Sized e ∧
      ∀ g, g ≠ f → e.files g = o.ev.files g) (start J o.par o.nSliding st o.ev) := by
    refine ⟨?_, hs, fun g hg' => ?_⟩
    · simp only [start, hf, Function.update_self, File.written, List.flatMap_nil, List.append_nil]
    · simp only [start, hf, Function.update_of_ne hg']
  obtain ⟨⟨-, -, -, e1⟩, hc⟩ := evaluate_cases (told_good hg hf _ o.ev.files) h0 hr
  rcases hc with ⟨h1, h2, -, -, h5⟩ | ⟨st', e', ⟨i1, i2, i3⟩, hfin⟩ | ⟨h1, h2, -⟩
  · rcases hq with hq | hq
    · exact absurd (hx hq) h1
    · rw [← e1, h2, h5, hq]
      refine ⟨?_, fun g hg' => ?_⟩
      · simp [start, hf, File.written]
      · simp only [start, hf, Function.update_of_ne hg']
  · rw [hfin, finish_ev]
    unfold flush
    simp only [hf, Function.update_self, File.flush]
    by_cases hz : e'.size > 0
    · simp only [if_pos hz]
      exact ⟨i1, fun g hg' => by rw [Function.update_of_ne hg']; exact i3 g hg'⟩
    · simp only [if_neg hz]
      have ht : e'.text = [] := by
        by_contra hne; exact hz (i2 hne)
      rw [ht, List.append_nil] at i1
      exact ⟨i1, fun g hg' => by rw [Function.update_of_ne hg']; exact i3 g hg'⟩
  · exact absurd (hx h1) h2

/-- **C271**, result files, what holds.  Under the same conditions the file holds the header and
the lines of this evaluation, each once and in order, and no other file is touched (for delayed
evaluations that end without an exception; for the others also if they raise one). -/
theorem C271_file_partial (gs : List Char → Nat) (hg : ∀ l, 0 < gs l) (limit : Nat) (k : Kind)
    (p0 : Par) (files0 : Nat → List Char) (ops : List (Op σ β T Q)) (o : Obj β T Q)
    (xs : List (Option PyErr)) (hl : life gs limit (construct k p0 files0) ops = some (o, xs))
    (fuel : Nat) (J : Job σ β T Q) (st st' : σ) (e : Ev Q) (x : Option PyErr) (o' : Obj β T Q)
    (hr : evaluate gs limit fuel J st o = some ((st', e, x), o'))
    (hd : k = .delayed → x = none ∧ ∀ y ∈ xs, y = none) (f : Nat) (hf : o.par.output = some f) :
    e.files f = J.header o.par ++ (e.rows.map fun l => '\n' :: l).flatten ∧
    ∀ g, g ≠ f → e.files g = o.ev.files g := by
  obtain ⟨hk, -, hc⟩ := life_inv hg ops _ _ _ ⟨rfl, rfl⟩ hl
  have hk : o.kind = k := hk
  have hcl := hc fun h => (hd h).2
  have := file_holds hg hf hcl.sized hr (fun h => (hd (hk ▸ h)).1) (.inr hcl.1)
  rw [hcl.1, List.append_nil] at this
  exact this

/-- A job for the witnesses: samples are numbers, a line shows the current measurements, in a
delayed evaluation one waiting sample becomes available with each batch; with `weights`
emptying the queue raises (as it does for every stream with sample weights: C53). -/
def exJob (weights : Bool) : Job (List Nat) (List Nat) (List Nat) Nat where
  remaining _ := -1
  more _ st := !st.isEmpty
  fetch n st := (st.drop n, .ok (st.take n))
  len := List.length
  train _ _ st := (st, none)
  predict b st := (st, .ok b)
  tmNew _ := .ok []
  avail _ t := (t.drop 1, .ok (t.take 1, t.take 1))
  enqueue b st t := ((st, t ++ b), none)
  tmMore t := !t.isEmpty
  tmNext n t := if weights then (t, .error .keyError) else (t.drop n, .ok (t.take n, t.take n))
  header _ := ['h']
  fmt _ _ _ cur := .ok (cur.map fun q => Char.ofNat (48 + q))
  summary _ _ := none
  restart st := st

/-- Parameters for the witnesses. -/
def exPar (nWait pretrain testSize : Nat) : Par := ⟨nWait, 100, 1, pretrain, testSize, false, true, some 0⟩

/-- The lines, the file and the exception of an evaluation. -/
def seen (r : Option ((List Nat × Ev Nat × Option PyErr) × Obj (List Nat) (List Nat) Nat)) :
    Option (List (List Char) × List Char × Option PyErr) :=
  r.map fun r => (r.1.2.1.rows, r.1.2.1.files 0, r.1.2.2)

/-- A size for lines. -/
def exSize (l : List Char) : Nat := l.length + 1

/-- A life of a new evaluator followed by one more evaluation: exceptions of the life, lines,
file and exception of the evaluation. -/
def after (k : Kind) (p : Par) (ops : List (Op (List Nat) (List Nat) (List Nat) Nat)) (st : List Nat) :
    Option (List (Option PyErr) × Option (List (List Char) × List Char × Option PyErr)) :=
  (life exSize 8192 (construct k p fun _ => []) ops).map fun r =>
    (r.2, seen (evaluate exSize 8192 99 (exJob false) st r.1))

set_option synthInstance.maxSize 5000 in
/-- **C271** fails for changes of `n_wait` (`test_size` for holdout evaluation): the window of
the current measurements keeps the size it was constructed with.  Here an evaluator made for
1 is set to 2: its lines show one result where those of a new evaluator show two. -/
theorem C271_window_violated :
    after .prequential (exPar 1 1 1) [.set (exPar 2 1 2)] [1, 2, 3, 4] =
      some ([none], some ([['2'], ['4']], "h\n2\n4".toList, none)) ∧
    after .prequential (exPar 2 1 2) [] [1, 2, 3, 4] =
      some ([], some ([['2'], ['3', '4']], "h\n2\n34".toList, none)) ∧
    after .holdout (exPar 1 1 1) [.set (exPar 2 1 2)] [1, 2, 3, 4] =
      some ([none], some ([['2']], "h\n2".toList, none)) ∧
    after .holdout (exPar 2 1 2) [] [1, 2, 3, 4] =
      some ([], some ([['1', '2']], "h\n12".toList, none)) ∧
    after .delayed (exPar 1 1 1) [.set (exPar 2 1 2)] [1, 2, 3, 4, 5] =
      some ([none], some ([['3'], ['5']], "h\n3\n5".toList, none)) ∧
    after .delayed (exPar 2 1 2) [] [1, 2, 3, 4, 5] =
      some ([], some ([['2', '3'], ['4', '5']], "h\n23\n45".toList, none)) := by
  decide +kernel

set_option synthInstance.maxSize 5000 in
/-- **C271** fails for result files of delayed evaluations: if an exception leaves an evaluation
while the queue is emptied (as for every stream with sample weights), its lines are missing
from its file and appear in the file of the next evaluation, between header and first line.
The general form is `file_holds`. -/
theorem C271_lines_violated :
    after .delayed (exPar 2 1 2) [.eval 99 (exJob true) [1, 2, 3, 4, 5]] [1, 7, 8, 9] =
      some ([some .keyError], some ([['7', '8']], "h\n23\n78".toList, none)) ∧
    after .delayed (exPar 2 1 2) [] [1, 7, 8, 9] =
      some ([], some ([['7', '8']], "h\n78".toList, none)) ∧
    ((evaluate exSize 8192 99 (exJob true) [1, 2, 3, 4, 5] (construct .delayed (exPar 2 1 2) fun _ => [])).map
      fun r => (r.1.2.1.rows, r.1.2.1.files 0)) = some ([['2', '3']], ['h']) := by
  decide +kernel

set_option synthInstance.maxSize 5000 in
/-- **C271** fails for the queue of delayed evaluations: with `pretrain_size` set to 0 the time
manager of the earlier evaluation is used, and its samples (here 5) are scored and trained on
in the new evaluation.  A new evaluator raises an `AttributeError` (C57). -/
theorem C271_queue_violated :
    after .delayed (exPar 2 1 2) [.eval 99 (exJob true) [1, 2, 3, 4, 5], .set (exPar 2 0 2)] [7, 8, 9] =
      some ([some .keyError, none],
        some ([['5'], ['7', '8']], "h\n23\n5\n78".toList, none)) ∧
    after .delayed (exPar 2 0 2) [] [7, 8, 9] =
      some ([], some ([], ['h'], some .attributeError)) := by
  decide +kernel

set_option synthInstance.maxSize 5000 in
/-- Non-vacuity of `C271_reuse_partial` and `C271_file_partial`: an evaluator is used twice, with
another batch size and an evaluation that raised in between. -/
example : after .prequential (exPar 2 1 2)
    [.eval 99 (exJob false) [1, 2, 3], .set { exPar 2 1 2 with batch := 2 },
      .eval 99 { exJob false with summary := fun _ _ => some .typeError } [4, 5, 6]] [1, 7, 8, 9] =
    some ([none, none, some .typeError],
      some ([['7', '8'], ['8', '9']], "h\n78\n89".toList, none)) := by decide +kernel

set_option synthInstance.maxSize 5000 in
/-- The same for the other kinds of evaluation. -/
example : after .delayed (exPar 2 1 2) [.eval 99 (exJob false) [1, 2, 3]] [1, 7, 8, 9] =
      some ([none], some ([['7', '8']], "h\n78".toList, none)) ∧
    after .holdout (exPar 2 1 2) [.eval 99 (exJob false) [1, 2, 3]] [6, 7, 8, 9] =
      some ([none], some ([['6', '7']], "h\n67".toList, none)) := by decide +kernel

end Verif.Evaluation.Reuse
