import Verif.Common
import Mathlib.Tactic.Linarith

/-!
Model of the reporting side of `evaluation/base_evaluator.py`: `_check_configuration`
(170-239), the data buffer (`evaluation/evaluation_data_buffer.py`), `_init_metrics`
(304-318), `_update_metrics` (320-535), `_init_file` (559-602), `_update_file` (604-641)
and `evaluation_summary` (674-780), with the metric lists of `utils/constants.py`.

Simplifications: the measurement objects are the values they would return at the
moment of the report (`World`); which of the methods a class has is a table.  Text is
a list of characters; the number format `{:.6f}` is any function.  Plots are in Plot.lean; the
configuration lines of the result file and the wording of the summary are left out.
-/

namespace Verif.Evaluation.Report

/-- `cs!"ab"` is the list of characters `['a', 'b']`. -/
syntax:max "cs!" str : term
macro_rules
  | `(cs! $s:str) => do
    let cs := s.getString.toList.map fun c => Lean.Syntax.mkCharLit c
    `([$(cs.toArray),*])

/-- The metric identifiers of constants.py 1-21. -/
inductive Metric
  | accuracy | kappa | kappaT | kappaM | hammingScore | hammingLoss | exactMatch | jIndex
  | mse | mae | amse | amae | armse | trueVsPredicted | precision | recall | f1 | gmean
  | dataPoints | runningTime | modelSize
  deriving DecidableEq

/-- The string of an identifier, constants.py 1-21. -/
def Metric.name : Metric → List Char
  | .accuracy => cs!"accuracy"
  | .kappa => cs!"kappa"
  | .kappaT => cs!"kappa_t"
  | .kappaM => cs!"kappa_m"
  | .hammingScore => cs!"hamming_score"
  | .hammingLoss => cs!"hamming_loss"
  | .exactMatch => cs!"exact_match"
  | .jIndex => cs!"j_index"
  | .mse => cs!"mean_square_error"
  | .mae => cs!"mean_absolute_error"
  | .amse => cs!"average_mean_square_error"
  | .amae => cs!"average_mean_absolute_error"
  | .armse => cs!"average_root_mean_square_error"
  | .trueVsPredicted => cs!"true_vs_predicted"
  | .precision => cs!"precision"
  | .recall => cs!"recall"
  | .f1 => cs!"f1"
  | .gmean => cs!"gmean"
  | .dataPoints => cs!"data_points"
  | .runningTime => cs!"running_time"
  | .modelSize => cs!"model_size"

/-- `PLOT_TYPES`, constants.py 23-44. -/
def plotTypes : List Metric :=
  [.accuracy, .kappa, .kappaT, .kappaM, .hammingScore, .hammingLoss, .exactMatch, .jIndex, .mse,
   .mae, .amse, .amae, .armse, .trueVsPredicted, .precision, .recall, .f1, .gmean, .dataPoints,
   .runningTime, .modelSize]

/-- `CLASSIFICATION_METRICS`, constants.py 45-57. -/
def classificationMetrics : List Metric :=
  [.accuracy, .kappa, .kappaT, .kappaM, .trueVsPredicted, .recall, .precision, .gmean, .f1,
   .dataPoints, .runningTime, .modelSize]

/-- `REGRESSION_METRICS`, constants.py 58-62. -/
def regressionMetrics : List Metric :=
  [.mse, .mae, .trueVsPredicted, .runningTime, .modelSize]

/-- `MULTI_TARGET_CLASSIFICATION_METRICS`, constants.py 63-68. -/
def mtClassificationMetrics : List Metric :=
  [.hammingScore, .hammingLoss, .exactMatch, .jIndex, .runningTime, .modelSize]

/-- `MULTI_TARGET_REGRESSION_METRICS`, constants.py 69-73. -/
def mtRegressionMetrics : List Metric :=
  [.amse, .amae, .armse, .runningTime, .modelSize]

/-- Task types, constants.py 74-79. -/
inductive Task
  | classification | regression | mtClassification | mtRegression
  deriving DecidableEq

/-- Lines 185-191: `x.lower()`, then membership in `PLOT_TYPES`. -/
def parse (s : List Char) : Option Metric :=
  plotTypes.find? fun m => m.name == s.map Char.toLower

/-- Lines 187-198: metrics without a plot go last. -/
def reorder (ms : List Metric) : List Metric :=
  ms.filter (fun m => !(m == .modelSize || m == .runningTime)) ++
    ms.filter (fun m => m == .modelSize || m == .runningTime)

/-- `evaluation_metrics.union(A) == A`. -/
def within (ms A : List Metric) : Bool := ms.all fun m => A.contains m

/-- `_check_configuration`, lines 170-239: `nTargets` is `stream.n_targets`, `dp`
`data_points_for_classification`. -/
def checkConfig (nTargets : Int) (dp : Bool) (names : List (List Char)) :
    Except PyErr (List Metric × Task) :=
  if nTargets < 1 then .error .valueError
  else
    match names.mapM parse with
    | none => .error .valueError
    | some ms =>
      let ms := reorder ms
      if nTargets = 1 then
        if ms.all fun m => classificationMetrics.contains m == regressionMetrics.contains m then
          .error .valueError
        else if within ms classificationMetrics || dp then .ok (ms, .classification)
        else if within ms regressionMetrics then .ok (ms, .regression)
        else .error .valueError
      else if within ms mtClassificationMetrics then .ok (ms, .mtClassification)
      else if within ms mtRegressionMetrics then .ok (ms, .mtRegression)
      else .error .valueError

/-! ### The data buffer -/

/-- The data ids of lines 307-315 and of the `update_data` calls 473-530. -/
inductive Key
  | mean | current | yTrue | yPred | x | targetValues | prediction | predictions
  | trainingTime | testingTime | totalTime | modelSize
  deriving DecidableEq

/-- What the buffer can hold. -/
inductive Val
  | num (v : ℚ)
  | nums (v : List ℚ)
  | feats (a b : ℚ)
  deriving DecidableEq

/-- `EvaluationDataBuffer`: `data[m][k]`; `none` is a missing key, `some none` the value `None`. -/
structure Buf where
  ids : List (Metric × List Key)
  data : Metric → Key → Option (Option Val)
  sampleId : Int

/-- `_clear_data`, evaluation_data_buffer.py 30-34. -/
def Buf.clear (b : Buf) : Buf :=
  { b with
    data := fun m k =>
      match b.ids.find? (fun e => e.1 == m) with
      | some e => if e.2.contains k then some none else none
      | none => b.data m k }

/-- `update_data`, evaluation_data_buffer.py 39-44. -/
def Buf.update (b : Buf) (sid : Int) (m : Metric) (k : Key) (v : Val) : Except PyErr Buf :=
  let b := if b.sampleId != sid then { b.clear with sampleId := sid } else b
  if b.ids.any (fun e => e.1 == m) then
    .ok { b with data := fun m' k' => if m' = m ∧ k' = k then some (some v) else b.data m' k' }
  else .error .keyError

/-- `get_data`, evaluation_data_buffer.py 36-37. -/
def Buf.get (b : Buf) (m : Metric) (k : Key) : Except PyErr (Option Val) :=
  match b.data m k with
  | some v => .ok v
  | none => .error .keyError

/-- Lines 306-316. -/
def dataIds : Metric → List Key
  | .trueVsPredicted => [.yTrue, .yPred]
  | .dataPoints => [.x, .targetValues, .prediction]
  | .runningTime => [.trainingTime, .testingTime, .totalTime]
  | .modelSize => [.modelSize]
  | _ => [.mean, .current]

/-- Lines 304-318 with the buffer's constructor (evaluation_data_buffer.py 6-28). -/
def initBuf (ms : List Metric) : Except PyErr Buf :=
  if ms.isEmpty then .error .valueError
  else
    .ok (Buf.clear ⟨ms.map fun m => (m, dataIds m), fun _ _ => none, -1⟩)

/-! ### Reports -/

/-- What the measurement objects, the timers, the stream and the models would answer
at the moment of a report; the first argument is the index of the model. -/
structure World where
  mean : Nat → Metric → ℚ
  current : Nat → Metric → ℚ
  lastTrue : Nat → ℚ
  lastPred : Nat → ℚ
  training : Nat → ℚ
  testing : Nat → ℚ
  total : Nat → ℚ
  size : Nat → ℚ
  x : List ℚ
  targets : List ℚ

/-- Which of the methods called in `_update_metrics` the measurement objects of a task
have: `_classification_performance_evaluator.pyx` 102-431 and 657-730, measure_collection.py
1110-1138, 1203-1231, 1302-1345, 1430-1474.  `get_last` is on all of them. -/
def hasMethod : Task → Metric → Bool
  | .classification, .accuracy | .classification, .kappa | .classification, .kappaT
  | .classification, .kappaM | .classification, .f1 | .classification, .precision
  | .classification, .recall | .classification, .gmean => true
  | .mtClassification, .hammingScore | .mtClassification, .hammingLoss
  | .mtClassification, .exactMatch | .mtClassification, .jIndex => true
  | .regression, .mse | .regression, .mae => true
  | .mtRegression, .amse | .mtRegression, .amae | .mtRegression, .armse => true
  | _, _ => false

/-- The body of the loop of `_update_metrics`, lines 336-530. -/
def updateMetric (t : Task) (n : Nat) (sid : Int) (w : World) (b : Buf) (m : Metric) :
    Except PyErr Buf :=
  match m with
  | .trueVsPredicted => do
    -- 428-436: the true value kept is that of the last model
    let yTrue := (List.range n).foldl (fun _ i => w.lastTrue i) (-1)
    let b ← b.update sid m .yTrue (.num yTrue)
    b.update sid m .yPred (.nums ((List.range n).map w.lastPred))
  | .dataPoints =>
    -- 439-454: `y_pred, p = get_last()`
    if n = 0 then .error .indexError
    else
      match w.x with
      | x0 :: x1 :: _ => do
        let yPred := w.lastTrue 0
        let b ← b.update sid m .x (.feats x0 x1)
        let b ← b.update sid m .targetValues (.nums w.targets)
        b.update sid m .predictions (.num yPred)
      | _ => .error .indexError
  | .runningTime => do
    let b ← b.update sid m .trainingTime (.nums ((List.range n).map w.training))
    let b ← b.update sid m .testingTime (.nums ((List.range n).map w.testing))
    b.update sid m .totalTime (.nums ((List.range n).map w.total))
  | .modelSize => b.update sid m .modelSize (.nums ((List.range n).map w.size))
  | m =>
    if n > 0 && !hasMethod t m then .error .attributeError
    else do
      let b ← b.update sid m .mean (.nums ((List.range n).map fun i => w.mean i m))
      b.update sid m .current (.nums ((List.range n).map fun i => w.current i m))

/-- `_update_metrics`, lines 335-530: the loop over the metrics. -/
def updateMetrics (t : Task) (n : Nat) (sid : Int) (w : World) (ms : List Metric) (b : Buf) :
    Except PyErr Buf :=
  ms.foldlM (updateMetric t n sid w) b

/-- `get_data(...)[i]`. -/
def Buf.entry (b : Buf) (m : Metric) (k : Key) (i : Nat) : Except PyErr ℚ :=
  match b.get m k with
  | .error e => .error e
  | .ok (some (.nums l)) =>
    match l[i]? with
    | some v => .ok v
    | none => .error .indexError
  | .ok _ => .error .typeError

/-- A number kept in the buffer, line 610. -/
def Buf.num (b : Buf) (m : Metric) (k : Key) : Except PyErr ℚ :=
  match b.get m k with
  | .error e => .error e
  | .ok (some (.num v)) => .ok v
  | .ok _ => .error .typeError

/-- Values of one metric in a line of the result file, lines 609-641. -/
def fields (b : Buf) (n : Nat) (m : Metric) : Except PyErr (List ℚ) :=
  match m with
  | .trueVsPredicted => do
    let t ← b.num m .yTrue
    let ps ← (List.range n).mapM (b.entry m .yPred)
    return t :: ps
  | .runningTime => do
    let rows ← (List.range n).mapM fun i => do
      let a ← b.entry m .trainingTime i
      let c ← b.entry m .testingTime i
      let d ← b.entry m .totalTime i
      return [a, c, d]
    return rows.flatten
  | .modelSize => (List.range n).mapM (b.entry m .modelSize)
  | .dataPoints => .ok []
  | m => do
    let rows ← (List.range n).mapM fun i => do
      let a ← b.entry m .mean i
      let c ← b.entry m .current i
      return [a, c]
    return rows.flatten

/-- `_update_file`, lines 607-641: the text of one line, without the line break.
`str` prints the sample id, `fmt` is the format `{:.6f}`. -/
def line (str : Int → List Char) (fmt : ℚ → List Char) (b : Buf) (n : Nat) (ms : List Metric) :
    Except PyErr (List Char) :=
  ms.foldlM (fun acc m => do
    let vs ← fields b n m
    return acc ++ vs.flatMap fun v => ',' :: fmt v) (str b.sampleId)

/-- `,a_[{0}]`. -/
def bracket (a name : List Char) : List Char := ',' :: a ++ '[' :: name ++ [']']

/-- Header text of one metric, lines 561-601; `names` are the model names. -/
def headerOf (names : List (List Char)) : Metric → List Char
  | .accuracy => names.flatMap fun s =>
      bracket cs!"mean_acc_" s ++ bracket cs!"current_acc_" s
  | .mse => names.flatMap fun s =>
      bracket cs!"mean_mse_" s ++ bracket cs!"current_mse_" s
  | .mae => names.flatMap fun s =>
      bracket cs!"mean_mae_" s ++ bracket cs!"current_mae_" s
  | .amse => names.flatMap fun s =>
      bracket cs!"mean_amse_" s ++ bracket cs!"current_amse_" s
  | .amae => names.flatMap fun s =>
      bracket cs!"mean_amae_" s ++ bracket cs!"current_amae_" s
  | .armse => names.flatMap fun s =>
      bracket cs!"mean_armse_" s ++ bracket cs!"current_armse_" s
  | .trueVsPredicted =>
      cs!",true_value" ++ names.flatMap fun s => bracket cs!"predicted_value_" s
  | .runningTime => names.flatMap fun s =>
      bracket cs!"training_time_" s ++ bracket cs!"testing_time_" s ++
        bracket cs!"total_running_time_" s
  | .modelSize => names.flatMap fun s => bracket cs!"model_size_" s
  | .dataPoints => []
  | m => names.flatMap fun s =>
      bracket (cs!"mean_" ++ m.name ++ cs!"_") s ++
        bracket (cs!"current_" ++ m.name ++ cs!"_") s

/-- The header line, lines 559-602, without the line break. -/
def header (names : List (List Char)) (ms : List Metric) : List Char :=
  ms.foldl (fun acc m => acc ++ headerOf names m) cs!"id"

/-- The metrics printed by `evaluation_summary`, lines 680-780, with the data ids read. -/
def summaryKeys : List (Metric × Key) :=
  [(.accuracy, .mean), (.kappa, .mean), (.kappaT, .mean), (.kappaM, .mean), (.precision, .mean),
   (.recall, .mean), (.f1, .mean), (.hammingScore, .mean), (.hammingLoss, .mean),
   (.exactMatch, .mean), (.jIndex, .mean), (.mse, .mean), (.mae, .mean), (.amse, .mean),
   (.amae, .mean), (.armse, .mean), (.runningTime, .trainingTime), (.runningTime, .testingTime),
   (.runningTime, .totalTime), (.modelSize, .modelSize)]

/-- `evaluation_summary`, lines 674-780: the values printed, model by model. -/
def summary (b : Buf) (n : Nat) (ms : List Metric) : Except PyErr (List (List ℚ)) :=
  (List.range n).mapM fun i =>
    (summaryKeys.filter fun e => ms.contains e.1).mapM fun e => b.entry e.1 e.2 i

end Verif.Evaluation.Report
