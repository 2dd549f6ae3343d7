import Verif.Evaluation.ReportProps
import Verif.Buffers.Model

/-!
Model of `visualization/evaluation_visualizer.py`: what the subplots show after each report of an
evaluator.  `__init__` (54-105), `on_new_train_step` (107-145), the positions and titles given in
`__configure` (187-330) and `_update_plots` (348-450) with `_clear_annotations`; the drawing itself
(matplotlib) is outside: a line is the list of values handed to `set_data`, axis limits are what is
handed to `set_ylim` and `set_xlim`.

Simplifications: values are rational numbers (no nan); texts of annotations and colours are left
out; the metrics are those of the evaluator, so every metric has its tracker.
-/

namespace Verif.Evaluation.Report

open Verif.Buffers (FastBuffer)

/-- The state of `EvaluationVisualizer` (lines 58-63 and the trackers of 187-260). -/
structure Vis where
  /-- `_sample_ids`, the x values of all lines. -/
  ids : List Int
  /-- `_plot_trackers[m].data[k][i]`: y values of the lines of model `i`. -/
  curve : Metric → Key → Nat → List ℚ
  /-- `data['y_true']` of the true-vs-predicted subplot. -/
  truth : List ℚ
  /-- Times and sizes, only the latest are kept. -/
  latest : Metric → Key → List ℚ
  /-- `data['X']`, `data['predictions']`, `data['clusters']` of the data points subplot. -/
  xs : FastBuffer (ℚ × ℚ)
  preds : FastBuffer ℚ
  clusters : List (FastBuffer (ℚ × ℚ))
  ylim : Metric → Option (ℚ × ℚ)
  xlim : Metric → Option (Int × Int)
  /-- `_frame_cnt` and `_last_draw_timestamp`. -/
  frame : Nat
  drawn : ℚ

/-- A new visualizer, lines 58-63 and 187-260; the buffers hold 100 points (line 236). -/
def newVis : Vis where
  ids := []
  curve := fun _ _ _ => []
  truth := []
  latest := fun _ _ => []
  xs := .init 100
  preds := .init 100
  clusters := []
  ylim := fun _ => none
  xlim := fun _ => none
  frame := 0
  drawn := 0

/-- Appending one value per model to the lines `k` of metric `m`, lines 363-364 and 427-428. -/
def Vis.extend (v : Vis) (m : Metric) (k : Key) (ys : List ℚ) : Vis :=
  { v with curve := fun m' k' i =>
      if m' = m ∧ k' = k then
        match ys[i]? with
        | some y => v.curve m' k' i ++ [y]
        | none => v.curve m' k' i
      else v.curve m' k' i }

/-- `set_ylim` and `set_xlim`, lines 444-446. -/
def Vis.limit (v : Vis) (m : Metric) (lo hi : ℚ) : Vis :=
  { v with
    ylim := fun m' => if m' = m then some (lo, hi) else v.ylim m'
    xlim := fun m' => if m' = m then v.ids.getLast?.map fun s => (0, s) else v.xlim m' }

/-- The kappas whose lower limit follows the values, line 436. -/
def Metric.lowKappa (m : Metric) : Bool := m == .kappaT || m == .kappaM

/-- The errors, line 439. -/
def Metric.isError (m : Metric) : Bool :=
  m == .mse || m == .mae || m == .amse || m == .amae || m == .armse

/-- Lines 430-443: limits of a performance plot from the latest mean and current values of the
models; the state is `(y_min, y_max, pad)`. -/
def perfLimits (m : Metric) (rows : List (ℚ × ℚ)) : ℚ × ℚ × ℚ :=
  rows.foldl (fun s r =>
    let yMin := if m.lowKappa then min (min r.1 r.2) s.1 else s.1
    if m.isError then
      let yMax := max (max r.1 r.2) s.2.1
      (-1, yMax, 1 / 2 * yMax)
    else (yMin, s.2.1, s.2.2)) (0, 1, 1 / 10)

/-- Lines 360-367: limits of the true-vs-predicted plot. -/
def predLimits (t : ℚ) (ps : List ℚ) : ℚ × ℚ :=
  ps.foldl (fun s p => (min (min p t) s.1, max (max p t) s.2)) (0, 1)

/-- Lines 373-404: one data point `(a, b)` of class `p`; `k` classes. -/
def Vis.point (v : Vis) (a b : ℚ) (k : Nat) (p : ℚ) : Vis :=
  let xs := (v.xs.addElement [(a, b)]).2
  let preds := (v.preds.addElement [p]).2
  -- 391-393: `clusters_initialized` is never set
  let clusters := v.clusters ++ List.replicate k (FastBuffer.init 100)
  let clusters :=
    match xs.getQueue.getLast?, preds.getQueue.getLast? with
    | some x, some p => clusters.mapIdx fun j c => if p = (j : ℚ) then (c.addElement [x]).2 else c
    | _, _ => clusters
  { v with xs := xs, preds := preds, clusters := clusters }

/-- The body of the loop of `_update_plots`, lines 352-446, for `n` models. -/
def plotMetric (n : Nat) (b : Buf) (v : Vis) (m : Metric) : Except PyErr Vis :=
  match m with
  | .trueVsPredicted => do
    let t ← b.num m .yTrue
    let ps ← (List.range n).mapM (b.entry m .yPred)
    let v := { v with truth := v.truth ++ [t] }
    let v := v.extend m .yPred ps
    let l := predLimits t ps
    return v.limit m (l.1 - 1 / 10) (l.2 + 1 / 10)
  | .dataPoints =>
    match b.get m .x, b.get m .targetValues, b.get m .predictions with
    | .ok (some (.feats x1 x2)), .ok (some (.nums ts)), .ok (some (.num p)) =>
      .ok (v.point x1 x2 ts.length p)
    | _, _, _ => .error .typeError
  | .runningTime => do
    let a ← (List.range n).mapM (b.entry m .trainingTime)
    let c ← (List.range n).mapM (b.entry m .testingTime)
    let d ← (List.range n).mapM (b.entry m .totalTime)
    return { v with latest := fun m' k =>
      if m' = m then (if k = .trainingTime then a else if k = .testingTime then c else d) else v.latest m' k }
  | .modelSize => do
    let a ← (List.range n).mapM (b.entry m .modelSize)
    return { v with latest := fun m' k => if m' = m then a else v.latest m' k }
  | m => do
    let ms ← (List.range n).mapM (b.entry m .mean)
    let cs ← (List.range n).mapM (b.entry m .current)
    let v := (v.extend m .mean ms).extend m .current cs
    let l := perfLimits m (ms.zip cs)
    return v.limit m (l.1 - l.2.2) (l.2.1 + l.2.2)

/-- `on_new_train_step`, lines 107-145: the new state and whether the figure is redrawn; `now` is
`time.time()`, `keys` the metrics of the data buffer. -/
def onNewTrainStep (n : Nat) (keys : List Metric) (now : ℚ) (sid : Int) (b : Buf) (v : Vis) :
    Except PyErr (Vis × Bool) :=
  match keys.foldlM (plotMetric n b) { v with ids := v.ids ++ [sid] } with
  | .error _ => .error .valueError
  | .ok v =>
    if v.frame = 5 ∨ now - v.drawn > 1 then .ok ({ v with frame := 0, drawn := now }, true)
    else .ok ({ v with frame := v.frame + 1 }, false)

/-- Reports of an evaluator with a plot (base_evaluator.py 320-541): time, sample id and answers of
the objects; the result is buffer, visualizer and which reports redrew the figure. -/
def shows (t : Task) (n : Nat) (ms : List Metric) :
    List (ℚ × Int × World) → Buf → Vis → Except PyErr (Buf × Vis × List Bool)
  | [], b, v => .ok (b, v, [])
  | (now, sid, w) :: hist, b, v =>
    match updateMetrics t n sid w ms b with
    | .error e => .error e
    | .ok b =>
      match onNewTrainStep n ms now sid b v with
      | .error e => .error e
      | .ok (v, d) =>
        match shows t n ms hist b v with
        | .error e => .error e
        | .ok (b, v, ds) => .ok (b, v, d :: ds)

/-! ### Positions and titles -/

/-- Metrics with a subplot, line 185. -/
def plotted (ms : List Metric) : List Metric := ms.filter fun m => !(m == .runningTime || m == .modelSize)

/-- Lines 186 and 190-195: the integers handed to `add_subplot`. -/
def positions (base : Nat) : List Metric → List (Metric × Nat)
  | [] => []
  | m :: ms =>
    if m == .runningTime || m == .modelSize then positions (base + 1) ms
    else (m, base) :: positions (base + 1) ms

/-- `add_subplot` with an integer (matplotlib): three digits, rows, columns and index, where the
index is at least 1 and at most rows times columns. -/
def subplot (code : Nat) : Option (Nat × Nat × Nat) :=
  if 100 ≤ code ∧ code ≤ 999 then
    let r := code / 100
    let c := code / 10 % 10
    let i := code % 10
    if 1 ≤ i ∧ i ≤ r * c then some (r, c, i) else none
  else none

/-- Lines 178-195 and the check of line 100: the subplots of a visualizer of `n` models. -/
def layout (n : Nat) (ms : List Metric) : Except PyErr (List (Metric × Nat × Nat × Nat)) :=
  if ms.isEmpty then .error .valueError
  else if ms.contains .dataPoints && n > 1 then .error .valueError
  else
    match (positions (11 + (plotted ms).length * 100) ms).mapM fun e => (subplot e.2).map fun p => (e.1, p) with
    | none => .error .valueError
    | some l => .ok l

/-- Titles of the subplots, lines 232 and 271-322; the data points plot gets none. -/
def title : Metric → List Char
  | .trueVsPredicted => cs!"True vs Predicted"
  | .accuracy => cs!"Accuracy"
  | .kappa => cs!"Kappa"
  | .kappaT => cs!"Kappa T"
  | .kappaM => cs!"Kappa M"
  | .precision => cs!"Precision"
  | .recall => cs!"Recall"
  | .f1 => cs!"F1 Score"
  | .hammingScore => cs!"Hamming score"
  | .hammingLoss => cs!"Hamming loss"
  | .exactMatch => cs!"Exact Match"
  | .jIndex => cs!"Jaccard Index"
  | .mse => cs!"Mean Squared Error"
  | .mae => cs!"Mean Absolute Error"
  | .amse => cs!"Average Mean Squared Error"
  | .amae => cs!"Average Mean Absolute Error"
  | .armse => cs!"Average Root Mean Squared Error"
  | .gmean => cs!"Unknown metric"
  | .dataPoints | .runningTime | .modelSize => []

end Verif.Evaluation.Report
