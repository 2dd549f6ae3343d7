import Verif.Common
import Mathlib.Data.List.Sort

/-!
Model of `src/skmultiflow/metrics/_confusion_matrix.pyx` (`ConfusionMatrix`) and
`src/skmultiflow/metrics/_classification_performance_evaluator.pyx`
(`ClassificationPerformanceEvaluator`, `WindowClassificationPerformanceEvaluator`).

C doubles are rationals; C ints are unbounded integers.
-/

namespace Verif.Metrics

/-- Insert a class label in a sorted duplicate-free list (the representation of
the Python `set` `classes`; iteration order of the set is irrelevant for exact
sums, and `majority_class` iterates over `sorted(classes)`). -/
def insertClass (c : Int) (l : List Int) : List Int :=
  if c ∈ l then l else l.orderedInsert (· ≤ ·) c

/-- `ConfusionMatrix`, `_confusion_matrix.pyx:34-44`.  The `defaultdict(float)`
attributes are total functions that are `0` where nothing was stored. -/
structure CM where
  classes : List Int
  sumDiag : ℚ
  sumRow : Int → ℚ
  sumCol : Int → ℚ
  data : Int → Int → ℚ

/-- Clamp of the constructor argument, `_confusion_matrix.pyx:35-37` and
`_classification_performance_evaluator.pyx:36-38`. -/
def initClasses (nClasses : Nat) : Nat := if nClasses < 2 then 2 else nClasses

namespace CM

/-- `ConfusionMatrix.__init__`, lines 34-44. -/
def init (nClasses : Nat) : CM :=
  { classes := (List.range (initClasses nClasses)).map Int.ofNat
    sumDiag := 0, sumRow := fun _ => 0, sumCol := fun _ => 0, data := fun _ _ => 0 }

/-- `self.n_classes`, line 57. -/
def nClasses (m : CM) : Nat := m.classes.length

/-- `__setitem__`, lines 46-63 (it increments). -/
def setItem (m : CM) (t p : Int) (w : ℚ) : CM :=
  { classes := insertClass p (insertClass t m.classes)
    data := fun i j => if i = t ∧ j = p then m.data i j + w else m.data i j
    sumDiag := if t = p then m.sumDiag + w else m.sumDiag
    sumRow := fun i => if i = t then m.sumRow i + w else m.sumRow i
    sumCol := fun j => if j = p then m.sumCol j + w else m.sumCol j }

end CM

/-- `ClassificationPerformanceEvaluator`, lines 35-46. -/
structure Eval where
  cm : CM
  nSamples : Nat
  lastTrue : Int
  lastPred : Int
  wMajority : ℚ
  wNoChange : ℚ
  totalWeight : ℚ

namespace Eval

/-- `__init__`, lines 35-46. -/
def init (nClasses : Nat) : Eval := ⟨CM.init (initClasses nClasses), 0, 0, 0, 0, 0, 0⟩

/-- One iteration of the loop of `majority_class`, lines 95-99, on
`(majority_idx, max_prob)`. -/
def majorityStep (e : Eval) (acc : Int × ℚ) (i : Int) : Int × ℚ :=
  let sumValue := e.cm.sumRow i / e.nSamples
  if sumValue > acc.2 then (i, sumValue) else acc

/-- `majority_class`, lines 81-100. -/
def majorityClass (e : Eval) : Int :=
  if e.totalWeight = 0 then 0
  else (e.cm.classes.foldl e.majorityStep (0, 0)).1

/-- `add_result`, lines 48-77. -/
def addResult (e : Eval) (t p : Int) (w : ℚ) : Eval :=
  let e := { e with nSamples := e.nSamples + 1 }
  let e := if w > 0 then
      { e with cm := e.cm.setItem t p w, totalWeight := e.totalWeight + w } else e
  let e := if e.majorityClass = t then { e with wMajority := e.wMajority + w } else e
  let e := if e.lastTrue = t then { e with wNoChange := e.wNoChange + w } else e
  { e with lastTrue := t, lastPred := p }

/-- `accuracy_score`, lines 102-115. -/
def accuracyScore (e : Eval) : ℚ :=
  if e.nSamples > 0 then e.cm.sumDiag / e.nSamples else 0

/-- `pe` of `kappa_score`, lines 156-159. -/
def kappaPe (e : Eval) : ℚ :=
  (e.cm.classes.map fun i => (e.cm.sumRow i / e.nSamples) * (e.cm.sumCol i / e.nSamples)).sum

/-- `kappa_score`, lines 125-162. -/
def kappaScore (e : Eval) : ℚ :=
  if e.totalWeight > 0 then
    if e.kappaPe ≠ 1 then (e.accuracyScore - e.kappaPe) / (1 - e.kappaPe) else 0
  else 0

/-- `kappa_t_score`, lines 164-198. -/
def kappaTScore (e : Eval) : ℚ :=
  if e.totalWeight > 0 then
    let pe := if e.nSamples > 0 then e.wNoChange / e.nSamples else 0
    if pe ≠ 1 then (e.accuracyScore - pe) / (1 - pe) else 0
  else 0

/-- `kappa_m_score`, lines 200-232. -/
def kappaMScore (e : Eval) : ℚ :=
  if e.totalWeight > 0 then
    let pe := if e.nSamples > 0 then e.wMajority / e.nSamples else 0
    if pe ≠ 1 then (e.accuracyScore - pe) / (1 - pe) else 0
  else 0

/-- `_precision_per_class`, lines 273-280. -/
def precisionPerClass (e : Eval) (c : Int) : ℚ :=
  if e.cm.nClasses > 0 ∧ c ≥ 0 then
    if e.cm.sumCol c > 0 then e.cm.data c c / e.cm.sumCol c else 0
  else 0

/-- `precision_score`, lines 236-271. -/
def precisionScore (e : Eval) (c : Int := -1) : ℚ :=
  if e.cm.nClasses = 2 ∧ c = -1 then e.precisionPerClass 1
  else if c = -1 then (e.cm.classes.map e.precisionPerClass).sum / e.cm.nClasses
  else e.precisionPerClass c

/-- `_recall_per_class`, lines 321-328. -/
def recallPerClass (e : Eval) (c : Int) : ℚ :=
  if e.cm.nClasses > 0 ∧ c ≥ 0 then
    if e.cm.sumRow c > 0 then e.cm.data c c / e.cm.sumRow c else 0
  else 0

/-- `recall_score`, lines 284-319. -/
def recallScore (e : Eval) (c : Int := -1) : ℚ :=
  if e.cm.nClasses = 2 ∧ c = -1 then e.recallPerClass 1
  else if c = -1 then (e.cm.classes.map e.recallPerClass).sum / e.cm.nClasses
  else e.recallPerClass c

/-- `_f1_per_class`, lines 374-382. -/
def f1PerClass (e : Eval) (c : Int) : ℚ :=
  if e.cm.nClasses > 0 then
    let precision := e.precisionScore c
    let recall := e.recallScore c
    if precision + recall > 0 then 2 * (precision * recall) / (precision + recall) else 0
  else 0

/-- `f1_score`, lines 332-372. -/
def f1Score (e : Eval) (c : Int := -1) : ℚ :=
  if e.cm.nClasses = 2 then e.f1PerClass 1
  else if c = -1 then (e.cm.classes.map e.f1PerClass).sum / e.cm.nClasses
  else e.f1PerClass c

end Eval

/-- Queue entry of the windowed evaluator, lines 560-564. -/
structure QEntry where
  t : Int
  p : Int
  w : ℚ
  majority : Bool
  noChange : Bool

/-- `WindowClassificationPerformanceEvaluator`, lines 490-493. -/
structure WEval where
  base : Eval
  windowSize : Nat
  queue : List QEntry

namespace WEval

/-- `__init__`, lines 490-493. -/
def init (nClasses windowSize : Nat) : WEval := ⟨Eval.init nClasses, windowSize, []⟩

/-- Lines 522-537: removal of the oldest result when the window is full.  (For
`window_size = 0` the real `popleft` raises; the model leaves the state alone,
and no theorem covers that case.) -/
def removeOldest (s : WEval) : WEval :=
  if s.queue.length = s.windowSize then
    match s.queue with
    | [] => s
    | q :: rest =>
      { s with
        queue := rest
        base := { s.base with
          cm := s.base.cm.setItem q.t q.p (-q.w)
          wMajority := s.base.wMajority - (if q.majority then q.w else 0)
          wNoChange := s.base.wNoChange - (if q.noChange then q.w else 0)
          nSamples := s.base.nSamples - 1 } }
  else s

/-- `add_result`, lines 495-564. -/
def addResult (s : WEval) (t p : Int) (w : ℚ) : WEval :=
  let s := s.removeOldest
  let e := { s.base with nSamples := s.base.nSamples + 1 }
  let e := if w > 0 then
      { e with cm := e.cm.setItem t p w, totalWeight := e.totalWeight + w } else e
  let maj := decide (e.majorityClass = t)
  let e := if maj then { e with wMajority := e.wMajority + w } else e
  let nc := decide (e.lastTrue = t)
  let e := if nc then { e with wNoChange := e.wNoChange + w } else e
  let e := { e with lastTrue := t, lastPred := p }
  { s with base := e, queue := s.queue ++ [⟨t, p, w, maj, nc⟩] }

end WEval

end Verif.Metrics
