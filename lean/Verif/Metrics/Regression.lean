import Verif.Buffers.Model
import Mathlib.Data.Fintype.BigOperators
import Mathlib.Algebra.BigOperators.Fin

/-!
Model of the regression evaluators in `src/skmultiflow/metrics/measure_collection.py`.
-/

namespace Verif.Regression
open Buffers

/-- `RegressionMeasurements` state, lines 1076-1082. -/
structure RegEval where
  totalSquareError : ℚ
  averageError : ℚ
  sampleCount : Nat
  last : Option (ℚ × ℚ)

namespace RegEval

/-- `__init__` and `reset`, lines 1076-1089. -/
def init : RegEval := ⟨0, 0, 0, none⟩

/-- `add_result`, lines 1091-1108. -/
def addResult (e : RegEval) (t p : ℚ) : RegEval :=
  { totalSquareError := e.totalSquareError + (t - p) * (t - p)
    averageError := e.averageError + |t - p|
    sampleCount := e.sampleCount + 1
    last := some (t, p) }

/-- `get_mean_square_error`, lines 1110-1122. -/
def meanSquareError (e : RegEval) : ℚ :=
  if e.sampleCount = 0 then 0 else e.totalSquareError / e.sampleCount

/-- `get_average_error`, lines 1124-1136. -/
def meanAbsoluteError (e : RegEval) : ℚ :=
  if e.sampleCount = 0 then 0 else e.averageError / e.sampleCount

end RegEval

/-- `x += old[0]` where `old` is what `FastBuffer.add_element` returned for a
one-element list: no change for `None`, `TypeError` when the entry is `None`
(only possible with a buffer of capacity 0), lines 1199-1201 / 1426-1428. -/
def applyOld {M : Type} [Add M] (x : M) : Option (List (Option M)) → Except PyErr M
  | none => .ok x
  | some (some v :: _) => .ok (x + v)
  | some (none :: _) => .error .typeError
  | some [] => .error .indexError

/-- `WindowRegressionMeasurements` state, lines 1159-1167. -/
structure WRegEval where
  totalSquareError : ℚ
  averageError : ℚ
  last : Option (ℚ × ℚ)
  sqCorr : FastBuffer ℚ
  avgCorr : FastBuffer ℚ
  windowSize : Nat

namespace WRegEval

/-- `__init__`, lines 1159-1167. -/
def init (w : Nat) : WRegEval := ⟨0, 0, none, FastBuffer.init w, FastBuffer.init w, w⟩

/-- `reset`, lines 1169-1175. -/
def reset (e : WRegEval) : WRegEval := init e.windowSize

/-- `add_result`, lines 1177-1201. -/
def addResult (e : WRegEval) (t p : ℚ) : Except PyErr WRegEval := do
  let sq := e.totalSquareError + (t - p) * (t - p)
  let av := e.averageError + |t - p|
  let (oldSq, b1) := e.sqCorr.addElement [-1 * ((t - p) * (t - p))]
  let (oldAv, b2) := e.avgCorr.addElement [-1 * |t - p|]
  if oldSq.isSome && oldAv.isSome then
    let sq ← applyOld sq oldSq
    let av ← applyOld av oldAv
    return ⟨sq, av, some (t, p), b1, b2, e.windowSize⟩
  else
    return ⟨sq, av, some (t, p), b1, b2, e.windowSize⟩

/-- property `sample_count`, lines 1234-1236. -/
def sampleCount (e : WRegEval) : Nat := e.sqCorr.getCurrentSize

/-- `get_mean_square_error`, lines 1203-1215. -/
def meanSquareError (e : WRegEval) : ℚ :=
  if e.sampleCount = 0 then 0 else e.totalSquareError / e.sampleCount

/-- `get_average_error`, lines 1217-1229. -/
def meanAbsoluteError (e : WRegEval) : ℚ :=
  if e.sampleCount = 0 then 0 else e.averageError / e.sampleCount

end WRegEval

/-- A vector of `d` target values.  Simplification: the number of targets `d`
is fixed for the life of an evaluator (numpy would raise or broadcast when it
changes), so `n_targets` (1291-1296, 1409-1414) is `d` once a result was added. -/
abbrev Vec (d : Nat) := Fin d → ℚ

/-- `MultiTargetRegressionMeasurements` state, lines 1255-1262. -/
structure MTEval (d : Nat) where
  totalSquareError : Vec d
  averageError : Vec d
  sampleCount : Nat

namespace MTEval
variable {d : Nat}

/-- `__init__` and `reset`, lines 1255-1270. -/
def init : MTEval d := ⟨0, 0, 0⟩

/-- `add_result`, lines 1272-1300 (entrywise numpy arithmetic). -/
def addResult (e : MTEval d) (y p : Vec d) : MTEval d :=
  { totalSquareError := fun j => e.totalSquareError j + (y j - p j) * (y j - p j)
    averageError := fun j => e.averageError j + |y j - p j|
    sampleCount := e.sampleCount + 1 }

/-- `get_average_mean_square_error`, lines 1302-1313. -/
def averageMSE (e : MTEval d) : ℚ :=
  if e.sampleCount = 0 then 0 else (∑ j, e.totalSquareError j / e.sampleCount) / d

/-- `get_average_absolute_error`, lines 1315-1327. -/
def averageMAE (e : MTEval d) : ℚ :=
  if e.sampleCount = 0 then 0 else (∑ j, e.averageError j / e.sampleCount) / d

/-- `get_average_root_mean_square_error`, lines 1329-1343; `sqrt` is a
parameter, and entries with a negative argument stay 0. -/
def averageRMSE (sqrt : ℚ → ℚ) (e : MTEval d) : ℚ :=
  if e.sampleCount = 0 then 0
  else (∑ j, (let mse := e.totalSquareError j / e.sampleCount
              if mse ≥ 0 then sqrt mse else 0)) / d

end MTEval

/-- `WindowMultiTargetRegressionMeasurements` state, lines 1371-1380. -/
structure WMTEval (d : Nat) where
  totalSquareError : Vec d
  averageError : Vec d
  sqCorr : FastBuffer (Vec d)
  avgCorr : FastBuffer (Vec d)
  windowSize : Nat

namespace WMTEval
variable {d : Nat}

/-- `__init__`, lines 1371-1380. -/
def init (w : Nat) : WMTEval d := ⟨0, 0, FastBuffer.init w, FastBuffer.init w, w⟩

/-- `add_result`, lines 1390-1428. -/
def addResult (e : WMTEval d) (y p : Vec d) : Except PyErr (WMTEval d) := do
  let sq : Vec d := fun j => e.totalSquareError j + (y j - p j) * (y j - p j)
  let av : Vec d := fun j => e.averageError j + |y j - p j|
  let (oldSq, b1) := e.sqCorr.addElement [fun j => -1 * (y j - p j) * (y j - p j)]
  let (oldAv, b2) := e.avgCorr.addElement [fun j => -1 * |y j - p j|]
  if oldSq.isSome && oldAv.isSome then
    let sq ← applyOld sq oldSq
    let av ← applyOld av oldAv
    return ⟨sq, av, b1, b2, e.windowSize⟩
  else
    return ⟨sq, av, b1, b2, e.windowSize⟩

/-- property `_sample_count`, lines 1477-1479. -/
def sampleCount (e : WMTEval d) : Nat := e.sqCorr.getCurrentSize

/-- `get_average_mean_square_error`, lines 1430-1442. -/
def averageMSE (e : WMTEval d) : ℚ :=
  if e.sampleCount = 0 then 0 else (∑ j, e.totalSquareError j / e.sampleCount) / d

/-- `get_average_absolute_error`, lines 1444-1456. -/
def averageMAE (e : WMTEval d) : ℚ :=
  if e.sampleCount = 0 then 0 else (∑ j, e.averageError j / e.sampleCount) / d

/-- `get_average_root_mean_square_error`, lines 1458-1472. -/
def averageRMSE (sqrt : ℚ → ℚ) (e : WMTEval d) : ℚ :=
  if e.sampleCount = 0 then 0
  else (∑ j, (let mse := e.totalSquareError j / e.sampleCount
              if mse ≥ 0 then sqrt mse else 0)) / d

end WMTEval

end Verif.Regression
