import Verif.Common
import Mathlib.Algebra.BigOperators.Group.Finset.Basic
import Mathlib.Tactic.Positivity

/-!
Model of `MultiLabelConfusionMatrix` (`metrics/_confusion_matrix.pyx:112-154`) and the
multi-label evaluators (`metrics/_classification_performance_evaluator.pyx:581-921`).

Label vectors are lists of Booleans (the code accepts only 0/1 entries and
skips samples containing NaN, lines 917-919, which are not modelled).
-/

namespace Verif.MultiLabel

/-- `MultiLabelConfusionMatrix` state, lines 112-120: number of labels and the
`(n_labels, 2, 2)` array (zero beyond the allocated labels). -/
structure MLCM where
  nLabels : Nat
  data : Nat → Bool → Bool → ℚ

/-- `MultiLabelConfusionMatrix()` as called by the evaluator (line 605): always
the default of two labels. -/
def MLCM.init : MLCM := ⟨2, fun _ _ _ => 0⟩

/-- `__setitem__`, lines 122-143 with `_reshape` lines 150-154. -/
def MLCM.setItem (m : MLCM) (l : Nat) (t p : Bool) (w : ℚ) : MLCM :=
  { nLabels := max m.nLabels (l + 1)
    data := fun i a b => if i = l ∧ a = t ∧ b = p then m.data i a b + w else m.data i a b }

/-- The loop `for i in range(len(y_true)): cm[(i, y_true[i], y_pred[i])] = w`,
lines 638-639, 834-835 and 843-844, starting from index `i`. -/
def MLCM.setRow (w : ℚ) : MLCM → Nat → List (Bool × Bool) → MLCM
  | m, _, [] => m
  | m, i, (t, p) :: rest => MLCM.setRow w (m.setItem i t p w) (i + 1) rest

/-- `MultiLabelClassificationPerformanceEvaluator`, lines 600-610. -/
structure MLEval where
  cm : MLCM
  nSamples : Nat
  exactMatch : Int
  jaccardSum : ℚ

def MLEval.init : MLEval := ⟨MLCM.init, 0, 0, 0⟩

/-- `is_equal` after the loop, lines 629, 640-641. -/
def isEqual (y : List (Bool × Bool)) : Int := if y.all (fun q => q.1 == q.2) then 1 else 0

/-- The increment of `jaccard_sum`, lines 647-651: `inter / union`, or nothing. -/
def jaccardInc (y : List (Bool × Bool)) : ℚ :=
  let inter : ℚ := y.countP (fun q => q.1 && q.2)
  let union : ℚ := y.countP (fun q => q.1 || q.2)
  if union > 0 then inter / union else 0

/-- `add_result`, lines 614-655; vectors of different lengths are rejected by
`_check_multi_label_inputs` (lines 913-915) without any effect. -/
def MLEval.addResult (e : MLEval) (yt yp : List Bool) (w : ℚ) : MLEval :=
  if yt.length ≠ yp.length then e
  else
    let y := yt.zip yp
    { cm := MLCM.setRow w e.cm 0 y
      nSamples := e.nSamples + 1
      exactMatch := e.exactMatch + isEqual y
      jaccardSum := e.jaccardSum + jaccardInc y }

/-- `hamming_score`, lines 657-672.  The division of a numpy float by 0 yields
NaN (no `ZeroDivisionError`): `none`. -/
def MLEval.hammingScore (e : MLEval) : Option ℚ :=
  if e.nSamples * e.cm.nLabels = 0 then none
  else some ((∑ l ∈ Finset.range e.cm.nLabels, e.cm.data l true true)
    / (e.nSamples * e.cm.nLabels : Nat))

/-- `exact_match_score`, lines 687-703. -/
def MLEval.exactMatchScore (e : MLEval) : ℚ :=
  if e.nSamples = 0 then 0 else e.exactMatch / e.nSamples

/-- `jaccard_score`, lines 705-728. -/
def MLEval.jaccardScore (e : MLEval) : ℚ :=
  if e.nSamples = 0 then 0 else e.jaccardSum / e.nSamples

/-- Queue entry of the windowed evaluator, lines 868-872. -/
structure MLEntry where
  y : List (Bool × Bool)
  w : ℚ
  eq : Int
  jac : ℚ

/-- `WindowMultiLabelClassificationPerformanceEvaluator`, lines 784-787. -/
structure WMLEval where
  base : MLEval
  windowSize : Nat
  queue : List MLEntry

def WMLEval.init (w : Nat) : WMLEval := ⟨MLEval.init, w, []⟩

/-- Lines 825-841: removal of the oldest result when the window is full.  (The
real `popleft` raises for `window_size = 0`; not covered.) -/
def WMLEval.removeOldest (s : WMLEval) : WMLEval :=
  if s.queue.length = s.windowSize then
    match s.queue with
    | [] => s
    | q :: rest =>
      { s with
        queue := rest
        base := { cm := MLCM.setRow (-q.w) s.base.cm 0 q.y
                  nSamples := s.base.nSamples - 1
                  exactMatch := s.base.exactMatch - q.eq
                  jaccardSum := s.base.jaccardSum - q.jac } }
  else s

/-- `add_result`, lines 791-872. -/
def WMLEval.addResult (s : WMLEval) (yt yp : List Bool) (w : ℚ) : WMLEval :=
  if yt.length ≠ yp.length then s
  else
    let s := s.removeOldest
    let y := yt.zip yp
    { s with
      base := { cm := MLCM.setRow w s.base.cm 0 y
                nSamples := s.base.nSamples + 1
                exactMatch := s.base.exactMatch + isEqual y
                jaccardSum := s.base.jaccardSum + jaccardInc y }
      queue := s.queue ++ [⟨y, w, isEqual y, jaccardInc y⟩] }

end Verif.MultiLabel
