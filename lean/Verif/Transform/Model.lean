import Verif.Buffers.Props
import Verif.Stats
import Mathlib.Data.List.FinRange

/-!
Model of `transform/missing_values_cleaner.py`, `transform/windowed_minmax_scaler.py`,
`transform/windowed_standard_scaler.py`, `transform/one_hot_to_categorical.py`.

A matrix is a list of rows, a row with `c` columns a function on `Fin c`.
The windows are the `FastBuffer` of the buffer model.
-/

namespace Verif.Transform

open Verif.Buffers

/-! ### MissingValuesCleaner -/

/-- A cell: a number or NaN. -/
abbrev Cell := Option ℚ

/-- `strategy`; `mean`, `median` and `mode` are given by their NaN-ignoring
column statistic, any function here. -/
inductive Strategy where
  | zero
  | windowed (stat : List Cell → Cell)
  | custom

/-- `np.nanmean`: NaN when there is no number. -/
def nanmean (col : List Cell) : Cell :=
  match col.filterMap id with
  | [] => none
  | l => some (mean l)

variable {c : Nat}

/-- `X[i][j] in self.missing_value or np.isnan(X[i][j])`, line 105. -/
def missing (markers : List ℚ) (v : Cell) : Bool :=
  match v with
  | none => true
  | some q => markers.contains q

/-- `_get_substitute(column_index)`, lines 110-145. -/
def substitute (s : Strategy) (newValue : Cell) (w : FastBuffer (Fin c → Cell)) (j : Fin c) : Cell :=
  match s with
  | .zero => some 0
  | .windowed stat => if !w.isEmpty then stat (w.getQueue.map fun r => r j) else newValue
  | .custom => newValue

/-- The window holds a view of the row being cleaned (line 103 stores `X[i][:]`),
so writing a cell of the row changes the newest row of the window. -/
def setNewest (w : FastBuffer (Fin c → Cell)) (row : Fin c → Cell) : FastBuffer (Fin c → Cell) :=
  { w with buffer := w.buffer.dropLast ++ [row] }

/-- One row of `transform`, lines 102-106.  Without a windowed strategy there is no
window; the window argument is then unused and left alone. -/
def cleanRow (s : Strategy) (markers : List ℚ) (newValue : Cell) (w : FastBuffer (Fin c → Cell))
    (row : Fin c → Cell) : FastBuffer (Fin c → Cell) × (Fin c → Cell) :=
  let w := match s with
    | .windowed _ => (w.addElement [row]).2
    | _ => w
  (List.finRange c).foldl (fun (st : FastBuffer (Fin c → Cell) × (Fin c → Cell)) j =>
    if missing markers (st.2 j) then
      let row' := Function.update st.2 j (substitute s newValue st.1 j)
      (match s with
        | .windowed _ => setNewest st.1 row'
        | _ => st.1, row')
    else st) (w, row)

/-- `transform`, lines 89-108. -/
def clean (s : Strategy) (markers : List ℚ) (newValue : Cell) :
    FastBuffer (Fin c → Cell) → List (Fin c → Cell) →
    FastBuffer (Fin c → Cell) × List (Fin c → Cell)
  | w, [] => (w, [])
  | w, row :: rows =>
    let (w', out) := cleanRow s markers newValue w row
    let (w'', outs) := clean s markers newValue w' rows
    (w'', out :: outs)

/-! ### WindowedMinmaxScaler -/

/-- `_get_min`, lines 57-61: 0 for an empty window. -/
def getMin (w : FastBuffer (Fin c → ℚ)) (j : Fin c) : ℚ :=
  if !w.isEmpty then ((w.getQueue.map fun r => r j).min?).getD 0 else 0

/-- `_get_max`, lines 63-67: 1 for an empty window. -/
def getMax (w : FastBuffer (Fin c → ℚ)) (j : Fin c) : ℚ :=
  if !w.isEmpty then ((w.getQueue.map fun r => r j).max?).getD 0 else 1

/-- One cell, lines 45-53. -/
def minmaxCell (mn mx value : ℚ) : ℚ :=
  if mx - mn = 0 then 0
  else
    let std := (value - mn) / (mx - mn)
    std * (mx - mn) + mn

/-- `transform`, lines 32-55: the window gets a copy of the untransformed row. -/
def minmax : FastBuffer (Fin c → ℚ) → List (Fin c → ℚ) → FastBuffer (Fin c → ℚ) × List (Fin c → ℚ)
  | w, [] => (w, [])
  | w, row :: rows =>
    let out := fun j => minmaxCell (getMin w j) (getMax w j) (row j)
    let (w', outs) := minmax (w.addElement [row]).2 rows
    (w', out :: outs)

/-! ### WindowedStandardScaler -/

/-- `_get_mean`, lines 51-55. -/
def getMean (w : FastBuffer (Fin c → ℚ)) (j : Fin c) : ℚ :=
  if !w.isEmpty then Verif.mean (w.getQueue.map fun r => r j) else 0

/-- `_get_std`, lines 57-63; `std` is `np.nanstd`. -/
def getStd (std : List ℚ → ℚ) (w : FastBuffer (Fin c → ℚ)) (j : Fin c) : ℚ :=
  let s := if !w.isEmpty then std (w.getQueue.map fun r => r j) else 1
  if s = 0 then 1 else s

/-- `transform`, lines 30-49. -/
def standard (std : List ℚ → ℚ) :
    FastBuffer (Fin c → ℚ) → List (Fin c → ℚ) → FastBuffer (Fin c → ℚ) × List (Fin c → ℚ)
  | w, [] => (w, [])
  | w, row :: rows =>
    let out := fun j => (row j - getMean w j) / getStd std w j
    let (w', outs) := standard std (w.addElement [row]).2 rows
    (w', out :: outs)

/-! ### OneHotToCategorical -/

/-- The inner loop, lines 61-67: reads `len` cells from position `i` on and
counts the cells before the first 1. -/
def countBefore (x : List ℚ) (i : Nat) : Nat → Nat → Bool → Nat → Except PyErr Nat
  | 0, _, _, acc => .ok acc
  | n + 1, j, found, acc =>
    match x[i + j]? with
    | none => .error .indexError
    | some v =>
      let found := found || v == 1
      countBefore x i n (j + 1) found (if found then acc else acc + 1)

/-- The `while` loop of `_transform`, lines 56-77; `li` is `list_index`.
`none`: out of fuel (an empty category list would loop). -/
def oneHotLoop (cats : List (List Nat)) (x : List ℚ) :
    Nat → Nat → Nat → List ℚ → Option (Except PyErr (List ℚ))
  | 0, _, _, _ => none
  | fuel + 1, i, li, out =>
    match x[i]? with
    | none => some (.ok out)
    | some v =>
      match cats[li]? with
      | none => some (.error .indexError)
      | some cat =>
        if cat.contains i then
          match countBefore x i cat.length 0 false 0 with
          | .error e => some (.error e)
          | .ok k => oneHotLoop cats x fuel (i + cat.length) (li + 1) (out ++ [(k : ℚ)])
        else oneHotLoop cats x fuel (i + 1) li (out ++ [v])

/-- `_transform` of one row. -/
def oneHot (cats : List (List Nat)) (x : List ℚ) (fuel : Nat) : Option (Except PyErr (List ℚ)) :=
  oneHotLoop cats x fuel 0 0 []

end Verif.Transform
