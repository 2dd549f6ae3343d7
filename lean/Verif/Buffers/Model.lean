import Verif.Common

/-!
Model of the bounded buffers in `src/skmultiflow/utils/data_structures.py`.
-/

namespace Verif.Buffers

/-- `FastBuffer` instance state, `utils/data_structures.py:54-61`.
`current_size` is kept as a separate field, as in the code. -/
structure FastBuffer (α : Type) where
  maxSize : Nat
  currentSize : Nat
  buffer : List α

namespace FastBuffer
variable {α : Type}

/-- `FastBuffer.__init__` with `object_list=None`, lines 54-66. -/
def init (maxSize : Nat) : FastBuffer α := ⟨maxSize, 0, []⟩

/-- `is_full`, lines 133-134. -/
def isFull (b : FastBuffer α) : Bool := b.currentSize == b.maxSize

/-- `is_empty`, lines 136-137. -/
def isEmpty (b : FastBuffer α) : Bool := b.currentSize == 0

/-- `get_next_element`, lines 104-119.  `None` is `none`. -/
def getNextElement (b : FastBuffer α) : Option α × FastBuffer α :=
  match b.buffer with
  | [] => (none, b)
  | x :: xs => (some x, { b with buffer := xs, currentSize := b.currentSize - 1 })

/-- One iteration of the `for element in element_list` loop of `add_element`,
lines 97-101, on the accumulated `aux` and the buffer. -/
def addOne (s : List (Option α) × FastBuffer α) (element : α) :
    List (Option α) × FastBuffer α :=
  let (aux, b) := s
  let (aux, b) :=
    if b.isFull then
      let (r, b') := b.getNextElement
      (aux ++ [r], b')
    else (aux, b)
  (aux, { b with buffer := b.buffer ++ [element], currentSize := b.currentSize + 1 })

/-- `add_element`, lines 68-102.  The result is `None` or the list `aux`, whose
entries are results of `get_next_element` (so each could be `None`). -/
def addElement (b : FastBuffer α) (elements : List α) :
    Option (List (Option α)) × FastBuffer α :=
  if b.currentSize + elements.length ≤ b.maxSize then
    (none, { b with buffer := b.buffer ++ elements,
                    currentSize := b.currentSize + elements.length })
  else
    let (aux, b') := elements.foldl addOne ([], b)
    (some aux, b')

/-- `clear_queue` / `_clear_all`, lines 121-128. -/
def clearQueue (b : FastBuffer α) : FastBuffer α :=
  { b with buffer := [], currentSize := 0 }

/-- `peek`, lines 142-156. -/
def peek (b : FastBuffer α) : Option α := b.buffer.head?

/-- `get_queue`, lines 158-159. -/
def getQueue (b : FastBuffer α) : List α := b.buffer

/-- `get_current_size`, lines 139-140. -/
def getCurrentSize (b : FastBuffer α) : Nat := b.currentSize

end FastBuffer

/-- The public calls on a buffer, and the observations they return. -/
inductive BufOp (α : Type) where
  | add (xs : List α)
  | next
  | clear
  | peek
  | queue
  | size
  | full
  | empty

inductive BufObs (α : Type) where
  | added (evicted : Option (List (Option α)))
  | got (x : Option α)
  | cleared
  | elements (xs : List α)
  | nat (n : Nat)
  | flag (b : Bool)

/-- One public call on the modelled buffer. -/
def FastBuffer.call {α : Type} (b : FastBuffer α) : BufOp α → BufObs α × FastBuffer α
  | .add xs => let (r, b') := b.addElement xs; (.added r, b')
  | .next => let (r, b') := b.getNextElement; (.got r, b')
  | .clear => (.cleared, b.clearQueue)
  | .peek => (.got b.peek, b)
  | .queue => (.elements b.getQueue, b)
  | .size => (.nat b.getCurrentSize, b)
  | .full => (.flag b.isFull, b)
  | .empty => (.flag b.isEmpty, b)

/-- A sequence of calls, with the observations in order. -/
def FastBuffer.calls {α : Type} : FastBuffer α → List (BufOp α) → List (BufObs α)
  | _, [] => []
  | b, op :: ops => let (o, b') := b.call op; o :: FastBuffer.calls b' ops

/-- A two-dimensional array: its number of columns and its rows.  (A numpy
matrix knows its column count even when it has no rows.) -/
structure Mat (ι : Type) where
  cols : Nat
  rows : List (List ι)

/-- The initialised part of a `SlidingWindow`: `_n_features`, `_n_targets`,
`_X_queue`, `_y_queue`, `utils/data_structures.py:915-918`. -/
structure Win (ι : Type) where
  nFeatures : Nat
  nTargets : Nat
  X : List (List ι)
  Y : List (List ι)

/-- `SlidingWindow` state, lines 905-913.  `win = none` when
`_is_initialized` is `False`. -/
structure SlidingWindow (ι : Type) where
  windowSize : Nat
  win : Option (Win ι)

namespace SlidingWindow
variable {ι : Type}

/-- `SlidingWindow.__init__`, lines 905-913. -/
def init (w : Nat) : SlidingWindow ι := ⟨w, none⟩

/-- `size`, lines 996-999. -/
def size (s : SlidingWindow ι) : Nat :=
  match s.win with
  | none => 0
  | some q => q.X.length

/-- Lines 948-951: `np.delete(queue, 0, axis=0)` on both queues when the window
is full; `np.delete` raises `IndexError` on an array without rows, and the two
assignments happen one after the other. -/
def evict (w : Nat) (q : Win ι) : Option PyErr × Win ι :=
  if q.X.length = w then
    match q.X with
    | [] => (some .indexError, q)
    | _ :: X' =>
      match q.Y with
      | [] => (some .indexError, { q with X := X' })
      | _ :: Y' => (none, { q with X := X', Y := Y' })
  else (none, q)

/-- Lines 953-954: `np.vstack` of both queues.  `np.vstack` raises `ValueError`
when the numbers of columns differ; the features queue has been reassigned by
the time the targets are stacked. -/
def stack (q : Win ι) (X Y : Mat ι) : Option PyErr × Win ι :=
  let q1 := { q with X := q.X ++ X.rows }
  if Y.cols ≠ q.nTargets then (some .valueError, q1)
  else (none, { q1 with Y := q1.Y ++ Y.rows })

/-- `add_sample`, lines 920-954.  Result: the exception raised (if any) and the
state left behind. -/
def addSample (s : SlidingWindow ι) (X Y : Mat ι) : Option PyErr × SlidingWindow ι :=
  let q : Win ι := match s.win with
    | none => ⟨X.cols, Y.cols, [], []⟩
    | some q => q
  if q.nFeatures ≠ X.cols then (some .valueError, { s with win := some q })
  else
    match evict s.windowSize q with
    | (some e, q1) => (some e, { s with win := some q1 })
    | (none, q1) =>
      let (e, q2) := stack q1 X Y
      (e, { s with win := some q2 })

/-- `delete_oldest_sample`, lines 956-960 (slicing never raises). -/
def deleteOldest (s : SlidingWindow ι) : SlidingWindow ι :=
  match s.win with
  | none => s
  | some q =>
    if q.X.length > 0 then { s with win := some { q with X := q.X.drop 1, Y := q.Y.drop 1 } }
    else s

/-- `reset`, lines 962-968. -/
def reset (s : SlidingWindow ι) : SlidingWindow ι := { s with win := none }

/-- `features_buffer`, lines 970-976 (`None` before the first sample). -/
def featuresBuffer (s : SlidingWindow ι) : Option (List (List ι)) := s.win.map (·.X)

/-- `targets_buffer`, lines 978-984. -/
def targetsBuffer (s : SlidingWindow ι) : Option (List (List ι)) := s.win.map (·.Y)

end SlidingWindow

/-- Public mutating calls on a sliding window. -/
inductive WinOp (ι : Type) where
  | add (X Y : Mat ι)
  | deleteOldest
  | reset

/-- One call: exception (if any) and new state. -/
def SlidingWindow.call {ι : Type} (s : SlidingWindow ι) : WinOp ι → Option PyErr × SlidingWindow ι
  | .add X Y => s.addSample X Y
  | .deleteOldest => (none, s.deleteOldest)
  | .reset => (none, s.reset)

/-- The exceptions of a sequence of calls (each caught by the caller), and the
final state. -/
def SlidingWindow.calls {ι : Type} :
    SlidingWindow ι → List (WinOp ι) → List (Option PyErr) × SlidingWindow ι
  | s, [] => ([], s)
  | s, op :: ops =>
    let (e, s') := s.call op
    let (es, s'') := SlidingWindow.calls s' ops
    (e :: es, s'')

end Verif.Buffers
