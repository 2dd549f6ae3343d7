import Verif.Common

/-!
Model of `data/data_stream.py` (DataStream), `data/file_stream.py` (FileStream)
and the reordering and slicing of `data/temporal_data_stream.py`.

Simplification: reading the CSV file is not modelled; the stream starts from the table this
produces. (The consistency checks and attributes are in `Verif.Streams.Loading`.)
-/

namespace Verif.Streams

/-- State of a DataStream/FileStream after loading: feature rows, target rows
(`y` keeps one row per sample), and the cursor; `data_stream.py` 267-272 and
336, `file_stream.py` 188-201 and 231. -/
structure DataStream (α β : Type) where
  X : List (List α)
  y : List (List β)
  nTargets : Nat
  sampleIdx : Nat

variable {α β : Type}

/-- `a[i:j]` for `0 ≤ i ≤ j`. -/
def slice (l : List α) (i j : Nat) : List α := (l.take j).drop i

/-- The second component of `next_sample`: rows of targets, or their flattening
when there are fewer than two targets. -/
inductive Target (β : Type) where
  | rows (l : List (List β))
  | flat (l : List β)

/-- `next_sample`, `data_stream.py` 340-369, `file_stream.py` 235-264. (A slice
never raises `IndexError`, so the `except` branch is unreachable.) -/
def nextSample (s : DataStream α β) (batch : Nat) :
    (List (List α) × Target β) × DataStream α β :=
  let idx := s.sampleIdx + batch
  let x := slice s.X (idx - batch) idx
  let y := slice s.y (idx - batch) idx
  ((x, if s.nTargets < 2 then .flat y.flatten else .rows y), { s with sampleIdx := idx })

/-- `restart`, `data_stream.py` 329-338, `file_stream.py` 224-233. -/
def restart (s : DataStream α β) : DataStream α β := { s with sampleIdx := 0 }

/-- `n_samples`, `data_stream.py` 267 and 296: the number of feature rows. -/
def nSamples (s : DataStream α β) : Nat := s.X.length

/-- `has_more_samples`, `data_stream.py` 371-380, `file_stream.py` 266-275. -/
def hasMoreSamples (s : DataStream α β) : Bool := decide ((nSamples s : Int) - s.sampleIdx > 0)

/-- `n_remaining_samples`, `data_stream.py` 382-391, `file_stream.py` 277-286. -/
def nRemaining (s : DataStream α β) : Int := (nSamples s : Int) - s.sampleIdx

/-! ### Splitting the columns into features and targets -/

/-- Clipping of a Python slice bound against a sequence of length `n`. -/
def clip (n : Nat) (i : Int) : Nat := if i < 0 then (i + n).toNat else min i.toNat n

/-- `l[i:j]` with Python's conventions. -/
def pySlice {γ : Type} (l : List γ) (i j : Int) : List γ :=
  (l.take (clip l.length j)).drop (clip l.length i)

/-- `l[i:]` with Python's conventions. -/
def pySliceFrom {γ : Type} (l : List γ) (i : Int) : List γ := l.drop (clip l.length i)

/-- Columns taken as targets, `data_stream.py` 299-306, `file_stream.py` 191-199;
`cols` is any list with one entry per column. -/
def targetCols {γ : Type} (targetIdx : Int) (nTargets : Nat) (cols : List γ) : List γ :=
  if targetIdx + nTargets = cols.length ∨ targetIdx + nTargets = 0 then
    pySliceFrom cols targetIdx
  else pySlice cols targetIdx (targetIdx + nTargets)

/-- `data.drop(target_names, axis=1)`, `data_stream.py` 308, `file_stream.py`
201: the entries of the columns whose name is not a target name. -/
def featureCols {γ ν : Type} [DecidableEq ν] (targetIdx : Int) (nTargets : Nat) (names : List ν)
    (cols : List γ) : List γ :=
  ((names.zip cols).filter fun p => p.1 ∉ targetCols targetIdx nTargets names).map Prod.snd

/-- `FileStream.__init__`, lines 88-89: the target index used. -/
def fileTargetIdx (targetIdx : Int) (nTargets : Nat) : Int :=
  if nTargets > 1 ∧ targetIdx = -1 then -nTargets else targetIdx

/-! ### Temporal streams -/

/-- `a[p]` for an index array `p`. -/
def gather {γ : Type} (l : List γ) (p : List Nat) : List γ := p.filterMap fun i => l[i]?

/-- `TemporalDataStream.__init__`, lines 132-146, for `ordered=False` with a
time column and per-sample delays; `perm` is the result of `np.argsort(time)`,
`sorted` that of `self.time.sort()`. -/
def reorder {ξ υ ω τ : Type} (perm : List Nat) (sorted : List τ → List τ) (X : List ξ)
    (y : List υ) (w : List ω) (time delay : List τ) :
    List ξ × List υ × List ω × List τ × List τ :=
  (gather X perm, gather y perm, gather w perm, sorted time, gather delay perm)

end Verif.Streams
