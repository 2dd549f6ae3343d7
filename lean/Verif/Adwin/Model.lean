import Verif.Common

/-!
Model of `src/skmultiflow/drift_detection/adwin.py` (ADWIN).

Simplifications.  The doubly linked list of rows (`List`, `Item`, lines
376-528) is a Lean list of rows, row 0 (`first`) at the head.  A row's two
arrays of `MAX_BUCKETS + 1 = 6` slots with `bucket_size_row` used slots are the
list of the used slots, index 0 first; writing to slot 6 is an `IndexError`.
A numpy division by zero (which yields NaN and a warning) is the error
`zeroDivision`.  The bookkeeping fields `detect`, `detect_twice`, `mdbl_width`
and `bucket_num_max` do not influence anything and are omitted; `v0` and `v1`
(322-327) are computed but never used by the cut expression and are omitted.
-/

namespace Verif.Adwin

/-- One bucket: `bucket_total[k]`, `bucket_variance[k]`, lines 464-465. -/
structure Bucket where
  total : ℚ
  var : ℚ

/-- `MAX_BUCKETS`, line 55. -/
abbrev maxBuckets : Nat := 5

/-- ADWIN state, lines 57-85 and 154-165. -/
structure State where
  rows : List (List Bucket)
  lastBucketRow : Nat
  total : ℚ
  variance : ℚ
  width : Nat
  bucketNumber : Nat
  time : Nat
  clock : Nat
  nDetections : Nat
  change : Bool

/-- `__init__`, lines 57-85, and `reset`, 87-98 (which calls `__init__`). -/
def init : State := ⟨[[]], 0, 0, 0, 0, 0, 0, 32, 0, false⟩

/-- `bucket_size`, lines 210-212. -/
abbrev bucketSize (row : Nat) : Nat := 2 ^ row

/-- `Item.insert_bucket`, lines 487-491. -/
def insertBucket (row : List Bucket) (b : Bucket) : Except PyErr (List Bucket) :=
  if row.length < maxBuckets + 1 then .ok (row ++ [b]) else .error .indexError

/-- Lines 254-261: the bucket obtained by merging buckets 0 and 1 of row `i`.
(The variance of bucket 0 is not used.) -/
def merge (i : Nat) (b0 b1 : Bucket) : Bucket :=
  let n1 : ℚ := bucketSize i
  let n2 : ℚ := bucketSize i
  let u1 := b0.total / n1
  let u2 := b1.total / n2
  ⟨b0.total + b1.total, b1.var + n1 * n2 * ((u1 - u2) * (u1 - u2)) / (n1 + n2)⟩

/-- `__compress_buckets`, lines 243-271, from row `i` on.  Result: the rows, the
number of rows added at the tail and the number of merges. -/
def compressFrom (i : Nat) (rows : List (List Bucket)) :
    Except PyErr (List (List Bucket) × Nat × Nat) :=
  match rows with
  | [] => .ok ([], 0, 0)
  | row :: rest =>
    if row.length = maxBuckets + 1 then
      match row with
      | b0 :: b1 :: row' =>
        match rest with
        | [] => do
          let next ← insertBucket [] (merge i b0 b1)
          return ([row', next], 1, 1)
        | next :: rest' => do
          let next' ← insertBucket next (merge i b0 b1)
          if next'.length ≤ maxBuckets then return (row' :: next' :: rest', 0, 1)
          else
            let (rs, a, m) ← compressFrom (i + 1) (next' :: rest')
            return (row' :: rs, a, m + 1)
      | _ => .error .indexError
    else .ok (row :: rest, 0, 0)
termination_by rows.length

/-- `add_element`, lines 167-201. -/
def addElement (s : State) (v : ℚ) : Except PyErr State :=
  match s.rows with
  | [] => .error .attributeError
  | first :: rest => do
    let w := s.width + 1
    let first' ← insertBucket first ⟨v, 0⟩
    let inc : ℚ := if w > 1 then
      ((w : ℚ) - 1) * (v - s.total / ((w : ℚ) - 1)) * (v - s.total / ((w : ℚ) - 1)) / w else 0
    let (rows, a, m) ← compressFrom 0 (first' :: rest)
    return { s with
      rows := rows
      lastBucketRow := s.lastBucketRow + a
      total := s.total + v
      variance := s.variance + inc
      width := w
      bucketNumber := s.bucketNumber + 1 + m }

/-- `delete_element`, lines 214-241.  The last row is looked up as the last
element of `rows`; the size of its buckets comes from `last_bucket_row`. -/
def deleteElement (s : State) : Except PyErr State :=
  match s.rows.getLast? with
  | none => .error .attributeError
  | some [] => .error .indexError
  | some (b :: row') =>
    let n1 := bucketSize s.lastBucketRow
    if s.width ≤ n1 then .error .zeroDivision
    else
      let w : ℚ := (s.width : ℚ) - n1
      let t := s.total - b.total
      let u1 := b.total / n1
      let inc := b.var + n1 * w * (u1 - t / w) * (u1 - t / w) / (n1 + w)
      .ok { s with
        width := s.width - n1
        total := t
        variance := s.variance - inc
        bucketNumber := s.bucketNumber - 1
        rows := if row'.length = 0 then s.rows.dropLast else s.rows.dropLast ++ [row']
        lastBucketRow := if row'.length = 0 then s.lastBucketRow - 1 else s.lastBucketRow }

/-- The outcome of `__bln_cut_expression` (366-373): a function of the width,
the sizes `n0`, `n1` and sums `u0`, `u1` of the two parts, and the variance (the expression itself
is `realCut` in `Adwin/CutTest.lean`). -/
abbrev Cut := (width n0 n1 : Nat) → (u0 u1 variance : ℚ) → Bool

/-- The buckets visited by the scan, lines 313-317 and 358-359: from the last
row to row 0, each row without its last bucket (`range(bucket_size_row - 1)`),
with the row number. -/
def visited : Nat → List (List Bucket) → List (Nat × ℚ)
  | _, [] => []
  | i, row :: rest => visited (i + 1) rest ++ row.dropLast.map (fun b => (i, b.total))

/-- Lines 316-356: scan for a cut; `.ok true` when a cut was found. -/
def scan (cut : Cut) (width : Nat) (var : ℚ) :
    (n0 n1 : Nat) → (u0 u1 : ℚ) → List (Nat × ℚ) → Except PyErr Bool
  | _, _, _, _, [] => .ok false
  | n0, n1, u0, u1, (i, t) :: rest =>
    let n0' := n0 + bucketSize i
    let n1' := n1 - bucketSize i
    let u0' := u0 + t
    let u1' := u1 - t
    if n1 ≤ bucketSize i then .error .zeroDivision
    else if n1' ≥ 5 ∧ n0' ≥ 5 ∧ cut width n0' n1' u0' u1' var = true then .ok true
    else scan cut width var n0' n1' u0' u1' rest

/-- Lines 301-359: the `while bln_reduce_width` loop.  Result: whether a bucket
was dropped, and the state; `none` when the fuel is exhausted. -/
def reduce (cut : Cut) : Nat → Bool → State → Option (Except PyErr (Bool × State))
  | 0, _, _ => none
  | fuel + 1, chg, s =>
    match scan cut s.width (s.variance / s.width) 0 s.width 0 s.total (visited 0 s.rows) with
    | .error e => some (.error e)
    | .ok false => some (.ok (chg, s))
    | .ok true =>
      match deleteElement s with
      | .error e => some (.error e)
      | .ok s' => reduce cut fuel true s'

/-- `detected_change`, lines 273-364.  `fuel` bounds the number of iterations of
the outer loop; `none` means the loop needs more. -/
def detectedChange (cut : Cut) (fuel : Nat) (s : State) : Option (Except PyErr (Bool × State)) :=
  let s := { s with time := s.time + 1 }
  if s.clock = 0 then some (.error .zeroDivision)
  else if s.time % s.clock = 0 ∧ s.width > 10 then
    match reduce cut fuel false s with
    | none => none
    | some (.error e) => some (.error e)
    | some (.ok (chg, s')) =>
      some (.ok (chg, { s' with
        nDetections := if chg then s'.nDetections + 1 else s'.nDetections, change := chg }))
  else some (.ok (false, { s with change := false }))

/-- Public calls. -/
inductive Op where
  | add (v : ℚ)
  | check
  | setClock (c : Nat)
  | reset

/-- One public call; the fuel of `detected_change` is the current width plus 1
(shown to suffice). The Boolean is the returned value of `detected_change`. -/
def step (cut : Cut) (s : State) : Op → Option (Except PyErr (Bool × State))
  | .add v => some ((addElement s v).map fun s' => (false, s'))
  | .check => detectedChange cut (s.width + 1) s
  | .setClock c => some (.ok (false, { s with clock := c }))
  | .reset => some (.ok (false, init))

/-- State after a sequence of public calls. -/
def run (cut : Cut) : List Op → State → Option (Except PyErr State)
  | [], s => some (.ok s)
  | op :: ops, s =>
    match step cut s op with
    | none => none
    | some (.error e) => some (.error e)
    | some (.ok (_, s')) => run cut ops s'

/-- `variance` property, lines 136-138 (`none`: division by zero). -/
def varianceProp (s : State) : Option ℚ := if s.width = 0 then none else some (s.variance / s.width)

/-- `estimation` property, lines 140-144. -/
def estimation (s : State) : ℚ := if s.width = 0 then 0 else s.total / s.width

end Verif.Adwin
