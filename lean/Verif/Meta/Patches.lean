import Verif.Common
import Mathlib.Data.Rat.Floor
import Mathlib.Data.Nat.Choose.Basic
import Mathlib.Data.Nat.Sqrt
import Mathlib.Data.List.Induction
import Mathlib.Data.List.Perm.Basic
import Mathlib.Data.List.Nodup
import Mathlib.Tactic.Linarith
import Mathlib.Tactic.Ring

/-!
Model of the choice of subspaces in `StreamingRandomPatchesClassifier`
(`meta/streaming_random_patches.py`); C136, C137.
-/

namespace Verif.Meta.Patches

/-- `subspace_mode`. -/
inductive Mode
  | m
  | sqrt
  | sqrtInv
  | percent
  deriving DecidableEq

/-- `training_method`. -/
inductive Method
  | subspaces
  | resampling
  | patches
  deriving DecidableEq

/-- `int(np.round(np.sqrt(n)))` (a tie is impossible). -/
def roundSqrt (n : Nat) : Nat :=
  let s := Nat.sqrt n
  if n ≤ s * s + s then s else s + 1

/-- `np.round`: to the nearest integer, ties to the even one. -/
def roundEven (q : ℚ) : Int :=
  let f := ⌊q⌋
  if q - f < 1 / 2 then f else if 1 / 2 < q - f then f + 1 else if f % 2 = 0 then f else f + 1

/-- `_init_ensemble`, lines 323-339: the size of the subspaces. -/
def sizeOf (mode : Mode) (size : Int) (n : Nat) : Int :=
  let k : Int := match mode with
    | .m => size
    | .sqrt => roundSqrt n + 1
    | .sqrtInv => n - (roundSqrt n + 1)
    | .percent =>
      let p : ℚ := if size < 0 then (100 + size) / 100 else size / 100
      let k := roundEven (n * p)
      if k < 2 then roundEven (n * p) + 1 else k
  if k < 0 then n + k else k

/-- `_get_all_k_combinations_rec`, lines 605-615, for `k ≥ 0`: the combinations that extend
`c` by `k` items from `off` on. -/
def combsRec (n : Nat) : Nat → Nat → List Nat → List (List Nat)
  | 0, _, c => [c]
  | k + 1, off, c => (List.range' off (n - k - off)).flatMap fun i => combsRec n k (i + 1) (c ++ [i])

/-- `get_all_k_combinations`, lines 634-637. -/
def allCombs (k n : Nat) : List (List Nat) := combsRec n k 0 []

/-- The loop of lines 361-364, at most `fuel` iterations (`none`: not finished). The result
of `np.vstack` is not used. -/
def padLoop (N : Nat) : Nat → List (List Nat) → Nat → Option (List (List Nat))
  | 0, _, _ => none
  | fuel + 1, subs, i =>
    if subs.length < N then
      let i := if i = subs.length then 0 else i
      padLoop N fuel subs (i + 1)
    else some subs

/-- `_init_ensemble`, lines 344-377: the training method in use afterwards and the
subspaces; `choice j` is the `j`-th draw of `get_random_k_combinations`, lines 640-665. For
a negative `k` the recursion of `get_all_k_combinations` never ends (`RecursionError`). -/
def start (fuel : Nat) (choice : Nat → List Nat) (meth : Method) (k : Int) (n N : Nat) :
    Option (Except PyErr (Method × Option (List (List Nat)))) :=
  if meth = .resampling then some (.ok (meth, none))
  else if k ≠ 0 ∧ k < n then
    if n ≤ 20 ∨ k < 2 then
      let k : Int := if k = 1 ∧ n > 2 then 2 else k
      if k < 0 then some (.error .other)
      else (padLoop N fuel (allCombs k.toNat n) 0).map fun subs => .ok (meth, some subs)
    else some (.ok (meth, some ((List.range N).map choice)))
  else some (.ok (.resampling, none))

/-- `_init_ensemble_members`, lines 392-403: the features of each member; `sh` is the
shuffled list of indexes. -/
def members (sh : List Nat) (N : Nat) (subs : Option (List (List Nat))) : Except PyErr (List (Option (List Nat))) :=
  match subs with
  | none => .ok (List.replicate N none)
  | some subs =>
    (List.range N).mapM fun i =>
      match sh[i]? with
      | none => .error .indexError
      | some j => match subs[j]? with
        | none => .error .indexError
        | some f => .ok (some f)

/-- The feature sets of the members of a new ensemble, `_init_ensemble` with
`_init_ensemble_members`, lines 320-417. -/
def assign (fuel : Nat) (choice : Nat → List Nat) (sh : List Nat) (meth : Method) (mode : Mode) (size : Int) (n N : Nat) :
    Option (Except PyErr (Method × List (Option (List Nat)))) :=
  (start fuel choice meth (sizeOf mode size n) n N).map fun r =>
    match r with
    | .error e => .error e
    | .ok (m, subs) => match members sh N subs with
      | .error e => .error e
      | .ok l => .ok (m, l)

end Verif.Meta.Patches
