import Verif.Trees.Grow
import Verif.Trees.EBST
import Mathlib.Data.Rat.Floor
import Mathlib.Algebra.Order.Ring.Abs

/-!
Model of the Hoeffding tree regressor: trees/hoeffding_tree_regressor.py and
trees/_nodes/htr_nodes.py.

Simplifications: the observers of a leaf are a parameter, and so is the outcome of a split
attempt (433-513; its decision rule is modelled in HTRSplit.lean), the initial perceptron
weights (random), the square root and the changes by memory management (which leaves are
activated and deactivated).  A training row that raises ends the run.  Counters of nodes are
left out (see Hoeffding.lean for the same code in the classifier).
-/

namespace Verif.Trees.HR

open Verif.Trees Verif.Trees.Grow Verif.Trees.EBST
open Verif.Trees.HL (Test)

variable {O : Type}

/-- Parameters of the tree (141-191). -/
structure Cfg (O : Type) where
  /-- `leaf_prediction`: perceptron, or else target mean -/
  perceptron : Bool
  grace : ℚ
  lr : ℚ
  decay : ℚ
  lrConst : Bool
  /-- `nominal_attributes` (`None`: no attribute) -/
  nominal : Nat → Bool
  sqrt : ℚ → ℚ
  fresh : O
  update : O → List ℚ → ℚ → ℚ → O

/-- The sums over all training rows (186-190): weight, targets, squared targets, attribute
values, squared attribute values. -/
structure Sums where
  n : ℚ := 0
  y : ℚ := 0
  yy : ℚ := 0
  x : List ℚ := []
  xx : List ℚ := []

/-- numpy `a += b` for one-dimensional `a`, `b` (`a` may also be the empty list at first, which
numpy turns into an array): equal lengths are added, a `b` of length 1 is broadcast to the
shape of `a`, everything else raises `ValueError`. -/
def addInto (a b : List ℚ) : Option (List ℚ) :=
  if a.length = b.length then some (List.zipWith (· + ·) a b)
  else match b with
    | [v] => some (a.map (· + v))
    | _ => none

/-- Lines 351-360. -/
def Sums.add (s : Sums) (x : List ℚ) (y w : ℚ) : Sums :=
  { n := s.n + w
    y := s.y + w * y
    yy := s.yy + w * y * y
    x := (addInto s.x (x.map (w * ·))).getD (x.map (w * ·))
    xx := (addInto s.xx (x.map fun v => w * v * v)).getD (x.map fun v => w * v * v) }

/-- `compute_sd`, htr_nodes.py 217-222. -/
def sd (sqrt : ℚ → ℚ) (sq v n : ℚ) : ℚ :=
  if n > 1 then
    let a := sq - v * v / n
    if a > 0 then sqrt (a / n) else 0
  else 0

/-- The attribute part of `normalize_sample` (232-247), from index `i`. -/
def normFrom (cfg : Cfg O) (s : Sums) : Nat → List ℚ → Except PyErr (List ℚ)
  | _, [] => .ok []
  | i, v :: vs =>
    match normFrom cfg s (i + 1) vs with
    | .error e => .error e
    | .ok rest =>
      if cfg.nominal i = false ∧ s.n > 1 then
        match s.x[i]?, s.xx[i]? with
        | some a, some b =>
          let d := sd cfg.sqrt b a s.n
          .ok ((if d > 0 then (v - a / s.n) / (3 * d) else 0) :: rest)
        | _, _ => .error .indexError
      else if cfg.nominal i then .ok (v :: rest)
      else .ok (0 :: rest)

/-- `normalize_sample`, 219-252. -/
def normalize (cfg : Cfg O) (s : Sums) (x : List ℚ) : Except PyErr (List ℚ) :=
  (normFrom cfg s 0 x).map (· ++ [if s.n > 1 then 1 else 0])

/-- `normalize_target_value`, 254-273. -/
def normalizeY (cfg : Cfg O) (s : Sums) (y : ℚ) : ℚ :=
  let d := sd cfg.sqrt s.yy s.y s.n
  if s.n > 1 ∧ d > 0 then (y - s.y / s.n) / (3 * d) else 0

/-- The perceptron of a leaf: not yet initialised, all weights `nan`, or numbers. -/
inductive Weights where
  | unset
  | nan
  | ok (w : List ℚ)
  deriving DecidableEq

/-- `np.dot` of two vectors of the same length. -/
def dot (a b : List ℚ) : ℚ := (List.zipWith (· * ·) a b).sum

/-- Sum of the absolute values. -/
def norm1 (w : List ℚ) : ℚ := (w.map fun v => |v|).sum

/-- `_update_weights`, htr_nodes.py 115-136.  A division by a zero norm gives `nan`. -/
def updateW (cfg : Cfg O) (s : Sums) (x : List ℚ) (y lr : ℚ) (w : Weights) : Except PyErr Weights :=
  match normalize cfg s x with
  | .error e => .error e
  | .ok xs =>
    match w with
    | .ok w =>
      if w.length = xs.length then
        let delta := normalizeY cfg s y - dot w xs
        let w' := List.zipWith (· + ·) w (xs.map fun v => lr * delta * v)
        .ok (if norm1 w' = 0 then .nan else .ok (w'.map (· / norm1 w')))
      else .error .valueError
    | w => .ok w

/-- The loop of lines 101-102. -/
def updateMany (cfg : Cfg O) (s : Sums) (x : List ℚ) (y lr : ℚ) : Nat → Weights → Except PyErr Weights
  | 0, w => .ok w
  | k + 1, w =>
    match updateW cfg s x y lr w with
    | .error e => .error e
    | .ok w' => updateMany cfg s x y lr k w'

/-- A learning node: `_stats` (`none` for `{}`), observers, perceptron weights,
`last_split_attempt_at`. -/
structure Leaf (O : Type) where
  active : Bool
  stats : Option Stat
  obs : O
  w : Weights
  last : ℚ

/-- `total_weight`, htr_nodes.py 65-75. -/
def weight (s : Option Stat) : ℚ := (s.map Stat.n).getD 0

/-- `_new_learning_node` (275-292): the perceptron weights are copied from the given node. -/
def newLeaf (cfg : Cfg O) (active : Bool) (s : Option Stat) (w : Weights) : Leaf O :=
  ⟨active, s, cfg.fresh, w, weight s⟩

/-- Outcome of a split attempt (433-513): the leaf stays, its observers possibly changed
(`manage_memory`, poor attributes), it is deactivated, or split. -/
inductive Choice (O : Type) where
  | keep (f : O → O)
  | prune
  | split (t : Test) (dists : List Stat)

/-- A training row: attributes, target, weight, initial perceptron weights should they be
needed, `_growth_allowed`, outcome of a split attempt, memory management. -/
structure Ev (O : Type) where
  x : List ℚ
  y : ℚ
  w : ℚ
  init : List ℚ
  growth : Bool
  choose : Leaf O → Choice O
  memory : List Nat → Option Bool

/-- `update_stats`, htr_nodes.py 52-60. -/
def addStat (s : Option Stat) (y w : ℚ) : Stat :=
  match s with
  | none => ⟨w, y * w, y * y * w⟩
  | some s => ⟨s.n + w, s.s + y * w, s.q + y * y * w⟩

/-- `learn_one`: base.py 351-367, for a perceptron also htr_nodes.py 88-102.  `s` are the sums of
the tree after this row. -/
def Leaf.learn (cfg : Cfg O) (s : Sums) (e : Ev O) (l : Leaf O) : Except PyErr (Leaf O) :=
  let st := addStat l.stats e.y e.w
  let l1 := { l with stats := some st, obs := if l.active then cfg.update l.obs e.x e.y e.w else l.obs }
  if cfg.perceptron then
    let w0 := if l.w = .unset then .ok e.init else l.w
    let lr := if cfg.lrConst then cfg.lr else cfg.lr / (1 + st.n * cfg.decay)
    match updateMany cfg s e.x e.y lr ⌊e.w⌋.toNat w0 with
    | .error err => .error err
    | .ok w => .ok { l1 with w := w }
  else .ok l1

/-- Lines 375-382 with `_attempt_to_split` (488-505) and `_deactivate_learning_node` (544-567).  The
children of the new split node copy the perceptron weights of the leaf. -/
def attempt (cfg : Cfg O) (e : Ev O) (l : Leaf O) : G (Leaf O) (Option Stat) :=
  if e.growth ∧ l.active ∧ weight l.stats - l.last ≥ cfg.grace then
    match e.choose l with
    | .keep f => .leaf { l with obs := f l.obs, last := weight l.stats }
    | .prune => .leaf (newLeaf cfg false l.stats l.w)
    | .split t ds => .split t l.stats (kidsFrom (fun d => newLeaf cfg true (some d) l.w) 0 ds)
  else .leaf l

/-- `_activate_learning_node` and `_deactivate_learning_node`, 520-567. -/
def setActive (cfg : Cfg O) (a : Option Bool) (l : Leaf O) : Leaf O :=
  match a with
  | none => l
  | some a => if l.active = a then l else newLeaf cfg a l.stats l.w

/-- The regressor: sums and tree. -/
structure Reg (O : Type) where
  sums : Sums := {}
  root : Option (G (Leaf O) (Option Stat)) := none

/-- `_partial_fit`, 335-396. -/
def step (cfg : Cfg O) (h : Reg O) (e : Ev O) : Except PyErr (Reg O) :=
  let s := h.sums.add e.x e.y e.w
  let new := newLeaf cfg true none .unset
  match (h.root.getD (.leaf new)).learn e.x
      (fun l => (l.learn cfg s e).map (attempt cfg e)) (fun l => l.learn cfg s e) new with
  | .error err => .error err
  | .ok r => .ok ⟨s, some (r.mapLeaves (fun p => setActive cfg (e.memory p)) [])⟩

/-- `partial_fit` (294-333) on rows of non-zero weight; rows of weight 0 are skipped. -/
def run (cfg : Cfg O) (h : Reg O) : List (Ev O) → Except PyErr (Reg O)
  | [] => .ok h
  | e :: es =>
    match step cfg h e with
    | .error err => .error err
    | .ok h' => run cfg h' es

/-- `LearningNodeMean.predict_one`, htr_nodes.py 62-63, and line 422; `none` for `nan`. -/
def mean (s : Option Stat) : Option ℚ :=
  match s with
  | none => some 0
  | some s => if s.n = 0 then none else some (s.s / s.n)

/-- `LearningNodePerceptron.predict_one`, htr_nodes.py 104-113. -/
def percPredict (cfg : Cfg O) (s : Sums) (l : Leaf O) (x : List ℚ) : Except PyErr (Option ℚ) :=
  match l.w with
  | .unset => .ok (mean l.stats)
  | w =>
    match normalize cfg s x with
    | .error e => .error e
    | .ok xs =>
      match w with
      | .ok w =>
        if w.length = xs.length then
          .ok (some (dot w xs * sd cfg.sqrt s.yy s.y s.n * 3 + s.y / s.n))
        else .error .valueError
      | _ => .ok none

/-- `predict` for one row, 416-422. -/
def predictOne (cfg : Cfg O) (s : Sums) (r : G (Leaf O) (Option Stat)) (x : List ℚ) : Except PyErr (Option ℚ) :=
  match r.route x with
  | .error e => .error e
  | .ok (.leaf l) => if cfg.perceptron then percPredict cfg s l x else .ok (mean l.stats)
  | .ok (.stuck none) => .error .keyError
  | .ok (.stuck (some st)) => .ok (mean (some st))
  | .ok .missing => .error .attributeError

/-- `predict` for the rows of a tree that was trained. -/
def predictAll (cfg : Cfg O) (s : Sums) (r : G (Leaf O) (Option Stat)) : List (List ℚ) → Except PyErr (List (Option ℚ))
  | [] => .ok []
  | x :: xs =>
    match predictOne cfg s r x with
    | .error e => .error e
    | .ok p =>
      match predictAll cfg s r xs with
      | .error e => .error e
      | .ok ps => .ok (p :: ps)

/-- `predict`, 398-426. -/
def predict (cfg : Cfg O) (h : Reg O) (rows : List (List ℚ)) : Except PyErr (List (Option ℚ)) :=
  match h.root with
  | none => .ok [some 0]
  | some r => if h.sums.n > 0 then predictAll cfg h.sums r rows else .ok [some 0]

end Verif.Trees.HR
