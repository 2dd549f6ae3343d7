import Verif.Trees.HTR
import Mathlib.Data.Fin.VecNotation

/-!
Model of the multi-target regression trees: trees/isoup_tree.py with _nodes/isouptr_nodes.py,
and trees/stacked_single_target_hoeffding_tree_regressor.py with _nodes/sst_htr_nodes.py.

Simplifications: as in HTR.lean (observers, outcome of a split attempt, random initial weights,
square root and memory management are parameters).  The number of targets `T` is fixed except
in MTReset.lean.  `none` stands for `nan` and `inf`.  What a leaf keeps besides statistics and
observers is its `Head`: nothing, a perceptron per target, stacked perceptrons, faded errors.
-/

namespace Verif.Trees.MT

open Verif.Trees Verif.Trees.Grow
open Verif.Trees.HL (Test)
open Verif.Trees.HR (addInto dot norm1)

variable {O H : Type} {T : Nat}

/-- One number per target. -/
abbrev V (T : Nat) := Fin T → ℚ

/-- One number per target, `none` for `nan` and `inf`. -/
abbrev VN (T : Nat) := Fin T → Option ℚ

/-- `_stats`: weight, sums and sums of squares of the targets. -/
structure VStat (T : Nat) where
  n : ℚ
  s : V T
  q : V T

/-- The sums over all training rows, isoup_tree.py 191-195; for the attributes `none` is the initial
`0.0`. -/
structure Sums (T : Nat) where
  n : ℚ := 0
  y : V T := fun _ => 0
  yy : V T := fun _ => 0
  x : Option (List ℚ) := none
  xx : Option (List ℚ) := none

/-- Lines 394-399 for one of the two sums: `a += b`, or `a = b` after a `ValueError`. -/
def addAtt (a : Option (List ℚ)) (b : List ℚ) : List ℚ :=
  match a with
  | none => b
  | some a => (addInto a b).getD b

/-- isoup_tree.py 385-399. -/
def Sums.add (s : Sums T) (x : List ℚ) (y : V T) (w : ℚ) : Sums T :=
  { n := s.n + w
    y := fun j => s.y j + w * y j
    yy := fun j => s.yy j + w * y j * y j
    x := some (addAtt s.x (x.map (w * ·)))
    xx := some (addAtt s.xx (x.map fun v => w * v * v)) }

/-- isoup_tree.py 247-251, 279-282: the variance with divisor `n - 1` and its square root. -/
def sd (sqrt : ℚ → ℚ) (sq v n : ℚ) : ℚ :=
  let a := (sq - v * v / n) / (n - 1)
  if a ≥ 0 then sqrt a else 0

/-- `np.divide(v - mean, sd, where=sd != 0, out=zeros)`. -/
def standard (sqrt : ℚ → ℚ) (sq s n v : ℚ) : ℚ :=
  let d := sd sqrt sq s n
  if d ≠ 0 then (v - s / n) / d else 0

/-- `normalize_sample`, isoup_tree.py 229-259.  Different numbers of attributes raise. -/
def normalize (sqrt : ℚ → ℚ) (s : Sums T) (x : List ℚ) : Except PyErr (List ℚ) :=
  if s.n ≤ 1 then .ok (List.replicate (x.length + 1) 0)
  else
    match s.x, s.xx with
    | some a, some b =>
      if a.length = x.length ∧ b.length = x.length then
        .ok (List.zipWith (fun v (p : ℚ × ℚ) => standard sqrt p.2 p.1 s.n v) x (a.zip b) ++ [1])
      else .error .valueError
    | _, _ => .error .valueError

/-- `normalize_target_value`, isoup_tree.py 261-287. -/
def normalizeY (sqrt : ℚ → ℚ) (s : Sums T) (y : V T) : V T := fun j =>
  if s.n ≤ 1 then 0 else standard sqrt (s.yy j) (s.y j) s.n (y j)

/-- The mean of a leaf, isouptr_nodes.py 50, 102; sst_htr_nodes.py 52, 125. -/
def mean (s : Option (VStat T)) : VN T := fun j =>
  match s with
  | none => some 0
  | some s => if s.n = 0 then none else some (s.s j / s.n)

/-- The rows of a weight matrix; a row divided by zero is `none`. -/
abbrev Rows (T : Nat) := Fin T → Option (List ℚ)

/-- `_normalize_perceptron_weights`, isouptr_nodes.py 85-90, for a row. -/
def unit (w : List ℚ) : Option (List ℚ) := if norm1 w = 0 then none else some (w.map (· / norm1 w))

/-- `np.matmul(weights, x)`. -/
def apply (w : Rows T) (x : List ℚ) : VN T := fun j => (w j).map fun r => dot r x

/-- `weights += lr * outer(err, x)` and the normalisation of the rows. -/
def adjust (w : Rows T) (lr : ℚ) (err : VN T) (x : List ℚ) : Rows T := fun j =>
  match w j, err j with
  | some r, some e => unit (List.zipWith (fun a v => a + lr * (e * v)) r x)
  | _, _ => none

/-- `a - b` with `nan`. -/
def minus (a : V T) (b : VN T) : VN T := fun j => (b j).map (a j - ·)

/-- `0.95 * f + |e|`. -/
def fade (f e : VN T) : VN T := fun j =>
  match f j, e j with
  | some f, some e => some (19 / 20 * f + |e|)
  | _, _ => none

/-- `a <= b`, false if one of them is `nan`. -/
def nle (a b : Option ℚ) : Bool :=
  match a, b with
  | some a, some b => decide (a ≤ b)
  | _, _ => false

/-- `Y_pred * sd + mean`, isouptr_nodes.py 54-59, for `examples_seen` other than 1. -/
def denorm (sqrt : ℚ → ℚ) (s : Sums T) (p : VN T) : VN T := fun j =>
  (p j).map fun v => v * sd sqrt (s.yy j) (s.y j) s.n + s.y j / s.n

/-- What learning a row hands to the head: attributes, targets, weight, learning ratio and the random
matrices of perceptrons and stacked perceptrons should they be needed. -/
structure Row (T : Nat) where
  x : List ℚ
  y : V T
  w : ℚ
  lr : ℚ
  init : Fin T → List ℚ
  init2 : Fin T → List ℚ

/-- What a leaf keeps besides statistics and observers. -/
structure Head (T : Nat) (H : Type) where
  /-- without parent node -/
  fresh : H
  /-- active node with parent node -/
  child : H → H
  /-- inactive node with parent node -/
  idle : H → H
  /-- `learn_one` after statistics and observers were updated -/
  learn : Sums T → VStat T → Row T → H → Except PyErr H
  /-- `predict_one` -/
  predict : Sums T → Option (VStat T) → List ℚ → H → Except PyErr (VN T)

/-! ### The heads -/

/-- `leaf_prediction='mean'`: nothing. -/
def meanHead (T : Nat) : Head T Unit where
  fresh := ()
  child := id
  idle := id
  learn := fun _ _ _ _ => .ok ()
  predict := fun _ st _ _ => .ok (mean st)

/-- isouptr_nodes.py 31-37: the matrix to start from. -/
def started (init : Fin T → List ℚ) (w : Option (Rows T)) : Rows T :=
  match w with
  | none => fun j => unit (init j)
  | some w => w

/-- Lengths of the rows agree with the input, else numpy raises (the length of a row of `nan` is not
kept and fits). -/
def fits (w : Rows T) (m : Nat) : Bool :=
  (List.finRange T).all fun j => match w j with | none => true | some r => decide (r.length = m)

/-- `_update_weights`, isouptr_nodes.py 61-83. -/
def percUpdate (sqrt : ℚ → ℚ) (s : Sums T) (e : Row T) (w : Rows T) : Except PyErr (Rows T) :=
  match normalize sqrt s e.x with
  | .error err => .error err
  | .ok xs =>
    if fits w xs.length then .ok (adjust w e.lr (minus (normalizeY sqrt s e.y) (apply w xs)) xs)
    else .error .valueError

/-- Repeats an update. -/
def times {α : Type} (f : α → Except PyErr α) : Nat → α → Except PyErr α
  | 0, a => .ok a
  | k + 1, a =>
    match f a with
    | .error e => .error e
    | .ok a' => times f k a'

/-- The perceptrons' prediction, isouptr_nodes.py 52-59. -/
def percPred (sqrt : ℚ → ℚ) (s : Sums T) (x : List ℚ) (w : Rows T) : Except PyErr (VN T) :=
  match normalize sqrt s x with
  | .error err => .error err
  | .ok xs => if fits w xs.length then .ok (denorm sqrt s (apply w xs)) else .error .valueError

/-- `LearningNodePerceptronMultiTarget`, isouptr_nodes.py 10-90. -/
def percHead (T : Nat) (sqrt : ℚ → ℚ) : Head T (Option (Rows T)) where
  fresh := none
  child := id
  idle := id
  learn := fun s _ e w => (times (percUpdate sqrt s e) ⌊e.w⌋.toNat (started e.init w)).map some
  predict := fun s st x w =>
    match w with
    | none => .ok (mean st)
    | some w => if s.n ≤ 1 then .ok (mean st) else percPred sqrt s x w

/-- Weights with the faded errors of mean and perceptron. -/
structure Adapt (T : Nat) where
  w : Option (Rows T)
  fM : VN T
  fP : VN T

/-- `tree.normalize_target_value(mean)`, isouptr_nodes.py 154-156. -/
def normMean (sqrt : ℚ → ℚ) (s : Sums T) (st : VStat T) : VN T := fun j =>
  if s.n ≤ 1 then some 0
  else (mean (some st) j).map fun m => standard sqrt (s.yy j) (s.y j) s.n m

/-- `_update_weights`, isouptr_nodes.py 125-156. -/
def adaptUpdate (sqrt : ℚ → ℚ) (s : Sums T) (st : VStat T) (e : Row T) (h : Rows T × VN T × VN T) :
    Except PyErr (Rows T × VN T × VN T) :=
  match normalize sqrt s e.x with
  | .error err => .error err
  | .ok xs =>
    if fits h.1 xs.length then
      let yn := normalizeY sqrt s e.y
      let err := minus yn (apply h.1 xs)
      .ok (adjust h.1 e.lr err xs, fade h.2.1 (minus yn (normMean sqrt s st)), fade h.2.2 err)
    else .error .valueError

/-- `LearningNodeAdaptiveMultiTarget`, isouptr_nodes.py 93-156, with isoup_tree.py 303-309 and 316-321: an
active node starts with errors 0, an inactive one keeps those of the node it replaces. -/
def adaptHead (T : Nat) (sqrt : ℚ → ℚ) : Head T (Adapt T) where
  fresh := ⟨none, fun _ => some 0, fun _ => some 0⟩
  child := fun h => ⟨h.w, fun _ => some 0, fun _ => some 0⟩
  idle := id
  learn := fun s st e h =>
    (times (adaptUpdate sqrt s st e) ⌊e.w⌋.toNat (started e.init h.w, h.fM, h.fP)).map
      fun r => ⟨some r.1, r.2.1, r.2.2⟩
  predict := fun s st x h =>
    match h.w with
    | none => .ok (mean st)
    | some w =>
      if s.n ≤ 1 then .ok (mean st)
      else
        match percPred sqrt s x w with
        | .error err => .error err
        | .ok p => .ok fun j => if nle (h.fP j) (h.fM j) then p j else mean st j

/-! ### Stacked perceptrons -/

/-- Appends the bias 1 to the predictions; one `nan` makes every product `nan`. -/
def withBias (p : VN T) : Option (List ℚ) :=
  if ∀ j, (p j).isSome then some ((List.finRange T).map (fun j => (p j).getD 0) ++ [1]) else none

/-- `_predict_one_meta`, sst_htr_nodes.py 110-111. -/
def stack (w2 : Rows T) (p : VN T) : VN T := fun j =>
  match withBias p, w2 j with
  | some x, some r => some (dot r x)
  | _, _ => none

/-- Update of the second level, sst_htr_nodes.py 88-94, 99-105. -/
def adjust2 (w2 : Rows T) (lr : ℚ) (err : VN T) (p : VN T) : Rows T := fun j =>
  match w2 j, err j, withBias p with
  | some r, some e, some x => unit (List.zipWith (fun a v => a + lr * (e * v)) r x)
  | _, _, _ => none

/-- `Y_pred * sd + mean`, sst_htr_nodes.py 58-63, 138-144: there is no test for `examples_seen` being
1, where `0 / 0` counts as standard deviation 0 and anything positive divided by 0 as infinite. -/
def denormS (sqrt : ℚ → ℚ) (s : Sums T) (p : VN T) : VN T := fun j =>
  if s.n = 0 then none
  else if s.n = 1 ∧ s.yy j - s.y j * s.y j / s.n > 0 then none
  else if s.n = 1 then (p j).map fun _ => s.y j / s.n
  else denorm sqrt s p j

/-- Weights of both levels and the faded errors of mean, perceptron and stacked perceptron. -/
structure Stack (T : Nat) where
  w : Option (Rows T × Rows T)
  fM : VN T
  fP : VN T
  fS : VN T

/-- sst_htr_nodes.py 30-39. -/
def started2 (e : Row T) (w : Option (Rows T × Rows T)) : Rows T × Rows T :=
  match w with
  | none => (fun j => unit (e.init j), fun j => unit (e.init2 j))
  | some w => w

/-- `_update_weights`, sst_htr_nodes.py 65-94 and 167-207; the plain node has no errors. -/
def stackUpdate (sqrt : ℚ → ℚ) (s : Sums T) (st : VStat T) (e : Row T)
    (h : (Rows T × Rows T) × VN T × VN T × VN T) : Except PyErr ((Rows T × Rows T) × VN T × VN T × VN T) :=
  match normalize sqrt s e.x with
  | .error err => .error err
  | .ok xs =>
    if fits h.1.1 xs.length ∧ fits h.1.2 (T + 1) then
      let yn := normalizeY sqrt s e.y
      let p := apply h.1.1 xs
      let p2 := stack h.1.2 p
      .ok ((adjust h.1.1 e.lr (minus yn p) xs, adjust2 h.1.2 e.lr (minus yn p2) p),
        fade h.2.1 (minus yn (normMean sqrt s st)), fade h.2.2.1 (minus yn p), fade h.2.2.2 (minus yn p2))
    else .error .valueError

/-- Both predictions, sst_htr_nodes.py 55-63, 131-144. -/
def stackPred (sqrt : ℚ → ℚ) (s : Sums T) (x : List ℚ) (w : Rows T × Rows T) : Except PyErr (VN T × VN T) :=
  match normalize sqrt s x with
  | .error err => .error err
  | .ok xs =>
    if fits w.1 xs.length ∧ fits w.2 (T + 1) then
      let p := apply w.1 xs
      .ok (denormS sqrt s p, denormS sqrt s (stack w.2 p))
    else .error .valueError

/-- `np.argmin` of three numbers: the first least, or the first `nan`. -/
def argmin3 (a b c : Option ℚ) : Nat :=
  match a, b, c with
  | none, _, _ => 0
  | some _, none, _ => 1
  | some _, some _, none => 2
  | some a, some b, some c => if a ≤ b ∧ a ≤ c then 0 else if b ≤ c then 1 else 2

/-- `a == b`, false for `nan`. -/
def neq (a b : Option ℚ) : Bool :=
  match a, b with
  | some a, some b => decide (a = b)
  | _, _ => false

/-- sst_htr_nodes.py 148-164: which of mean, perceptron, stacked perceptron answers for a target. -/
def select (fM fP fS : Option ℚ) : Nat :=
  let b := argmin3 fM fP fS
  if b = 0 then (if neq fM fP && neq fP fS then 1 else 0)
  else if b = 1 then (if neq fP fS then 2 else 1)
  else 2

/-- `SSTLearningNode`, sst_htr_nodes.py 9-111. -/
def sstHead (T : Nat) (sqrt : ℚ → ℚ) : Head T (Option (Rows T × Rows T)) where
  fresh := none
  child := id
  idle := id
  learn := fun s st e w =>
    (times (stackUpdate sqrt s st e) ⌊e.w⌋.toNat
      (started2 e w, fun _ => none, fun _ => none, fun _ => none)).map fun r => some r.1
  predict := fun s st x w =>
    match w with
    | none => .ok (mean st)
    | some w => (stackPred sqrt s x w).map Prod.snd

/-- `SSTLearningNodeAdaptive`, sst_htr_nodes.py 114-207, with
stacked_single_target_hoeffding_tree_regressor.py 185-192 and 197-203. -/
def sstAdaptHead (T : Nat) (sqrt : ℚ → ℚ) : Head T (Stack T) where
  fresh := ⟨none, fun _ => some 0, fun _ => some 0, fun _ => some 0⟩
  child := fun h => ⟨h.w, fun _ => some 0, fun _ => some 0, fun _ => some 0⟩
  idle := id
  learn := fun s st e h =>
    (times (stackUpdate sqrt s st e) ⌊e.w⌋.toNat (started2 e h.w, h.fM, h.fP, h.fS)).map
      fun r => ⟨some r.1, r.2.1, r.2.2.1, r.2.2.2⟩
  predict := fun s st x h =>
    match h.w with
    | none => .ok (mean st)
    | some w =>
      match stackPred sqrt s x w with
      | .error err => .error err
      | .ok p => .ok fun j =>
          match select (h.fM j) (h.fP j) (h.fS j) with
          | 0 => mean st j
          | 1 => p.1 j
          | _ => p.2 j

/-! ### The tree -/

/-- Parameters of the tree, isoup_tree.py 146-179. -/
structure Cfg (T : Nat) (O H : Type) where
  head : Head T H
  grace : ℚ
  lr : ℚ
  decay : ℚ
  lrConst : Bool
  fresh : O
  update : O → List ℚ → V T → ℚ → O

/-- A learning node. -/
structure Leaf (T : Nat) (O H : Type) where
  active : Bool
  stats : Option (VStat T)
  obs : O
  head : H
  last : ℚ

/-- `total_weight`, htr_nodes.py 65-75. -/
def weight (s : Option (VStat T)) : ℚ := (s.map VStat.n).getD 0

/-- A node without parent: isoup_tree.py 402, 408, 430. -/
def newLeaf (cfg : Cfg T O H) : Leaf T O H := ⟨true, none, cfg.fresh, cfg.head.fresh, 0⟩

/-- `_new_learning_node` with a parent node, isoup_tree.py 289-321. -/
def heir (cfg : Cfg T O H) (active : Bool) (s : Option (VStat T)) (h : H) : Leaf T O H :=
  ⟨active, s, cfg.fresh, if active then cfg.head.child h else cfg.head.idle h, weight s⟩

/-- Outcome of a split attempt, isoup_tree.py 477-566. -/
inductive Choice (T : Nat) (O : Type) where
  | keep (f : O → O)
  | prune
  | split (t : Test) (dists : List (VStat T))

/-- A training row. -/
structure Ev (T : Nat) (O H : Type) where
  x : List ℚ
  y : V T
  w : ℚ
  init : Fin T → List ℚ
  init2 : Fin T → List ℚ
  growth : Bool
  choose : Leaf T O H → Choice T O
  memory : List Nat → Option Bool

/-- `update_stats`, htr_nodes.py 52-60. -/
def addStat (s : Option (VStat T)) (y : V T) (w : ℚ) : VStat T :=
  match s with
  | none => ⟨w, fun j => y j * w, fun j => y j * y j * w⟩
  | some s => ⟨s.n + w, fun j => s.s j + y j * w, fun j => s.q j + y j * y j * w⟩

/-- isouptr_nodes.py 39-43, `n` the weight of the leaf. -/
def Cfg.ratio (cfg : Cfg T O H) (n : ℚ) : ℚ := if cfg.lrConst then cfg.lr else cfg.lr / (1 + n * cfg.decay)

/-- `learn_one`, isouptr_nodes.py 28-46, sst_htr_nodes.py 27-48. -/
def Leaf.learn (cfg : Cfg T O H) (s : Sums T) (e : Ev T O H) (l : Leaf T O H) : Except PyErr (Leaf T O H) :=
  let st := addStat l.stats e.y e.w
  match cfg.head.learn s st ⟨e.x, e.y, e.w, cfg.ratio st.n, e.init, e.init2⟩ l.head with
  | .error err => .error err
  | .ok h =>
    .ok { l with stats := some st, obs := if l.active then cfg.update l.obs e.x e.y e.w else l.obs, head := h }

/-- isoup_tree.py 416-424 with 540-558. -/
def attempt (cfg : Cfg T O H) (e : Ev T O H) (l : Leaf T O H) : G (Leaf T O H) (Option (VStat T)) :=
  if e.growth ∧ l.active ∧ weight l.stats - l.last ≥ cfg.grace then
    match e.choose l with
    | .keep f => .leaf { l with obs := f l.obs, last := weight l.stats }
    | .prune => .leaf (heir cfg false l.stats l.head)
    | .split t ds => .split t l.stats (kidsFrom (fun d => heir cfg true (some d) l.head) 0 ds)
  else .leaf l

/-- `_activate_learning_node` and `_deactivate_learning_node`, hoeffding_tree_regressor.py 520-567. -/
def setActive (cfg : Cfg T O H) (a : Option Bool) (l : Leaf T O H) : Leaf T O H :=
  match a with
  | none => l
  | some a => if l.active = a then l else heir cfg a l.stats l.head

/-- The regressor. -/
structure Reg (T : Nat) (O H : Type) where
  sums : Sums T := {}
  root : Option (G (Leaf T O H) (Option (VStat T))) := none

/-- `_partial_fit`, isoup_tree.py 370-438. -/
def step (cfg : Cfg T O H) (h : Reg T O H) (e : Ev T O H) : Except PyErr (Reg T O H) :=
  let s := h.sums.add e.x e.y e.w
  match (h.root.getD (.leaf (newLeaf cfg))).learn e.x
      (fun l => (l.learn cfg s e).map (attempt cfg e)) (fun l => l.learn cfg s e) (newLeaf cfg) with
  | .error err => .error err
  | .ok r => .ok ⟨s, some (r.mapLeaves (fun p => setActive cfg (e.memory p)) [])⟩

/-- `partial_fit`, isoup_tree.py 323-368, on rows of non-zero weight; rows of weight 0 are skipped. -/
def run (cfg : Cfg T O H) (h : Reg T O H) : List (Ev T O H) → Except PyErr (Reg T O H)
  | [] => .ok h
  | e :: es =>
    match step cfg h e with
    | .error err => .error err
    | .ok h' => run cfg h' es

/-- `predict` for one row of a tree that was trained, isoup_tree.py 462-468. -/
def predictOne (cfg : Cfg T O H) (s : Sums T) (r : G (Leaf T O H) (Option (VStat T))) (x : List ℚ) :
    Except PyErr (VN T) :=
  match r.route x with
  | .error e => .error e
  | .ok (.leaf l) => cfg.head.predict s l.stats x l.head
  | .ok (.stuck st) => .ok (mean st)
  | .ok .missing => .error .attributeError

/-- The regressor with `_n_targets` (`none` before the first call of `partial_fit`), isoup_tree.py
198. -/
structure Model (T : Nat) (O H : Type) where
  known : Bool := false
  reg : Reg T O H := {}

/-- `partial_fit`, isoup_tree.py 323-368: rows of weight 0 are skipped.  (A call with weights of
another length than the rows is left out.) -/
def Model.partialFit (cfg : Cfg T O H) (m : Model T O H) (rows : List (Ev T O H)) : Except PyErr (Model T O H) :=
  (run cfg m.reg (rows.filter fun e => e.w ≠ 0)).map fun r => ⟨true, r⟩

/-- The answer of `predict`: an array of zeros with one column, or a row per instance. -/
inductive Answer (T : Nat) where
  | zeros (rows : Nat)
  | rows (l : List (VN T))

/-- `predict`, isoup_tree.py 440-470, the loop. -/
def predictRows (cfg : Cfg T O H) (r : Reg T O H) : List (List ℚ) → Except PyErr (List (VN T))
  | [] => .ok []
  | x :: xs =>
    match r.root with
    | none => .error .attributeError
    | some t =>
      match predictOne cfg r.sums t x with
      | .error e => .error e
      | .ok v =>
        match predictRows cfg r xs with
        | .error e => .error e
        | .ok l => .ok (v :: l)

/-- `predict`, isoup_tree.py 440-470. -/
def Model.predict (cfg : Cfg T O H) (m : Model T O H) (xs : List (List ℚ)) : Except PyErr (Answer T) :=
  if m.known then (predictRows cfg m.reg xs).map .rows else .ok (.zeros xs.length)

/-- `reset`, inherited: hoeffding_tree.py 235-247. -/
def Model.reset (m : Model T O H) : Model T O H := ⟨m.known, ⟨m.reg.sums, none⟩⟩

/-- `compute_SD`, intra_cluster_variance_reduction_split_criterion.py 32-38: mean over the targets of
the variance with divisor `N - 1`. -/
def clusterVar (s : VStat T) : ℚ :=
  (((List.finRange T).map fun j => (s.q j - s.s j * s.s j / s.n) / (s.n - 1)).sum) / T

/-- `get_merit_of_split`, lines 14-30. -/
def merit (pre : VStat T) (post : List (VStat T)) : ℚ :=
  if post.all fun d => d.n ≥ 5 then
    post.foldl (fun r d => r - d.n / pre.n * clusterVar d) (clusterVar pre)
  else 0

end Verif.Trees.MT
