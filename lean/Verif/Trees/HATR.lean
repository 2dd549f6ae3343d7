import Verif.Trees.HTRProps
import Verif.Trees.HATRNorm

/-!
Model of the Hoeffding adaptive tree regressor: trees/hoeffding_adaptive_tree_regressor.py and
trees/_nodes/hatr_nodes.py, on top of the model of the Hoeffding tree regressor (HTR.lean).

Simplifications:
* ADWIN is a parameter (`Det`); it is modelled in Verif/Drift.
* The observers of a leaf, the outcome of a split attempt, Poisson draws, initial perceptron
  weights and the square root are parameters, as in HTR.lean.
* A split attempt never deactivates a leaf: the null split has merit 0, so it only wins when it is
  the only suggestion (C177), and there is one for every attribute besides.  Memory management
  never deactivates a leaf either: no method of this class calls `_estimate_model_byte_size`, so
  the size estimates stay 0 (hoeffding_tree_regressor.py 177-179) and `_enforce_tracker_limit`
  finds room for all leaves.  (Otherwise the tree would break: lines 177 and 179 return the class
  instead of an instance.)
* Counters of nodes are left out.
-/

namespace Verif.Trees.HRA

open Verif.Trees Verif.Trees.Grow Verif.Trees.EBST
open Verif.Trees.HL (Test)
open Verif.Trees.HR (Leaf Sums weight newLeaf percPredict mean)

variable {O D : Type}

/-- An ADWIN detector. -/
structure Det (D : Type) where
  new : D
  add : D → ℚ → D
  change : D → Bool
  est : D → ℚ
  width : D → ℚ

/-- Parameters of the tree (124-160). -/
structure RCfg (O D : Type) where
  base : HR.Cfg O
  boot : Bool
  det : Det D
  /-- `math.log(2.0 / .05)` -/
  log40 : ℚ

/-- The leaves always train a perceptron (`AdaActiveLearningNodeRegressor` is a perceptron node),
whatever `leaf_prediction` is: hatr_nodes.py 147, hoeffding_adaptive_tree_regressor.py 171-173. -/
def RCfg.lcfg (cfg : RCfg O D) : HR.Cfg O := { cfg.base with perceptron := true }

/-- What a node needs to watch its error: the detector and the attributes of Welford's algorithm
(`none` once a prediction was `nan`: then they are `nan` for ever). -/
structure Mon (D : Type) where
  det : D
  wf : Option (Welford ℚ)

/-- hatr_nodes.py 31-33 and 169-174. -/
def newMon (cfg : RCfg O D) : Mon D := ⟨cfg.det.new, some Welford.new⟩

/-- `get_normalized_error` (242-270) on the error `|y - prediction|`, and `add_element` of the value
(49, 210).  With a `nan` error, now or before, `sd > 0` is false. -/
def watch (cfg : RCfg O D) (m : Mon D) (err : Option ℚ) : Mon D :=
  match m.wf, err with
  | some w, some d => ⟨cfg.det.add m.det (normError cfg.base.sqrt w d).1, some (normError cfg.base.sqrt w d).2⟩
  | some w, none => ⟨cfg.det.add m.det (if w.n = 0 then 0 else 1 / 2), none⟩
  | none, _ => ⟨cfg.det.add m.det (1 / 2), none⟩

mutual
/-- Nodes: leaves, and split nodes with test, statistics, monitor and alternate tree.  An alternate
tree is always a single leaf: when it splits, the new split node does not become the alternate tree
but takes the place of the node itself. -/
inductive N (O D : Type) where
  | leaf (l : Leaf O) (m : Mon D)
  | split (t : Test) (stats : Option Stat) (m : Mon D) (alt : Option (Leaf O × Mon D)) (kids : K O D)
/-- Children with their branch numbers. -/
inductive K (O D : Type) where
  | nil
  | cons (id : Nat) (n : N O D) (rest : K O D)
end

/-- `set_child` for a new branch. -/
def K.snoc : K O D → Nat → N O D → K O D
  | .nil, i, t => .cons i t .nil
  | .cons j u rest, i, t => .cons j u (rest.snoc i t)

/-- Outcome of a split attempt: no split (observers may be pruned or disabled), or a test with the
statistics of its branches. -/
inductive Choice (O : Type) where
  | keep (f : O → O)
  | split (t : Test) (dists : List Stat)

/-- A training row, with the outcome of split attempts, and Poisson draw and initial perceptron
weights for the main leaf (`false`) or the alternate leaf (`true`) at every depth. -/
structure Ev (O : Type) where
  x : List ℚ
  y : ℚ
  w : ℚ
  choose : Leaf O → Choice O
  draw : Nat → Bool → Nat
  init : Nat → Bool → List ℚ

/-- `AdaActiveLearningNodeRegressor.predict_one`, 226-232 (`none`: `nan`). -/
def leafPred (cfg : RCfg O D) (s : Sums) (l : Leaf O) (x : List ℚ) : Except PyErr (Option ℚ) :=
  if cfg.base.perceptron then percPredict cfg.base s l x
  else .ok (match l.stats with
    | none => some 0
    | some st => if st.n > 0 then some (st.s / st.n) else some 0)

mutual
/-- `filter_instance_to_leaf`, trees/_nodes/base.py 266-292: alternate trees are not looked at. -/
def N.route (x : List ℚ) : N O D → Except PyErr (End (Leaf O) (Option Stat))
  | .leaf l _ => .ok (.leaf l)
  | .split t s _ _ kids =>
    match t.branch x with
    | .error e => .error e
    | .ok b => if b ≥ 0 then kids.route x b.toNat else .ok (.stuck s)
/-- See `N.route`. -/
def K.route (x : List ℚ) : K O D → Nat → Except PyErr (End (Leaf O) (Option Stat))
  | .nil, _ => .ok .missing
  | .cons j t rest, b => if b = j then t.route x else rest.route x b
end

/-- Lines 39-42: the prediction of the node that the row reaches, `none` if there is no node; 114-117
for a split node. -/
def endPred (cfg : RCfg O D) (s : Sums) (x : List ℚ) : End (Leaf O) (Option Stat) → Except PyErr (Option (Option ℚ))
  | .leaf l =>
    match leafPred cfg s l x with
    | .error e => .error e
    | .ok p => .ok (some p)
  | .stuck st => .ok (some (mean st))
  | .missing => .ok none

/-- Lines 37-49: without prediction the detector gets 0. -/
def nodeWatch (cfg : RCfg O D) (m : Mon D) (y : ℚ) : Option (Option ℚ) → Mon D
  | some p => watch cfg m (p.map fun p => |y - p|)
  | none => ⟨cfg.det.add m.det 0, m.wf⟩

/-- Lines 198-202. -/
def bootWeight (boot : Bool) (k : Nat) (w : ℚ) : ℚ := if boot then (if k > 0 then w * k else w) else w

/-- Children of a new split node, hoeffding_tree_regressor.py 495-498. -/
def newKids (cfg : RCfg O D) (w : HR.Weights) : Nat → List Stat → K O D
  | _, [] => .nil
  | i, d :: ds => .cons i (.leaf (newLeaf cfg.base true (some d) w) (newMon cfg)) (newKids cfg w (i + 1) ds)

/-- What becomes of a leaf: it stays, or a new split node is put where `parent` and `parent_branch`
point to (hoeffding_tree_regressor.py 502-505). -/
inductive Out (O D : Type) where
  | stays (l : Leaf O) (m : Mon D)
  | becomes (n : N O D)

/-- The node, for a leaf that `parent` and `parent_branch` belong to. -/
def Out.node : Out O D → N O D
  | .stays l m => .leaf l m
  | .becomes n => n

/-- Lines 220-224. -/
def attempt (cfg : RCfg O D) (e : Ev O) (l : Leaf O) (m : Mon D) : Out O D :=
  if weight l.stats - l.last ≥ cfg.base.grace then
    match e.choose l with
    | .keep f => .stays { l with obs := f l.obs, last := weight l.stats } m
    | .split t ds => .becomes (.split t l.stats (newMon cfg) none (newKids cfg l.w 0 ds))
  else .stays l m

/-- The row as the leaf learns it (218): with the weight after bootstrap sampling. -/
def Ev.toLeaf (e : Ev O) (w : ℚ) (init : List ℚ) : HR.Ev O :=
  ⟨e.x, e.y, w, init, true, fun _ => .keep id, fun _ => none⟩

/-- `AdaActiveLearningNodeRegressor.learn_one`, 194-224; `k` is the Poisson draw.  (`_error_change` of a
leaf is not used anywhere.) -/
def leafLearn (cfg : RCfg O D) (s : Sums) (e : Ev O) (k : Nat) (init : List ℚ) (l : Leaf O) (m : Mon D) :
    Except PyErr (Out O D) :=
  match leafPred cfg s l e.x with
  | .error err => .error err
  | .ok p =>
    match l.learn cfg.lcfg s (e.toLeaf (bootWeight cfg.boot k e.w) init) with
    | .error err => .error err
    | .ok l' => .ok (attempt cfg e l' (watch cfg m (p.map fun p => |e.y - p|)))

/-- What a split node does about its alternate tree. -/
inductive React where
  | fresh | switch | drop | stay
  deriving DecidableEq

/-- The bound of lines 68-73. -/
def bound (cfg : RCfg O D) (old altWidth width : ℚ) : ℚ :=
  let sq := 2 * old * (1 - old) * cfg.log40 * (1 / altWidth + 1 / width)
  if sq > 0 then cfg.base.sqrt sq else 0

/-- Lines 46-92: `old`, `new` are the detector before and after this row. -/
def react (cfg : RCfg O D) (old new : D) (alt : Option (Leaf O × Mon D)) : React :=
  if cfg.det.change new ∧ ¬ cfg.det.est old > cfg.det.est new then .fresh
  else match alt with
    | none => .stay
    | some (_, am) =>
      if cfg.det.width new > 300 ∧ cfg.det.width am.det > 300 then
        let b := bound cfg (cfg.det.est new) (cfg.det.width am.det) (cfg.det.width new)
        if b < cfg.det.est new - cfg.det.est am.det then .switch
        else if b < cfg.det.est am.det - cfg.det.est new then .drop
        else .stay
      else .stay

/-- The alternate tree after lines 58-92. -/
def reacted (cfg : RCfg O D) (r : React) (alt : Option (Leaf O × Mon D)) : Option (Leaf O × Mon D) :=
  match r with
  | .fresh => some (newLeaf cfg.base true none .unset, newMon cfg)
  | .drop => none
  | _ => alt

/-- Lines 95-96: the alternate leaf learns with `parent` and `parent_branch` of the node.  Result: the
alternate tree, and the node that takes the place of this one, if any (the alternate leaf after a
switch, or a split node that the alternate leaf was turned into). -/
def learnAlt (cfg : RCfg O D) (s : Sums) (e : Ev O) (switched : Bool) (depth : Nat) (alt : Option (Leaf O × Mon D)) :
    Except PyErr (Option (Leaf O × Mon D) × Option (N O D)) :=
  match alt with
  | none => .ok (none, none)
  | some (l, m) =>
    match leafLearn cfg s e (e.draw depth true) (e.init depth true) l m with
    | .error err => .error err
    | .ok (.stays l' m') => .ok (some (l', m'), if switched then some (.leaf l' m') else none)
    | .ok (.becomes n) => .ok (some (l, m), some n)

/-- Lines 102-112, a new leaf for an unseen category.  It learns with `parent` and `parent_branch` of
the split node, so that a split right away replaces the split node.  `over`: the node that took the
place of this one before. -/
def sprout (cfg : RCfg O D) (s : Sums) (e : Ev O) (depth : Nat) (st : Option Stat) (m : Mon D)
    (alt : Option (Leaf O × Mon D)) (over : Option (N O D)) (kids : K O D) : Test → Except PyErr (N O D)
  | .multi mt =>
    match xget e.x mt.att with
    | .error err => .error err
    | .ok v =>
      match mt.addBranch v with
      | .error err => .error err
      | .ok (id, mt') =>
        match leafLearn cfg s e (e.draw (depth + 1) false) (e.init (depth + 1) false)
            (newLeaf cfg.base true none .unset) (newMon cfg) with
        | .error err => .error err
        | .ok (.stays l' m') => .ok (over.getD (.split (.multi mt') st m alt (kids.snoc id (.leaf l' m'))))
        | .ok (.becomes n) => .ok n
  | _ => .error .attributeError

mutual
/-- `learn_one`: leaves 194-224, split nodes 36-112.  The result is the node that is then found where
`parent` and `parent_branch` point to. -/
def N.learn (cfg : RCfg O D) (s : Sums) (e : Ev O) (depth : Nat) : N O D → Except PyErr (N O D)
  | .leaf l m =>
    match leafLearn cfg s e (e.draw depth false) (e.init depth false) l m with
    | .error err => .error err
    | .ok r => .ok r.node
  | .split t st m alt kids =>
    match (N.split t st m alt kids).route e.x with
    | .error err => .error err
    | .ok en =>
      match endPred cfg s e.x en with
      | .error err => .error err
      | .ok p =>
        match learnAlt cfg s e (decide (react cfg m.det (nodeWatch cfg m e.y p).det alt = .switch)) depth
            (reacted cfg (react cfg m.det (nodeWatch cfg m e.y p).det alt) alt) with
        | .error err => .error err
        | .ok a =>
          match t.branch e.x with
          | .error err => .error err
          | .ok b =>
            if b ≥ 0 then
              match kids.learn cfg s e (depth + 1) b.toNat with
              | .error err => .error err
              | .ok kids' => .ok (a.2.getD (.split t st (nodeWatch cfg m e.y p) a.1 kids'))
            else sprout cfg s e depth st (nodeWatch cfg m e.y p) a.1 a.2 kids t
/-- Lines 97-101.  (A branch without child does not occur.) -/
def K.learn (cfg : RCfg O D) (s : Sums) (e : Ev O) (depth : Nat) : K O D → Nat → Except PyErr (K O D)
  | .nil, _ => .error .other
  | .cons j t rest, b =>
    if b = j then
      match t.learn cfg s e depth with
      | .error err => .error err
      | .ok t' => .ok (.cons j t' rest)
    else
      match rest.learn cfg s e depth b with
      | .error err => .error err
      | .ok rest' => .ok (.cons j t rest')
end

/-- The regressor. -/
structure Reg (O D : Type) where
  sums : Sums := {}
  root : Option (N O D) := none

/-- `_partial_fit`, 181-212. -/
def step (cfg : RCfg O D) (h : Reg O D) (e : Ev O) : Except PyErr (Reg O D) :=
  match (h.root.getD (.leaf (newLeaf cfg.base true none .unset) (newMon cfg))).learn cfg (h.sums.add e.x e.y e.w) e 0 with
  | .error err => .error err
  | .ok r => .ok ⟨h.sums.add e.x e.y e.w, some r⟩

/-- A sequence of training rows. -/
def run (cfg : RCfg O D) (h : Reg O D) : List (Ev O) → Except PyErr (Reg O D)
  | [] => .ok h
  | e :: es =>
    match step cfg h e with
    | .error err => .error err
    | .ok h' => run cfg h' es

/-- One row of `predict`, hoeffding_tree_regressor.py 416-422. -/
def predictOne (cfg : RCfg O D) (s : Sums) (r : N O D) (x : List ℚ) : Except PyErr (Option ℚ) :=
  match r.route x with
  | .error e => .error e
  | .ok (.leaf l) => leafPred cfg s l x
  | .ok (.stuck none) => .error .keyError
  | .ok (.stuck (some st)) => .ok (mean (some st))
  | .ok .missing => .error .attributeError

/-- All rows. -/
def predictAll (cfg : RCfg O D) (s : Sums) (r : N O D) : List (List ℚ) → Except PyErr (List (Option ℚ))
  | [] => .ok []
  | x :: xs =>
    match predictOne cfg s r x with
    | .error e => .error e
    | .ok p =>
      match predictAll cfg s r xs with
      | .error e => .error e
      | .ok ps => .ok (p :: ps)

/-- `predict`, hoeffding_tree_regressor.py 398-426. -/
def predict (cfg : RCfg O D) (h : Reg O D) (rows : List (List ℚ)) : Except PyErr (List (Option ℚ)) :=
  match h.root with
  | none => .ok [some 0]
  | some r => if h.sums.n > 0 then predictAll cfg h.sums r rows else .ok [some 0]

end Verif.Trees.HRA
