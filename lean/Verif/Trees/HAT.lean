import Verif.Trees.EFDT

/-!
Model of `trees/hoeffding_adaptive_tree.py` and `trees/_nodes/hatc_nodes.py`: training and
votes of the Hoeffding adaptive tree.

Simplifications: attribute observers, the error detector (ADWIN) and the bound of lines
229-232 are arbitrary parameters, as are the outcome of a split attempt on a leaf of several
classes and the Poisson draws.  `_alternate_tree` is only ever assigned a new leaf (219) or
`None` (249), and a leaf that splits is replaced in its parent, so an alternate tree is
always a single leaf; the branch of line 246 for alternate split nodes is never taken.
`_estimate_model_byte_size` is never called by this class, so all size estimates stay 0 and
`_enforce_tracker_limit` either returns (`stop_mem_management`) or activates every inactive
leaf (`max_byte_size` being non-negative).  `disable_attribute` does nothing on these leaves
(htc_nodes.py 190-201).
-/

namespace Verif.Trees.HA

open Verif.Trees Verif.Trees.HL

/-- What is used of a detector: a new one, adding an outcome (`true` an error), whether the
last one signalled a change, the estimate and the width. -/
structure Det (D : Type) where
  new : D
  add : D → Bool → D
  change : D → Bool
  est : D → ℚ
  width : D → ℚ

/-- Parameters of the tree: those of the Hoeffding tree (`kind` is `leaf_prediction`),
`bootstrap_sampling`, `stop_mem_management`, the detectors and the bound from the error rate
and the two widths (229-232). -/
structure HCfg (O D : Type) where
  base : Cfg O
  boot : Bool
  stop : Bool
  det : Det D
  bound : ℚ → ℚ → ℚ → ℚ

variable {O D : Type}

/-- Leaves always learn as adaptive naive Bayes leaves (hatc_nodes.py 51, 113). -/
def HCfg.lcfg (cfg : HCfg O D) : Cfg O := { cfg.base with kind := .nba }

mutual
/-- A node: a leaf (`AdaLearningNode`, or inactive) with its detector, or an `AdaSplitNode` with
test, statistics, detector, alternate leaf and children. -/
inductive N (O D : Type) where
  | leaf (l : Leaf O) (d : D)
  | split (t : Test) (stats : Stats) (d : D) (alt : Option (Leaf O × D)) (kids : K O D)
/-- `_children`: branch ids and nodes. -/
inductive K (O D : Type) where
  | nil
  | cons (id : Nat) (n : N O D) (rest : K O D)
end

/-- `set_child` with a new key. -/
def K.snoc : K O D → Nat → N O D → K O D
  | .nil, i, t => .cons i t .nil
  | .cons j u rest, i, t => .cons j u (rest.snoc i t)

/-- The counters of the tree: `_active_leaf_node_cnt`, `_inactive_leaf_node_cnt`,
`_decision_node_cnt`, `alternate_trees_cnt`, `pruned_alternate_trees_cnt`,
`switch_alternate_trees_cnt`; also used for changes of them. -/
structure Cnt where
  actives : Int := 0
  inactives : Int := 0
  decisions : Int := 0
  alternates : Int := 0
  pruned : Int := 0
  switched : Int := 0
  deriving DecidableEq

/-- Sum of changes. -/
def Cnt.add (a b : Cnt) : Cnt :=
  ⟨a.actives + b.actives, a.inactives + b.inactives, a.decisions + b.decisions, a.alternates + b.alternates,
    a.pruned + b.pruned, a.switched + b.switched⟩

/-- One training instance with what is decided outside the model: the outcome of a split
attempt and the Poisson draws, by depth and for the alternate or the main leaf. -/
structure Ev (O : Type) where
  x : List ℚ
  y : Int
  w : ℚ
  choose : Leaf O → Choice O
  draw : Nat → Bool → Nat

/-- `AdaLearningNode.predict_one`, hatc_nodes.py 122-140, with `LearningNodeNBA.predict_one`
(htc_nodes.py 105-123); inactive leaves answer with their statistics. -/
def leafVotes (cfg : HCfg O D) (l : Leaf O) (d : D) (x : List ℚ) : List (Int × ℚ) :=
  if l.active then
    let dist : List (Int × ℚ) := match cfg.base.kind with
      | .mc => l.stats
      | .nb => cfg.base.bayes l.stats l.obs x
      | .nba => if l.mc > l.nb then l.stats else cfg.base.bayes l.stats l.obs x
    let factor := (dist.map Prod.snd).sum * cfg.det.est d * cfg.det.est d
    if factor > 0 then dist.map fun p => (p.1, p.2 / factor) else dist
  else l.stats

/-- `get_max_value_key`, utils.py 67-83. -/
def classOf (v : List (Int × ℚ)) : Int := (maxKey v).getD 0

/-- The weight an instance is learned with, lines 89-93. -/
def bootWeight (boot : Bool) (k : Nat) (w : ℚ) : ℚ := if boot then (if k > 0 then w * k else w) else w

/-- Leaves with the given statistics, numbered from `i` (hoeffding_tree.py 619-622). -/
def newKids (cfg : HCfg O D) : Nat → List Stats → K O D
  | _, [] => .nil
  | i, d :: ds => .cons i (.leaf (newLeaf cfg.base true d) cfg.det.new) (newKids cfg (i + 1) ds)

/-- A leaf after `learn_one`: it stays, or the node that was put at its parent's branch. -/
inductive Out (O D : Type) where
  | stays (l : Leaf O) (d : D)
  | becomes (n : N O D)

/-- The node at the branch afterwards. -/
def Out.node : Out O D → N O D
  | .stays l d => .leaf l d
  | .becomes n => n

/-- The split attempt of lines 117-119 (hoeffding_tree.py 552-631).  A pruned leaf becomes
inactive and, unless memory management is stopped, is at once activated again by
`_enforce_tracker_limit` if it is still in the tree (`attached`). -/
def attempt (cfg : HCfg O D) (e : Ev O) (attached : Bool) (l : Leaf O) (d : D) : Out O D × Cnt :=
  if total l.stats - l.last ≥ cfg.base.grace then
    if EF.isPure l.stats then (.stays { l with last := total l.stats } d, {})
    else match e.choose l with
      | .keep _ => (.stays { l with last := total l.stats } d, {})
      | .prune => (.becomes (.leaf (newLeaf cfg.base (!cfg.stop) l.stats) cfg.det.new),
          if attached && !cfg.stop then {} else { actives := -1, inactives := 1 })
      | .split t ds => (.becomes (.split t l.stats cfg.det.new none (newKids cfg 0 ds)),
          { actives := (ds.length : Int) - 1, decisions := 1 })
  else (.stays l d, {})

/-- `AdaLearningNode.learn_one`, lines 86-119; `k` is the Poisson draw. -/
def leafLearn (cfg : HCfg O D) (e : Ev O) (attached : Bool) (k : Nat) (l : Leaf O) (d : D) : Out O D × Cnt :=
  attempt cfg e attached (l.learn cfg.lcfg e.x e.y (bootWeight cfg.boot k e.w))
    (cfg.det.add d (decide (e.y ≠ classOf (leafVotes cfg l d e.x))))

mutual
/-- The class predicted at the node an instance is routed to, lines 194-198 with
`filter_instance_to_leaf` (base.py 56-74, 266-292). -/
def N.predicted (cfg : HCfg O D) (x : List ℚ) : N O D → Except PyErr Int
  | .leaf l d => .ok (classOf (leafVotes cfg l d x))
  | .split t s _ _ kids =>
    match t.branch x with
    | .error e => .error e
    | .ok b => if b ≥ 0 then kids.predicted cfg x b.toNat else .ok (classOf s)
/-- See `N.predicted`; class 0 for a missing child. -/
def K.predicted (cfg : HCfg O D) (x : List ℚ) : K O D → Nat → Except PyErr Int
  | .nil, _ => .ok 0
  | .cons j t rest, b => if b = j then t.predicted cfg x else rest.predicted cfg x b
end

mutual
/-- `n_leaves`, lines 68-70 and 168-175; an inactive leaf has no such attribute. -/
def N.nLeaves : N O D → Except PyErr Int
  | .leaf l _ => if l.active then .ok 1 else .error .attributeError
  | .split _ _ _ _ kids => kids.nLeaves
/-- See `N.nLeaves`. -/
def K.nLeaves : K O D → Except PyErr Int
  | .nil => .ok 0
  | .cons _ t rest =>
    match t.nLeaves, rest.nLeaves with
    | .ok a, .ok b => .ok (a + b)
    | .error e, _ => .error e
    | _, .error e => .error e
end

mutual
/-- The changes made by lines 278-293 for one child. -/
def N.kill : N O D → Cnt
  | .leaf l _ => if l.active then { actives := -1 } else { inactives := -1 }
  | .split _ _ _ alt kids => Cnt.add (if alt.isSome then { pruned := 1 } else {}) kids.kill
/-- `kill_tree_children`, lines 277-293. -/
def K.kill : K O D → Cnt
  | .nil => {}
  | .cons _ t rest => Cnt.add t.kill rest.kill
end

/-- What a split node does about its alternate tree. -/
inductive React where
  | fresh | switch | drop | stay
  deriving DecidableEq

/-- Lines 212-250: `old` and `new` are the detector before and after the outcome was added. -/
def react (cfg : HCfg O D) (old new : D) (alt : Option (Leaf O × D)) : React :=
  if cfg.det.change new ∧ ¬ cfg.det.est old > cfg.det.est new then .fresh
  else match alt with
    | none => .stay
    | some (_, ad) =>
      if cfg.det.width new > 300 ∧ cfg.det.width ad > 300 then
        let b := cfg.bound (cfg.det.est new) (cfg.det.width ad) (cfg.det.width new)
        if b < cfg.det.est new - cfg.det.est ad then .switch
        else if b < cfg.det.est ad - cfg.det.est new then .drop
        else .stay
      else .stay

/-- The alternate tree after lines 218-250 and the changes of the counters. -/
def reacted (cfg : HCfg O D) (r : React) (alt : Option (Leaf O × D)) (kids : K O D) :
    Except PyErr (Option (Leaf O × D) × Cnt) :=
  match r with
  | .fresh => .ok (some (newLeaf cfg.base true [], cfg.det.new), { alternates := 1 })
  | .switch =>
    match kids.nLeaves with
    | .error e => .error e
    | .ok n => .ok (alt, Cnt.add { actives := 1 - n, switched := 1 } kids.kill)
  | .drop => .ok (none, { pruned := 1 })
  | .stay => .ok (alt, {})

/-- Lines 253-254: the alternate leaf learns with the parent and branch of the split node.
Result: the alternate tree, the node that now stands at the place of the split node if it
was replaced, and the changes of the counters. -/
def learnAlt (cfg : HCfg O D) (e : Ev O) (attached switched : Bool) (k : Nat) (alt : Option (Leaf O × D)) :
    Option (Leaf O × D) × Option (N O D) × Cnt :=
  match alt with
  | none => (none, none, {})
  | some (l, d) =>
    let r := leafLearn cfg e attached k l d
    match r.1 with
    | .stays l' d' => (some (l', d'), if switched then some (.leaf l' d') else none, r.2)
    | .becomes n => (some (l, d), some n, r.2)

mutual
/-- `AdaSplitNode.learn_one`, lines 192-271, and `AdaLearningNode.learn_one`: the node at this
place afterwards and the changes of the counters.  `attached`: the node is still part of the
tree.  An inactive leaf does not take the arguments of line 258.  The new leaf of line 271
holds one class, so its split attempt changes nothing but the time of the attempt. -/
def N.learn (cfg : HCfg O D) (e : Ev O) (attached : Bool) (depth : Nat) : N O D → Except PyErr (N O D × Cnt)
  | .leaf l d =>
    if l.active then
      let r := leafLearn cfg e attached (e.draw depth false) l d
      .ok (r.1.node, r.2)
    else .error .typeError
  | .split t s d alt kids =>
    match (N.split t s d alt kids).predicted cfg e.x with
    | .error err => .error err
    | .ok c =>
      let d' := cfg.det.add d (decide (e.y ≠ c))
      let r := react cfg d d' alt
      match reacted cfg r alt kids with
      | .error err => .error err
      | .ok (alt1, c1) =>
        let a := learnAlt cfg e attached (decide (r = .switch)) (e.draw depth true) alt1
        match t.branch e.x with
        | .error err => .error err
        | .ok b =>
          if b ≥ 0 then
            match kids.learn cfg e (attached && a.2.1.isNone) (depth + 1) b.toNat with
            | .error err => .error err
            | .ok (kids', c3) => .ok (a.2.1.getD (.split t s d' a.1 kids'), (c1.add a.2.2).add c3)
          else
            match t with
            | .multi m =>
              match xget e.x m.att with
              | .error err => .error err
              | .ok v =>
                match m.addBranch v with
                | .error err => .error err
                | .ok (id, m') =>
                  let r := leafLearn cfg e (attached && a.2.1.isNone) (e.draw (depth + 1) false)
                    (newLeaf cfg.base true []) cfg.det.new
                  .ok (a.2.1.getD (.split (.multi m') s d' a.1 (kids.snoc id r.1.node)),
                    ((c1.add a.2.2).add { actives := 1 }).add r.2)
            | _ => .ok (a.2.1.getD (.split t s d' a.1 kids), c1.add a.2.2)
/-- Lines 255-258 for the child of branch `b`; a missing child is left alone. -/
def K.learn (cfg : HCfg O D) (e : Ev O) (attached : Bool) (depth : Nat) :
    K O D → Nat → Except PyErr (K O D × Cnt)
  | .nil, _ => .ok (.nil, {})
  | .cons j t rest, b =>
    if b = j then
      match t.learn cfg e attached depth with
      | .error err => .error err
      | .ok (t', c) => .ok (.cons j t' rest, c)
    else
      match rest.learn cfg e attached depth b with
      | .error err => .error err
      | .ok (rest', c) => .ok (.cons j t rest', c)
end

/-- Root, counters and `_train_weight_seen_by_model`. -/
structure Tree (O D : Type) where
  root : Option (N O D) := none
  cnt : Cnt := {}
  seen : ℚ := 0

/-- An inactive leaf. -/
def N.inactive : N O D → Option (Leaf O × D)
  | .leaf l d => if l.active then none else some (l, d)
  | .split _ _ _ _ _ => none

/-- `_partial_fit`, hoeffding_adaptive_tree.py 181-188, and line 298 of hoeffding_tree.py. -/
def step (cfg : HCfg O D) (h : Tree O D) (e : Ev O) : Except PyErr (Tree O D) :=
  let r := h.root.getD (.leaf (newLeaf cfg.base true []) cfg.det.new)
  let c := if h.root.isSome then h.cnt else { h.cnt with actives := 1 }
  match r.inactive with
  | some (l, d) => .ok ⟨some (.leaf (l.learn cfg.lcfg e.x e.y e.w) d), c, h.seen + e.w⟩
  | none =>
    match r.learn cfg e true 0 with
    | .error err => .error err
    | .ok (r', c') => .ok ⟨some r', c.add c', h.seen + e.w⟩

/-- Training on a sequence of instances of non-zero weight. -/
def run (cfg : HCfg O D) (h : Tree O D) : List (Ev O) → Except PyErr (Tree O D)
  | [] => .ok h
  | e :: es =>
    match step cfg h e with
    | .error err => .error err
    | .ok h' => run cfg h' es

/-- `reset`, hoeffding_adaptive_tree.py 174-178. -/
def reset (h : Tree O D) : Tree O D :=
  { h with root := none, cnt := { h.cnt with alternates := 0, pruned := 0, switched := 0 } }

/-- Lines 313-315: an alternate leaf is found with the branch -999. -/
def altFound (cfg : HCfg O D) (x : List ℚ) : Option (Leaf O × D) → List (List (Int × ℚ) × Int)
  | none => []
  | some (l, d) => [(leafVotes cfg l d x, -999)]

mutual
/-- `filter_instance_to_leaves` without count updates, lines 143-147 and 296-315: the answer
of each found node (its parent's statistics if it is missing, hoeffding_adaptive_tree.py
207-210) and its `parent_branch`.  Inactive leaves have no such method. -/
def N.found (cfg : HCfg O D) (x : List ℚ) (pb : Int) : N O D → Except PyErr (List (List (Int × ℚ) × Int))
  | .leaf l d => if l.active then .ok [(leafVotes cfg l d x, pb)] else .error .attributeError
  | .split t s _ alt kids =>
    match t.branch x with
    | .error e => .error e
    | .ok b =>
      if b ≥ 0 then
        match kids.found cfg x pb s b.toNat with
        | .error e => .error e
        | .ok fs => .ok (fs ++ altFound cfg x alt)
      else .ok (altFound cfg x alt)
/-- See `N.found`; `s` is the statistics of the split node. -/
def K.found (cfg : HCfg O D) (x : List ℚ) (pb : Int) (s : Stats) :
    K O D → Nat → Except PyErr (List (List (Int × ℚ) × Int))
  | .nil, b => .ok [(s, (b : Int))]
  | .cons j t rest, b => if b = j then t.found cfg x pb else rest.found cfg x pb s b
end

/-- `add_dict_values` for one entry, utils.py 210-214. -/
def addEntry (r : List (Int × ℚ)) (p : Int × ℚ) : List (Int × ℚ) :=
  if r.any fun q => q.1 == p.1 then r.map fun q => if q.1 = p.1 then (q.1, q.2 + p.2) else q else r ++ [p]

/-- `_get_votes_for_instance`, hoeffding_adaptive_tree.py 198-213. -/
def votes (cfg : HCfg O D) (h : Tree O D) (x : List ℚ) : Except PyErr (List (Int × ℚ)) :=
  match h.root with
  | none => .ok []
  | some r =>
    match (match r.inactive with
      | some (l, d) => Except.ok [(leafVotes cfg l d x, (-1 : Int))]
      | none => r.found cfg x (-1)) with
    | .error e => .error e
    | .ok fs => .ok ((fs.filter fun f => f.2 ≠ -999).foldl (fun acc f => f.1.foldl addEntry acc) [])

end Verif.Trees.HA
