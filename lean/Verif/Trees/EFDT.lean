import Verif.Trees.Learn
import Mathlib.Data.List.Sort
import Mathlib.Algebra.Order.Monoid.WithTop

/-!
Model of `trees/extremely_fast_decision_tree.py` and `trees/_nodes/efdtc_nodes.py`:
training of the extremely fast decision tree.

Simplifications: attribute observers are an arbitrary state with an arbitrary update; the
split suggestions, the merit of the null split (already forced to 0 when it is -inf) and the
Hoeffding bound are arbitrary functions of the statistics and observers of a node; which
leaves the memory manager sets active or inactive, and whether growth is still allowed, are
arbitrary inputs of each step.  Merits are rationals or `⊥` for -inf.  `set_child` of a
two-way test raises beyond branch 1, which its `branch_for_instance` never returns, so the
check is not modelled.
-/

namespace Verif.Trees.EF

open Verif.Trees Verif.Trees.HL

/-- `get_atts_test_depends_on()[0]` of the three tests. -/
def attOf : Test → Int
  | .num t => t.att
  | .nom t => t.att
  | .multi t => t.att

/-- `AttributeSplitSuggestion`, attribute_split_suggestion.py 1-12. -/
structure Sugg where
  test : Test
  dists : List Stats
  merit : WithBot ℚ

/-- Parameters of the tree beyond those of the Hoeffding tree: `min_samples_reevaluate`,
`tie_threshold`, and the split suggestions, null merit and Hoeffding bound of a node. -/
structure ECfg (O : Type) where
  base : Cfg O
  minReeval : ℚ
  tie : ℚ
  suggest : Stats → O → List Sugg
  nullMerit : Stats → ℚ
  bound : Stats → ℚ

variable {O : Type}

mutual
/-- A tree node: a learning node, or an `EFDTSplitNode` (efdtc_nodes.py 82-101) with its
test, statistics, observers, weight at the last re-evaluation and children. -/
inductive N (O : Type) where
  | leaf (l : Leaf O)
  | split (t : Test) (stats : Stats) (obs : O) (seen : ℚ) (kids : K O)
/-- `_children`: branch ids and nodes. -/
inductive K (O : Type) where
  | nil
  | cons (id : Nat) (n : N O) (rest : K O)
end

/-- Number of children, `n_children`. -/
def K.length : K O → Nat
  | .nil => 0
  | .cons _ _ rest => rest.length + 1

/-- `set_child` with a new key. -/
def K.snoc : K O → Nat → N O → K O
  | .nil, i, t => .cons i t .nil
  | .cons j u rest, i, t => .cons j u (rest.snoc i t)

/-- Number of decision nodes and of leaves. -/
structure Cnt where
  splits : Int
  leaves : Int
  deriving DecidableEq

mutual
/-- `count_nodes`, efdtc_nodes.py 70-79, 160-180 and 252-263: children are looked up by
the ids `0, …, n_children - 1`. -/
def N.countNodes : N O → Cnt
  | .leaf _ => ⟨0, 1⟩
  | .split _ _ _ _ kids => let c := kids.countNodes kids.length; ⟨1 + c.splits, c.leaves⟩
/-- See `N.countNodes`; `n` is `n_children`. -/
def K.countNodes : K O → Nat → Cnt
  | .nil, _ => ⟨0, 0⟩
  | .cons j t rest, n =>
    let c := rest.countNodes n
    if j < n then ⟨t.countNodes.splits + c.splits, t.countNodes.leaves + c.leaves⟩ else c
end

/-- `observed_class_distribution_is_pure`, htc_nodes.py 45-61, efdtc_nodes.py 194-210. -/
def isPure (s : Stats) : Bool := decide ((s.filter fun p => p.2 ≠ 0).length < 2)

/-- `sort(key=attrgetter('merit'))`: stable, ascending. -/
def sortSuggs (l : List Sugg) : List Sugg := l.insertionSort fun a b => a.merit ≤ b.merit

/-- `find_attribute`, efdtc_nodes.py 125-147: the last suggestion on the attribute. -/
def findAttribute (a : Int) (l : List Sugg) : Option Sugg :=
  (l.filter fun s => attOf s.test = a).getLast?

/-- What a re-evaluation decides. -/
inductive Action where
  | keep
  | kill
  | replace (s : Sugg)
  | retest (t : Test)

/-- The decision of `_reevaluate_best_split`, extremely_fast_decision_tree.py 378-465, for
a node with test `t`, statistics `s` and observers `o`.  A merit difference above the
bound is `y + bound < x`, which is also what Python computes when merits are -inf.
`x_current` is `None` when the current attribute has no suggestion. -/
def reevaluate (cfg : ECfg O) (t : Test) (s : Stats) (o : O) : Except PyErr Action :=
  if isPure s then .ok .keep
  else
    let l := sortSuggs (cfg.suggest s o)
    match l.getLast? with
    | none => .ok .keep
    | some best =>
      let hb := cfg.bound s
      if best.merit + (hb : WithBot ℚ) < (cfg.nullMerit s : WithBot ℚ) then .ok .kill
      else
        match findAttribute (attOf t) l with
        | none => .error .attributeError
        | some cur =>
          if cur.merit + (hb : WithBot ℚ) < best.merit ∨ hb < cfg.tie then
            if attOf t ≠ attOf best.test then .ok (.replace best) else .ok (.retest best.test)
          else .ok .keep

/-- Leaves with the given statistics, numbered from `i` (lines 440-442, 521-523). -/
def newKids (cfg : ECfg O) : Nat → List Stats → K O
  | _, [] => .nil
  | i, d :: ds => .cons i (.leaf (newLeaf cfg.base true d)) (newKids cfg (i + 1) ds)

/-- A new split node on the statistics and observers of a node (434-442, 514-523). -/
def newSplit (cfg : ECfg O) (g : Sugg) (s : Stats) (o : O) : N O :=
  .split g.test s o (total s) (newKids cfg 0 g.dists)

/-- `_kill_subtree`, lines 540-559: a new leaf (its `last_split_attempt_at` is the weight
of no statistics) taking over statistics and observers. -/
def killed (s : Stats) (o : O) : N O := .leaf ⟨true, s, o, 0, 0, 0⟩

/-- The suggestion `_attempt_to_split` (468-538) splits on, if any. -/
def splitOn (cfg : ECfg O) (s : Stats) (o : O) : Option Sugg :=
  if isPure s then none
  else match (sortSuggs (cfg.suggest s o)).getLast? with
    | none => none
    | some best =>
      if (cfg.nullMerit s : WithBot ℚ) + (cfg.bound s : WithBot ℚ) < best.merit ∨ cfg.bound s < cfg.tie
      then some best else none

/-- Lines 302-309 with `_attempt_to_split`: the node that replaces an active leaf, and the
changes of the decision node and active leaf counters. -/
def attempt (cfg : ECfg O) (growth : Bool) (l : Leaf O) : N O × Cnt :=
  if growth ∧ l.active ∧ total l.stats - l.last ≥ cfg.base.grace then
    match splitOn cfg l.stats l.obs with
    | some g => (newSplit cfg g l.stats l.obs, ⟨1, (g.dists.length : Int) - 1⟩)
    | none => (.leaf { l with last := total l.stats }, ⟨0, 0⟩)
  else (.leaf l, ⟨0, 0⟩)

mutual
/-- `_sort_instance_into_leaf`, lines 333-342, with `filter_instance_to_leaf` (base.py
56-74, 266-292): the tree after the leaf has learnt, and the number of leaves created. -/
def N.sort (cfg : ECfg O) (x : List ℚ) (y : Int) (w : ℚ) : N O → Except PyErr (N O × Int)
  | .leaf l => .ok (.leaf (l.learn cfg.base x y w), 0)
  | .split t s o seen kids =>
    match t.branch x with
    | .error e => .error e
    | .ok b =>
      if b ≥ 0 then
        match kids.sort cfg x y w b.toNat with
        | .error e => .error e
        | .ok (kids', d) => .ok (.split t s o seen kids', d)
      else .ok (.split t s o seen kids, 0)
/-- See `N.sort`. -/
def K.sort (cfg : ECfg O) (x : List ℚ) (y : Int) (w : ℚ) : K O → Nat → Except PyErr (K O × Int)
  | .nil, b => .ok (.cons b (.leaf ((newLeaf cfg.base true []).learn cfg.base x y w)) .nil, 1)
  | .cons j t rest, b =>
    if b = j then
      match t.sort cfg x y w with
      | .error e => .error e
      | .ok (t', d) => .ok (.cons j t' rest, d)
    else
      match rest.sort cfg x y w b with
      | .error e => .error e
      | .ok (rest', d) => .ok (.cons j t rest', d)
end

/-- The decision taken at a split node that has just learnt (lines 287-291). -/
def decision (cfg : ECfg O) (t : Test) (s : Stats) (o : O) (seen : ℚ) : Except PyErr Action :=
  if total s - seen ≥ cfg.minReeval then reevaluate cfg t s o else .ok .keep

/-- The test of a node that is neither killed nor replaced (line 463). -/
def Action.test (t : Test) : Action → Test
  | .retest t' => t'
  | _ => t

mutual
/-- `_process_nodes`, lines 278-309, with the updates of `_reevaluate_best_split`
(407-463); second component: changes of the decision node and active leaf counters. -/
def N.process (cfg : ECfg O) (x : List ℚ) (y : Int) (w : ℚ) (growth : Bool) : N O → Except PyErr (N O × Cnt)
  | .leaf l => .ok (attempt cfg growth l)
  | .split t s o seen kids =>
    let s' := bump s y w
    let o' := cfg.base.update o x y w
    match decision cfg t s' o' seen with
    | .error e => .error e
    | .ok .kill =>
      let c := (N.split t s' o' seen kids).countNodes
      .ok (killed s' o', ⟨-c.splits, 1 - c.leaves⟩)
    | .ok (.replace g) =>
      let c := (N.split t s' o' seen kids).countNodes
      .ok (newSplit cfg g s' o', ⟨1 - c.splits, (g.dists.length : Int) - c.leaves⟩)
    | .ok a =>
      match (a.test t).branch x with
      | .error e => .error e
      | .ok b =>
        if b ≥ 0 then
          match kids.process cfg x y w growth b.toNat with
          | .error e => .error e
          | .ok (kids', c) => .ok (.split (a.test t) s' o' seen kids', c)
        else .ok (.split (a.test t) s' o' seen kids, ⟨0, 0⟩)
/-- See `N.process`; a missing child is left alone. -/
def K.process (cfg : ECfg O) (x : List ℚ) (y : Int) (w : ℚ) (growth : Bool) :
    K O → Nat → Except PyErr (K O × Cnt)
  | .nil, _ => .ok (.nil, ⟨0, 0⟩)
  | .cons j t rest, b =>
    if b = j then
      match t.process cfg x y w growth with
      | .error e => .error e
      | .ok (t', c) => .ok (.cons j t' rest, c)
    else
      match rest.process cfg x y w growth b with
      | .error e => .error e
      | .ok (rest', c) => .ok (.cons j t rest', c)
end

mutual
/-- Node at a path of branch ids. -/
def N.get : N O → Path → Option (N O)
  | t, [] => some t
  | .leaf _, _ :: _ => none
  | .split _ _ _ _ kids, i :: p => kids.get i p
/-- See `N.get`. -/
def K.get : K O → Nat → Path → Option (N O)
  | .nil, _, _ => none
  | .cons j t rest, i, p => if i = j then t.get p else rest.get i p
end

mutual
/-- Replace the node at a path. -/
def N.modify (f : N O → N O) : N O → Path → N O
  | t, [] => f t
  | .leaf l, _ :: _ => .leaf l
  | .split m s o v kids, i :: p => .split m s o v (kids.modify f i p)
/-- See `N.modify`. -/
def K.modify (f : N O → N O) : K O → Nat → Path → K O
  | .nil, _, _ => .nil
  | .cons j t rest, i, p => if i = j then .cons j (t.modify f p) rest else .cons j t (rest.modify f i p)
end

/-- Root and counters: `_tree_root`, `_decision_node_cnt`, `_active_leaf_node_cnt`,
`_inactive_leaf_node_cnt`. -/
structure Tree (O : Type) where
  root : Option (N O) := none
  decisions : Int := 0
  actives : Int := 0
  inactives : Int := 0

/-- `_activate_learning_node` / `_deactivate_learning_node` (hoeffding_tree.py 704-748) on
the leaf at a path, if it is of the other kind. -/
def flip (cfg : ECfg O) (h : Tree O) (q : Path × Bool) : Tree O :=
  match h.root with
  | none => h
  | some r =>
    match r.get q.1 with
    | some (.leaf l) =>
      if l.active = q.2 then h
      else
        let d : Int := if q.2 then 1 else -1
        { h with
          root := some (r.modify (fun _ => .leaf (newLeaf cfg.base q.2 l.stats)) q.1)
          actives := h.actives + d
          inactives := h.inactives - d }
    | _ => h

/-- One training instance and what is decided outside the model: leaves (de)activated by
the size estimate of line 344 and by `_enforce_tracker_limit` after a change of the tree. -/
structure Ev where
  x : List ℚ
  y : Int
  w : ℚ
  growth : Bool
  estimate : List (Path × Bool)
  enforce : List (Path × Bool)

/-- `_partial_fit`, lines 243-251. -/
def step (cfg : ECfg O) (h : Tree O) (e : Ev) : Except PyErr (Tree O) :=
  let h0 : Tree O := match h.root with
    | none => { h with root := some (.leaf (newLeaf cfg.base true [])), actives := 1 }
    | some _ => h
  match h0.root with
  | none => .ok h0
  | some r =>
    match r.sort cfg e.x e.y e.w with
    | .error err => .error err
    | .ok (r1, d) =>
      let h1 := e.estimate.foldl (flip cfg) { h0 with root := some r1, actives := h0.actives + d }
      match h1.root with
      | none => .ok h1
      | some r2 =>
        match r2.process cfg e.x e.y e.w e.growth with
        | .error err => .error err
        | .ok (r3, c) =>
          .ok (e.enforce.foldl (flip cfg)
            { h1 with root := some r3, decisions := h1.decisions + c.splits, actives := h1.actives + c.leaves })

/-- Training on a sequence of instances of non-zero weight (lines 221-224 skip the others). -/
def run (cfg : ECfg O) (h : Tree O) : List Ev → Except PyErr (Tree O)
  | [] => .ok h
  | e :: es =>
    match step cfg h e with
    | .error err => .error err
    | .ok h' => run cfg h' es

end Verif.Trees.EF
