import Verif.Trees.SplitTest
import Verif.Dict
import Mathlib.Tactic.Abel

/-!
Model of the learning part of `trees/hoeffding_tree.py`, `trees/_nodes/base.py` and
`trees/_nodes/htc_nodes.py`: routing of instances, class statistics of the leaves,
splitting, (de)activation of leaves, the adaptive naive Bayes leaves; C124, C125.

Simplifications: the attribute observers of a leaf are an arbitrary state with an
arbitrary update; the split decision of an attempt and the leaves chosen by the
memory manager are arbitrary inputs of each step (their logic is in
`Trees/Attempt.lean` and `Trees/Hoeffding.lean`); a node is addressed by the list of
branch ids leading to it; the node counters are in `Trees/Hoeffding.lean`.
-/

namespace Verif.Trees.HL

open Verif.Trees

/-- The three tests of a split node. -/
inductive Test where
  | num (t : NumTest)
  | nom (t : NomTest)
  | multi (t : MultiTest)

/-- `branch_for_instance`. -/
def Test.branch : Test → List ℚ → Except PyErr Int
  | .num t, x => t.branch x
  | .nom t, x => t.branch x
  | .multi t, x => t.branch x

/-- `branch_rule`. -/
def Test.rule : Test → Int → Except PyErr Predicate
  | .num t, b => .ok (t.rule b)
  | .nom t, b => .ok (t.rule b)
  | .multi t, b => t.rule b

/-- Class weights, `stats`: a dictionary in label order. -/
abbrev Stats := SDict Int ℚ

/-- `total_weight`, htc_nodes.py 33-43. -/
def total (s : Stats) : ℚ := (s.map Prod.snd).sum

/-- `update_stats`, htc_nodes.py 19-24. -/
def bump (s : Stats) (y : Int) (w : ℚ) : Stats := SDict.alter (fun o => o.getD 0 + w) s y

/-- `max(d, key=d.get)`: the first key with the largest value. -/
def maxKey : List (Int × ℚ) → Option Int
  | [] => none
  | a :: l => some (l.foldl (fun (b : Int × ℚ) c => if b.2 < c.2 then c else b) a).1

/-- A learning node: active or inactive, statistics, observers, the two counters of
adaptive leaves and the weight at the last split attempt. -/
structure Leaf (O : Type) where
  active : Bool
  stats : Stats
  obs : O
  mc : ℚ
  nb : ℚ
  last : ℚ

/-- `leaf_prediction`. -/
inductive Kind where
  | mc | nb | nba
  deriving DecidableEq

/-- Parameters of the tree: leaf kind, `nb_threshold`, `grace_period`, the observers
of a new leaf, their update and the naive Bayes votes from statistics and observers. -/
structure Cfg (O : Type) where
  kind : Kind
  nbThreshold : ℚ
  grace : ℚ
  fresh : O
  update : O → List ℚ → Int → ℚ → O
  bayes : Stats → O → List ℚ → List (Int × ℚ)

variable {O : Type}

/-- `_new_learning_node`, hoeffding_tree.py 472-487, and base.py 343-345. -/
def newLeaf (cfg : Cfg O) (active : Bool) (s : Stats) : Leaf O := ⟨active, s, cfg.fresh, 0, 0, total s⟩

/-- Did the majority class get `y` right (htc_nodes.py 93-98)? -/
def mcRight (s : Stats) (y : Int) : Bool :=
  match maxKey s with
  | none => y == 0
  | some k => k == y

/-- Did naive Bayes get `y` right (htc_nodes.py 99-101)? -/
def nbRight (cfg : Cfg O) (s : Stats) (o : O) (x : List ℚ) (y : Int) : Bool :=
  maxKey (cfg.bayes s o x) == some y

/-- `learn_one`: base.py 351-367, htc_nodes.py 26-28 and, for active adaptive leaves,
78-103.  Inactive leaves are of the majority kind and have no observers. -/
def Leaf.learn (cfg : Cfg O) (l : Leaf O) (x : List ℚ) (y : Int) (w : ℚ) : Leaf O :=
  let adaptive := l.active && decide (cfg.kind = .nba)
  { l with
    stats := bump l.stats y w
    obs := if l.active then cfg.update l.obs x y w else l.obs
    mc := if adaptive && mcRight l.stats y then l.mc + w else l.mc
    nb := if adaptive && nbRight cfg l.stats l.obs x y then l.nb + w else l.nb }

/-- `predict_one`: htc_nodes.py 30-31, 65-69 and 105-123. -/
def Leaf.votes (cfg : Cfg O) (l : Leaf O) (x : List ℚ) : List (Int × ℚ) :=
  if l.active then
    match cfg.kind with
    | .mc => l.stats
    | .nb => if total l.stats ≥ cfg.nbThreshold then cfg.bayes l.stats l.obs x else l.stats
    | .nba => if l.mc > l.nb then l.stats else cfg.bayes l.stats l.obs x
  else l.stats

mutual
/-- A tree node. -/
inductive T (O : Type) where
  | leaf (l : Leaf O)
  | split (t : Test) (stats : Stats) (kids : F O)
/-- `SplitNode._children`. -/
inductive F (O : Type) where
  | nil
  | cons (id : Nat) (t : T O) (rest : F O)
end

/-- Branch ids from the root. -/
abbrev Path := List Nat

mutual
/-- Node at a path. -/
def T.get : T O → Path → Option (T O)
  | t, [] => some t
  | .leaf _, _ :: _ => none
  | .split _ _ kids, i :: p => kids.get i p
/-- See `T.get`. -/
def F.get : F O → Nat → Path → Option (T O)
  | .nil, _, _ => none
  | .cons j t rest, i, p => if i = j then t.get p else rest.get i p
end

mutual
/-- Replace the node at a path. -/
def T.modify (f : T O → T O) : T O → Path → T O
  | t, [] => f t
  | .leaf l, _ :: _ => .leaf l
  | .split m s kids, i :: p => .split m s (kids.modify f i p)
/-- See `T.modify`. -/
def F.modify (f : T O → T O) : F O → Nat → Path → F O
  | .nil, _, _ => .nil
  | .cons j t rest, i, p => if i = j then .cons j (t.modify f p) rest else .cons j t (rest.modify f i p)
end

/-- Assignment of a new key in `_children`. -/
def F.snoc : F O → Nat → T O → F O
  | .nil, i, t => .cons i t .nil
  | .cons j u rest, i, t => .cons j u (rest.snoc i t)

/-- Result of routing: a node, or a missing child of a split node. -/
inductive Found where
  | node (p : Path)
  | missing (parent : Path) (branch : Nat)
  deriving DecidableEq

mutual
/-- `filter_instance_to_leaf`, base.py 56-74 and 266-292. -/
def T.filter (x : List ℚ) : T O → Path → Except PyErr Found
  | .leaf _, pre => .ok (.node pre)
  | .split t _ kids, pre =>
    match t.branch x with
    | .error e => .error e
    | .ok b => if b ≥ 0 then kids.filter x b.toNat pre else .ok (.node pre)
/-- See `T.filter`. -/
def F.filter (x : List ℚ) : F O → Nat → Path → Except PyErr Found
  | .nil, b, pre => .ok (.missing pre b)
  | .cons j t rest, b, pre => if b = j then t.filter x (pre ++ [b]) else rest.filter x b pre
end

/-- Leaves with the given statistics, numbered from `i` (hoeffding_tree.py 619-622). -/
def newKids (cfg : Cfg O) : Nat → List Stats → F O
  | _, [] => .nil
  | i, d :: ds => .cons i (.leaf (newLeaf cfg true d)) (newKids cfg (i + 1) ds)

/-- Outcome of a split attempt: keep the leaf (poor attributes disabled by `f`), prune,
or split with a test and the class distributions of its branches. -/
inductive Choice (O : Type) where
  | keep (f : O → O)
  | prune
  | split (t : Test) (dists : List Stats)

/-- One training instance, with what is decided outside the model: whether growth is
still allowed, the outcome of a split attempt, and the leaves the memory manager sets
active or inactive. -/
structure Ev (O : Type) where
  x : List ℚ
  y : Int
  w : ℚ
  growth : Bool
  choose : Leaf O → Choice O
  memory : List (Path × Bool)

/-- Lines 330-337 with `_attempt_to_split` (576-631) and `_deactivate_learning_node`. -/
def attempt (cfg : Cfg O) (e : Ev O) (l : Leaf O) : T O :=
  if e.growth ∧ l.active ∧ total l.stats - l.last ≥ cfg.grace then
    match e.choose l with
    | .keep f => .leaf { l with obs := f l.obs, last := total l.stats }
    | .prune => .leaf (newLeaf cfg false l.stats)
    | .split t ds => .split t l.stats (newKids cfg 0 ds)
  else .leaf l

/-- `_activate_learning_node` / `_deactivate_learning_node`, lines 704-748, on leaves of
the other kind (659, 664). -/
def setActive (cfg : Cfg O) (a : Bool) : T O → T O
  | .leaf l => if l.active = a then .leaf l else .leaf (newLeaf cfg a l.stats)
  | t => t

/-- The memory manager's changes. -/
def manage (cfg : Cfg O) (r : T O) (m : List (Path × Bool)) : T O :=
  m.foldl (fun r q => r.modify (setActive cfg q.2) q.1) r

/-- `_partial_fit`, lines 303-353.  `set_child` on a two-way test raises beyond branch 1. -/
def step (cfg : Cfg O) (root : Option (T O)) (e : Ev O) : Except PyErr (T O) :=
  let r := root.getD (.leaf (newLeaf cfg true []))
  let learnNew := (newLeaf cfg true []).learn cfg e.x e.y e.w
  match r.filter e.x [] with
  | .error err => .error err
  | .ok (.missing p b) =>
    match r.get p with
    | some (.split (.multi _) _ _) =>
      .ok (manage cfg (r.modify (fun n => match n with
        | .split t s kids => .split t s (kids.snoc b (attempt cfg e learnNew))
        | n => n) p) e.memory)
    | _ =>
      if b ≥ 2 then .error .indexError
      else .ok (manage cfg (r.modify (fun n => match n with
        | .split t s kids => .split t s (kids.snoc b (attempt cfg e learnNew))
        | n => n) p) e.memory)
  | .ok (.node p) =>
    match r.get p with
    | some (.leaf l) => .ok (manage cfg (r.modify (fun _ => attempt cfg e (l.learn cfg e.x e.y e.w)) p) e.memory)
    | some (.split (.multi m) s kids) =>
      match xget e.x m.att with
      | .error err => .error err
      | .ok v =>
        match m.addBranch v with
        | .error err => .error err
        | .ok (id, m') =>
          .ok (manage cfg (r.modify (fun _ => .split (.multi m') s (kids.snoc id (.leaf learnNew))) p) e.memory)
    | _ => .ok (manage cfg r e.memory)

/-- Training on a sequence of instances of non-zero weight (`partial_fit` skips the
others, lines 296-299). -/
def run (cfg : Cfg O) (root : Option (T O)) : List (Ev O) → Except PyErr (Option (T O))
  | [] => .ok root
  | e :: es =>
    match step cfg root e with
    | .error err => .error err
    | .ok r => run cfg (some r) es

/-! ### Specification -/

/-- Weight of class `c`. -/
def classWeight (s : Stats) (c : Int) : ℚ := ((s.filter fun p => p.1 = c).map Prod.snd).sum

mutual
/-- The leaves of a tree, left to right. -/
def T.leaves : T O → List (Leaf O)
  | .leaf l => [l]
  | .split _ _ kids => kids.leaves
/-- See `T.leaves`. -/
def F.leaves : F O → List (Leaf O)
  | .nil => []
  | .cons _ t rest => t.leaves ++ rest.leaves
end

/-- Weight of class `c` in a list of leaves. -/
def weightIn (ls : List (Leaf O)) (c : Int) : ℚ := (ls.map fun l => classWeight l.stats c).sum

/-- Weight of class `c` held by the leaves of a tree (nothing before the first instance). -/
def held (root : Option (T O)) (c : Int) : ℚ :=
  match root with
  | none => 0
  | some r => weightIn r.leaves c

/-- Weight of class `c` in a training sequence. -/
def trained (es : List (Ev O)) (c : Int) : ℚ := ((es.filter fun e => e.y = c).map Ev.w).sum

/-- A test on one of `n` attributes with `k` branches. -/
def Test.Ok (n k : Nat) : Test → Prop
  | .num t => 0 ≤ t.att ∧ t.att < n ∧ k = 2
  | .nom t => 0 ≤ t.att ∧ t.att < n ∧ k = 2
  | .multi t => 0 ≤ t.att ∧ t.att < n ∧ ∃ vals, t.Is vals ∧ k = vals.length

/-- A split decision: as many distributions as branches. -/
def Choice.Ok (n : Nat) : Choice O → Prop
  | .keep _ => True
  | .prune => True
  | .split t ds => t.Ok n ds.length

/-- A training instance with `n` attributes whose split decisions are sound. -/
def Ev.Ok (n : Nat) (e : Ev O) : Prop := e.x.length = n ∧ ∀ l, (e.choose l).Ok n

/-- The splits chosen share out every class weight of the leaf among the branches. -/
def Ev.SharesAll (e : Ev O) : Prop :=
  ∀ l t ds, e.choose l = .split t ds → ∀ c, (ds.map fun d => classWeight d c).sum = classWeight l.stats c

/-! ### Proofs -/

mutual
/-- The branch ids of every split node are `0, …, k-1`, `k` the branches of its test. -/
def T.WF (n : Nat) : T O → Prop
  | .leaf _ => True
  | .split t _ kids => ∃ k, t.Ok n k ∧ kids.WFfrom n 0 k
/-- See `T.WF`. -/
def F.WFfrom (n : Nat) : F O → Nat → Nat → Prop
  | .nil, i, k => i = k
  | .cons j t rest, i, k => j = i ∧ t.WF n ∧ rest.WFfrom n (i + 1) k
end

theorem classWeight_bump (s : Stats) (y : Int) (w : ℚ) (c : Int) :
    classWeight (bump s y w) c = classWeight s c + if y = c then w else 0 := by
  induction s with
  | nil => by_cases h : y = c <;> simp [bump, SDict.alter, classWeight, h]
  | cons a s ih =>
    obtain ⟨k, v⟩ := a
    unfold bump at ih ⊢
    rw [SDict.alter]
    by_cases h1 : y = k
    · subst h1
      by_cases h : y = c <;> simp [classWeight, h]
      ring
    · rw [if_neg h1]
      by_cases h2 : y < k
      · rw [if_pos h2]
        by_cases h : y = c <;> simp [classWeight, h]
        ring
      · rw [if_neg h2]
        unfold classWeight at ih ⊢
        by_cases h : k = c
        · simp only [List.filter_cons, h, decide_true, if_true, List.map_cons, List.sum_cons, ih]
          ring
        · simpa [List.filter_cons, h] using ih

theorem weightIn_append (a b : List (Leaf O)) (c : Int) :
    weightIn (a ++ b) c = weightIn a c + weightIn b c := by simp [weightIn]

mutual
theorem T.weight_modify (c : Int) (f : T O → T O) (t : T O) (p : Path) (s : T O) (h : t.get p = some s) :
    weightIn (t.modify f p).leaves c + weightIn s.leaves c = weightIn t.leaves c + weightIn (f s).leaves c := by
  match t, p with
  | .leaf a, [] => simp only [T.get, Option.some.injEq] at h; subst h; simp only [T.modify]; ring
  | .split m st kids, [] => simp only [T.get, Option.some.injEq] at h; subst h; simp only [T.modify]; ring
  | .leaf a, i :: p => simp [T.get] at h
  | .split m st kids, i :: p =>
    simp only [T.get] at h
    have := F.weight_modify c f kids i p s h
    simpa only [T.modify, T.leaves] using this
theorem F.weight_modify (c : Int) (f : T O → T O) (k : F O) (i : Nat) (p : Path) (s : T O)
    (h : k.get i p = some s) :
    weightIn (k.modify f i p).leaves c + weightIn s.leaves c = weightIn k.leaves c + weightIn (f s).leaves c := by
  match k with
  | .nil => simp [F.get] at h
  | .cons j t rest =>
    rw [F.get] at h
    rw [F.modify]
    by_cases e : i = j
    · rw [if_pos e] at h ⊢
      have := T.weight_modify c f t p s h
      simp only [F.leaves, weightIn_append]; linarith
    · rw [if_neg e] at h ⊢
      have := F.weight_modify c f rest i p s h
      simp only [F.leaves, weightIn_append]; linarith
end

mutual
theorem T.modify_none (f : T O → T O) (t : T O) (p : Path) (h : t.get p = none) : t.modify f p = t := by
  match t, p with
  | t, [] => simp [T.get] at h
  | .leaf a, i :: p => rfl
  | .split m st kids, i :: p =>
    simp only [T.get] at h
    simp only [T.modify, F.modify_none f kids i p h]
theorem F.modify_none (f : T O → T O) (k : F O) (i : Nat) (p : Path) (h : k.get i p = none) :
    k.modify f i p = k := by
  match k with
  | .nil => rfl
  | .cons j t rest =>
    rw [F.get] at h
    rw [F.modify]
    by_cases e : i = j
    · rw [if_pos e] at h ⊢; rw [T.modify_none f t p h]
    · rw [if_neg e] at h ⊢; rw [F.modify_none f rest i p h]
end

theorem F.leaves_snoc (k : F O) (i : Nat) (t : T O) : (k.snoc i t).leaves = k.leaves ++ t.leaves := by
  match k with
  | .nil => simp [F.snoc, F.leaves]
  | .cons j u rest => simp [F.snoc, F.leaves, F.leaves_snoc rest i t]

theorem newKids_leaves (cfg : Cfg O) (ds : List Stats) (i : Nat) :
    (newKids cfg i ds).leaves = ds.map (newLeaf cfg true) := by
  induction ds generalizing i with
  | nil => rfl
  | cons d ds ih => simp [newKids, F.leaves, T.leaves, ih]

theorem setActive_weight (cfg : Cfg O) (a : Bool) (t : T O) (c : Int) :
    weightIn (setActive cfg a t).leaves c = weightIn t.leaves c := by
  cases t with
  | split _ _ _ => rfl
  | leaf l => rw [setActive]; split <;> simp [T.leaves, weightIn, newLeaf]

theorem manage_weight (cfg : Cfg O) (m : List (Path × Bool)) (r : T O) (c : Int) :
    weightIn (manage cfg r m).leaves c = weightIn r.leaves c := by
  induction m generalizing r with
  | nil => rfl
  | cons q m ih =>
    have : manage cfg r (q :: m) = manage cfg (r.modify (setActive cfg q.2) q.1) m := rfl
    rw [this, ih]
    cases h : r.get q.1 with
    | none => rw [T.modify_none _ _ _ h]
    | some s =>
      have := T.weight_modify c (setActive cfg q.2) r q.1 s h
      rw [setActive_weight] at this
      linarith

theorem attempt_weight (cfg : Cfg O) (e : Ev O) (he : e.SharesAll) (l : Leaf O) (c : Int) :
    weightIn (attempt cfg e l).leaves c = classWeight l.stats c := by
  unfold attempt
  split
  · cases hc : e.choose l with
    | keep f => simp [T.leaves, weightIn]
    | prune => simp [T.leaves, weightIn, newLeaf]
    | split t ds =>
      simp only [T.leaves, newKids_leaves, weightIn, List.map_map]
      rw [← he l t ds hc c]
      rfl
  · simp [T.leaves, weightIn]

/-! Well-formed trees: routing never fails. -/

theorem Test.branch_ok {n k : Nat} {t : Test} (h : t.Ok n k) (x : List ℚ) (hx : x.length = n) :
    (∃ b : Nat, b < k ∧ t.branch x = .ok (b : Int)) ∨
    (∃ m, t = .multi m ∧ t.branch x = .ok (-1)) := by
  cases t with
  | num t =>
    obtain ⟨h1, h2, rfl⟩ := h
    obtain ⟨⟨b, e, hb⟩, _⟩ := C36_numeric t x h1 (by omega)
    left
    rcases hb with rfl | rfl
    · exact ⟨0, by omega, e⟩
    · exact ⟨1, by omega, e⟩
  | nom t =>
    obtain ⟨h1, h2, rfl⟩ := h
    obtain ⟨⟨b, e, hb⟩, _⟩ := C36_nominal_binary t x h1 (by omega)
    left
    rcases hb with rfl | rfl
    · exact ⟨0, by omega, e⟩
    · exact ⟨1, by omega, e⟩
  | multi t =>
    obtain ⟨h1, h2, vals, hv, rfl⟩ := h
    obtain ⟨v, hxv⟩ : ∃ v, x[t.att.toNat]? = some v := ⟨_, List.getElem?_eq_getElem (by omega)⟩
    by_cases hm : v ∈ vals
    · left
      obtain ⟨b, hb, e⟩ := List.getElem_of_mem hm
      exact ⟨b, hb, (hv.branch_iff x h1 v hxv b).2 (by rw [List.getElem?_eq_getElem hb, e])⟩
    · right
      refine ⟨t, rfl, ?_⟩
      have := C36_multiway_unknown t.att vals hv.2.1 hv.2.2 x h1 v hxv
      rw [← hv.1] at this
      exact this.2 hm

mutual
/-- In a well-formed tree an instance reaches a leaf or a multiway node with an unseen value. -/
theorem T.filter_ok (n : Nat) (x : List ℚ) (hx : x.length = n) (t : T O) (h : t.WF n) (pre : Path) :
    ∃ q s, t.filter x pre = .ok (.node (pre ++ q)) ∧ t.get q = some s ∧ s.WF n ∧
      ((∃ l, s = .leaf l) ∨ ∃ m st kids, s = .split (.multi m) st kids ∧ (Test.multi m).branch x = .ok (-1)) := by
  match t with
  | .leaf l => exact ⟨[], .leaf l, by simp [T.filter], rfl, trivial, .inl ⟨l, rfl⟩⟩
  | .split t st kids =>
    obtain ⟨k, h1, h2⟩ := h
    rcases Test.branch_ok h1 x hx with ⟨b, hb, e⟩ | ⟨m, rfl, e⟩
    · obtain ⟨q, s, f1, f2, f3, f4⟩ := F.filter_ok n x hx kids b pre 0 k h2 (by omega) hb
      refine ⟨b :: q, s, ?_, ?_, f3, f4⟩
      · rw [T.filter, e]
        simp only [ge_iff_le, Int.natCast_nonneg, if_true, Int.toNat_natCast, f1]
        simp
      · simpa only [T.get] using f2
    · refine ⟨[], .split (.multi m) st kids, ?_, rfl, ⟨k, h1, h2⟩, .inr ⟨m, st, kids, rfl, e⟩⟩
      rw [T.filter, e]
      simp
theorem F.filter_ok (n : Nat) (x : List ℚ) (hx : x.length = n) (kids : F O) (b : Nat) (pre : Path)
    (i k : Nat) (h : kids.WFfrom n i k) (h1 : i ≤ b) (h2 : b < k) :
    ∃ q s, kids.filter x b pre = .ok (.node (pre ++ [b] ++ q)) ∧ kids.get b q = some s ∧ s.WF n ∧
      ((∃ l, s = .leaf l) ∨ ∃ m st kids', s = .split (.multi m) st kids' ∧ (Test.multi m).branch x = .ok (-1)) := by
  match kids with
  | .nil => have : i = k := h; omega
  | .cons j t rest =>
    obtain ⟨rfl, ht, hr⟩ := h
    by_cases e : b = j
    · subst e
      obtain ⟨q, s, f1, f2, f3, f4⟩ := T.filter_ok n x hx t ht (pre ++ [b])
      exact ⟨q, s, by rw [F.filter, if_pos rfl, f1], by rw [F.get, if_pos rfl, f2], f3, f4⟩
    · obtain ⟨q, s, f1, f2, f3, f4⟩ := F.filter_ok n x hx rest b pre (j + 1) k hr (by omega) h2
      exact ⟨q, s, by rw [F.filter, if_neg e, f1], by rw [F.get, if_neg e, f2], f3, f4⟩
end

mutual
theorem T.WF_modify (n : Nat) (f : T O → T O) (t : T O) (p : Path) (h : t.WF n)
    (hf : ∀ s, t.get p = some s → s.WF n → (f s).WF n) : (t.modify f p).WF n := by
  match t, p with
  | t, [] => simpa [T.modify] using hf t (by simp [T.get]) h
  | .leaf a, i :: p => exact h
  | .split m st kids, i :: p =>
    obtain ⟨k, h1, h2⟩ := h
    exact ⟨k, h1, F.WF_modify n f kids i p 0 k h2 (fun s hs => hf s (by simpa only [T.get] using hs))⟩
theorem F.WF_modify (n : Nat) (f : T O → T O) (kids : F O) (i : Nat) (p : Path) (a k : Nat)
    (h : kids.WFfrom n a k) (hf : ∀ s, kids.get i p = some s → s.WF n → (f s).WF n) :
    (kids.modify f i p).WFfrom n a k := by
  match kids with
  | .nil => exact h
  | .cons j t rest =>
    obtain ⟨h1, h2, h3⟩ := h
    rw [F.modify]
    by_cases e : i = j
    · rw [if_pos e]
      exact ⟨h1, T.WF_modify n f t p h2 (fun s hs => hf s (by rw [F.get, if_pos e, hs])), h3⟩
    · rw [if_neg e]
      exact ⟨h1, h2, F.WF_modify n f rest i p (a + 1) k h3 (fun s hs => hf s (by rw [F.get, if_neg e, hs]))⟩
end

theorem F.WF_snoc (n : Nat) (kids : F O) (t : T O) (ht : t.WF n) (a k : Nat) (h : kids.WFfrom n a k) :
    (kids.snoc k t).WFfrom n a (k + 1) := by
  match kids with
  | .nil => have : a = k := h; subst this; exact ⟨rfl, ht, rfl⟩
  | .cons j u rest => exact ⟨h.1, h.2.1, F.WF_snoc n rest t ht (a + 1) k h.2.2⟩

theorem newKids_WF (cfg : Cfg O) (n : Nat) (ds : List Stats) (i : Nat) :
    (newKids cfg i ds).WFfrom n i (i + ds.length) := by
  induction ds generalizing i with
  | nil => rfl
  | cons d ds ih =>
    refine ⟨rfl, trivial, ?_⟩
    have := ih (i + 1)
    rwa [show i + 1 + ds.length = i + (d :: ds).length by simp; omega] at this

theorem attempt_WF (cfg : Cfg O) (n : Nat) (e : Ev O) (he : e.Ok n) (l : Leaf O) : (attempt cfg e l).WF n := by
  unfold attempt
  split
  · have := he.2 l
    cases hc : e.choose l with
    | keep f => trivial
    | prune => trivial
    | split t ds =>
      rw [hc] at this
      refine ⟨ds.length, this, ?_⟩
      have := newKids_WF cfg n ds 0
      rwa [Nat.zero_add] at this
  · trivial

theorem manage_WF (cfg : Cfg O) (n : Nat) (m : List (Path × Bool)) (r : T O) (h : r.WF n) :
    (manage cfg r m).WF n := by
  induction m generalizing r with
  | nil => exact h
  | cons q m ih =>
    refine ih _ (T.WF_modify n _ r q.1 h ?_)
    intro s _ hs
    cases s with
    | split _ _ _ => exact hs
    | leaf l => rw [setActive]; split <;> trivial

/-- A new value gets the next branch id and stays a well-formed test. -/
theorem addBranch_ok {n k : Nat} {m : MultiTest} (h : (Test.multi m).Ok n k) (x : List ℚ) (hx : x.length = n)
    (hb : (Test.multi m).branch x = .ok (-1)) :
    ∃ v m', xget x m.att = .ok v ∧ m.addBranch v = .ok (k, m') ∧ (Test.multi m').Ok n (k + 1) := by
  obtain ⟨h1, h2, vals, hv, rfl⟩ := h
  obtain ⟨v, hxv⟩ : ∃ v, x[m.att.toNat]? = some v := ⟨_, List.getElem?_eq_getElem (by omega)⟩
  have hun := C36_multiway_unknown m.att vals hv.2.1 hv.2.2 x h1 v hxv
  rw [← hv.1] at hun
  have hnm : v ∉ vals := hun.1 hb
  obtain ⟨m', e1, e2, e3⟩ := hv.see v
  have hl : m.map.lookup v = none := by
    rw [hv.1]
    exact (lookup_zipIdx_none vals v 0).2 hnm
  rw [if_neg hnm] at e3
  have hlast : ∃ id, m.addBranch v = .ok (id, m') := by
    rw [MultiTest.see, hl] at e1
    simp only at e1
    cases ha : m.addBranch v with
    | error e => rw [ha] at e1; cases e1
    | ok q => rw [ha] at e1; cases e1; exact ⟨q.1, rfl⟩
  obtain ⟨id, hid⟩ := hlast
  have : id = vals.length := by
    unfold MultiTest.addBranch at hid
    rw [hv.1] at hid
    obtain ⟨a, rest, rfl⟩ : ∃ a rest, vals = a :: rest := by
      cases vals with
      | nil => exact absurd rfl hv.2.2
      | cons a rest => exact ⟨a, rest, rfl⟩
    simp only [MultiTest.create, List.zipIdx_cons] at hid
    have hm := foldl_max_zipIdx rest (0 + 1) 0 (by omega)
    rw [hm] at hid
    simp only [Except.ok.injEq, Prod.mk.injEq] at hid
    rw [← hid.1]
    cases rest with
    | nil => rfl
    | cons b rest => simp
  subst this
  exact ⟨v, m', xget_of_lt x m.att h1 v hxv, hid,
    by rw [e2]; exact h1, by rw [e2]; exact h2, vals ++ [v], e3, by simp⟩

/-- What one training step does to a well-formed tree. -/
theorem step_spec (cfg : Cfg O) (n : Nat) (root : Option (T O)) (hroot : ∀ r, root = some r → r.WF n)
    (e : Ev O) (he : e.Ok n) :
    ∃ r' p s, step cfg root e = .ok (manage cfg r' e.memory) ∧ r'.WF n ∧
      (root.getD (.leaf (newLeaf cfg true []))).filter e.x [] = .ok (.node p) ∧
      (root.getD (.leaf (newLeaf cfg true []))).get p = some s ∧
      ((∃ l, s = .leaf l ∧
          r' = (root.getD (.leaf (newLeaf cfg true []))).modify
            (fun _ => attempt cfg e (l.learn cfg e.x e.y e.w)) p) ∨
       (∃ m m' st kids id, s = .split (.multi m) st kids ∧
          r' = (root.getD (.leaf (newLeaf cfg true []))).modify (fun _ => .split (.multi m') st
            (kids.snoc id (.leaf ((newLeaf cfg true []).learn cfg e.x e.y e.w)))) p)) := by
  have hr : (root.getD (.leaf (newLeaf cfg true []))).WF n := by
    cases root with
    | none => exact trivial
    | some r => exact hroot r rfl
  obtain ⟨p, s, f1, f2, f3, f4⟩ := T.filter_ok n e.x he.1 _ hr []
  rw [List.nil_append] at f1
  unfold step
  generalize root.getD (.leaf (newLeaf cfg true [])) = r at *
  rcases f4 with ⟨l, rfl⟩ | ⟨m, st, kids, rfl, hb⟩
  · refine ⟨r.modify (fun _ => attempt cfg e (l.learn cfg e.x e.y e.w)) p, p, .leaf l, ?_, ?_, f1, f2,
      .inl ⟨l, rfl, rfl⟩⟩
    · simp only [f1, f2]
    · exact T.WF_modify n _ r p hr (fun s _ _ => attempt_WF cfg n e he _)
  · obtain ⟨k, h1, h2⟩ := f3
    obtain ⟨v, m', g1, g2, g3⟩ := addBranch_ok h1 e.x he.1 hb
    refine ⟨r.modify (fun _ => .split (.multi m') st
        (kids.snoc k (.leaf ((newLeaf cfg true []).learn cfg e.x e.y e.w)))) p, p, _, ?_, ?_, f1, f2,
      .inr ⟨m, m', st, kids, k, rfl, rfl⟩⟩
    · simp only [f1, f2, g1, g2]
    · exact T.WF_modify n _ r p hr (fun s _ _ => ⟨k + 1, g3, F.WF_snoc n kids (.leaf _) trivial 0 k h2⟩)

theorem step_weight (cfg : Cfg O) (n : Nat) (root : Option (T O)) (hroot : ∀ r, root = some r → r.WF n)
    (e : Ev O) (he : e.Ok n) :
    ∃ r', step cfg root e = .ok r' ∧ r'.WF n ∧ (e.SharesAll → ∀ c,
      weightIn r'.leaves c = held root c + if e.y = c then e.w else 0) := by
  obtain ⟨r', p, s, h1, h2, _, h4, h5⟩ := step_spec cfg n root hroot e he
  refine ⟨_, h1, manage_WF cfg n e.memory r' h2, fun hsh c => ?_⟩
  rw [manage_weight]
  have h0 : weightIn (root.getD (.leaf (newLeaf cfg true []))).leaves c = held root c := by
    cases root with
    | none => simp [T.leaves, weightIn, newLeaf, classWeight, held]
    | some r => rfl
  rw [← h0]
  rcases h5 with ⟨l, rfl, rfl⟩ | ⟨m, m', st, kids, id, rfl, rfl⟩
  · have := T.weight_modify c (fun _ => attempt cfg e (l.learn cfg e.x e.y e.w)) _ p _ h4
    rw [attempt_weight cfg e hsh, show (l.learn cfg e.x e.y e.w).stats = bump l.stats e.y e.w from rfl,
      classWeight_bump, show (T.leaf l).leaves = [l] from rfl] at this
    have hl : weightIn [l] c = classWeight l.stats c := by simp [weightIn]
    linarith
  · have := T.weight_modify c (fun _ => .split (.multi m') st
      (kids.snoc id (.leaf ((newLeaf cfg true []).learn cfg e.x e.y e.w)))) _ p _ h4
    simp only [T.leaves, F.leaves_snoc, weightIn_append] at this
    have h6 : weightIn [(newLeaf cfg true []).learn cfg e.x e.y e.w] c = if e.y = c then e.w else 0 := by
      simp only [weightIn, List.map_cons, List.map_nil, List.sum_cons, List.sum_nil, Leaf.learn,
        classWeight_bump, newLeaf]
      simp [classWeight]
    linarith

/-- **C124** (partial). Training never fails, and if the splits share out the whole class
weights of the leaf, it loses nothing: at any time the class weights held by the leaves
add up, class by class, to the weight of the instances of that class seen, whatever the
tree has split, pruned, deactivated or reactivated.  The suggestions of the observers share
out what the observers of the leaf have seen, which is less than the leaf's class weights
when the leaf came out of a split or was reactivated: see `Trees/Conserve.lean`. -/
theorem C124_class_weight_conserved_partial (cfg : Cfg O) (n : Nat) (es : List (Ev O)) (he : ∀ e ∈ es, e.Ok n) :
    ∃ root, run cfg none es = .ok root ∧ ((∀ e ∈ es, e.SharesAll) → ∀ c, held root c = trained es c) := by
  have key : ∀ (es : List (Ev O)) (root : Option (T O)), (∀ e ∈ es, e.Ok n) →
      (∀ r, root = some r → r.WF n) → ∃ root', run cfg root es = .ok root' ∧
        ((∀ e ∈ es, e.SharesAll) → ∀ c, held root' c = held root c + trained es c) := by
    intro es
    induction es with
    | nil => intro root _ _; exact ⟨root, rfl, fun _ c => by simp [trained]⟩
    | cons e es ih =>
      intro root h1 h2
      obtain ⟨r', g1, g2, g3⟩ := step_weight cfg n root h2 e (h1 e List.mem_cons_self)
      obtain ⟨root', k1, k2⟩ := ih (some r') (fun e he => h1 e (List.mem_cons_of_mem _ he))
        (fun r hr => by cases hr; exact g2)
      refine ⟨root', by simp only [run, g1, k1], fun hsh c => ?_⟩
      rw [k2 (fun e he => hsh e (List.mem_cons_of_mem _ he)) c,
        show held (some r') c = weightIn r'.leaves c from rfl, g3 (hsh e List.mem_cons_self) c]
      have : trained (e :: es) c = (if e.y = c then e.w else 0) + trained es c := by
        by_cases h : e.y = c <;> simp [trained, h]
      rw [this]; ring
  obtain ⟨root, h1, h2⟩ := key es none he (by simp)
  exact ⟨root, h1, fun hsh c => by rw [h2 hsh c]; simp [held]⟩

mutual
theorem T.get_modify_leaf (f : T O → T O) (t : T O) (p q : Path) (l : Leaf O) (h : t.get q = some (.leaf l))
    (hf : ∀ q' s, q = p ++ q' → t.get p = some s → ∃ l', (f s).get q' = some (.leaf l') ∧ l'.stats = l.stats) :
    ∃ l', (t.modify f p).get q = some (.leaf l') ∧ l'.stats = l.stats := by
  match t, p with
  | t, [] => simpa [T.modify] using hf q t rfl (by simp [T.get])
  | .leaf a, i :: p => exact ⟨l, h, rfl⟩
  | .split m st kids, i :: p =>
    match q with
    | [] => simp [T.get] at h
    | j :: q =>
      simp only [T.get, T.modify] at h ⊢
      exact F.get_modify_leaf f kids i j p q l h (fun q' s hij hq hs =>
        hf q' s (by rw [hij, hq]; rfl) (by simpa only [T.get] using hs))
theorem F.get_modify_leaf (f : T O → T O) (kids : F O) (i j : Nat) (p q : Path) (l : Leaf O)
    (h : kids.get j q = some (.leaf l))
    (hf : ∀ q' s, j = i → q = p ++ q' → kids.get i p = some s →
      ∃ l', (f s).get q' = some (.leaf l') ∧ l'.stats = l.stats) :
    ∃ l', (kids.modify f i p).get j q = some (.leaf l') ∧ l'.stats = l.stats := by
  match kids with
  | .nil => simp [F.get] at h
  | .cons a t rest =>
    rw [F.get] at h
    rw [F.modify]
    by_cases e1 : i = a
    · rw [if_pos e1, F.get]
      by_cases e2 : j = a
      · rw [if_pos e2] at h ⊢
        exact T.get_modify_leaf f t p q l h (fun q' s hq hs =>
          hf q' s (by rw [e2, e1]) hq (by rw [F.get, if_pos e1, hs]))
      · rw [if_neg e2] at h ⊢
        exact ⟨l, h, rfl⟩
    · rw [if_neg e1, F.get]
      by_cases e2 : j = a
      · rw [if_pos e2] at h ⊢
        exact ⟨l, h, rfl⟩
      · rw [if_neg e2] at h ⊢
        exact F.get_modify_leaf f rest i j p q l h (fun q' s hij hq hs =>
          hf q' s hij hq (by rw [F.get, if_neg e1, hs]))
end

mutual
theorem T.get_append (t : T O) (p q : Path) (s : T O) (h : t.get p = some s) : t.get (p ++ q) = s.get q := by
  match t, p with
  | t, [] => simp only [T.get, Option.some.injEq] at h; subst h; rfl
  | .leaf a, i :: p => simp [T.get] at h
  | .split m st kids, i :: p =>
    simp only [T.get, List.cons_append] at h ⊢
    exact F.get_append kids i p q s h
theorem F.get_append (kids : F O) (i : Nat) (p q : Path) (s : T O) (h : kids.get i p = some s) :
    kids.get i (p ++ q) = s.get q := by
  match kids with
  | .nil => simp [F.get] at h
  | .cons j t rest =>
    rw [F.get] at h ⊢
    by_cases e : i = j
    · rw [if_pos e] at h ⊢; exact T.get_append t p q s h
    · rw [if_neg e] at h ⊢; exact F.get_append rest i p q s h
end

mutual
theorem T.get_modify_self (f : T O → T O) (t : T O) (p : Path) (s : T O) (h : t.get p = some s) :
    (t.modify f p).get p = some (f s) := by
  match t, p with
  | t, [] => simp only [T.get, Option.some.injEq] at h; subst h; simp [T.modify, T.get]
  | .leaf a, i :: p => simp [T.get] at h
  | .split m st kids, i :: p =>
    simp only [T.get, T.modify] at h ⊢
    exact F.get_modify_self f kids i p s h
theorem F.get_modify_self (f : T O → T O) (kids : F O) (i : Nat) (p : Path) (s : T O)
    (h : kids.get i p = some s) : (kids.modify f i p).get i p = some (f s) := by
  match kids with
  | .nil => simp [F.get] at h
  | .cons j t rest =>
    rw [F.get] at h
    rw [F.modify]
    by_cases e : i = j
    · rw [if_pos e] at h ⊢; rw [F.get, if_pos e]; exact T.get_modify_self f t p s h
    · rw [if_neg e] at h ⊢; rw [F.get, if_neg e]; exact F.get_modify_self f rest i p s h
end

mutual
/-- A split node stays where it is when leaves are (de)activated. -/
theorem T.get_setActive_split (cfg : Cfg O) (a : Bool) (r : T O) (p q : Path) (t : Test) (st : Stats) (kids : F O)
    (h : r.get q = some (.split t st kids)) :
    ∃ kids', (r.modify (setActive cfg a) p).get q = some (.split t st kids') := by
  match r, p, q with
  | .leaf l, _, [] => simp [T.get] at h
  | .leaf l, _, _ :: _ => simp [T.get] at h
  | .split m s ks, [], q => exact ⟨kids, by simpa [T.modify, setActive] using h⟩
  | .split m s ks, i :: p, [] =>
    simp only [T.get, Option.some.injEq, T.split.injEq] at h
    obtain ⟨rfl, rfl, rfl⟩ := h
    exact ⟨_, rfl⟩
  | .split m s ks, i :: p, j :: q =>
    simp only [T.get, T.modify] at h ⊢
    exact F.get_setActive_split cfg a ks i j p q t st kids h
theorem F.get_setActive_split (cfg : Cfg O) (a : Bool) (ks : F O) (i j : Nat) (p q : Path) (t : Test)
    (st : Stats) (kids : F O) (h : ks.get j q = some (.split t st kids)) :
    ∃ kids', (ks.modify (setActive cfg a) i p).get j q = some (.split t st kids') := by
  match ks with
  | .nil => simp [F.get] at h
  | .cons b u rest =>
    rw [F.get] at h
    rw [F.modify]
    by_cases e1 : i = b
    · rw [if_pos e1, F.get]
      by_cases e2 : j = b
      · rw [if_pos e2] at h ⊢; exact T.get_setActive_split cfg a u p q t st kids h
      · rw [if_neg e2] at h ⊢; exact ⟨kids, h⟩
    · rw [if_neg e1, F.get]
      by_cases e2 : j = b
      · rw [if_pos e2] at h ⊢; exact ⟨kids, h⟩
      · rw [if_neg e2] at h ⊢; exact F.get_setActive_split cfg a rest i j p q t st kids h
end

theorem manage_get_split (cfg : Cfg O) (m : List (Path × Bool)) (r : T O) (q : Path) (t : Test) (st : Stats)
    (kids : F O) (h : r.get q = some (.split t st kids)) :
    ∃ kids', (manage cfg r m).get q = some (.split t st kids') := by
  induction m generalizing r kids with
  | nil => exact ⟨kids, h⟩
  | cons a m ih =>
    obtain ⟨k1, g1⟩ := T.get_setActive_split cfg a.2 r a.1 q t st kids h
    exact ih _ k1 g1

theorem T.get_leaf_nil {l l' : Leaf O} {q : Path} (h : (T.leaf l).get q = some (.leaf l')) : q = [] ∧ l = l' := by
  cases q with
  | nil => simpa [T.get] using h
  | cons i q => simp [T.get] at h

theorem manage_get (cfg : Cfg O) (m : List (Path × Bool)) (r : T O) (q : Path) (l : Leaf O)
    (h : r.get q = some (.leaf l)) :
    ∃ l', (manage cfg r m).get q = some (.leaf l') ∧ l'.stats = l.stats := by
  induction m generalizing r l with
  | nil => exact ⟨l, h, rfl⟩
  | cons a m ih =>
    obtain ⟨l1, g1, g2⟩ := T.get_modify_leaf (setActive cfg a.2) r a.1 q l h (by
      intro q' s hq hs
      have : s.get q' = some (.leaf l) := by
        rw [← T.get_append r a.1 q' s hs, ← hq, h]
      cases s with
      | split t st kids => exact ⟨l, this, rfl⟩
      | leaf l0 =>
        obtain ⟨rfl, rfl⟩ := T.get_leaf_nil this
        rw [setActive]
        split
        · exact ⟨l0, rfl, rfl⟩
        · exact ⟨_, rfl, rfl⟩)
    obtain ⟨l2, k1, k2⟩ := ih _ l1 g1
    exact ⟨l2, k1, k2.trans g2⟩

theorem F.get_snoc (kids : F O) (i j : Nat) (t u : T O) (q : Path) (h : kids.get i q = some u) :
    (kids.snoc j t).get i q = some u := by
  match kids with
  | .nil => simp [F.get] at h
  | .cons a v rest =>
    rw [F.snoc, F.get]
    rw [F.get] at h
    by_cases e : i = a
    · rw [if_pos e] at h ⊢; exact h
    · rw [if_neg e] at h ⊢; exact F.get_snoc rest i j t u q h

/-- The node an instance is routed to. -/
def routed (cfg : Cfg O) (root : Option (T O)) (x : List ℚ) : Option Path :=
  match (root.getD (.leaf (newLeaf cfg true []))).filter x [] with
  | .ok (.node p) => some p
  | _ => none

/-- **C124.** A training instance is learned by the leaf it is routed to and by no
other: the statistics of every other leaf stay as they are, and the leaf it reaches
gets the weight of the instance for its class — as a leaf, or as the new split node
that takes its place. -/
theorem C124_only_its_leaf_learns (cfg : Cfg O) (n : Nat) (root : Option (T O))
    (hroot : ∀ r, root = some r → r.WF n) (e : Ev O) (he : e.Ok n) :
    ∃ r' p, step cfg root e = .ok r' ∧ r'.WF n ∧ routed cfg root e.x = some p ∧
      (∀ r q l, root = some r → r.get q = some (.leaf l) → q ≠ p →
        ∃ l', r'.get q = some (.leaf l') ∧ l'.stats = l.stats) ∧
      (∀ l, (root.getD (.leaf (newLeaf cfg true []))).get p = some (.leaf l) →
        (∃ l', r'.get p = some (.leaf l') ∧ l'.stats = bump l.stats e.y e.w) ∨
        (∃ t kids, r'.get p = some (.split t (bump l.stats e.y e.w) kids))) := by
  obtain ⟨r', p, s, h1, h2, h3, h4, h5⟩ := step_spec cfg n root hroot e he
  refine ⟨_, p, h1, manage_WF cfg n e.memory r' h2, by simp only [routed, h3], ?_, ?_⟩
  · intro r q l hr hq hne
    subst hr
    simp only [Option.getD_some] at h3 h4 h5
    have key : ∃ l', r'.get q = some (.leaf l') ∧ l'.stats = l.stats := by
      rcases h5 with ⟨l0, rfl, rfl⟩ | ⟨m, m', st, kids, id, rfl, rfl⟩
      · refine T.get_modify_leaf _ r p q l hq (fun q' s hqp hs => ?_)
        rw [h4] at hs
        cases hs
        have := T.get_append r p q' _ h4
        rw [← hqp, hq] at this
        obtain ⟨rfl, _⟩ := T.get_leaf_nil this.symm
        simp only [List.append_nil] at hqp
        exact absurd hqp hne
      · refine T.get_modify_leaf _ r p q l hq (fun q' s hqp hs => ?_)
        have := T.get_append r p q' _ h4
        rw [← hqp, hq] at this
        cases q' with
        | nil => simp [T.get] at this
        | cons i q' =>
          simp only [T.get] at this ⊢
          exact ⟨l, F.get_snoc kids i id _ _ q' this.symm, rfl⟩
    obtain ⟨l', k1, k2⟩ := key
    obtain ⟨l2, m1, m2⟩ := manage_get cfg e.memory r' q l' k1
    exact ⟨l2, m1, m2.trans k2⟩
  · intro l hl
    rw [h4] at hl
    cases hl
    rcases h5 with ⟨l0, hl0, rfl⟩ | ⟨m, m', st, kids, id, hs, _⟩
    · cases hl0
      have hg := T.get_modify_self (fun _ => attempt cfg e (l.learn cfg e.x e.y e.w)) _ p _ h4
      generalize (root.getD (.leaf (newLeaf cfg true []))).modify
        (fun _ => attempt cfg e (l.learn cfg e.x e.y e.w)) p = r' at hg ⊢
      have hleaf : ∀ l1 : Leaf O, attempt cfg e (l.learn cfg e.x e.y e.w) = .leaf l1 →
          l1.stats = bump l.stats e.y e.w → ∃ l', (manage cfg r' e.memory).get p = some (.leaf l') ∧
            l'.stats = bump l.stats e.y e.w := by
        intro l1 ha hst
        rw [ha] at hg
        obtain ⟨l', k1, k2⟩ := manage_get cfg e.memory r' p l1 hg
        exact ⟨l', k1, k2.trans hst⟩
      have hsplit : ∀ t st kids, attempt cfg e (l.learn cfg e.x e.y e.w) = .split t st kids →
          ∃ kids', (manage cfg r' e.memory).get p = some (.split t st kids') := by
        intro t st kids ha
        rw [ha] at hg
        exact manage_get_split cfg e.memory r' p t st kids hg
      by_cases hg1 : e.growth = true ∧ (l.learn cfg e.x e.y e.w).active = true ∧
          total (l.learn cfg e.x e.y e.w).stats - (l.learn cfg e.x e.y e.w).last ≥ cfg.grace
      · cases hc : e.choose (l.learn cfg e.x e.y e.w) with
        | keep f => exact .inl (hleaf _ (by unfold attempt; rw [if_pos hg1, hc]) rfl)
        | prune => exact .inl (hleaf _ (by unfold attempt; rw [if_pos hg1, hc]) rfl)
        | split t ds =>
          obtain ⟨kids', hk⟩ := hsplit t (bump l.stats e.y e.w) (newKids cfg 0 ds)
            (by unfold attempt; rw [if_pos hg1, hc]; rfl)
          exact .inr ⟨t, kids', hk⟩
      · exact .inl (hleaf _ (by unfold attempt; rw [if_neg hg1]) rfl)
    · cases hs

mutual
theorem T.get_modify_split (f : T O → T O) (t : T O) (p q : Path) (m : Test) (st : Stats) (ks : F O)
    (h : t.get q = some (.split m st ks))
    (hf : ∀ q' s, q = p ++ q' → t.get p = some s → ∃ m' st' ks', (f s).get q' = some (.split m' st' ks')) :
    ∃ m' st' ks', (t.modify f p).get q = some (.split m' st' ks') := by
  match t, p with
  | t, [] => simpa [T.modify] using hf q t rfl (by simp [T.get])
  | .leaf a, i :: p => exact ⟨m, st, ks, h⟩
  | .split m0 s0 kids, i :: p =>
    match q with
    | [] => exact ⟨m0, s0, kids.modify f i p, by simp [T.modify, T.get]⟩
    | j :: q =>
      simp only [T.get, T.modify] at h ⊢
      exact F.get_modify_split f kids i j p q m st ks h (fun q' s hij hq hs =>
        hf q' s (by rw [hij, hq]; rfl) (by simpa only [T.get] using hs))
theorem F.get_modify_split (f : T O → T O) (kids : F O) (i j : Nat) (p q : Path) (m : Test) (st : Stats)
    (ks : F O) (h : kids.get j q = some (.split m st ks))
    (hf : ∀ q' s, j = i → q = p ++ q' → kids.get i p = some s →
      ∃ m' st' ks', (f s).get q' = some (.split m' st' ks')) :
    ∃ m' st' ks', (kids.modify f i p).get j q = some (.split m' st' ks') := by
  match kids with
  | .nil => simp [F.get] at h
  | .cons a t rest =>
    rw [F.get] at h
    rw [F.modify]
    by_cases e1 : i = a
    · rw [if_pos e1, F.get]
      by_cases e2 : j = a
      · rw [if_pos e2] at h ⊢
        exact T.get_modify_split f t p q m st ks h (fun q' s hq hs =>
          hf q' s (by rw [e2, e1]) hq (by rw [F.get, if_pos e1, hs]))
      · rw [if_neg e2] at h ⊢
        exact ⟨m, st, ks, h⟩
    · rw [if_neg e1, F.get]
      by_cases e2 : j = a
      · rw [if_pos e2] at h ⊢
        exact ⟨m, st, ks, h⟩
      · rw [if_neg e2] at h ⊢
        exact F.get_modify_split f rest i j p q m st ks h (fun q' s hij hq hs =>
          hf q' s hij hq (by rw [F.get, if_neg e1, hs]))
end

/-- A split node stays a split node. -/
theorem step_split (cfg : Cfg O) (n : Nat) (r : T O) (hr : r.WF n) (e : Ev O) (he : e.Ok n) (r1 : T O)
    (h : step cfg (some r) e = .ok r1) (q : Path) (m : Test) (st : Stats) (ks : F O)
    (hq : r.get q = some (.split m st ks)) : ∃ m' st' ks', r1.get q = some (.split m' st' ks') := by
  obtain ⟨r', p, s, h1, h2, h3, h4, h5⟩ := step_spec cfg n (some r) (fun r0 h0 => by cases h0; exact hr) e he
  rw [h] at h1
  cases h1
  simp only [Option.getD_some] at h3 h4 h5
  have key : ∃ m' st' ks', r'.get q = some (.split m' st' ks') := by
    rcases h5 with ⟨l0, rfl, rfl⟩ | ⟨mt, m', st', kids, id, rfl, rfl⟩
    · refine T.get_modify_split _ r p q m st ks hq (fun q' s hqp hs => ?_)
      have := T.get_append r p q' _ h4
      rw [← hqp, hq] at this
      cases q' with
      | nil => simp [T.get] at this
      | cons i q' => simp [T.get] at this
    · refine T.get_modify_split _ r p q m st ks hq (fun q' s hqp hs => ?_)
      have := T.get_append r p q' _ h4
      rw [← hqp, hq] at this
      cases q' with
      | nil => exact ⟨_, _, _, T.get.eq_1 _⟩
      | cons i q' =>
        simp only [T.get] at this ⊢
        exact ⟨_, _, _, F.get_snoc kids i id _ _ q' this.symm⟩
  obtain ⟨m', st', ks', hk⟩ := key
  obtain ⟨ks2, hk2⟩ := manage_get_split cfg e.memory r' q m' st' ks' hk
  exact ⟨m', st', ks2, hk2⟩

/-- The instances of a training sequence that are routed to the node at `q`. -/
def received (cfg : Cfg O) (q : Path) : Option (T O) → List (Ev O) → List (Ev O)
  | _, [] => []
  | root, e :: es =>
    match step cfg root e with
    | .error _ => []
    | .ok r => (if routed cfg root e.x = some q then [e] else []) ++ received cfg q (some r) es

theorem run_append (cfg : Cfg O) (es fs : List (Ev O)) (root : Option (T O)) :
    run cfg root (es ++ fs) = match run cfg root es with
      | .error err => .error err
      | .ok r => run cfg r fs := by
  induction es generalizing root with
  | nil => rfl
  | cons e es ih =>
    simp only [List.cons_append, run]
    cases step cfg root e with
    | error err => rfl
    | ok r => simp only [ih]

theorem run_WF (cfg : Cfg O) (n : Nat) (es : List (Ev O)) (he : ∀ e ∈ es, e.Ok n) (root : Option (T O))
    (hroot : ∀ r, root = some r → r.WF n) :
    ∃ root', run cfg root es = .ok root' ∧ ∀ r, root' = some r → r.WF n := by
  induction es generalizing root with
  | nil => exact ⟨root, rfl, hroot⟩
  | cons e es ih =>
    obtain ⟨r', g1, g2, _⟩ := step_weight cfg n root hroot e (he e List.mem_cons_self)
    obtain ⟨root', k1, k2⟩ := ih (fun e h => he e (List.mem_cons_of_mem _ h)) (some r')
      (fun r hr => by cases hr; exact g2)
    exact ⟨root', by simp only [run, g1, k1], k2⟩

theorem run_split (cfg : Cfg O) (n : Nat) (es : List (Ev O)) (he : ∀ e ∈ es, e.Ok n) (r r1 : T O)
    (hr : r.WF n) (h : run cfg (some r) es = .ok (some r1)) (q : Path) (m : Test) (st : Stats) (ks : F O)
    (hq : r.get q = some (.split m st ks)) : ∃ m' st' ks', r1.get q = some (.split m' st' ks') := by
  induction es generalizing r m st ks with
  | nil => cases h; exact ⟨m, st, ks, hq⟩
  | cons e es ih =>
    obtain ⟨r', g1, g2, _⟩ := step_weight cfg n (some r) (fun r0 h0 => by cases h0; exact hr) e
      (he e List.mem_cons_self)
    simp only [run, g1] at h
    obtain ⟨m', st', ks', hk⟩ := step_split cfg n r hr e (he e List.mem_cons_self) r' g1 q m st ks hq
    exact ih (fun e h => he e (List.mem_cons_of_mem _ h)) r' g2 h m' st' ks' hk

/-- **C124.** The statistics of a leaf are exact: between two moments of training at
which a node is a leaf, its weight of each class grows by exactly the weight of the
instances of that class routed to it in between. -/
theorem C124_leaf_counts_its_instances (cfg : Cfg O) (n : Nat) (es fs : List (Ev O))
    (he : ∀ e ∈ es, e.Ok n) (hf : ∀ e ∈ fs, e.Ok n) (r r' : T O)
    (h1 : run cfg none es = .ok (some r)) (h2 : run cfg none (es ++ fs) = .ok (some r'))
    (q : Path) (l l' : Leaf O) (hl : r.get q = some (.leaf l)) (hl' : r'.get q = some (.leaf l')) (c : Int) :
    classWeight l'.stats c = classWeight l.stats c + trained (received cfg q (some r) fs) c := by
  rw [run_append, h1] at h2
  simp only at h2
  obtain ⟨root, e1, e2⟩ := run_WF cfg n es he none (by simp)
  rw [h1] at e1
  cases e1
  have hr := e2 r rfl
  clear h1 e2 he
  induction fs generalizing r l with
  | nil =>
    cases h2
    rw [hl] at hl'
    cases hl'
    simp [received, trained]
  | cons e fs ih =>
    obtain ⟨r1, p, g1, g2, g3, g4, g5⟩ := C124_only_its_leaf_learns cfg n (some r)
      (fun r0 h0 => by cases h0; exact hr) e (hf e List.mem_cons_self)
    simp only [run, g1] at h2
    simp only [received, g1, g3, Option.some.injEq]
    have hf' : ∀ e ∈ fs, e.Ok n := fun e h => hf e (List.mem_cons_of_mem _ h)
    by_cases hpq : p = q
    · subst hpq
      rcases g5 l hl with ⟨l1, k1, k2⟩ | ⟨t, ks, k1⟩
      · rw [ih hf' r1 h2 l1 k1 g2, k2, classWeight_bump, if_pos rfl]
        by_cases h : e.y = c <;> simp [trained, h]
        ring
      · obtain ⟨m', st', ks', k⟩ := run_split cfg n fs hf' r1 r' g2 h2 p _ _ _ k1
        rw [hl'] at k
        cases k
    · obtain ⟨l1, k1, k2⟩ := g4 r q l rfl hl (fun h => hpq h.symm)
      rw [ih hf' r1 h2 l1 k1 g2, k2, if_neg hpq, List.nil_append]

/-! ### C125: adaptive naive Bayes leaves -/

/-- The weight of the instances that `right` says the leaf, in its state just before
each instance, would have got right. -/
noncomputable def rightBefore (cfg : Cfg O) (right : Leaf O → List ℚ → Int → Prop) :
    Leaf O → List (List ℚ × Int × ℚ) → ℚ
  | _, [] => 0
  | l, (x, y, w) :: rest =>
    open Classical in
    (if right l x y then w else 0) + rightBefore cfg right (l.learn cfg x y w) rest

/-- `k` is the first label with the largest value. -/
def IsWinner (d : List (Int × ℚ)) (k : Int) : Prop :=
  ∃ pre v post, d = pre ++ (k, v) :: post ∧ (∀ q ∈ pre, q.2 < v) ∧ ∀ q ∈ post, q.2 ≤ v

theorem IsWinner.unique {d : List (Int × ℚ)} {k k' : Int} (h : IsWinner d k) (h' : IsWinner d k') : k = k' := by
  obtain ⟨pre, v, post, rfl, h1, h2⟩ := h
  obtain ⟨pre', v', post', e, h1', h2'⟩ := h'
  rw [List.append_eq_append_iff] at e
  rcases e with ⟨a, rfl, e⟩ | ⟨a, rfl, e⟩
  · cases a with
    | nil => simp only [List.nil_append, List.cons.injEq, Prod.mk.injEq] at e; exact e.1.1
    | cons b a =>
      simp only [List.cons_append, List.cons.injEq] at e
      obtain ⟨rfl, rfl⟩ := e
      have a1 := h1' (k, v) (by simp)
      have a2 := h2 (k', v') (by simp)
      exact absurd (lt_of_lt_of_le a1 a2) (lt_irrefl _)
  · cases a with
    | nil => simp only [List.nil_append, List.cons.injEq, Prod.mk.injEq] at e; exact e.1.1.symm
    | cons b a =>
      simp only [List.cons_append, List.cons.injEq] at e
      obtain ⟨rfl, rfl⟩ := e
      have a1 := h1 (k', v') (by simp)
      have a2 := h2' (k, v) (by simp)
      exact absurd (lt_of_lt_of_le a1 a2) (lt_irrefl _)

theorem maxKey_spec (a : Int × ℚ) (l : List (Int × ℚ)) :
    ∃ k, maxKey (a :: l) = some k ∧ IsWinner (a :: l) k := by
  have key : ∀ (l pre mid : List (Int × ℚ)) (b : Int × ℚ), (∀ q ∈ pre, q.2 < b.2) → (∀ q ∈ mid, q.2 ≤ b.2) →
      IsWinner (pre ++ b :: mid ++ l) (l.foldl (fun (b : Int × ℚ) c => if b.2 < c.2 then c else b) b).1 := by
    intro l
    induction l with
    | nil => intro pre mid b h1 h2; exact ⟨pre, b.2, mid, by simp, h1, h2⟩
    | cons c l ih =>
      intro pre mid b h1 h2
      rw [List.foldl_cons]
      by_cases hc : b.2 < c.2
      · rw [if_pos hc]
        have := ih (pre ++ b :: mid) [] c (by
          intro q hq
          rcases List.mem_append.1 hq with hq | hq
          · exact (h1 q hq).trans hc
          · rcases List.mem_cons.1 hq with rfl | hq
            · exact hc
            · exact lt_of_le_of_lt (h2 q hq) hc) (by simp)
        simpa using this
      · rw [if_neg hc]
        have := ih pre (mid ++ [c]) b h1 (by
          intro q hq
          rcases List.mem_append.1 hq with hq | hq
          · exact h2 q hq
          · simp only [List.mem_singleton] at hq; rw [hq]; exact not_lt.1 hc)
        simpa using this
  exact ⟨_, rfl, key l [] [] a (by simp) (by simp)⟩

theorem maxKey_iff (d : List (Int × ℚ)) (k : Int) : maxKey d = some k ↔ IsWinner d k := by
  cases d with
  | nil =>
    simp only [maxKey, reduceCtorEq, false_iff]
    rintro ⟨pre, v, post, e, _⟩
    simp at e
  | cons a l =>
    obtain ⟨k', h1, h2⟩ := maxKey_spec a l
    rw [h1, Option.some.injEq]
    exact ⟨fun h => h ▸ h2, fun h => h2.unique h⟩

/-- The majority class of a leaf: its first label of largest weight; 0 for an empty leaf. -/
def MajoritySays (l : Leaf O) (_ : List ℚ) (y : Int) : Prop := (l.stats = [] ∧ y = 0) ∨ IsWinner l.stats y

/-- Naive Bayes: the first label with the largest vote. -/
def BayesSays (cfg : Cfg O) (l : Leaf O) (x : List ℚ) (y : Int) : Prop := IsWinner (cfg.bayes l.stats l.obs x) y

theorem mcRight_iff (l : Leaf O) (x : List ℚ) (y : Int) : mcRight l.stats y = true ↔ MajoritySays l x y := by
  unfold mcRight MajoritySays
  cases h : l.stats with
  | nil =>
    have : ¬ IsWinner [] y := by rw [← maxKey_iff]; simp [maxKey]
    simp [maxKey, this]
  | cons a d =>
    obtain ⟨k, h1, h2⟩ := maxKey_spec a d
    simp only [h1, beq_iff_eq, reduceCtorEq, false_and, false_or]
    exact ⟨fun e => e ▸ h2, fun e => h2.unique e⟩

theorem nbRight_iff (cfg : Cfg O) (l : Leaf O) (x : List ℚ) (y : Int) :
    nbRight cfg l.stats l.obs x y = true ↔ BayesSays cfg l x y := by
  unfold nbRight BayesSays
  rw [beq_iff_eq, maxKey_iff]

/-- **C125.** An adaptive leaf votes by naive Bayes unless the majority class has, by
weight, got strictly more of the instances learned at the leaf right — each judged
before it was learned. -/
theorem C125_adaptive_choice (cfg : Cfg O) (hk : cfg.kind = .nba) (s : Stats)
    (seen : List (List ℚ × Int × ℚ)) (x : List ℚ) :
    let l := seen.foldl (fun l e => l.learn cfg e.1 e.2.1 e.2.2) (newLeaf cfg true s)
    let mc := rightBefore cfg MajoritySays (newLeaf cfg true s) seen
    let nb := rightBefore cfg (BayesSays cfg) (newLeaf cfg true s) seen
    (mc > nb → l.votes cfg x = l.stats) ∧ (mc ≤ nb → l.votes cfg x = cfg.bayes l.stats l.obs x) := by
  have key : ∀ (seen : List (List ℚ × Int × ℚ)) (l : Leaf O), l.active = true →
      (seen.foldl (fun l e => l.learn cfg e.1 e.2.1 e.2.2) l).active = true ∧
      (seen.foldl (fun l e => l.learn cfg e.1 e.2.1 e.2.2) l).mc =
        l.mc + rightBefore cfg MajoritySays l seen ∧
      (seen.foldl (fun l e => l.learn cfg e.1 e.2.1 e.2.2) l).nb =
        l.nb + rightBefore cfg (BayesSays cfg) l seen := by
    intro seen
    induction seen with
    | nil => intro l h; exact ⟨h, by simp [rightBefore], by simp [rightBefore]⟩
    | cons e seen ih =>
      intro l h
      obtain ⟨x, y, w⟩ := e
      obtain ⟨h1, h2, h3⟩ := ih (l.learn cfg x y w) h
      have ad : (l.active && decide (cfg.kind = .nba)) = true := by rw [h, hk]; rfl
      refine ⟨h1, ?_, ?_⟩
      · rw [List.foldl_cons, h2, rightBefore]
        have : (l.learn cfg x y w).mc = if mcRight l.stats y then l.mc + w else l.mc := by
          simp only [Leaf.learn, ad, Bool.true_and]
        rw [this]
        by_cases hm : MajoritySays l x y
        · rw [if_pos ((mcRight_iff l x y).2 hm), if_pos hm]; ring
        · rw [if_neg (fun h => hm ((mcRight_iff l x y).1 h)), if_neg hm]; ring
      · rw [List.foldl_cons, h3, rightBefore]
        have : (l.learn cfg x y w).nb = if nbRight cfg l.stats l.obs x y then l.nb + w else l.nb := by
          simp only [Leaf.learn, ad, Bool.true_and]
        rw [this]
        by_cases hm : BayesSays cfg l x y
        · rw [if_pos ((nbRight_iff cfg l x y).2 hm), if_pos hm]; ring
        · rw [if_neg (fun h => hm ((nbRight_iff cfg l x y).1 h)), if_neg hm]; ring
  obtain ⟨h1, h2, h3⟩ := key seen (newLeaf cfg true s) rfl
  have e : ∀ q : ℚ, (newLeaf cfg true s).mc + q = q := fun q => by simp [newLeaf]
  have e' : ∀ q : ℚ, (newLeaf cfg true s).nb + q = q := fun q => by simp [newLeaf]
  rw [e] at h2
  rw [e'] at h3
  simp only
  generalize seen.foldl (fun l e => l.learn cfg e.1 e.2.1 e.2.2) (newLeaf cfg true s) = l at *
  constructor
  · intro h
    rw [Leaf.votes, if_pos h1]
    simp only [hk]
    rw [if_pos (by rw [h2, h3]; exact h)]
  · intro h
    rw [Leaf.votes, if_pos h1]
    simp only [hk]
    rw [if_neg (by rw [h2, h3]; exact not_lt.2 h)]

/-- **C125.** Majority leaves vote with their class weights; naive Bayes leaves do so
below `nb_threshold`; deactivated leaves always do. -/
theorem C125_other_leaves (cfg : Cfg O) (l : Leaf O) (x : List ℚ) :
    (l.active = false → l.votes cfg x = l.stats) ∧
    (cfg.kind = .mc → l.votes cfg x = l.stats) ∧
    (cfg.kind = .nb → l.active = true → (cfg.nbThreshold ≤ (l.stats.map Prod.snd).sum →
      l.votes cfg x = cfg.bayes l.stats l.obs x) ∧
      ((l.stats.map Prod.snd).sum < cfg.nbThreshold → l.votes cfg x = l.stats)) := by
  refine ⟨fun h => by simp [Leaf.votes, h], fun h => by simp [Leaf.votes, h], fun h ha => ⟨fun ht => ?_, fun ht => ?_⟩⟩
  · rw [Leaf.votes, if_pos ha]; simp only [h]; rw [if_pos (show total l.stats ≥ cfg.nbThreshold from ht)]
  · rw [Leaf.votes, if_pos ha]; simp only [h]; rw [if_neg (not_le.2 (show total l.stats < cfg.nbThreshold from ht))]

/-! ### Non-vacuity -/

/-- Majority-class leaves, grace period 2, no observers. -/
def demoCfg (k : Kind) : Cfg Unit := ⟨k, 0, 2, (), fun _ _ _ _ => (), fun s _ _ => s⟩

/-- Split on attribute 0 at 1/2 as soon as a leaf has weight 2; everything to the left. -/
def demoEv (x : ℚ) (y : Int) (memory : List (Path × Bool)) : Ev Unit :=
  ⟨[x], y, 1, true, fun l => .split (.num ⟨0, 1/2, true⟩) [l.stats, []], memory⟩

example (x : ℚ) (y : Int) (m : List (Path × Bool)) : (demoEv x y m).Ok 1 ∧ (demoEv x y m).SharesAll := by
  refine ⟨⟨rfl, fun l => by simp [demoEv, Choice.Ok, Test.Ok]⟩, fun l t ds h c => ?_⟩
  simp only [demoEv, Choice.split.injEq] at h
  obtain ⟨_, rfl⟩ := h
  simp [classWeight]

/-- Class weights of the leaves and whether they are active. -/
def summary (r : Except PyErr (Option (T Unit))) : Option (List (Stats × Bool)) :=
  r.toOption.bind fun o => o.map fun t => t.leaves.map fun l => (l.stats, l.active)

/-- Three instances: the root splits after the second, the third goes right, and the
memory manager deactivates the left leaf. -/
example : summary (run (demoCfg .mc) none [demoEv 0 0 [], demoEv 0 1 [], demoEv 1 1 [([0], false)]]) =
    some [([(0, 1), (1, 1)], false), ([(1, 1)], true)] := by decide +kernel

/-- An empty adaptive leaf is credited for class 0. -/
example : ((newLeaf (demoCfg .nba) true []).learn (demoCfg .nba) [0] 0 1).mc = 1 := by decide +kernel

end Verif.Trees.HL
