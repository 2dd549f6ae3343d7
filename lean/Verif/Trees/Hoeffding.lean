import Verif.Common
import Mathlib.Algebra.Order.Field.Basic
import Mathlib.Data.List.Nodup
import Mathlib.Data.List.Range

/-!
Model of the structural part of `trees/hoeffding_tree.py` (and
`trees/_nodes/base.py`): growing, splitting, pre-pruning, memory management and
the node counters; C37, C65, C66.

Simplifications: a learning node is only "active" or "inactive" (statistics,
observers and predictions are not modelled); the outcome of the branch tests, of
the split decision, the byte-size estimates and the promise order of the leaves
are arbitrary inputs of each step; a node is addressed by the list of branch ids
leading to it instead of by reference.
-/

namespace Verif.Trees.HT

mutual
/-- A tree node: learning node (active or not) or split node.  A split node with
`multi = none` has a two-way test, with `multi = some k` a multiway test that has
handed out branch ids `0..k-1`. -/
inductive T where
  | leaf (active : Bool)
  | split (multi : Option Nat) (kids : F)
/-- `SplitNode._children`: branch id and child, in insertion order. -/
inductive F where
  | nil
  | cons (id : Nat) (t : T) (rest : F)
end

/-- Path from the root: branch ids. -/
abbrev Path := List Nat

mutual
/-- Node at a path. -/
def T.get : T → Path → Option T
  | t, [] => some t
  | .leaf _, _ :: _ => none
  | .split _ kids, i :: p => kids.get i p
/-- Node below child `i`. -/
def F.get : F → Nat → Path → Option T
  | .nil, _, _ => none
  | .cons j t rest, i, p => if i = j then t.get p else rest.get i p
end

mutual
/-- Replace the node at a path. -/
def T.modify (f : T → T) : T → Path → T
  | t, [] => f t
  | .leaf a, _ :: _ => .leaf a
  | .split m kids, i :: p => .split m (kids.modify f i p)
/-- See `T.modify`. -/
def F.modify (f : T → T) : F → Nat → Path → F
  | .nil, _, _ => .nil
  | .cons j t rest, i, p => if i = j then .cons j (t.modify f p) rest else .cons j t (rest.modify f i p)
end

mutual
/-- Weighted node count: `wA` per active leaf, `wI` per inactive leaf, `wD` per split. -/
def T.count (wA wI wD : Nat) : T → Nat
  | .leaf true => wA
  | .leaf false => wI
  | .split _ kids => wD + kids.count wA wI wD
/-- See `T.count`. -/
def F.count (wA wI wD : Nat) : F → Nat
  | .nil => 0
  | .cons _ t rest => t.count wA wI wD + rest.count wA wI wD
end

/-- Append a child (dictionary assignment of a new key). -/
def F.snoc : F → Nat → T → F
  | .nil, i, t => .cons i t .nil
  | .cons j u rest, i, t => .cons j u (rest.snoc i t)

/-- Child with a given id: `get_child`, base.py 224-241. -/
def F.find : F → Nat → Option T
  | .nil, _ => none
  | .cons j t rest, i => if i = j then some t else rest.find i

/-- Where an instance ends up. -/
inductive Found where
  | node (p : Path)
  | missing (parent : Path) (branch : Nat)

mutual
/-- `filter_instance_to_leaf`, base.py 56-74 and 266-292; `br` gives the branch
chosen by the test of the split node at a path (negative: no branch). -/
def T.filter (br : Path → Int) : T → Path → Found
  | .leaf _, pre => .node pre
  | .split _ kids, pre => if br pre < 0 then .node pre else kids.filter br (br pre).toNat pre
/-- See `T.filter`. -/
def F.filter (br : Path → Int) : F → Nat → Path → Found
  | .nil, b, pre => .missing pre b
  | .cons j t rest, b, pre => if b = j then t.filter br (pre ++ [b]) else rest.filter br b pre
end

mutual
/-- `__find_learning_nodes`, hoeffding_tree.py 762-789: paths of the learning nodes.
The code visits ids `0..n_children-1`; `C37_children_contiguous` shows that these
are all children, in insertion order. -/
def T.learning : T → Path → List Path
  | .leaf _, pre => [pre]
  | .split _ kids, pre => kids.learning pre
/-- See `T.learning`. -/
def F.learning : F → Path → List Path
  | .nil, _ => []
  | .cons j t rest, pre => t.learning (pre ++ [j]) ++ rest.learning pre
end

/-- The tree with its counters, hoeffding_tree.py 183-190. -/
structure HT where
  root : Option T := none
  dec : Int := 0
  act : Int := 0
  inact : Int := 0
  growth : Bool := true

/-- Leaves `0..k-1` of a new split node (lines 619-622), starting at id `s`. -/
def newKids : Nat → Nat → F
  | _, 0 => .nil
  | s, k + 1 => .cons s (.leaf true) (newKids (s + 1) k)

/-- `_deactivate_learning_node` / `_activate_learning_node`, lines 704-748. -/
def HT.setLeaf (h : HT) (p : Path) (active : Bool) : HT :=
  match h.root with
  | none => h
  | some r =>
    { h with root := some (r.modify (fun _ => .leaf active) p),
             act := if active then h.act + 1 else h.act - 1,
             inact := if active then h.inact - 1 else h.inact + 1 }

/-- `max_active` loop, lines 649-656 (`n` rounds at most). -/
def maxActive (a i f M : ℚ) (n : Nat) : Nat → Nat → Nat
  | 0, k => k
  | fuel + 1, k =>
    if k < n then
      if ((k + 1 : Nat) * a + ((n : ℚ) - (k + 1 : Nat)) * i) * f > M then k
      else maxActive a i f M n fuel (k + 1)
    else k

/-- Memory figures at one call of `_enforce_tracker_limit`: size estimates of active
and inactive leaves, overhead fraction, and the sort of the learning nodes by promise. -/
structure Mem where
  a : ℚ
  i : ℚ
  f : ℚ
  sort : List Path → List Path

/-- Is the node at a path an active / inactive leaf (`isinstance` tests of 659, 664)? -/
def HT.isLeaf (h : HT) (p : Path) (active : Bool) : Bool :=
  match h.root with
  | none => false
  | some r => match r.get p with
    | some (.leaf b) => b == active
    | _ => false

/-- Lines 658-662. -/
def HT.deactivate (h : HT) (p : Path) : HT := if h.isLeaf p true then h.setLeaf p false else h
/-- Lines 663-667. -/
def HT.activate (h : HT) (p : Path) : HT := if h.isLeaf p false then h.setLeaf p true else h

/-- `_enforce_tracker_limit`, lines 638-667; `M` is `max_byte_size`, `stopMem` is
`stop_mem_management`. -/
def HT.enforce (M : ℚ) (stopMem : Bool) (h : HT) (m : Mem) : HT :=
  if (h.inact > 0 ∨ (m.a + h.inact * m.i) * m.f > M) ∧ stopMem then { h with growth := false }
  else
    let nodes := match h.root with
      | none => []
      | some r => m.sort (r.learning [])
    let k := maxActive m.a m.i m.f M nodes.length nodes.length 0
    let cutoff := nodes.length - k
    (nodes.drop cutoff).foldl HT.activate ((nodes.take cutoff).foldl HT.deactivate h)

/-- Outcome of a split attempt on an active leaf, lines 576-631. -/
inductive Decision where
  | noSplit
  | preprune
  | binary
  | multiway (k : Nat)

/-- `_attempt_to_split` on the leaf at path `p`, lines 552-631. -/
def HT.attempt (M : ℚ) (stopMem : Bool) (h : HT) (p : Path) (d : Decision) (m : Mem) : HT :=
  match d with
  | .noSplit => h
  | .preprune => (h.setLeaf p false).enforce M stopMem m
  | .binary =>
    HT.enforce M stopMem { h with
      root := h.root.map fun r => r.modify (fun _ => .split none (newKids 0 2)) p,
      act := h.act - 1 + 2, dec := h.dec + 1 } m
  | .multiway k =>
    HT.enforce M stopMem { h with
      root := h.root.map fun r => r.modify (fun _ => .split (some k) (newKids 0 k)) p,
      act := h.act - 1 + k, dec := h.dec + 1 } m

/-- `set_child` of a child that does not exist yet, base.py 208-222: `IndexError`
beyond the two branches of a binary test. -/
def T.addChild (b : Nat) : T → T
  | .split m kids => .split m (kids.snoc b (.leaf true))
  | t => t

/-- New branch of a multiway test: `add_new_branch` and `set_child`, lines 343-348. -/
def T.newBranch : T → T
  | .split (some k) kids => .split (some (k + 1)) (kids.snoc k (.leaf true))
  | t => t

/-- What happens outside the model during the training of one sample. -/
structure Ev where
  /-- branch test results -/
  br : Path → Int
  /-- is a split attempted (grace period reached), and with which outcome -/
  decision : Option Decision
  mem1 : Mem
  /-- does the periodic size estimate (line 352) call the memory manager -/
  estimate : Option Mem

/-- Learning at a found learning node, lines 327-337. -/
def HT.learnAt (M : ℚ) (stopMem : Bool) (h : HT) (p : Path) (e : Ev) : HT :=
  if h.growth && h.isLeaf p true then
    match e.decision with
    | none => h
    | some d => h.attempt M stopMem p d e.mem1
  else h

/-- `_partial_fit`, lines 303-353. -/
def HT.step (M : ℚ) (stopMem : Bool) (h : HT) (e : Ev) : Except PyErr HT :=
  let h := match h.root with
    | none => { h with root := some (.leaf true), act := 1 }
    | some _ => h
  match h.root with
  | none => .error .attributeError
  | some r =>
    let fin (h : HT) : HT := match e.estimate with
      | none => h
      | some m => h.enforce M stopMem m
    match r.filter e.br [] with
    | .missing p b =>
      match r.get p with
      | some (.split none _) =>
        if b ≥ 2 then .error .indexError
        else
          let h' := { h with root := some (r.modify (T.addChild b) p), act := h.act + 1 }
          .ok (fin (h'.learnAt M stopMem (p ++ [b]) e))
      | _ =>
        let h' := { h with root := some (r.modify (T.addChild b) p), act := h.act + 1 }
        .ok (fin (h'.learnAt M stopMem (p ++ [b]) e))
    | .node p =>
      match r.get p with
      | some (.leaf _) => .ok (fin (h.learnAt M stopMem p e))
      | some (.split (some _) _) =>
        .ok (fin { h with root := some (r.modify T.newBranch p), act := h.act + 1 })
      | _ => .ok (fin h)

/-- A training history. -/
def HT.run (M : ℚ) (stopMem : Bool) (h : HT) (es : List Ev) : Except PyErr HT :=
  es.foldlM (fun h e => h.step M stopMem e) h

/-! ### Specification -/

/-- Numbers of active leaves, inactive leaves and split nodes actually in the tree. -/
def HT.actives (h : HT) : Nat := match h.root with
  | none => 0
  | some r => r.count 1 0 0
/-- See `HT.actives`. -/
def HT.inactives (h : HT) : Nat := match h.root with
  | none => 0
  | some r => r.count 0 1 0
/-- See `HT.actives`. -/
def HT.splits (h : HT) : Nat := match h.root with
  | none => 0
  | some r => r.count 0 0 1

/-- The counters are right. -/
def HT.CountersOk (h : HT) : Prop :=
  h.act = h.actives ∧ h.inact = h.inactives ∧ h.dec = h.splits

/-! ### Proofs -/

mutual
theorem T.count_modify (wA wI wD : Nat) (f : T → T) (t : T) (p : Path) (s : T) (h : t.get p = some s) :
    (t.modify f p).count wA wI wD + s.count wA wI wD = t.count wA wI wD + (f s).count wA wI wD := by
  match t, p with
  | .leaf a, [] => simp only [T.get, Option.some.injEq] at h; subst h; simp only [T.modify]; omega
  | .split m kids, [] => simp only [T.get, Option.some.injEq] at h; subst h; simp only [T.modify]; omega
  | .leaf a, i :: p => simp [T.get] at h
  | .split m kids, i :: p =>
    simp only [T.get] at h
    have := F.count_modify wA wI wD f kids i p s h
    simp only [T.modify, T.count]
    omega
theorem F.count_modify (wA wI wD : Nat) (f : T → T) (k : F) (i : Nat) (p : Path) (s : T)
    (h : k.get i p = some s) :
    (k.modify f i p).count wA wI wD + s.count wA wI wD = k.count wA wI wD + (f s).count wA wI wD := by
  match k with
  | .nil => simp [F.get] at h
  | .cons j t rest =>
    rw [F.get] at h
    rw [F.modify]
    by_cases e : i = j
    · rw [if_pos e] at h ⊢
      have := T.count_modify wA wI wD f t p s h
      simp only [F.count]
      omega
    · rw [if_neg e] at h ⊢
      have := F.count_modify wA wI wD f rest i p s h
      simp only [F.count]
      omega
end

theorem F.count_snoc (wA wI wD : Nat) (k : F) (i : Nat) (t : T) :
    (k.snoc i t).count wA wI wD = k.count wA wI wD + t.count wA wI wD := by
  match k with
  | .nil => simp [F.snoc, F.count]
  | .cons j u rest =>
    have := F.count_snoc wA wI wD rest i t
    simp only [F.snoc, F.count, this]; omega

theorem newKids_count (wA wI wD s k : Nat) : (newKids s k).count wA wI wD = k * wA := by
  induction k generalizing s with
  | zero => simp [newKids, F.count]
  | succ k ih => simp only [newKids, F.count, T.count, ih]; ring

theorem isLeaf_iff (h : HT) (p : Path) (b : Bool) :
    h.isLeaf p b = true ↔ ∃ r, h.root = some r ∧ r.get p = some (.leaf b) := by
  unfold HT.isLeaf
  cases hr : h.root with
  | none => simp
  | some r =>
    simp only [Option.some.injEq, exists_eq_left']
    cases hg : r.get p with
    | none => simp
    | some t =>
      cases t with
      | leaf c => simp
      | split m k => simp

theorem counters_setLeaf {h : HT} (hc : h.CountersOk) (p : Path) (b : Bool) (hl : h.isLeaf p (!b) = true) :
    (h.setLeaf p b).CountersOk := by
  obtain ⟨r, hr, hg⟩ := (isLeaf_iff h p (!b)).mp hl
  obtain ⟨c1, c2, c3⟩ := hc
  have k1 := T.count_modify 1 0 0 (fun _ => .leaf b) r p _ hg
  have k2 := T.count_modify 0 1 0 (fun _ => .leaf b) r p _ hg
  have k3 := T.count_modify 0 0 1 (fun _ => .leaf b) r p _ hg
  simp only [HT.actives, HT.inactives, HT.splits, hr] at c1 c2 c3
  unfold HT.setLeaf
  simp only [hr]
  cases b with
  | true =>
    simp only [Bool.not_true, T.count] at k1 k2 k3
    simp only [HT.CountersOk, HT.actives, HT.inactives, HT.splits, if_true]
    refine ⟨?_, ?_, ?_⟩ <;> omega
  | false =>
    simp only [Bool.not_false, T.count] at k1 k2 k3
    simp only [HT.CountersOk, HT.actives, HT.inactives, HT.splits, Bool.false_eq_true, if_false]
    refine ⟨?_, ?_, ?_⟩ <;> omega

theorem counters_deactivate {h : HT} (hc : h.CountersOk) (p : Path) : (h.deactivate p).CountersOk := by
  unfold HT.deactivate
  split_ifs with hl
  · exact counters_setLeaf hc p false hl
  · exact hc

theorem counters_activate {h : HT} (hc : h.CountersOk) (p : Path) : (h.activate p).CountersOk := by
  unfold HT.activate
  split_ifs with hl
  · exact counters_setLeaf hc p true hl
  · exact hc

theorem counters_fold {f : HT → Path → HT} (hf : ∀ h p, h.CountersOk → (f h p).CountersOk) (l : List Path)
    {h : HT} (hc : h.CountersOk) : (l.foldl f h).CountersOk := by
  induction l generalizing h with
  | nil => exact hc
  | cons p l ih => exact ih (hf h p hc)

theorem counters_enforce (M : ℚ) (stopMem : Bool) {h : HT} (hc : h.CountersOk) (m : Mem) :
    (h.enforce M stopMem m).CountersOk := by
  unfold HT.enforce
  split_ifs with hs
  · exact hc
  · exact counters_fold (fun h p hc => counters_activate hc p) _
      (counters_fold (fun h p hc => counters_deactivate hc p) _ hc)

theorem counters_attempt (M : ℚ) (stopMem : Bool) {h : HT} (hc : h.CountersOk) (p : Path)
    (hl : h.isLeaf p true = true) (d : Decision) (m : Mem) : (h.attempt M stopMem p d m).CountersOk := by
  obtain ⟨r, hr, hg⟩ := (isLeaf_iff h p true).mp hl
  have hsplit : ∀ (mu : Option Nat) (k : Nat), HT.CountersOk { h with
      root := h.root.map fun r => r.modify (fun _ => .split mu (newKids 0 k)) p,
      act := h.act - 1 + k, dec := h.dec + 1 } := by
    intro mu k
    obtain ⟨c1, c2, c3⟩ := hc
    have k1 := T.count_modify 1 0 0 (fun _ => .split mu (newKids 0 k)) r p _ hg
    have k2 := T.count_modify 0 1 0 (fun _ => .split mu (newKids 0 k)) r p _ hg
    have k3 := T.count_modify 0 0 1 (fun _ => .split mu (newKids 0 k)) r p _ hg
    simp only [T.count, newKids_count] at k1 k2 k3
    simp only [HT.actives, HT.inactives, HT.splits, hr] at c1 c2 c3
    simp only [HT.CountersOk, HT.actives, HT.inactives, HT.splits, hr, Option.map_some]
    refine ⟨?_, ?_, ?_⟩ <;> omega
  cases d with
  | noSplit => exact hc
  | preprune => exact counters_enforce M stopMem (counters_setLeaf hc p false hl) m
  | binary => exact counters_enforce M stopMem (hsplit none 2) m
  | multiway k => exact counters_enforce M stopMem (hsplit (some k) k) m

theorem counters_learnAt (M : ℚ) (stopMem : Bool) {h : HT} (hc : h.CountersOk) (p : Path) (e : Ev) :
    (h.learnAt M stopMem p e).CountersOk := by
  unfold HT.learnAt
  split_ifs with hl
  · cases e.decision with
    | none => exact hc
    | some d => exact counters_attempt M stopMem hc p (by simp only [Bool.and_eq_true] at hl; exact hl.2) d _
  · exact hc

mutual
theorem T.filter_spec (br : Path → Int) (t : T) (pre : Path) :
    (∀ q, t.filter br pre = .node q → ∃ p, q = pre ++ p ∧ ∃ s, t.get p = some s) ∧
    (∀ q b, t.filter br pre = .missing q b →
      ∃ p, q = pre ++ p ∧ ∃ m k, t.get p = some (.split m k) ∧ k.find b = none) := by
  match t with
  | .leaf a =>
    refine ⟨?_, ?_⟩
    · intro q h
      simp only [T.filter, Found.node.injEq] at h
      exact ⟨[], by simp [h], _, rfl⟩
    · intro q b h; simp [T.filter] at h
  | .split m kids =>
    rw [T.filter]
    by_cases hb : br pre < 0
    · simp only [if_pos hb]
      refine ⟨?_, ?_⟩
      · intro q h
        simp only [Found.node.injEq] at h
        exact ⟨[], by simp [h], _, rfl⟩
      · intro q b h; simp at h
    · simp only [if_neg hb]
      obtain ⟨h1, h2⟩ := F.filter_spec br kids (br pre).toNat pre
      refine ⟨?_, ?_⟩
      · intro q h
        obtain ⟨p, e, s, hs⟩ := h1 q h
        exact ⟨_ :: p, e, s, by simpa [T.get] using hs⟩
      · intro q b h
        rcases h2 q b h with ⟨e1, e2, e3⟩ | ⟨p, e, m', k', hs, hf⟩
        · exact ⟨[], by simp [e1], m, kids, rfl, by rw [e2]; exact e3⟩
        · exact ⟨_ :: p, e, m', k', by simpa [T.get] using hs, hf⟩
theorem F.filter_spec (br : Path → Int) (k : F) (i : Nat) (pre : Path) :
    (∀ q, k.filter br i pre = .node q → ∃ p, q = pre ++ i :: p ∧ ∃ s, k.get i p = some s) ∧
    (∀ q b, k.filter br i pre = .missing q b →
      (q = pre ∧ b = i ∧ k.find i = none) ∨
      ∃ p, q = pre ++ i :: p ∧ ∃ m k', k.get i p = some (.split m k') ∧ k'.find b = none) := by
  match k with
  | .nil =>
    refine ⟨?_, ?_⟩
    · intro q h; simp [F.filter] at h
    · intro q b h
      simp only [F.filter, Found.missing.injEq] at h
      exact .inl ⟨h.1.symm, h.2.symm, rfl⟩
  | .cons j t rest =>
    rw [F.filter]
    by_cases e : i = j
    · rw [if_pos e]
      obtain ⟨h1, h2⟩ := T.filter_spec br t (pre ++ [i])
      refine ⟨?_, ?_⟩
      · intro q h
        obtain ⟨p, e', s, hs⟩ := h1 q h
        exact ⟨p, by simpa using e', s, by rw [F.get, if_pos e]; exact hs⟩
      · intro q b h
        obtain ⟨p, e', m, k', hs, hf⟩ := h2 q b h
        exact .inr ⟨p, by simpa using e', m, k', by rw [F.get, if_pos e]; exact hs, hf⟩
    · rw [if_neg e]
      obtain ⟨h1, h2⟩ := F.filter_spec br rest i pre
      refine ⟨?_, ?_⟩
      · intro q h
        obtain ⟨p, e', s, hs⟩ := h1 q h
        exact ⟨p, e', s, by rw [F.get, if_neg e]; exact hs⟩
      · intro q b h
        rcases h2 q b h with ⟨e1, e2, e3⟩ | ⟨p, e', m, k', hs, hf⟩
        · exact .inl ⟨e1, e2, by rw [F.find, if_neg e]; exact e3⟩
        · exact .inr ⟨p, e', m, k', by rw [F.get, if_neg e]; exact hs, hf⟩
end

theorem counters_addLeaf {h : HT} (hc : h.CountersOk) (r : T) (hr : h.root = some r) (p : Path) (s : T)
    (hg : r.get p = some s) (f : T → T)
    (hf : ∀ wA wI wD, (f s).count wA wI wD = s.count wA wI wD + wA) :
    HT.CountersOk { h with root := some (r.modify f p), act := h.act + 1 } := by
  obtain ⟨c1, c2, c3⟩ := hc
  have k1 := T.count_modify 1 0 0 f r p _ hg
  have k2 := T.count_modify 0 1 0 f r p _ hg
  have k3 := T.count_modify 0 0 1 f r p _ hg
  rw [hf] at k1 k2 k3
  simp only [HT.actives, HT.inactives, HT.splits, hr] at c1 c2 c3
  simp only [HT.CountersOk, HT.actives, HT.inactives, HT.splits]
  refine ⟨?_, ?_, ?_⟩ <;> omega

theorem counters_step (M : ℚ) (stopMem : Bool) {h h' : HT} (hc : h.CountersOk) (e : Ev)
    (hs : h.step M stopMem e = .ok h') : h'.CountersOk := by
  unfold HT.step at hs
  simp only at hs
  have hinit : (match h.root with
      | none => { h with root := some (.leaf true), act := 1 }
      | some _ => h : HT).CountersOk := by
    cases hr : h.root with
    | none =>
      obtain ⟨c1, c2, c3⟩ := hc
      simp only [HT.actives, HT.inactives, HT.splits, hr] at c1 c2 c3
      simp only [HT.CountersOk, HT.actives, HT.inactives, HT.splits, T.count]
      exact ⟨rfl, c2, c3⟩
    | some r => exact hc
  generalize (match h.root with
      | none => { h with root := some (.leaf true), act := 1 }
      | some _ => h : HT) = g at hinit hs
  have hfin : ∀ k : HT, k.CountersOk → (match e.estimate with
      | none => k
      | some m => k.enforce M stopMem m : HT).CountersOk := by
    intro k hk
    cases e.estimate with
    | none => exact hk
    | some m => exact counters_enforce M stopMem hk m
  cases hr : g.root with
  | none => rw [hr] at hs; cases hs
  | some r =>
    simp only [hr] at hs
    obtain ⟨f1, f2⟩ := T.filter_spec e.br r []
    cases hf : r.filter e.br [] with
    | missing q b =>
      rw [hf] at hs
      obtain ⟨p, e1, m, k, hg, _⟩ := f2 q b hf
      simp only [List.nil_append] at e1
      subst e1
      have hadd : HT.CountersOk { g with root := some (r.modify (T.addChild b) q), act := g.act + 1 } := by
        apply counters_addLeaf hinit r hr q _ hg
        intro wA wI wD
        simp only [T.addChild, T.count, F.count_snoc]; omega
      simp only [hg] at hs
      cases m with
      | none =>
        simp only at hs
        split_ifs at hs with hb
        simp only [Except.ok.injEq] at hs
        rw [← hs]
        exact hfin _ (counters_learnAt M stopMem hadd _ e)
      | some m =>
        simp only [Except.ok.injEq] at hs
        rw [← hs]
        exact hfin _ (counters_learnAt M stopMem hadd _ e)
    | node q =>
      rw [hf] at hs
      obtain ⟨p, e1, s, hg⟩ := f1 q hf
      simp only [List.nil_append] at e1
      subst e1
      simp only [hg] at hs
      cases s with
      | leaf a =>
        simp only [Except.ok.injEq] at hs
        rw [← hs]
        exact hfin _ (counters_learnAt M stopMem hinit _ e)
      | split m k =>
        cases m with
        | none =>
          simp only [Except.ok.injEq] at hs
          rw [← hs]
          exact hfin _ hinit
        | some n =>
          simp only [Except.ok.injEq] at hs
          rw [← hs]
          apply hfin
          apply counters_addLeaf hinit r hr q _ hg
          intro wA wI wD
          simp only [T.newBranch, T.count, F.count_snoc]; omega

/-- C37: after every training history that does not raise, the three counters equal
the numbers of active leaves, inactive leaves and split nodes in the tree. -/
theorem C37_counters (M : ℚ) (stopMem : Bool) (es : List Ev) (h : HT)
    (hr : HT.run M stopMem {} es = .ok h) : h.CountersOk := by
  have gen : ∀ (es : List Ev) (h0 h : HT), h0.CountersOk → HT.run M stopMem h0 es = .ok h → h.CountersOk := by
    intro es
    induction es with
    | nil =>
      intro h0 h hc hr
      simp only [HT.run, List.foldlM_nil, pure, Except.pure, Except.ok.injEq] at hr
      rw [← hr]; exact hc
    | cons e es ih =>
      intro h0 h hc hr
      simp only [HT.run, List.foldlM_cons, bind, Except.bind] at hr
      cases hs : h0.step M stopMem e with
      | error x => rw [hs] at hr; cases hr
      | ok h1 =>
        rw [hs] at hr
        exact ih h1 h (counters_step M stopMem hc e hs) hr
  exact gen es {} h ⟨rfl, rfl, rfl⟩ hr

/-! ### Children are contiguous -/

/-- Child ids in insertion order. -/
def F.ids : F → List Nat
  | .nil => []
  | .cons j _ rest => j :: rest.ids

mutual
/-- Every split node has children `0..n-1`: two for a binary test, as many as
branches handed out for a multiway test. -/
def T.WF : T → Prop
  | .leaf _ => True
  | .split m kids => kids.ids = List.range (m.getD 2) ∧ kids.WF
/-- See `T.WF`. -/
def F.WF : F → Prop
  | .nil => True
  | .cons _ t rest => t.WF ∧ rest.WF
end

mutual
theorem T.WF_modify (f : T → T) (t : T) (p : Path) (hw : t.WF)
    (hf : ∀ s, t.get p = some s → s.WF → (f s).WF) : (t.modify f p).WF := by
  match t, p with
  | .leaf a, [] => simp only [T.modify]; exact hf _ rfl hw
  | .split m kids, [] => simp only [T.modify]; exact hf _ rfl hw
  | .leaf a, i :: p => simp only [T.modify]; exact hw
  | .split m kids, i :: p =>
    simp only [T.modify, T.WF] at hw ⊢
    obtain ⟨h1, h2⟩ := F.WF_modify f kids i p hw.2 (fun s hs => hf s (by simpa [T.get] using hs))
    exact ⟨by rw [h2]; exact hw.1, h1⟩
theorem F.WF_modify (f : T → T) (k : F) (i : Nat) (p : Path) (hw : k.WF)
    (hf : ∀ s, k.get i p = some s → s.WF → (f s).WF) :
    (k.modify f i p).WF ∧ (k.modify f i p).ids = k.ids := by
  match k with
  | .nil => exact ⟨hw, rfl⟩
  | .cons j t rest =>
    simp only [F.WF] at hw
    rw [F.modify]
    by_cases e : i = j
    · rw [if_pos e]
      simp only [F.WF, F.ids]
      exact ⟨⟨T.WF_modify f t p hw.1 (fun s hs => hf s (by rw [F.get, if_pos e]; exact hs)), hw.2⟩, trivial⟩
    · rw [if_neg e]
      obtain ⟨h1, h2⟩ := F.WF_modify f rest i p hw.2 (fun s hs => hf s (by rw [F.get, if_neg e]; exact hs))
      simp only [F.WF, F.ids]
      exact ⟨⟨hw.1, h1⟩, by rw [h2]⟩
end

mutual
theorem T.WF_get (t : T) (p : Path) (s : T) (hw : t.WF) (h : t.get p = some s) : s.WF := by
  match t, p with
  | .leaf a, [] => simp only [T.get, Option.some.injEq] at h; subst h; exact hw
  | .split m kids, [] => simp only [T.get, Option.some.injEq] at h; subst h; exact hw
  | .leaf a, i :: p => simp [T.get] at h
  | .split m kids, i :: p => simp only [T.get] at h; exact F.WF_get kids i p s hw.2 h
theorem F.WF_get (k : F) (i : Nat) (p : Path) (s : T) (hw : k.WF) (h : k.get i p = some s) : s.WF := by
  match k with
  | .nil => simp [F.get] at h
  | .cons j t rest =>
    rw [F.get] at h
    by_cases e : i = j
    · rw [if_pos e] at h; exact T.WF_get t p s hw.1 h
    · rw [if_neg e] at h; exact F.WF_get rest i p s hw.2 h
end

theorem F.find_none (k : F) (i : Nat) : k.find i = none ↔ i ∉ k.ids := by
  match k with
  | .nil => simp [F.find, F.ids]
  | .cons j t rest =>
    have := F.find_none rest i
    rw [F.find, F.ids]
    by_cases e : i = j
    · simp [e]
    · simp [e, this]

theorem F.snoc_WF (k : F) (i : Nat) (t : T) : (k.snoc i t).ids = k.ids ++ [i] ∧
    (k.WF → t.WF → (k.snoc i t).WF) := by
  match k with
  | .nil => simp [F.snoc, F.ids, F.WF]
  | .cons j u rest =>
    obtain ⟨h1, h2⟩ := F.snoc_WF rest i t
    simp only [F.snoc, F.ids, F.WF, h1]
    exact ⟨by simp, fun hw ht => ⟨hw.1, h2 hw.2 ht⟩⟩

theorem newKids_WF (s k : Nat) : (newKids s k).WF ∧ (newKids s k).ids = List.range' s k := by
  induction k generalizing s with
  | zero => simp [newKids, F.WF, F.ids]
  | succ k ih =>
    obtain ⟨h1, h2⟩ := ih (s + 1)
    simp only [newKids, F.WF, F.ids, T.WF, h2, List.range'_succ]
    exact ⟨⟨trivial, h1⟩, trivial⟩

/-- The whole tree is well formed. -/
def HT.WF (h : HT) : Prop := ∀ r, h.root = some r → r.WF

theorem WF_setLeaf {h : HT} (hw : h.WF) (p : Path) (b : Bool) : (h.setLeaf p b).WF := by
  unfold HT.setLeaf
  cases hr : h.root with
  | none => simp only; exact hw
  | some r =>
    intro r' hr'
    simp only [Option.some.injEq] at hr'
    rw [← hr']
    exact T.WF_modify _ r p (hw r hr) (fun _ _ _ => trivial)

theorem WF_fold {f : HT → Path → HT} (hf : ∀ h p, h.WF → (f h p).WF) (l : List Path)
    {h : HT} (hc : h.WF) : (l.foldl f h).WF := by
  induction l generalizing h with
  | nil => exact hc
  | cons p l ih => exact ih (hf h p hc)

theorem WF_enforce (M : ℚ) (stopMem : Bool) {h : HT} (hc : h.WF) (m : Mem) :
    (h.enforce M stopMem m).WF := by
  unfold HT.enforce
  split_ifs with hs
  · exact hc
  · refine WF_fold (fun h p hc => ?_) _ (WF_fold (fun h p hc => ?_) _ hc)
    · unfold HT.activate; split_ifs
      · exact WF_setLeaf hc _ _
      · exact hc
    · unfold HT.deactivate; split_ifs
      · exact WF_setLeaf hc _ _
      · exact hc

theorem WF_learnAt (M : ℚ) (stopMem : Bool) {h : HT} (hc : h.WF) (p : Path) (e : Ev) :
    (h.learnAt M stopMem p e).WF := by
  have hsplit : ∀ (mu : Option Nat) (k : Nat) (a d : Int), mu.getD 2 = k → HT.WF { h with
      root := h.root.map fun r => r.modify (fun _ => .split mu (newKids 0 k)) p,
      act := a, dec := d } := by
    intro mu k a d hk r hr
    simp only at hr
    cases hr0 : h.root with
    | none => rw [hr0] at hr; cases hr
    | some r0 =>
      rw [hr0] at hr
      simp only [Option.map_some, Option.some.injEq] at hr
      rw [← hr]
      apply T.WF_modify _ r0 p (hc r0 hr0)
      intro s _ _
      obtain ⟨k1, k2⟩ := newKids_WF 0 k
      exact ⟨by rw [k2, hk, List.range_eq_range'], k1⟩
  unfold HT.learnAt
  split_ifs with hl
  · cases e.decision with
    | none => exact hc
    | some d =>
      cases d with
      | noSplit => exact hc
      | preprune => exact WF_enforce M stopMem (WF_setLeaf hc p false) _
      | binary => exact WF_enforce M stopMem (hsplit none 2 _ _ rfl) _
      | multiway k => exact WF_enforce M stopMem (hsplit (some k) k _ _ rfl) _
  · exact hc

/-- The branch tests answer as `C36` says: 0, 1 or "attribute missing" for binary
tests, a handed-out branch or "unseen value" for multiway tests. -/
def ValidBranches (r : T) (br : Path → Int) : Prop :=
  ∀ p m k, r.get p = some (.split m k) → br p < (m.getD 2 : Nat)

mutual
theorem T.filter_branch (br : Path → Int) (t : T) (pre : Path) (q : Path) (b : Nat)
    (h : t.filter br pre = .missing q b) : (b : Int) = br q := by
  match t with
  | .leaf a => simp [T.filter] at h
  | .split m kids =>
    rw [T.filter] at h
    by_cases hb : br pre < 0
    · rw [if_pos hb] at h; cases h
    · rw [if_neg hb] at h
      exact F.filter_branch br kids _ pre q b h (by omega)
theorem F.filter_branch (br : Path → Int) (k : F) (i : Nat) (pre : Path) (q : Path) (b : Nat)
    (h : k.filter br i pre = .missing q b) (hi : (i : Int) = br pre) : (b : Int) = br q := by
  match k with
  | .nil =>
    simp only [F.filter, Found.missing.injEq] at h
    rw [← h.1, ← h.2]; exact hi
  | .cons j t rest =>
    rw [F.filter] at h
    by_cases e : i = j
    · rw [if_pos e] at h; exact T.filter_branch br t _ q b h
    · rw [if_neg e] at h; exact F.filter_branch br rest i pre q b h hi
end

theorem filter_not_missing (r : T) (hw : r.WF) (br : Path → Int) (hv : ValidBranches r br) :
    ∃ p, r.filter br [] = .node p := by
  cases hf : r.filter br [] with
  | node p => exact ⟨p, rfl⟩
  | missing q b =>
    obtain ⟨p, e1, m, k, hg, hn⟩ := (T.filter_spec br r []).2 q b hf
    simp only [List.nil_append] at e1
    subst e1
    have hb := T.filter_branch br r [] q b hf
    have hlt := hv q m k hg
    have hids : k.ids = List.range (m.getD 2) := (T.WF_get r q _ hw hg).1
    rw [F.find_none, hids] at hn
    exact absurd (List.mem_range.mpr (by omega)) hn

/-- The tree after root creation. -/
def HT.rooted (h : HT) : T := h.root.getD (.leaf true)

theorem step_WF (M : ℚ) (stopMem : Bool) {h : HT} (hw : h.WF) (e : Ev) (hv : ValidBranches h.rooted e.br) :
    ∃ h', h.step M stopMem e = .ok h' ∧ h'.WF := by
  have hfin : ∀ k : HT, k.WF → (match e.estimate with
      | none => k
      | some m => k.enforce M stopMem m : HT).WF := by
    intro k hk
    cases e.estimate with
    | none => exact hk
    | some m => exact WF_enforce M stopMem hk m
  have main : ∀ g : HT, g.WF → ∀ r, g.root = some r → ValidBranches r e.br →
      ∃ h', (match g.root with
        | none => Except.error PyErr.attributeError
        | some r =>
          match r.filter e.br [] with
          | .missing p b =>
            match r.get p with
            | some (.split none _) =>
              if b ≥ 2 then .error .indexError
              else
                let h' := { g with root := some (r.modify (T.addChild b) p), act := g.act + 1 }
                .ok (match e.estimate with
                  | none => (h'.learnAt M stopMem (p ++ [b]) e)
                  | some m => (h'.learnAt M stopMem (p ++ [b]) e).enforce M stopMem m)
            | _ =>
              let h' := { g with root := some (r.modify (T.addChild b) p), act := g.act + 1 }
              .ok (match e.estimate with
                | none => (h'.learnAt M stopMem (p ++ [b]) e)
                | some m => (h'.learnAt M stopMem (p ++ [b]) e).enforce M stopMem m)
          | .node p =>
            match r.get p with
            | some (.leaf _) => .ok (match e.estimate with
              | none => (g.learnAt M stopMem p e)
              | some m => (g.learnAt M stopMem p e).enforce M stopMem m)
            | some (.split (some _) _) =>
              .ok (match e.estimate with
              | none => ({ g with root := some (r.modify T.newBranch p), act := g.act + 1 } : HT)
              | some m => HT.enforce M stopMem { g with root := some (r.modify T.newBranch p), act := g.act + 1 } m)
            | _ => .ok (match e.estimate with
              | none => g
              | some m => g.enforce M stopMem m)) = .ok h' ∧ h'.WF := by
    intro g hg r hr hv
    obtain ⟨p, hp⟩ := filter_not_missing r (hg r hr) e.br hv
    obtain ⟨p', e1, s, hs⟩ := (T.filter_spec e.br r []).1 p hp
    simp only [List.nil_append] at e1
    subst e1
    simp only [hr, hp, hs]
    cases s with
    | leaf a => exact ⟨_, rfl, hfin _ (WF_learnAt M stopMem hg p e)⟩
    | split m k =>
      cases m with
      | none => exact ⟨_, rfl, hfin _ hg⟩
      | some n =>
        refine ⟨_, rfl, hfin _ ?_⟩
        intro r' hr'
        simp only [Option.some.injEq] at hr'
        rw [← hr']
        apply T.WF_modify _ r p (hg r hr)
        intro s' hs' hw'
        rw [hs] at hs'
        simp only [Option.some.injEq] at hs'
        subst hs'
        obtain ⟨i1, i2⟩ := F.snoc_WF k n (.leaf true)
        refine ⟨?_, i2 hw'.2 trivial⟩
        rw [i1, hw'.1]
        simp [List.range_succ]
  unfold HT.step
  simp only
  cases hr : h.root with
  | none =>
    simp only [HT.rooted, hr, Option.getD_none] at hv
    exact main { h with root := some (.leaf true), act := 1 }
      (by intro r hr'; simp only [Option.some.injEq] at hr'; subst hr'; trivial) _ rfl hv
  | some r =>
    simp only [HT.rooted, hr, Option.getD_some] at hv
    have := main h hw r hr hv
    simp only [hr] at this ⊢
    exact this

/-- A history whose branch tests answer validly at every step. -/
def ValidRun (M : ℚ) (stopMem : Bool) : HT → List Ev → Prop
  | _, [] => True
  | h, e :: es => ValidBranches h.rooted e.br ∧ ∀ h', h.step M stopMem e = .ok h' → ValidRun M stopMem h' es

/-- C37: with valid branch tests training never raises; every split node keeps
children with ids `0..n-1`, two for a binary test and one per known value for a
multiway test; and the counters are right. -/
theorem C37_children_contiguous (M : ℚ) (stopMem : Bool) (es : List Ev) (hv : ValidRun M stopMem {} es) :
    ∃ h, HT.run M stopMem {} es = .ok h ∧ h.WF ∧ h.CountersOk := by
  have gen : ∀ (es : List Ev) (h0 : HT), h0.WF → ValidRun M stopMem h0 es →
      ∃ h, HT.run M stopMem h0 es = .ok h ∧ h.WF := by
    intro es
    induction es with
    | nil => intro h0 hw _; exact ⟨h0, rfl, hw⟩
    | cons e es ih =>
      intro h0 hw hv
      obtain ⟨h1, s1, w1⟩ := step_WF M stopMem hw e hv.1
      obtain ⟨h2, s2, w2⟩ := ih h1 w1 (hv.2 h1 s1)
      exact ⟨h2, by simp only [HT.run, List.foldlM_cons, s1, bind, Except.bind] at s2 ⊢; exact s2, w2⟩
  obtain ⟨h, hr, hw⟩ := gen es {} (by intro r hr; cases hr) hv
  exact ⟨h, hr, hw, C37_counters M stopMem es h hr⟩

/-! ### Memory management -/

theorem maxActive_spec (a i f M : ℚ) (n fuel k : Nat) (hf : n ≤ k + fuel) (hk : k ≤ n)
    (h0 : k = 0 ∨ ((k : ℚ) * a + ((n : ℚ) - k) * i) * f ≤ M) :
    let r := maxActive a i f M n fuel k
    k ≤ r ∧ r ≤ n ∧ (r = 0 ∨ ((r : ℚ) * a + ((n : ℚ) - r) * i) * f ≤ M) ∧
    (r = n ∨ (((r + 1 : Nat) : ℚ) * a + ((n : ℚ) - (r + 1 : Nat)) * i) * f > M) := by
  induction fuel generalizing k with
  | zero =>
    simp only [maxActive]
    exact ⟨le_refl _, hk, h0, .inl (by omega)⟩
  | succ fuel ih =>
    simp only [maxActive]
    by_cases hlt : k < n
    · rw [if_pos hlt]
      by_cases hgt : ((k + 1 : Nat) * a + ((n : ℚ) - (k + 1 : Nat)) * i) * f > M
      · rw [if_pos hgt]; exact ⟨le_refl _, hk, h0, .inr hgt⟩
      · rw [if_neg hgt]
        obtain ⟨h1, h2, h3, h4⟩ := ih (k + 1) (by omega) (by omega) (.inr (not_lt.mp hgt))
        exact ⟨by omega, h2, h3, h4⟩
    · rw [if_neg hlt]; exact ⟨le_refl _, hk, h0, .inl (by omega)⟩

mutual
theorem T.get_modify_leaf (t : T) (p q : Path) (a b : Bool) (f : T → T) (hp : t.get p = some (.leaf a))
    (hq : t.get q = some (.leaf b)) (hne : q ≠ p) : (t.modify f p).get q = some (.leaf b) := by
  match t, p, q with
  | .leaf c, [], [] => exact absurd rfl hne
  | .leaf c, [], j :: q => simp [T.get] at hq
  | .leaf c, i :: p, q => simp [T.get] at hp
  | .split m k, [], q => simp [T.get] at hp
  | .split m k, i :: p, [] => simp [T.get] at hq
  | .split m k, i :: p, j :: q =>
    simp only [T.get, T.modify] at hp hq ⊢
    exact F.get_modify_leaf k i j p q a b f hp hq (by intro h; apply hne; rw [h.1, h.2])
theorem F.get_modify_leaf (k : F) (i j : Nat) (p q : Path) (a b : Bool) (f : T → T)
    (hp : k.get i p = some (.leaf a)) (hq : k.get j q = some (.leaf b)) (hne : ¬ (j = i ∧ q = p)) :
    (k.modify f i p).get j q = some (.leaf b) := by
  match k with
  | .nil => simp [F.get] at hp
  | .cons l t rest =>
    rw [F.get] at hp hq
    rw [F.modify]
    by_cases e1 : i = l
    · rw [if_pos e1] at hp ⊢
      rw [F.get]
      by_cases e2 : j = l
      · rw [if_pos e2] at hq ⊢
        exact T.get_modify_leaf t p q a b f hp hq (by intro h; exact hne ⟨by rw [e1, e2], h⟩)
      · rw [if_neg e2] at hq ⊢; exact hq
    · rw [if_neg e1] at hp ⊢
      rw [F.get]
      by_cases e2 : j = l
      · rw [if_pos e2] at hq ⊢; exact hq
      · rw [if_neg e2] at hq ⊢; exact F.get_modify_leaf rest i j p q a b f hp hq hne
end

mutual
theorem T.get_modify_self (t : T) (p : Path) (s : T) (f : T → T) (hp : t.get p = some s) :
    (t.modify f p).get p = some (f s) := by
  match t, p with
  | .leaf c, [] => simp only [T.get, Option.some.injEq] at hp; subst hp; simp only [T.modify]; exact T.get.eq_1 _
  | .leaf c, i :: p => simp [T.get] at hp
  | .split m k, [] => simp only [T.get, Option.some.injEq] at hp; subst hp; simp only [T.modify]; exact T.get.eq_1 _
  | .split m k, i :: p =>
    simp only [T.get, T.modify] at hp ⊢
    exact F.get_modify_self k i p s f hp
theorem F.get_modify_self (k : F) (i : Nat) (p : Path) (s : T) (f : T → T) (hp : k.get i p = some s) :
    (k.modify f i p).get i p = some (f s) := by
  match k with
  | .nil => simp [F.get] at hp
  | .cons l t rest =>
    rw [F.get] at hp
    rw [F.modify]
    by_cases e1 : i = l
    · rw [if_pos e1] at hp ⊢
      rw [F.get, if_pos e1]
      exact T.get_modify_self t p s f hp
    · rw [if_neg e1] at hp ⊢
      rw [F.get, if_neg e1]
      exact F.get_modify_self rest i p s f hp
end

/-- The node at `p` is a leaf with activity `b`. -/
def LeafAt (h : HT) (p : Path) (b : Bool) : Prop := h.isLeaf p b = true

theorem leafAt_unique {h : HT} {p : Path} {a b : Bool} (h1 : LeafAt h p a) (h2 : LeafAt h p b) : a = b := by
  obtain ⟨r, e1, e2⟩ := (isLeaf_iff h p a).mp h1
  obtain ⟨r', e3, e4⟩ := (isLeaf_iff h p b).mp h2
  rw [e1] at e3
  simp only [Option.some.injEq] at e3
  subst e3
  rw [e2] at e4
  simpa using e4

theorem setLeaf_leafAt {h : HT} {p q : Path} {a b c : Bool} (hp : LeafAt h p a) (hq : LeafAt h q b) :
    LeafAt (h.setLeaf p c) q (if q = p then c else b) := by
  obtain ⟨r, e1, e2⟩ := (isLeaf_iff h p a).mp hp
  obtain ⟨r', e3, e4⟩ := (isLeaf_iff h q b).mp hq
  rw [e1] at e3
  simp only [Option.some.injEq] at e3
  subst e3
  apply (isLeaf_iff _ _ _).mpr
  refine ⟨r.modify (fun _ => .leaf c) p, by simp [HT.setLeaf, e1], ?_⟩
  by_cases e : q = p
  · subst e; rw [if_pos rfl]; exact T.get_modify_self r q _ _ e2
  · rw [if_neg e]; exact T.get_modify_leaf r p q a b _ e2 e4 e

theorem deactivate_fold (l : List Path) (h : HT) (hl : ∀ p ∈ l, ∃ b, LeafAt h p b) (q : Path) (b : Bool)
    (hq : LeafAt h q b) : LeafAt (l.foldl HT.deactivate h) q (if q ∈ l then false else b) := by
  induction l generalizing h b with
  | nil => simpa using hq
  | cons p l ih =>
    rw [List.foldl_cons]
    obtain ⟨a, hp⟩ := hl p (by simp)
    have hstep : ∀ q b, LeafAt h q b → LeafAt (h.deactivate p) q (if q = p then false else b) := by
      intro q b hq
      unfold HT.deactivate
      by_cases hc : h.isLeaf p true = true
      · rw [if_pos hc]; exact setLeaf_leafAt hp hq
      · rw [if_neg hc]
        by_cases e : q = p
        · subst e
          rw [if_pos rfl]
          have : b = false := by
            cases b with
            | false => rfl
            | true => exact absurd hq hc
          rw [← this]; exact hq
        · rw [if_neg e]; exact hq
    have := ih (h.deactivate p) (fun p' hp' => by
      obtain ⟨a', ha'⟩ := hl p' (by simp [hp'])
      exact ⟨_, hstep p' a' ha'⟩) _ (hstep q b hq)
    have e : (if q ∈ l then false else if q = p then false else b) =
        (if q ∈ p :: l then false else b) := by
      by_cases h1 : q ∈ l
      · simp [h1]
      · by_cases h2 : q = p <;> simp [h1, h2]
    rw [← e]; exact this

theorem activate_fold (l : List Path) (h : HT) (hl : ∀ p ∈ l, ∃ b, LeafAt h p b) (q : Path) (b : Bool)
    (hq : LeafAt h q b) : LeafAt (l.foldl HT.activate h) q (if q ∈ l then true else b) := by
  induction l generalizing h b with
  | nil => simpa using hq
  | cons p l ih =>
    rw [List.foldl_cons]
    obtain ⟨a, hp⟩ := hl p (by simp)
    have hstep : ∀ q b, LeafAt h q b → LeafAt (h.activate p) q (if q = p then true else b) := by
      intro q b hq
      unfold HT.activate
      by_cases hc : h.isLeaf p false = true
      · rw [if_pos hc]; exact setLeaf_leafAt hp hq
      · rw [if_neg hc]
        by_cases e : q = p
        · subst e
          rw [if_pos rfl]
          have : b = true := by
            cases b with
            | true => rfl
            | false => exact absurd hq hc
          rw [← this]; exact hq
        · rw [if_neg e]; exact hq
    have := ih (h.activate p) (fun p' hp' => by
      obtain ⟨a', ha'⟩ := hl p' (by simp [hp'])
      exact ⟨_, hstep p' a' ha'⟩) _ (hstep q b hq)
    have e : (if q ∈ l then true else if q = p then true else b) =
        (if q ∈ p :: l then true else b) := by
      by_cases h1 : q ∈ l
      · simp [h1]
      · by_cases h2 : q = p <;> simp [h1, h2]
    rw [← e]; exact this

mutual
theorem T.learning_spec (t : T) (hw : t.WF) (pre : Path) :
    (t.learning pre).Nodup ∧ ∀ q, q ∈ t.learning pre ↔ ∃ p b, q = pre ++ p ∧ t.get p = some (.leaf b) := by
  match t with
  | .leaf a =>
    simp only [T.learning]
    refine ⟨by simp, ?_⟩
    intro q
    simp only [List.mem_singleton]
    constructor
    · rintro rfl; exact ⟨[], a, by simp, rfl⟩
    · rintro ⟨p, b, e, hg⟩
      cases p with
      | nil => simpa using e
      | cons i p => simp [T.get] at hg
  | .split m k =>
    simp only [T.learning]
    obtain ⟨h1, h2⟩ := F.learning_spec k hw.2 (by rw [hw.1]; exact List.nodup_range) pre
    refine ⟨h1, ?_⟩
    intro q
    rw [h2]
    constructor
    · rintro ⟨i, p, b, e, hg⟩; exact ⟨i :: p, b, e, by simpa [T.get] using hg⟩
    · rintro ⟨p, b, e, hg⟩
      cases p with
      | nil => simp [T.get] at hg
      | cons i p => exact ⟨i, p, b, e, by simpa [T.get] using hg⟩
theorem F.learning_spec (k : F) (hw : k.WF) (hn : k.ids.Nodup) (pre : Path) :
    (k.learning pre).Nodup ∧
    ∀ q, q ∈ k.learning pre ↔ ∃ i p b, q = pre ++ i :: p ∧ k.get i p = some (.leaf b) := by
  match k with
  | .nil => simp [F.learning, F.get]
  | .cons j t rest =>
    simp only [F.WF, F.ids, List.nodup_cons] at hw hn
    obtain ⟨t1, t2⟩ := T.learning_spec t hw.1 (pre ++ [j])
    obtain ⟨r1, r2⟩ := F.learning_spec rest hw.2 hn.2 pre
    simp only [F.learning]
    have hget : ∀ i p s, rest.get i p = some s → i ∈ rest.ids := by
      intro i p s
      have : ∀ (k : F), k.get i p = some s → i ∈ k.ids := by
        intro k
        induction k using F.rec (motive_1 := fun _ => True) with
        | leaf => trivial
        | split => trivial
        | nil => intro h; simp [F.get] at h
        | cons l u rest' _ ih =>
          intro h
          rw [F.get] at h
          rw [F.ids]
          by_cases e : i = l
          · simp [e]
          · rw [if_neg e] at h; simp [ih h]
      exact this rest
    constructor
    · rw [List.nodup_append]
      refine ⟨t1, r1, ?_⟩
      intro a ha b hb e
      subst e
      obtain ⟨p, x, e1, _⟩ := (t2 a).mp ha
      obtain ⟨i, p', x', e2, hg⟩ := (r2 a).mp hb
      rw [e1, List.append_assoc] at e2
      have := List.append_cancel_left e2
      simp only [List.singleton_append, List.cons.injEq] at this
      exact hn.1 (this.1 ▸ hget i p' _ hg)
    · intro q
      rw [List.mem_append, t2, r2]
      constructor
      · rintro (⟨p, b, e, hg⟩ | ⟨i, p, b, e, hg⟩)
        · exact ⟨j, p, b, by simpa using e, by rw [F.get, if_pos rfl]; exact hg⟩
        · refine ⟨i, p, b, e, ?_⟩
          rw [F.get, if_neg]
          · exact hg
          · intro e'; exact hn.1 (e' ▸ hget i p _ hg)
      · rintro ⟨i, p, b, e, hg⟩
        rw [F.get] at hg
        by_cases e' : i = j
        · rw [if_pos e'] at hg
          left; exact ⟨p, b, by rw [e, e']; simp, hg⟩
        · rw [if_neg e'] at hg
          right; exact ⟨i, p, b, e, hg⟩
end

/-- C65: when memory management runs on a reachable tree (and is not switched off),
then afterwards, with `order` the learning nodes sorted by promise, the most
promising `k` leaves are active and all others inactive, where `k` is the largest
prefix length the estimate allows: the estimated size with `k` active leaves fits
into the limit (or `k = 0`), and with `k + 1` it would not (or all are active). -/
theorem C65_memory_limit (M : ℚ) (stopMem : Bool) (h : HT) (hw : h.WF) (r : T) (hr : h.root = some r) (m : Mem)
    (hsort : (m.sort (r.learning [])).Perm (r.learning []))
    (hgo : ¬ ((h.inact > 0 ∨ (m.a + h.inact * m.i) * m.f > M) ∧ stopMem = true)) :
    ∃ k : Nat, let order := m.sort (r.learning [])
      let n := order.length
      k ≤ n ∧
      (k = 0 ∨ ((k : ℚ) * m.a + ((n : ℚ) - k) * m.i) * m.f ≤ M) ∧
      (k = n ∨ (((k + 1 : Nat) : ℚ) * m.a + ((n : ℚ) - (k + 1 : Nat)) * m.i) * m.f > M) ∧
      (∀ p ∈ order.take (n - k), LeafAt (h.enforce M stopMem m) p false) ∧
      (∀ p ∈ order.drop (n - k), LeafAt (h.enforce M stopMem m) p true) ∧
      (∀ p b, LeafAt h p b → p ∈ order) := by
  set order := m.sort (r.learning []) with hord
  obtain ⟨hnd, hmem⟩ := T.learning_spec r (hw r hr) []
  have hleaf : ∀ p ∈ order, ∃ b, LeafAt h p b := by
    intro p hp
    obtain ⟨p', b, e, hg⟩ := (hmem p).mp (hsort.mem_iff.mp hp)
    simp only [List.nil_append] at e
    subst e
    exact ⟨b, (isLeaf_iff _ _ _).mpr ⟨r, hr, hg⟩⟩
  have hndo : order.Nodup := hsort.nodup_iff.mpr hnd
  obtain ⟨k1, k2, k3, k4⟩ := maxActive_spec m.a m.i m.f M order.length order.length 0 (by omega) (by omega) (.inl rfl)
  set k := maxActive m.a m.i m.f M order.length order.length 0 with hk
  have henf : h.enforce M stopMem m = (order.drop (order.length - k)).foldl HT.activate
      ((order.take (order.length - k)).foldl HT.deactivate h) := by
    unfold HT.enforce
    rw [if_neg hgo]
    simp only [hr, ← hord, ← hk]
  have hdis : ∀ p, p ∈ order.take (order.length - k) → p ∈ order.drop (order.length - k) → False := by
    intro p h1 h2
    have := hndo
    rw [← List.take_append_drop (order.length - k) order, List.nodup_append] at this
    exact this.2.2 p h1 p h2 rfl
  have hd : ∀ q b, LeafAt h q b → LeafAt ((order.take (order.length - k)).foldl HT.deactivate h) q
      (if q ∈ order.take (order.length - k) then false else b) := fun q b hq =>
    deactivate_fold _ h (fun p hp => hleaf p (List.mem_of_mem_take hp)) q b hq
  have ha : ∀ q b, LeafAt h q b → LeafAt (h.enforce M stopMem m) q
      (if q ∈ order.drop (order.length - k) then true
        else if q ∈ order.take (order.length - k) then false else b) := by
    intro q b hq
    rw [henf]
    exact activate_fold _ _ (fun p hp => by
      obtain ⟨b', hb'⟩ := hleaf p (List.mem_of_mem_drop hp)
      exact ⟨_, hd p b' hb'⟩) q _ (hd q b hq)
  refine ⟨k, k2, k3, k4, ?_, ?_, ?_⟩
  · intro p hp
    obtain ⟨b, hb⟩ := hleaf p (List.mem_of_mem_take hp)
    have := ha p b hb
    rwa [if_neg (fun h => hdis p hp h), if_pos hp] at this
  · intro p hp
    obtain ⟨b, hb⟩ := hleaf p (List.mem_of_mem_drop hp)
    have := ha p b hb
    rwa [if_pos hp] at this
  · intro p b hp
    obtain ⟨r', e1, e2⟩ := (isLeaf_iff _ _ _).mp hp
    rw [hr] at e1
    simp only [Option.some.injEq] at e1
    subst e1
    exact hsort.mem_iff.mpr ((hmem p).mpr ⟨p, b, by simp, e2⟩)

/-- C66: pre-pruning does not last.  If the null split wins and memory is
sufficient for all leaves to be active, the pre-pruned leaf is active again at the
end of the same split attempt (with fresh, empty statistics observers). -/
theorem C66_preprune_undone (M : ℚ) (h : HT) (hw : h.WF) (p : Path) (hp : LeafAt h p true) (m : Mem)
    (r : T) (hr : (h.setLeaf p false).root = some r)
    (hsort : (m.sort (r.learning [])).Perm (r.learning []))
    (hfit : ∀ k : Nat, k ≤ (r.learning []).length →
      ((k : ℚ) * m.a + (((r.learning []).length : ℚ) - k) * m.i) * m.f ≤ M) :
    LeafAt (h.attempt M false p .preprune m) p true := by
  have hw' := WF_setLeaf hw p false
  obtain ⟨k, k1, k2, k3, k4, k5, k6⟩ := C65_memory_limit M false (h.setLeaf p false) hw' r hr m hsort (by simp)
  have hlen := hsort.length_eq
  have hk : k = (m.sort (r.learning [])).length := by
    rcases k3 with e | hgt
    · exact e
    · by_contra hne
      have := hfit (k + 1) (by omega)
      rw [hlen] at hgt
      exact absurd this (not_le.mpr hgt)
  apply k5
  rw [hk, Nat.sub_self, List.drop_zero]
  have := setLeaf_leafAt (c := false) hp hp
  rw [if_pos rfl] at this
  exact k6 p false this

/-- C66: with `stop_mem_management`, the first pre-pruned leaf stops the growth of
the whole tree: no later history changes a split node or adds one. -/
theorem C66_preprune_stops_growth (M : ℚ) (h : HT) (hc : h.CountersOk) (p : Path) (hp : LeafAt h p true)
    (m : Mem) : (h.attempt M true p .preprune m).growth = false := by
  have hc' := counters_setLeaf hc p false hp
  have hpos : (h.setLeaf p false).inact > 0 := by
    obtain ⟨r, e1, e2⟩ := (isLeaf_iff h p true).mp hp
    have hin : (h.setLeaf p false).inact = h.inact + 1 := by simp [HT.setLeaf, e1]
    have := hc.2.1
    omega
  unfold HT.attempt HT.enforce
  rw [if_pos ⟨.inl hpos, rfl⟩]

theorem fold_growth_dec (f : HT → Path → HT) (hf : ∀ h p, (f h p).growth = h.growth ∧ (f h p).dec = h.dec)
    (l : List Path) (h : HT) : (l.foldl f h).growth = h.growth ∧ (l.foldl f h).dec = h.dec := by
  induction l generalizing h with
  | nil => exact ⟨rfl, rfl⟩
  | cons p l ih =>
    rw [List.foldl_cons]
    obtain ⟨h1, h2⟩ := ih (f h p)
    obtain ⟨g1, g2⟩ := hf h p
    exact ⟨by rw [h1, g1], by rw [h2, g2]⟩

theorem setLeaf_growth (h : HT) (p : Path) (b : Bool) :
    (h.setLeaf p b).growth = h.growth ∧ (h.setLeaf p b).dec = h.dec := by
  unfold HT.setLeaf; cases h.root <;> simp

theorem enforce_growth (M : ℚ) (stopMem : Bool) (h : HT) (m : Mem) (hg : h.growth = false) :
    (h.enforce M stopMem m).growth = false ∧ (h.enforce M stopMem m).dec = h.dec := by
  have key : ∀ l1 l2 : List Path, (l1.foldl HT.activate (l2.foldl HT.deactivate h)).growth = false ∧
      (l1.foldl HT.activate (l2.foldl HT.deactivate h)).dec = h.dec := by
    intro l1 l2
    obtain ⟨a1, a2⟩ := fold_growth_dec HT.activate (by
      intro h p; unfold HT.activate; split_ifs
      · exact setLeaf_growth h p true
      · exact ⟨rfl, rfl⟩) l1 (l2.foldl HT.deactivate h)
    obtain ⟨d1, d2⟩ := fold_growth_dec HT.deactivate (by
      intro h p; unfold HT.deactivate; split_ifs
      · exact setLeaf_growth h p false
      · exact ⟨rfl, rfl⟩) l2 h
    exact ⟨by rw [a1, d1, hg], by rw [a2, d2]⟩
  unfold HT.enforce
  split_ifs with hs
  · exact ⟨rfl, rfl⟩
  · exact key _ _

/-- C66: once growth is stopped it never resumes and the number of split nodes
stays the same, whatever is trained. -/
theorem C66_growth_never_resumes (M : ℚ) (stopMem : Bool) (es : List Ev) (h h' : HT)
    (hg : h.growth = false) (hr : HT.run M stopMem h es = .ok h') :
    h'.growth = false ∧ h'.dec = h.dec := by
  have step : ∀ (h h' : HT) (e : Ev), h.growth = false → h.step M stopMem e = .ok h' →
      h'.growth = false ∧ h'.dec = h.dec := by
    intro h h' e hg hs
    unfold HT.step at hs
    simp only at hs
    have hi : (match h.root with
      | none => { h with root := some (.leaf true), act := 1 }
      | some _ => h : HT).growth = false ∧ (match h.root with
      | none => { h with root := some (.leaf true), act := 1 }
      | some _ => h : HT).dec = h.dec := by cases h.root <;> simp [hg]
    generalize (match h.root with
      | none => { h with root := some (.leaf true), act := 1 }
      | some _ => h : HT) = g at hi hs
    obtain ⟨hi1, hi2⟩ := hi
    rw [← hi2]
    have hfin : ∀ k : HT, k.growth = false → k.dec = g.dec → (match e.estimate with
        | none => k
        | some m => k.enforce M stopMem m : HT).growth = false ∧ (match e.estimate with
        | none => k
        | some m => k.enforce M stopMem m : HT).dec = g.dec := by
      intro k hk hd
      cases e.estimate with
      | none => exact ⟨hk, hd⟩
      | some m =>
        obtain ⟨a, b⟩ := enforce_growth M stopMem k m hk
        exact ⟨a, by rw [b, hd]⟩
    have hlearn : ∀ (k : HT) (p : Path), k.growth = false → k.learnAt M stopMem p e = k := by
      intro k p hk; simp [HT.learnAt, hk]
    cases hr : g.root with
    | none => rw [hr] at hs; cases hs
    | some r =>
      simp only [hr] at hs
      cases hf : r.filter e.br [] with
      | missing q b =>
        rw [hf] at hs
        have hl := hlearn { g with root := some (r.modify (T.addChild b) q), act := g.act + 1 } (q ++ [b]) hi1
        have : ∀ k, Except.ok k = Except.ok (ε := PyErr) h' → k = h' := by
          intro k hk; simpa using hk
        simp only [hl] at hs
        split at hs
        · split_ifs at hs
          rw [← this _ hs]; exact hfin _ hi1 rfl
        · rw [← this _ hs]; exact hfin _ hi1 rfl
      | node q =>
        rw [hf] at hs
        simp only [hlearn g q hi1] at hs
        split at hs
        · simp only [Except.ok.injEq] at hs; rw [← hs]; exact hfin _ hi1 rfl
        · simp only [Except.ok.injEq] at hs; rw [← hs]; exact hfin _ hi1 rfl
        · simp only [Except.ok.injEq] at hs; rw [← hs]; exact hfin _ hi1 rfl
  induction es generalizing h with
  | nil =>
    simp only [HT.run, List.foldlM_nil, pure, Except.pure, Except.ok.injEq] at hr
    rw [← hr]; exact ⟨hg, rfl⟩
  | cons e es ih =>
    simp only [HT.run, List.foldlM_cons, bind, Except.bind] at hr
    cases hs : h.step M stopMem e with
    | error x => rw [hs] at hr; cases hr
    | ok h1 =>
      rw [hs] at hr
      obtain ⟨a, b⟩ := step h h1 e hg hs
      obtain ⟨c, d⟩ := ih h1 a hr
      exact ⟨c, by rw [d, b]⟩

/-! ### Non-vacuity -/

/-- Memory figures that never restrict. -/
def freeMem : Mem := ⟨1, 1, 1, id⟩
/-- Two splits, one unseen nominal value, one pre-pruned leaf. -/
def demo : List Ev :=
  [⟨fun _ => 0, some (.multiway 2), freeMem, none⟩,
   ⟨fun p => if p = [] then -1 else 0, none, freeMem, none⟩,
   ⟨fun p => if p = [] then 2 else 0, some .binary, freeMem, none⟩,
   ⟨fun p => if p = [] then 1 else 0, some .preprune, ⟨10, 1, 1, id⟩, none⟩]

example : (match HT.run 15 false {} demo with
    | .ok h => some (h.dec, h.act, h.inact, h.actives, h.inactives, h.splits)
    | .error _ => none) = some (2, 1, 3, 1, 3, 2) := by decide +kernel

end Verif.Trees.HT
