import Verif.Trees.Learn

/-!
Trees with arbitrary leaves and split statistics, for the learners derived from the Hoeffding
tree.  Routing and the place where a training instance changes the tree (trees/_nodes/base.py)
are shared by them; what a leaf does with the instance is a parameter.
-/

namespace Verif.Trees.Grow

open Verif.Trees Verif.Trees.HL

variable {L S : Type}

mutual
/-- trees/_nodes/base.py: a `LearningNode` with its own state, or a `SplitNode` (172-188) with
test, statistics and children by branch id. -/
inductive G (L S : Type) where
  | leaf (l : L)
  | split (t : Test) (s : S) (kids : GF L S)
/-- `_children`: branch id and child, in insertion order. -/
inductive GF (L S : Type) where
  | nil
  | cons (id : Nat) (t : G L S) (rest : GF L S)
end

/-- `set_child` (base.py 208-222) for a new branch id. -/
def GF.snoc : GF L S → Nat → G L S → GF L S
  | .nil, i, t => .cons i t .nil
  | .cons j u rest, i, t => .cons j u (rest.snoc i t)

/-- The node an instance is routed to. -/
inductive End (L S : Type) where
  | leaf (l : L)
  | stuck (s : S)
  | missing

mutual
/-- `filter_instance_to_leaf`, base.py 56-74 and 266-292. -/
def G.route (x : List ℚ) : G L S → Except PyErr (End L S)
  | .leaf l => .ok (.leaf l)
  | .split t s kids =>
    match t.branch x with
    | .error e => .error e
    | .ok b => if b ≥ 0 then kids.route x b.toNat else .ok (.stuck s)
/-- See `G.route`. -/
def GF.route (x : List ℚ) : GF L S → Nat → Except PyErr (End L S)
  | .nil, _ => .ok .missing
  | .cons j t rest, b => if b = j then t.route x else rest.route x b
end

/-- hoeffding_tree.py 338-350 (and the same lines in the regressors): a split node that has no
branch for an instance gets one if its test is multiway, with a new leaf. -/
def sprout (x : List ℚ) (g : L → Except PyErr L) (new : L) (s : S) (kids : GF L S) : Test → Except PyErr (G L S)
  | .multi m =>
    match xget x m.att with
    | .error e => .error e
    | .ok v =>
      match m.addBranch v with
      | .error e => .error e
      | .ok (id, m') =>
        match g new with
        | .error e => .error e
        | .ok l => .ok (.split (.multi m') s (kids.snoc id (.leaf l)))
  | t => .ok (.split t s kids)

mutual
/-- hoeffding_tree.py 320-350: the instance is routed; a leaf is replaced by what `f` makes of it
(learning and split attempt); a missing child is a new leaf treated in the same way; at a split
node without a branch see `sprout` (learning `g` only).  The test of a split node gives branches
below its number of branches, so `set_child` does not raise. -/
def G.learn (x : List ℚ) (f : L → Except PyErr (G L S)) (g : L → Except PyErr L) (new : L) :
    G L S → Except PyErr (G L S)
  | .leaf l => f l
  | .split t s kids =>
    match t.branch x with
    | .error e => .error e
    | .ok b =>
      if b ≥ 0 then
        match kids.learn x f g new b.toNat with
        | .error e => .error e
        | .ok kids' => .ok (.split t s kids')
      else sprout x g new s kids t
/-- See `G.learn`. -/
def GF.learn (x : List ℚ) (f : L → Except PyErr (G L S)) (g : L → Except PyErr L) (new : L) :
    GF L S → Nat → Except PyErr (GF L S)
  | .nil, b =>
    match f new with
    | .error e => .error e
    | .ok t => .ok (.cons b t .nil)
  | .cons j t rest, b =>
    if b = j then
      match t.learn x f g new with
      | .error e => .error e
      | .ok t' => .ok (.cons j t' rest)
    else
      match rest.learn x f g new b with
      | .error e => .error e
      | .ok rest' => .ok (.cons j t rest')
end

mutual
/-- A change of the leaves by memory management, depending on their place. -/
def G.mapLeaves (f : List Nat → L → L) : G L S → List Nat → G L S
  | .leaf l, p => .leaf (f p l)
  | .split t s kids, p => .split t s (kids.mapLeaves f p)
/-- See `G.mapLeaves`. -/
def GF.mapLeaves (f : List Nat → L → L) : GF L S → List Nat → GF L S
  | .nil, _ => .nil
  | .cons j t rest, p => .cons j (t.mapLeaves f (p ++ [j])) (rest.mapLeaves f p)
end

/-- The children of a new split node (hoeffding_tree.py 619-622). -/
def kidsFrom (mk : D → L) : Nat → List D → GF L S
  | _, [] => .nil
  | i, d :: ds => .cons i (.leaf (mk d)) (kidsFrom mk (i + 1) ds)

mutual
/-- The leaves of a tree, left to right. -/
def G.leaves : G L S → List L
  | .leaf l => [l]
  | .split _ _ kids => kids.leaves
/-- See `G.leaves`. -/
def GF.leaves : GF L S → List L
  | .nil => []
  | .cons _ t rest => t.leaves ++ rest.leaves
end

mutual
/-- The branch ids of every split node are `0, …, k-1`, `k` the branches of its test. -/
def G.WF (n : Nat) : G L S → Prop
  | .leaf _ => True
  | .split t _ kids => ∃ k, t.Ok n k ∧ kids.WFfrom n 0 k
/-- See `G.WF`. -/
def GF.WFfrom (n : Nat) : GF L S → Nat → Nat → Prop
  | .nil, i, k => i = k
  | .cons j t rest, i, k => j = i ∧ t.WF n ∧ rest.WFfrom n (i + 1) k
end

mutual
/-- Every leaf and the statistics of every split node satisfy a condition. -/
def G.All (P : L → Prop) (Q : S → Prop) : G L S → Prop
  | .leaf l => P l
  | .split _ s kids => Q s ∧ kids.All P Q
/-- See `G.All`. -/
def GF.All (P : L → Prop) (Q : S → Prop) : GF L S → Prop
  | .nil => True
  | .cons _ t rest => t.All P Q ∧ rest.All P Q
end

theorem GF.snoc_facts (n : Nat) (kids : GF L S) (t : G L S) (a k : Nat) :
    (t.WF n → kids.WFfrom n a k → (kids.snoc k t).WFfrom n a (k + 1)) ∧
    (kids.snoc k t).leaves = kids.leaves ++ t.leaves ∧
    ∀ P Q, t.All P Q → kids.All P Q → (kids.snoc k t).All P Q := by
  match kids with
  | .nil =>
    refine ⟨fun ht h => ?_, by simp [GF.snoc, GF.leaves], fun P Q ht _ => ⟨ht, trivial⟩⟩
    have : a = k := h
    subst this
    exact ⟨rfl, ht, rfl⟩
  | .cons j u rest =>
    obtain ⟨h1, h2, h3⟩ := GF.snoc_facts n rest t (a + 1) k
    refine ⟨fun ht h => ⟨h.1, h.2.1, h1 ht h.2.2⟩, ?_, fun P Q ht h => ⟨h.1, h3 P Q ht h.2⟩⟩
    simp only [GF.snoc, GF.leaves, h2, List.append_assoc]

theorem kidsFrom_facts {D : Type} (n : Nat) (mk : D → L) (ds : List D) (i : Nat) :
    (kidsFrom (S := S) mk i ds).WFfrom n i (i + ds.length) ∧ (kidsFrom (S := S) mk i ds).leaves = ds.map mk ∧
    ∀ P Q, (∀ d ∈ ds, P (mk d)) → (kidsFrom (S := S) mk i ds).All P Q := by
  induction ds generalizing i with
  | nil => exact ⟨rfl, rfl, fun _ _ _ => trivial⟩
  | cons d ds ih =>
    obtain ⟨h1, h2, h3⟩ := ih (i + 1)
    refine ⟨⟨rfl, trivial, ?_⟩, ?_, fun P Q h => ⟨h d List.mem_cons_self, h3 P Q fun d' h' => h d' (List.mem_cons_of_mem _ h')⟩⟩
    · rwa [show i + 1 + ds.length = i + (d :: ds).length by simp; omega] at h1
    · simp only [kidsFrom, GF.leaves, G.leaves, h2, List.map_cons, List.singleton_append]

/-- The facts about one training step, at a leaf `l`. -/
def AtLeaf (x : List ℚ) (n : Nat) (learn : (L → Except PyErr (G L S)) → (L → Except PyErr L) → L → Except PyErr R)
    (leaves : R → List L) (wf : R → Prop) (all : (L → Prop) → (S → Prop) → R → Prop) (r : R) (l : L) : Prop :=
  ∃ pre post, leaves r = pre ++ l :: post ∧ ∀ f g new,
    (∀ e, f l = .error e → learn f g new = .error e) ∧
    ∀ t, f l = .ok t → ∃ r', learn f g new = .ok r' ∧ leaves r' = pre ++ t.leaves ++ post ∧ (t.WF n → wf r') ∧
      ∀ P Q, t.All P Q → all P Q r → all P Q r'

/-- The facts about one training step, at a split node without a branch. -/
def AtStuck (n : Nat) (learn : (L → Except PyErr (G L S)) → (L → Except PyErr L) → L → Except PyErr R)
    (leaves : R → List L) (wf : R → Prop) (all : (L → Prop) → (S → Prop) → R → Prop) (r : R) : Prop :=
  ∃ pre post, leaves r = pre ++ post ∧ ∀ f g new,
    (∀ e, g new = .error e → learn f g new = .error e) ∧
    ∀ l, g new = .ok l → ∃ r', learn f g new = .ok r' ∧ leaves r' = pre ++ l :: post ∧ wf r' ∧
      ∀ P Q, P l → all P Q r → all P Q r'

mutual
theorem G.learn_spec (n : Nat) (x : List ℚ) (hx : x.length = n) (r : G L S) (h : r.WF n) :
    (∃ l, r.route x = .ok (.leaf l) ∧
      AtLeaf x n (fun f g new => r.learn x f g new) G.leaves (G.WF n) G.All r l) ∨
    (∃ s, r.route x = .ok (.stuck s) ∧
      AtStuck n (fun f g new => r.learn x f g new) G.leaves (G.WF n) G.All r) := by
  match r with
  | .leaf l =>
    refine .inl ⟨l, rfl, [], [], rfl, fun f g new => ⟨fun e he => by simpa only [G.learn] using he, fun t ht => ?_⟩⟩
    exact ⟨t, by simpa only [G.learn] using ht, by simp, id, fun P Q hp _ => hp⟩
  | .split t s kids =>
    obtain ⟨k, h1, h2⟩ := h
    rcases Test.branch_ok h1 x hx with ⟨b, hb, hbr⟩ | ⟨m, rfl, hbr⟩
    · have hroute : (G.split t s kids).route x = kids.route x b := by
        rw [G.route]; simp only [hbr]; rw [if_pos (by omega), Int.toNat_natCast]
      have hlearn : ∀ f g new, (G.split t s kids).learn x f g new =
          match kids.learn x f g new b with
          | .error e => .error e
          | .ok kids' => .ok (.split t s kids') := by
        intro f g new
        rw [G.learn]; simp only [hbr]; rw [if_pos (by omega), Int.toNat_natCast]
      rcases GF.learn_spec n x hx kids b 0 k h2 (by omega) hb with ⟨l, r1, pre, post, p1, p2⟩ | ⟨s', r1, pre, post, p1, p2⟩
      · refine .inl ⟨l, by rw [hroute, r1], pre, post, p1, fun f g new => ?_⟩
        obtain ⟨q1, q2⟩ := p2 f g new
        refine ⟨fun e he => by simp only [hlearn, q1 e he], fun u hu => ?_⟩
        obtain ⟨kids', w1, w2, w3, w4⟩ := q2 u hu
        exact ⟨.split t s kids', by simp only [hlearn, w1], w2, fun hwf => ⟨k, h1, w3 hwf⟩,
          fun P Q hp ha => ⟨ha.1, w4 P Q hp ha.2⟩⟩
      · refine .inr ⟨s', by rw [hroute, r1], pre, post, p1, fun f g new => ?_⟩
        obtain ⟨q1, q2⟩ := p2 f g new
        refine ⟨fun e he => by simp only [hlearn, q1 e he], fun u hu => ?_⟩
        obtain ⟨kids', w1, w2, w3, w4⟩ := q2 u hu
        exact ⟨.split t s kids', by simp only [hlearn, w1], w2, ⟨k, h1, w3⟩, fun P Q hp ha => ⟨ha.1, w4 P Q hp ha.2⟩⟩
    · obtain ⟨v, m', g1, g2, g3⟩ := addBranch_ok h1 x hx hbr
      have hroute : (G.split (.multi m) s kids).route x = .ok (.stuck s) := by
        rw [G.route]; simp only [hbr]; rw [if_neg (by omega)]
      have hlearn : ∀ f g new, (G.split (.multi m) s kids).learn x f g new =
          match g new with
          | .error e => .error e
          | .ok l => .ok (.split (.multi m') s (kids.snoc k (.leaf l))) := by
        intro f g new
        rw [G.learn]; simp only [hbr]; rw [if_neg (by omega)]; simp only [sprout, g1, g2]
      refine .inr ⟨s, hroute, kids.leaves, [], by simp [G.leaves], fun f g new => ?_⟩
      refine ⟨fun e he => by simp only [hlearn, he], fun l hl => ?_⟩
      obtain ⟨s1, s2, s3⟩ := GF.snoc_facts n kids (.leaf l) 0 k
      exact ⟨.split (.multi m') s (kids.snoc k (.leaf l)), by simp only [hlearn, hl], by simp [G.leaves, s2],
        ⟨k + 1, g3, s1 trivial h2⟩, fun P Q hp ha => ⟨ha.1, s3 P Q hp ha.2⟩⟩
theorem GF.learn_spec (n : Nat) (x : List ℚ) (hx : x.length = n) (kids : GF L S) (b i k : Nat)
    (h : kids.WFfrom n i k) (h1 : i ≤ b) (h2 : b < k) :
    (∃ l, kids.route x b = .ok (.leaf l) ∧
      AtLeaf x n (fun f g new => kids.learn x f g new b) GF.leaves (fun r => r.WFfrom n i k) GF.All kids l) ∨
    (∃ s, kids.route x b = .ok (.stuck s) ∧
      AtStuck n (fun f g new => kids.learn x f g new b) GF.leaves (fun r => r.WFfrom n i k) GF.All kids) := by
  match kids with
  | .nil => have : i = k := h; omega
  | .cons j t rest =>
    obtain ⟨rfl, ht, hr⟩ := h
    by_cases e' : b = j
    · have hroute : (GF.cons j t rest).route x b = t.route x := by rw [GF.route, if_pos e']
      have hlearn : ∀ f g new, (GF.cons j t rest).learn x f g new b =
          match t.learn x f g new with
          | .error e => .error e
          | .ok t' => .ok (.cons j t' rest) := by
        intro f g new
        rw [GF.learn, if_pos e']
      rcases G.learn_spec n x hx t ht with ⟨l, r1, pre, post, p1, p2⟩ | ⟨s', r1, pre, post, p1, p2⟩
      · refine .inl ⟨l, by rw [hroute, r1], pre, post ++ rest.leaves, by simp [GF.leaves, p1], fun f g new => ?_⟩
        obtain ⟨q1, q2⟩ := p2 f g new
        refine ⟨fun e he => by simp only [hlearn, q1 e he], fun u hu => ?_⟩
        obtain ⟨t', w1, w2, w3, w4⟩ := q2 u hu
        exact ⟨.cons j t' rest, by simp only [hlearn, w1], by simp [GF.leaves, w2], fun hwf => ⟨rfl, w3 hwf, hr⟩,
          fun P Q hp ha => ⟨w4 P Q hp ha.1, ha.2⟩⟩
      · refine .inr ⟨s', by rw [hroute, r1], pre, post ++ rest.leaves, by simp [GF.leaves, p1], fun f g new => ?_⟩
        obtain ⟨q1, q2⟩ := p2 f g new
        refine ⟨fun e he => by simp only [hlearn, q1 e he], fun u hu => ?_⟩
        obtain ⟨t', w1, w2, w3, w4⟩ := q2 u hu
        exact ⟨.cons j t' rest, by simp only [hlearn, w1], by simp [GF.leaves, w2], ⟨rfl, w3, hr⟩,
          fun P Q hp ha => ⟨w4 P Q hp ha.1, ha.2⟩⟩
    · have hroute : (GF.cons j t rest).route x b = rest.route x b := by rw [GF.route, if_neg e']
      have hlearn : ∀ f g new, (GF.cons j t rest).learn x f g new b =
          match rest.learn x f g new b with
          | .error e => .error e
          | .ok rest' => .ok (.cons j t rest') := by
        intro f g new
        rw [GF.learn, if_neg e']
      rcases GF.learn_spec n x hx rest b (j + 1) k hr (by omega) h2 with ⟨l, r1, pre, post, p1, p2⟩ | ⟨s', r1, pre, post, p1, p2⟩
      · refine .inl ⟨l, by rw [hroute, r1], t.leaves ++ pre, post, by simp [GF.leaves, p1], fun f g new => ?_⟩
        obtain ⟨q1, q2⟩ := p2 f g new
        refine ⟨fun e he => by simp only [hlearn, q1 e he], fun u hu => ?_⟩
        obtain ⟨rest', w1, w2, w3, w4⟩ := q2 u hu
        exact ⟨.cons j t rest', by simp only [hlearn, w1], by simp [GF.leaves, w2], fun hwf => ⟨rfl, ht, w3 hwf⟩,
          fun P Q hp ha => ⟨ha.1, w4 P Q hp ha.2⟩⟩
      · refine .inr ⟨s', by rw [hroute, r1], t.leaves ++ pre, post, by simp [GF.leaves, p1], fun f g new => ?_⟩
        obtain ⟨q1, q2⟩ := p2 f g new
        refine ⟨fun e he => by simp only [hlearn, q1 e he], fun u hu => ?_⟩
        obtain ⟨rest', w1, w2, w3, w4⟩ := q2 u hu
        exact ⟨.cons j t rest', by simp only [hlearn, w1], by simp [GF.leaves, w2], ⟨rfl, ht, w3⟩,
          fun P Q hp ha => ⟨ha.1, w4 P Q hp ha.2⟩⟩
end

mutual
theorem G.mapLeaves_facts (n : Nat) (f : List Nat → L → L) (r : G L S) (p : List Nat) :
    (r.WF n → (r.mapLeaves f p).WF n) ∧ (r.mapLeaves f p).leaves.length = r.leaves.length ∧
    (∀ (M : Type) (g : L → M), (∀ q l, g (f q l) = g l) → (r.mapLeaves f p).leaves.map g = r.leaves.map g) ∧
    ∀ P Q, (∀ q l, P l → P (f q l)) → r.All P Q → (r.mapLeaves f p).All P Q := by
  match r with
  | .leaf l => exact ⟨id, rfl, fun M g hg => by simp [G.mapLeaves, G.leaves, hg], fun P Q hp h => hp p l h⟩
  | .split t s kids =>
    obtain ⟨h1, h2, h3, h4⟩ := GF.mapLeaves_facts n f kids p
    refine ⟨fun ⟨k, k1, k2⟩ => ⟨k, k1, h1 0 k k2⟩, ?_, fun M g hg => ?_, fun P Q hp h => ⟨h.1, h4 P Q hp h.2⟩⟩
    · simpa only [G.mapLeaves, G.leaves] using h2
    · simpa only [G.mapLeaves, G.leaves] using h3 M g hg
theorem GF.mapLeaves_facts (n : Nat) (f : List Nat → L → L) (kids : GF L S) (p : List Nat) :
    (∀ i k, kids.WFfrom n i k → (kids.mapLeaves f p).WFfrom n i k) ∧
    (kids.mapLeaves f p).leaves.length = kids.leaves.length ∧
    (∀ (M : Type) (g : L → M), (∀ q l, g (f q l) = g l) → (kids.mapLeaves f p).leaves.map g = kids.leaves.map g) ∧
    ∀ P Q, (∀ q l, P l → P (f q l)) → kids.All P Q → (kids.mapLeaves f p).All P Q := by
  match kids with
  | .nil => exact ⟨fun _ _ h => h, rfl, fun _ _ _ => rfl, fun _ _ _ h => h⟩
  | .cons j t rest =>
    obtain ⟨h1, h2, h3, h4⟩ := G.mapLeaves_facts n f t (p ++ [j])
    obtain ⟨k1, k2, k3, k4⟩ := GF.mapLeaves_facts n f rest p
    refine ⟨fun i k h => ⟨h.1, h1 h.2.1, k1 _ _ h.2.2⟩, ?_, fun M g hg => ?_, fun P Q hp h => ⟨h4 P Q hp h.1, k4 P Q hp h.2⟩⟩
    · simp only [GF.mapLeaves, GF.leaves, List.length_append, h2, k2]
    · simp only [GF.mapLeaves, GF.leaves, List.map_append, h3 M g hg, k3 M g hg]
end

mutual
theorem G.all_leaves (P : L → Prop) (Q : S → Prop) (r : G L S) (h : r.All P Q) : ∀ l ∈ r.leaves, P l := by
  match r with
  | .leaf l => intro l' hl; simp only [G.leaves, List.mem_singleton] at hl; rw [hl]; exact h
  | .split t s kids => simpa only [G.leaves] using GF.all_leaves P Q kids h.2
theorem GF.all_leaves (P : L → Prop) (Q : S → Prop) (kids : GF L S) (h : kids.All P Q) : ∀ l ∈ kids.leaves, P l := by
  match kids with
  | .nil => intro l hl; simp [GF.leaves] at hl
  | .cons j t rest =>
    intro l hl
    rw [GF.leaves, List.mem_append] at hl
    rcases hl with hl | hl
    · exact G.all_leaves P Q t h.1 l hl
    · exact GF.all_leaves P Q rest h.2 l hl
end

mutual
theorem G.route_all (P : L → Prop) (Q : S → Prop) (x : List ℚ) (r : G L S) (h : r.All P Q) :
    (∀ l, r.route x = .ok (.leaf l) → P l) ∧ ∀ s, r.route x = .ok (.stuck s) → Q s := by
  match r with
  | .leaf l =>
    refine ⟨fun l' hl => ?_, fun s hs => by simp [G.route] at hs⟩
    simp only [G.route, Except.ok.injEq, End.leaf.injEq] at hl
    rw [← hl]; exact h
  | .split t s kids =>
    rw [G.route]
    cases hb : t.branch x with
    | error e => simp
    | ok b =>
      by_cases hp : b ≥ 0
      · simp only [if_pos hp]; exact GF.route_all P Q x kids b.toNat h.2
      · simp only [if_neg hp]
        refine ⟨fun l hl => by simp at hl, fun s' hs => ?_⟩
        simp only [Except.ok.injEq, End.stuck.injEq] at hs
        rw [← hs]; exact h.1
theorem GF.route_all (P : L → Prop) (Q : S → Prop) (x : List ℚ) (kids : GF L S) (b : Nat) (h : kids.All P Q) :
    (∀ l, kids.route x b = .ok (.leaf l) → P l) ∧ ∀ s, kids.route x b = .ok (.stuck s) → Q s := by
  match kids with
  | .nil => simp [GF.route]
  | .cons j t rest =>
    rw [GF.route]
    by_cases e : b = j
    · simp only [if_pos e]; exact G.route_all P Q x t h.1
    · simp only [if_neg e]; exact GF.route_all P Q x rest b h.2
end

mutual
theorem G.all_true (r : G L S) : r.All (fun _ => True) (fun _ => True) := by
  match r with
  | .leaf l => trivial
  | .split t s kids => exact ⟨trivial, GF.all_true kids⟩
theorem GF.all_true (kids : GF L S) : kids.All (fun _ => True) (fun _ => True) := by
  match kids with
  | .nil => trivial
  | .cons j t rest => exact ⟨G.all_true t, GF.all_true rest⟩
end

end Verif.Trees.Grow
