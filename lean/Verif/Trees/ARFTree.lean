import Verif.Trees.Inactive
import Verif.Trees.Conserve
import Mathlib.Data.List.Rotate

/-!
# The trees of adaptive random forests (C212)

`ARFHoeffdingTreeClassifier` (trees/arf_hoeffding_tree.py) is the Hoeffding tree with other
active leaves, `RandomActiveLeafClass` (trees/_nodes/arf_htc_nodes.py): a leaf draws a subset of the
features when the first instance arrives and observes these only. The tree is that of
`Verif.Trees.Learn`. One training instance reaches one leaf, so there is at most one draw
per instance; the generator is threaded through the instances.
-/

namespace Verif.Trees.ARFT

open Verif.Trees.HL

variable {A G : Type}

/-- `feature_indices` and `attribute_observers` of an active leaf. -/
structure Sub (A : Type) where
  features : List Nat
  obs : List (Nat × A)

/-- The options of the tree; `blank i` is the observer made for attribute `i` (arf_htc_nodes.py 25-28),
`upd` its `update`, `bayes` the naive Bayes votes. -/
structure Conf (A : Type) where
  kind : Kind
  nbThreshold : ℚ
  grace : ℚ
  maxFeatures : Nat
  blank : Nat → A
  upd : A → ℚ → Int → ℚ → A
  bayes : Stats → List (Nat × A) → List ℚ → List (Int × ℚ)

/-- `self.attribute_observers[i] = a`. -/
def put (obs : List (Nat × A)) (i : Nat) (a : A) : List (Nat × A) :=
  match obs with
  | [] => [(i, a)]
  | (j, b) :: l => if j = i then (i, a) :: l else (j, b) :: put l i a

/-- `update_attribute_observers`, arf_htc_nodes.py 17-30; `drawn` is what `_sample_features`
answers. -/
def observe (c : Conf A) (drawn : List Nat) (o : Sub A) (x : List ℚ) (y : Int) (w : ℚ) : Sub A :=
  let fs := if o.features = [] then drawn else o.features
  ⟨fs, fs.foldl (fun obs i => put obs i (c.upd ((obs.lookup i).getD (c.blank i)) (x.getD i 0) y w)) o.obs⟩

/-- The tree, if a leaf that draws gets `drawn`. New leaves have no features and no observers
(`_new_learning_node`, arf_hoeffding_tree.py 112-138; arf_htc_nodes.py 57-61). -/
def cfg (c : Conf A) (drawn : List Nat) : Cfg (Sub A) :=
  ⟨c.kind, c.nbThreshold, c.grace, ⟨[], []⟩, observe c drawn, fun s o x => c.bayes s o.obs x⟩

/-- Whether the leaf that learns instance `x` will draw (arf_htc_nodes.py 18). -/
def draws (root : Option (T (Sub A))) (x : List ℚ) : Bool :=
  match root with
  | none => true
  | some r => match r.filter x [] with
    | .error _ => false
    | .ok (.missing _ _) => true
    | .ok (.node p) => match r.get p with
      | some (.leaf l) => l.active && l.obs.features.isEmpty
      | some (.split (.multi _) _ _) => true
      | _ => false

/-- One training instance: `choice g n k` is `RandomState.choice(n, size=k, replace=False)`
(lines 32-35), which raises `ValueError` if `k > n`. -/
def step (c : Conf A) (choice : G → Nat → Nat → List Nat × G) (root : Option (T (Sub A))) (g : G) (e : Ev (Sub A)) :
    Except PyErr (T (Sub A) × G) :=
  if draws root e.x then
    if e.x.length < c.maxFeatures then .error .valueError
    else
      match HL.step (cfg c (choice g e.x.length c.maxFeatures).1) root e with
      | .error err => .error err
      | .ok r => .ok (r, (choice g e.x.length c.maxFeatures).2)
  else
    match HL.step (cfg c []) root e with
    | .error err => .error err
    | .ok r => .ok (r, g)

/-- A sequence of training instances. -/
def run (c : Conf A) (choice : G → Nat → Nat → List Nat × G) (root : Option (T (Sub A))) (g : G) :
    List (Ev (Sub A)) → Except PyErr (Option (T (Sub A)) × G)
  | [] => .ok (root, g)
  | e :: es =>
    match step c choice root g e with
    | .error err => .error err
    | .ok (r, g) => run c choice (some r) g es

/-! ### Specification -/

/-- A generator that keeps its promise: `k` different numbers below `n`. -/
def Draws (choice : G → Nat → Nat → List Nat × G) : Prop :=
  ∀ g n k, k ≤ n → ((choice g n k).1.length = k ∧ (choice g n k).1.Nodup ∧ ∀ i ∈ (choice g n k).1, i < n)

/-- An observer of feature `i` that was given the values of feature `i` in `log`. -/
def watched (c : Conf A) (i : Nat) (log : List (List ℚ × Int × ℚ)) : A :=
  log.foldl (fun a r => c.upd a (r.1.getD i 0) r.2.1 r.2.2) (c.blank i)

/-- The leaf has seen the instances of `log`: it has `maxFeatures` different features out of
`n`, and for each of them, and for no other, an observer that was given all values. -/
def Saw (c : Conf A) (n : Nat) (log : List (List ℚ × Int × ℚ)) (o : Sub A) : Prop :=
  (log = [] ∧ o.features = [] ∧ o.obs = []) ∨
  (log ≠ [] ∧ o.features.length = c.maxFeatures ∧ o.features.Nodup ∧ (∀ i ∈ o.features, i < n) ∧
    o.obs = o.features.map fun i => (i, watched c i log))

/-- `remove_poor_atts` off: an attempt that does not split changes no observer. -/
def Keeps (e : Ev (Sub A)) : Prop := ∀ l f, e.choose l = .keep f → f l.obs = l.obs

/-! ### Proofs -/

theorem put_new (obs : List (Nat × A)) (i : Nat) (a : A) (h : i ∉ obs.map Prod.fst) : put obs i a = obs ++ [(i, a)] := by
  induction obs with
  | nil => rfl
  | cons b l ih =>
    simp only [List.map_cons, List.mem_cons, not_or] at h
    rw [put, if_neg (by rintro rfl; exact h.1 rfl), ih h.2]
    rfl

theorem put_old (l1 l2 : List (Nat × A)) (i : Nat) (a b : A) (h : i ∉ l1.map Prod.fst) :
    put (l1 ++ (i, b) :: l2) i a = l1 ++ (i, a) :: l2 := by
  induction l1 with
  | nil => simp [put]
  | cons q l1 ih =>
    simp only [List.map_cons, List.mem_cons, not_or] at h
    rw [List.cons_append, put, if_neg (by rintro rfl; exact h.1 rfl), ih h.2]
    rfl

theorem lookup_new (l1 : List (Nat × A)) (i : Nat) (h : i ∉ l1.map Prod.fst) (l2 : List (Nat × A)) :
    (l1 ++ l2).lookup i = l2.lookup i := by
  induction l1 with
  | nil => rfl
  | cons q l1 ih =>
    simp only [List.map_cons, List.mem_cons, not_or] at h
    rw [List.cons_append, List.lookup_cons]
    have : (i == q.1) = false := by simpa using h.1
    rw [this]
    exact ih h.2

/-- Updating the observers of distinct features, all of them there. -/
theorem fold_old (c : Conf A) (x : List ℚ) (y : Int) (w : ℚ) (v : Nat → A) (todo : List Nat) (l1 : List (Nat × A))
    (hn : todo.Nodup) (hd : ∀ i ∈ todo, i ∉ l1.map Prod.fst) :
    todo.foldl (fun obs i => put obs i (c.upd ((obs.lookup i).getD (c.blank i)) (x.getD i 0) y w)) (l1 ++ todo.map fun i => (i, v i)) =
      l1 ++ todo.map fun i => (i, c.upd (v i) (x.getD i 0) y w) := by
  induction todo generalizing l1 with
  | nil => rfl
  | cons i todo ih =>
    simp only [List.foldl_cons, List.map_cons]
    rw [lookup_new l1 i (hd i List.mem_cons_self), List.lookup_cons]
    simp only [beq_self_eq_true, Option.getD_some]
    rw [put_old _ _ _ _ _ (hd i List.mem_cons_self)]
    have h1 : ∀ l2 : List (Nat × A), l1 ++ (i, c.upd (v i) (x.getD i 0) y w) :: l2 = (l1 ++ [(i, c.upd (v i) (x.getD i 0) y w)]) ++ l2 := by
      intro l2; simp
    rw [h1, ih, ← h1]
    · exact (List.nodup_cons.1 hn).2
    · intro j hj hc
      simp only [List.map_append, List.mem_append, List.map_cons, List.map_nil, List.mem_singleton] at hc
      rcases hc with hc | hc
      · exact hd j (List.mem_cons_of_mem _ hj) hc
      · subst hc; exact (List.nodup_cons.1 hn).1 hj

/-- Updating the observers of distinct features, none of them there. -/
theorem fold_new (c : Conf A) (x : List ℚ) (y : Int) (w : ℚ) (todo : List Nat) (l1 : List (Nat × A))
    (hn : todo.Nodup) (hd : ∀ i ∈ todo, i ∉ l1.map Prod.fst) :
    todo.foldl (fun obs i => put obs i (c.upd ((obs.lookup i).getD (c.blank i)) (x.getD i 0) y w)) l1 =
      l1 ++ todo.map fun i => (i, c.upd (c.blank i) (x.getD i 0) y w) := by
  induction todo generalizing l1 with
  | nil => simp
  | cons i todo ih =>
    simp only [List.foldl_cons, List.map_cons]
    have h0 : l1.lookup i = none := by
      have := lookup_new l1 i (hd i List.mem_cons_self) []
      simpa using this
    rw [h0, Option.getD_none, put_new _ _ _ (hd i List.mem_cons_self), ih]
    · simp
    · exact (List.nodup_cons.1 hn).2
    · intro j hj hc
      simp only [List.map_append, List.mem_append, List.map_cons, List.map_nil, List.mem_singleton] at hc
      rcases hc with hc | hc
      · exact hd j (List.mem_cons_of_mem _ hj) hc
      · subst hc; exact (List.nodup_cons.1 hn).1 hj

/-- An instance more. -/
theorem saw_observe (c : Conf A) (n : Nat) (drawn : List Nat) (log : List (List ℚ × Int × ℚ)) (o : Sub A) (h : Saw c n log o)
    (hd : o.features = [] → drawn.length = c.maxFeatures ∧ drawn.Nodup ∧ ∀ i ∈ drawn, i < n) (x : List ℚ) (y : Int) (w : ℚ) :
    Saw c n (log ++ [(x, y, w)]) (observe c drawn o x y w) := by
  right
  refine ⟨by simp, ?_⟩
  have hw : ∀ i, watched c i (log ++ [(x, y, w)]) = c.upd (watched c i log) (x.getD i 0) y w := by
    intro i; simp [watched]
  obtain ⟨fs, obs⟩ := o
  rcases h with ⟨rfl, h2, h3⟩ | ⟨h1, h2, h3, h4, h5⟩
  · simp only at h2 h3
    subst h2 h3
    obtain ⟨a, b, d⟩ := hd rfl
    simp only [observe, if_true]
    refine ⟨a, b, d, ?_⟩
    rw [fold_new c x y w drawn [] b (by simp), List.nil_append]
    rfl
  · simp only at h2 h3 h4 h5
    simp only [observe]
    by_cases he : fs = []
    · subst he
      obtain ⟨a, b, d⟩ := hd rfl
      have : drawn = [] := List.length_eq_zero_iff.1 (by rw [a, ← h2]; rfl)
      subst this
      simp only [if_true]
      exact ⟨h2, h3, h4, by rw [h5]; rfl⟩
    · simp only [if_neg he]
      refine ⟨h2, h3, h4, ?_⟩
      rw [h5]
      have := fold_old c x y w (fun i => watched c i log) fs [] h3 (by simp)
      simp only [List.nil_append] at this
      rw [this]
      simp only [hw]

theorem saw_learn (c : Conf A) (n : Nat) (drawn : List Nat) (log : List (List ℚ × Int × ℚ)) (l : Leaf (Sub A)) (h : Saw c n log l.obs)
    (hd : l.active = true → l.obs.features = [] → drawn.length = c.maxFeatures ∧ drawn.Nodup ∧ ∀ i ∈ drawn, i < n) (x : List ℚ) (y : Int) (w : ℚ) :
    ∃ log', (log' = log ∨ log' = log ++ [(x, y, w)]) ∧ Saw c n log' (l.learn (cfg c drawn) x y w).obs := by
  by_cases ha : l.active = true
  · refine ⟨_, .inr rfl, ?_⟩
    have : (l.learn (cfg c drawn) x y w).obs = observe c drawn l.obs x y w := by simp [Leaf.learn, ha, cfg]
    rw [this]
    exact saw_observe c n drawn log l.obs h (hd ha) x y w
  · refine ⟨log, .inl rfl, ?_⟩
    have : (l.learn (cfg c drawn) x y w).obs = l.obs := by simp [Leaf.learn, ha]
    rw [this]
    exact h

/-- A leaf that has seen some of the instances of `L`, in order. -/
def SawSome (c : Conf A) (n : Nat) (L : List (List ℚ × Int × ℚ)) (l : Leaf (Sub A)) : Prop :=
  ∃ log, log.Sublist L ∧ Saw c n log l.obs

theorem newLeaf_saw (c : Conf A) (n : Nat) (drawn : List Nat) (L : List (List ℚ × Int × ℚ)) (a : Bool) (s : Stats) :
    SawSome c n L (newLeaf (cfg c drawn) a s) := ⟨[], List.nil_sublist _, .inl ⟨rfl, rfl, rfl⟩⟩

theorem manage_saw (c : Conf A) (n : Nat) (drawn : List Nat) (L : List (List ℚ × Int × ℚ)) (m : List (Path × Bool)) (r : T (Sub A))
    (h : ∀ l ∈ r.leaves, SawSome c n L l) : ∀ l ∈ (manage (cfg c drawn) r m).leaves, SawSome c n L l := by
  induction m generalizing r with
  | nil => exact h
  | cons q m ih =>
    have : manage (cfg c drawn) r (q :: m) = manage (cfg c drawn) (r.modify (setActive (cfg c drawn) q.2) q.1) m := rfl
    rw [this]
    apply ih
    intro l hl
    cases hg : r.get q.1 with
    | none => rw [T.modify_none _ _ _ hg] at hl; exact h l hl
    | some s =>
      rcases T.leaves_modify _ r q.1 s hg l hl with h' | h'
      · exact h l h'
      · cases s with
        | split t st kids => exact h l (T.leaves_get r q.1 _ hg l h')
        | leaf l0 =>
          rw [setActive] at h'
          split at h'
          · simp only [T.leaves, List.mem_singleton] at h'; subst h'
            exact h l (T.leaves_get r q.1 _ hg l (by simp [T.leaves]))
          · simp only [T.leaves, List.mem_singleton] at h'; subst h'
            exact newLeaf_saw c n drawn L _ _

theorem attempt_saw (c : Conf A) (n : Nat) (drawn : List Nat) (L : List (List ℚ × Int × ℚ)) (e : Ev (Sub A)) (he : Keeps e)
    (l : Leaf (Sub A)) (h : SawSome c n L l) : ∀ l' ∈ (attempt (cfg c drawn) e l).leaves, SawSome c n L l' := by
  unfold attempt
  split
  · cases hch : e.choose l with
    | keep f =>
      intro l' hl'
      simp only [T.leaves, List.mem_singleton] at hl'
      subst hl'
      obtain ⟨log, h1, h2⟩ := h
      exact ⟨log, h1, by simpa only [he l f hch] using h2⟩
    | prune =>
      intro l' hl'
      simp only [T.leaves, List.mem_singleton] at hl'
      subst hl'
      exact newLeaf_saw c n drawn L _ _
    | split t ds =>
      intro l' hl'
      simp only [T.leaves, newKids_leaves, List.mem_map] at hl'
      obtain ⟨d, hd, rfl⟩ := hl'
      exact newLeaf_saw c n drawn L _ _
  · intro l' hl'
    simp only [T.leaves, List.mem_singleton] at hl'
    subst hl'
    exact h

/-- One instance. -/
theorem step_saw (c : Conf A) (choice : G → Nat → Nat → List Nat × G) (hch : Draws choice) (n : Nat) (hn : c.maxFeatures ≤ n)
    (L : List (List ℚ × Int × ℚ)) (root : Option (T (Sub A))) (hroot : ∀ r, root = some r → r.WF n ∧ ∀ l ∈ r.leaves, SawSome c n L l)
    (g : G) (e : Ev (Sub A)) (he : e.Ok n) (hk : Keeps e) :
    ∃ r g', step c choice root g e = .ok (r, g') ∧ r.WF n ∧ ∀ l ∈ r.leaves, SawSome c n (L ++ [(e.x, e.y, e.w)]) l := by
  -- with some draw, if one is needed
  have key : ∀ drawn, (draws root e.x = true → drawn.length = c.maxFeatures ∧ drawn.Nodup ∧ ∀ i ∈ drawn, i < n) →
      ∃ r, HL.step (cfg c drawn) root e = .ok r ∧ r.WF n ∧ ∀ l ∈ r.leaves, SawSome c n (L ++ [(e.x, e.y, e.w)]) l := by
    intro drawn hd
    obtain ⟨r', p, s, g1, g2, g3, g4, g5⟩ := step_spec (cfg c drawn) n root (fun r hr => (hroot r hr).1) e he
    refine ⟨_, g1, manage_WF _ n _ _ g2, manage_saw c n drawn _ _ _ ?_⟩
    have hmono : ∀ l, SawSome c n L l → SawSome c n (L ++ [(e.x, e.y, e.w)]) l := by
      rintro l ⟨log, h1, h2⟩
      exact ⟨log, h1.trans (List.sublist_append_left _ _), h2⟩
    have hall : ∀ l ∈ (root.getD (.leaf (newLeaf (cfg c drawn) true []))).leaves, SawSome c n L l := by
      cases root with
      | none =>
        intro l hl
        simp only [Option.getD_none, T.leaves, List.mem_singleton] at hl
        subst hl
        exact newLeaf_saw c n drawn L _ _
      | some r => exact (hroot r rfl).2
    have hlearn : ∀ l : Leaf (Sub A), SawSome c n L l →
        (l.active = true → l.obs.features = [] → draws root e.x = true) →
        SawSome c n (L ++ [(e.x, e.y, e.w)]) (l.learn (cfg c drawn) e.x e.y e.w) := by
      rintro l ⟨log, h1, h2⟩ h3
      obtain ⟨log', h4, h5⟩ := saw_learn c n drawn log l h2 (fun a b => hd (h3 a b)) e.x e.y e.w
      refine ⟨log', ?_, h5⟩
      rcases h4 with rfl | rfl
      · exact h1.trans (List.sublist_append_left _ _)
      · exact List.Sublist.append h1 (List.Sublist.refl _)
    rcases g5 with ⟨l, rfl, rfl⟩ | ⟨m, m', st, kids, id, rfl, rfl⟩
    · have hdr : l.active = true → l.obs.features = [] → draws root e.x = true := by
        intro ha hf
        cases root with
        | none => rfl
        | some r =>
          simp only [Option.getD_some] at g3 g4
          simp [draws, g3, g4, ha, hf]
      have hl := hlearn l (hall l (T.leaves_get _ p _ g4 l (by simp [T.leaves]))) hdr
      intro l' hl'
      rcases T.leaves_modify _ _ p _ g4 l' hl' with h' | h'
      · exact hmono l' (hall l' h')
      · exact attempt_saw c n drawn _ e hk _ hl l' h'
    · have hdr : draws root e.x = true := by
        cases root with
        | none => rfl
        | some r =>
          simp only [Option.getD_some] at g3 g4
          simp [draws, g3, g4]
      intro l' hl'
      rcases T.leaves_modify _ _ p _ g4 l' hl' with h' | h'
      · exact hmono l' (hall l' h')
      · simp only [T.leaves, F.leaves_snoc, List.mem_append, List.mem_singleton] at h'
        rcases h' with h' | h'
        · exact hmono l' (hall l' (T.leaves_get _ p _ g4 l' h'))
        · subst h'
          exact hlearn _ (newLeaf_saw c n drawn L _ _) fun _ _ => hdr
  unfold step
  by_cases hdr : draws root e.x = true
  · rw [if_pos hdr, if_neg (by rw [he.1]; omega)]
    obtain ⟨r, h1, h2, h3⟩ := key (choice g e.x.length c.maxFeatures).1 (fun _ => by
      rw [he.1]; exact hch g n c.maxFeatures hn)
    exact ⟨r, _, by rw [h1], h2, h3⟩
  · rw [if_neg hdr]
    obtain ⟨r, h1, h2, h3⟩ := key [] (fun hc => absurd hc hdr)
    exact ⟨r, g, by rw [h1], h2, h3⟩

/-- **C212**: with at least `max_features` features training does not fail, and every leaf is
blank, or observes the values of `max_features` different features, the same since its first
instance, and of no others. -/
theorem C212_leaf_features_partial (c : Conf A) (choice : G → Nat → Nat → List Nat × G) (hch : Draws choice) (n : Nat)
    (hn : c.maxFeatures ≤ n) (g : G) (es : List (Ev (Sub A))) (he : ∀ e ∈ es, e.Ok n ∧ Keeps e) :
    ∃ root g', run c choice none g es = .ok (root, g') ∧ ∀ r, root = some r → ∀ l ∈ r.leaves,
      ∃ log : List (List ℚ × Int × ℚ), log.Sublist (es.map fun e => (e.x, e.y, e.w)) ∧ Saw c n log l.obs := by
  have key : ∀ (es : List (Ev (Sub A))) (L : List (List ℚ × Int × ℚ)) (root : Option (T (Sub A))) (g : G),
      (∀ e ∈ es, e.Ok n ∧ Keeps e) → (∀ r, root = some r → r.WF n ∧ ∀ l ∈ r.leaves, SawSome c n L l) →
      ∃ root' g', run c choice root g es = .ok (root', g') ∧ ∀ r, root' = some r → ∀ l ∈ r.leaves,
        SawSome c n (L ++ es.map fun e => (e.x, e.y, e.w)) l := by
    intro es
    induction es with
    | nil =>
      intro L root g _ h
      exact ⟨root, g, rfl, fun r hr => by simpa using (h r hr).2⟩
    | cons e es ih =>
      intro L root g he h
      obtain ⟨h1, h2⟩ := he e List.mem_cons_self
      obtain ⟨r, g1, k1, k2, k3⟩ := step_saw c choice hch n hn L root h g e h1 h2
      obtain ⟨root', g', q1, q2⟩ := ih (L ++ [(e.x, e.y, e.w)]) (some r) g1 (fun e he' => he e (List.mem_cons_of_mem _ he'))
        (fun r' hr' => by cases hr'; exact ⟨k2, k3⟩)
      exact ⟨root', g', by rw [run, k1]; exact q1, by simpa using q2⟩
  obtain ⟨root, g', h1, h2⟩ := key es [] none g he (by simp)
  exact ⟨root, g', h1, by simpa [SawSome] using h2⟩

/-- **C212**: a leaf keeps its features until it is split or switched off. -/
theorem C212_kept (c : Conf A) (choice : G → Nat → Nat → List Nat × G) (n : Nat) (r r' : T (Sub A)) (hr : r.WF n)
    (g g' : G) (e : Ev (Sub A)) (he : e.Ok n) (hk : Keeps e) (hm : e.memory = []) (hs : step c choice (some r) g e = .ok (r', g'))
    (q : Path) (l l' : Leaf (Sub A)) (hq : r.get q = some (.leaf l)) (hq' : r'.get q = some (.leaf l'))
    (hf : l.obs.features ≠ []) (ha : l'.active = true) : l'.obs.features = l.obs.features := by
  have key : ∀ drawn, HL.step (cfg c drawn) (some r) e = .ok r' → l'.obs.features = l.obs.features := by
    intro drawn hs
    by_cases hp : routed (cfg c drawn) (some r) e.x = some q
    · obtain ⟨r1, g1, g2, g3⟩ := step_own (cfg c drawn) n r hr e he q l hq hp
      rw [hs, hm] at g1
      simp only [Except.ok.injEq] at g1
      have hr1 : r1 = r' := by rw [g1]; rfl
      rw [hr1, hq'] at g3
      simp only [Option.some.injEq] at g3
      unfold attempt at g3
      have hlf : (l.learn (cfg c drawn) e.x e.y e.w).obs.features = l.obs.features := by
        simp only [Leaf.learn, cfg, observe]
        split
        · simp [hf]
        · rfl
      split at g3
      · cases hch : e.choose (l.learn (cfg c drawn) e.x e.y e.w) with
        | keep f =>
          rw [hch] at g3
          simp only [T.leaf.injEq] at g3
          subst g3
          simp only [hk _ f hch, hlf]
        | prune =>
          rw [hch] at g3
          simp only [T.leaf.injEq] at g3
          subst g3
          cases ha
        | split t ds => rw [hch] at g3; cases g3
      · simp only [T.leaf.injEq] at g3
        subst g3
        exact hlf
    · obtain ⟨r1, g1, g2, g3⟩ := step_other (cfg c drawn) n r hr e he q l hq hp
      rw [hs, hm] at g1
      simp only [Except.ok.injEq] at g1
      have hr1 : r1 = r' := by rw [g1]; rfl
      rw [hr1, hq'] at g3
      simp only [Option.some.injEq, T.leaf.injEq] at g3
      rw [g3]
  unfold step at hs
  by_cases hdr : draws (some r) e.x = true
  · rw [if_pos hdr] at hs
    split at hs
    · cases hs
    · cases h1 : HL.step (cfg c (choice g e.x.length c.maxFeatures).1) (some r) e with
      | error err => rw [h1] at hs; cases hs
      | ok r1 =>
        rw [h1] at hs
        simp only [Except.ok.injEq, Prod.mk.injEq] at hs
        exact key _ (by rw [h1, hs.1])
  · rw [if_neg hdr] at hs
    cases h1 : HL.step (cfg c []) (some r) e with
    | error err => rw [h1] at hs; cases hs
    | ok r1 =>
      rw [h1] at hs
      simp only [Except.ok.injEq, Prod.mk.injEq] at hs
      exact key _ (by rw [h1, hs.1])

/-- C212 (violated): with fewer features than `max_features` (2 unless given) the first
training instance fails. -/
theorem C212_too_few_violated (c : Conf A) (choice : G → Nat → Nat → List Nat × G) (g : G) (e : Ev (Sub A))
    (h : e.x.length < c.maxFeatures) : step c choice none g e = .error .valueError := by
  unfold step
  rw [if_pos (show draws (none : Option (T (Sub A))) e.x = true from rfl), if_pos h]

/-! ### Examples -/

/-- Two of the features, logging what is observed. -/
def exConf : Conf (List (ℚ × Int)) := ⟨.mc, 0, 2, 2, fun _ => [], fun a v y _ => a ++ [(v, y)], fun _ _ _ => []⟩

/-- A generator that turns the list of features round. -/
def exChoice (g n k : Nat) : List Nat × Nat := (((List.range n).rotate g).take k, g + 1)

theorem exChoice_draws : Draws exChoice := by
  intro g n k hk
  refine ⟨by simp [exChoice, hk], ?_, ?_⟩
  · exact ((List.nodup_rotate.2 List.nodup_range).sublist (List.take_sublist _ _))
  · intro i hi
    have := List.mem_of_mem_take hi
    simpa using this

/-- Split on a feature observed. -/
def exEv (x : List ℚ) (y : Int) : Ev (Sub (List (ℚ × Int))) :=
  ⟨x, y, 1, true, fun l => if l.stats.length < 2 then .keep id else .split (.num ⟨1, 5, true⟩) [[(0, 1)], [(1, 1)]], []⟩

/-- The features and observers of the leaves of a tree. -/
def shown : Except PyErr (Option (T (Sub (List (ℚ × Int)))) × Nat) → Option (Prod (List (Prod (List Nat) (List (Nat × List (ℚ × Int))))) Nat)
  | .ok (some r, g) => some (r.leaves.map fun l => (l.obs.features, l.obs.obs), g)
  | _ => none

set_option synthInstance.maxSize 5000 in
-- the leaf draws features 1 and 2 and keeps them; after the split the branch reached draws 2 and 0
example : shown (run exConf exChoice none 1 [exEv [7, 1, 8] 0]) = some ([([1, 2], [(1, [(1, 0)]), (2, [(8, 0)])])], 2) ∧
    shown (run exConf exChoice none 1 [exEv [7, 1, 8] 0, exEv [7, 6, 9] 1]) = some ([([], []), ([], [])], 2) ∧
    shown (run exConf exChoice none 1 [exEv [7, 1, 8] 0, exEv [7, 6, 9] 1, exEv [3, 6, 4] 1]) =
      some ([([], []), ([2, 0], [(2, [(4, 1)]), (0, [(3, 1)])])], 3) := by decide +kernel

set_option synthInstance.maxSize 5000 in
-- a leaf that is kept
example : shown (run exConf exChoice none 1 [exEv [7, 1, 8] 0, exEv [6, 2, 9] 0]) =
    some ([([1, 2], [(1, [(1, 0), (2, 0)]), (2, [(8, 0), (9, 0)])])], 2) := by decide +kernel

-- the hypotheses of the theorems above
example : ∀ e ∈ [exEv [7, 1, 8] 0, exEv [7, 6, 9] 1, exEv [3, 6, 4] 1], e.Ok 3 ∧ Keeps e ∧ e.memory = [] := by
  have : ∀ x y, x.length = 3 → (exEv x y).Ok 3 ∧ Keeps (exEv x y) ∧ (exEv x y).memory = [] := by
    intro x y hx
    refine ⟨⟨hx, fun l => ?_⟩, fun l f h => ?_, rfl⟩
    · simp only [exEv]
      split <;> simp [Choice.Ok, Test.Ok]
    · simp only [exEv] at h
      split at h
      · cases h; rfl
      · cases h
  simp only [List.forall_mem_cons]
  exact ⟨this _ _ rfl, this _ _ rfl, this _ _ rfl, by simp⟩

-- one feature, `max_features=2`
example : shown (run exConf exChoice none 1 [exEv [7] 0]) = none := by decide +kernel

end Verif.Trees.ARFT
