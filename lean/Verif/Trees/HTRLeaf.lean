import Verif.Trees.HTRMean

/-!
The statistics in the leaves of a Hoeffding tree regressor, continued: conservation (C170),
agreement with the rows routed to the leaf (C171), counterexamples (C170, C171, C172).
-/

namespace Verif.Trees.HR

open Verif.Trees Verif.Trees.Grow Verif.Trees.EBST
open Verif.Trees.HL (Test)

/-! ### Specification -/

/-- Total of a component of the statistics over the leaves. -/
def leafTotal (f : Stat → ℚ) (r : G (Leaf O) (Option Stat)) : ℚ := (r.leaves.map fun l => (l.stats.map f).getD 0).sum

mutual
/-- The branches a row takes. -/
def _root_.Verif.Trees.Grow.G.path (x : List ℚ) : G L S → List Int
  | .leaf _ => []
  | .split t _ kids =>
    match t.branch x with
    | .error _ => []
    | .ok b => b :: kids.path x b.toNat
/-- See `G.path`. -/
def _root_.Verif.Trees.Grow.GF.path (x : List ℚ) : GF L S → Nat → List Int
  | .nil, _ => []
  | .cons j t rest, b => if b = j then t.path x else rest.path x b
end

/-! ### C170: conservation -/

/-- A component of the statistics. -/
structure Part (f : Stat → ℚ) : Prop where
  zero : f 0 = 0
  add : ∀ a b, f (a + b) = f a + f b
  sub : ∀ a b, f (a - b) = f a - f b

theorem part_n : Part Stat.n := ⟨rfl, fun _ _ => rfl, fun _ _ => rfl⟩
theorem part_s : Part Stat.s := ⟨rfl, fun _ _ => rfl, fun _ _ => rfl⟩
theorem part_q : Part Stat.q := ⟨rfl, fun _ _ => rfl, fun _ _ => rfl⟩

/-- What a leaf carries. -/
def part (f : Stat → ℚ) (l : Leaf O) : ℚ := (l.stats.map f).getD 0

theorem addStat_part {f : Stat → ℚ} (hf : Part f) (s : Option Stat) (x : List ℚ) (y w : ℚ) :
    f (addStat s y w) = (s.map f).getD 0 + f (rowStat [⟨x, y, w⟩]) := by
  cases s with
  | none => rw [addStat_row0 x]; simp
  | some s =>
    have : addStat (some s) y w = s + rowStat [⟨x, y, w⟩] := by
      ext <;> simp only [addStat, rowStat, add_n, add_s, add_q, List.map_cons, List.map_nil, List.sum_cons, List.sum_nil] <;> ring
    rw [this, hf.add]; rfl

theorem attempt_part {f : Stat → ℚ} (hf : Part f) (cfg : Cfg O) (e : Ev O)
    (hch : ∀ l st t ds, l.stats = some st → e.choose l = .split t ds → ∃ a, ds = [a, st - a]) (l : Leaf O)
    (hs : l.stats ≠ none) : ((attempt cfg e l).leaves.map (part f)).sum = part f l := by
  unfold attempt
  by_cases hc : e.growth = true ∧ l.active = true ∧ weight l.stats - l.last ≥ cfg.grace
  · rw [if_pos hc]
    cases hcc : e.choose l with
    | keep g => simp [G.leaves, part]
    | prune => simp [G.leaves, part, newLeaf]
    | split t ds =>
      cases hst : l.stats with
      | none => exact absurd hst hs
      | some st =>
        obtain ⟨a, rfl⟩ := hch l st t ds hst hcc
        simp only [G.leaves, kidsFrom, GF.leaves, newLeaf, List.append_nil, List.singleton_append, List.map_cons, List.map_nil,
          List.sum_cons, List.sum_nil, add_zero, part, Option.map_some, Option.getD_some, hst, hf.sub]
        ring
  · rw [if_neg hc]; simp [G.leaves]

theorem setActive_stats (cfg : Cfg O) (a : Option Bool) (l : Leaf O) : (setActive cfg a l).stats = l.stats := by
  unfold setActive
  cases a with
  | none => rfl
  | some a =>
    by_cases ha : l.active = a
    · simp only [if_pos ha]
    · simp only [if_neg ha]; rfl

theorem step_part {f : Stat → ℚ} (hf : Part f) (cfg : Cfg O) (n : Nat) (h h' : Reg O) (e : Ev O) (he : e.Ok n)
    (hch : ∀ l st t ds, l.stats = some st → e.choose l = .split t ds → ∃ a, ds = [a, st - a])
    (hwf : h.All n (fun _ => True) (fun _ => True)) (hs : step cfg h e = .ok h') :
    h'.All n (fun _ => True) (fun _ => True) ∧
    ∃ r', h'.root = some r' ∧ (r'.leaves.map (part f)).sum =
      ((h.root.map fun r => (r.leaves.map (part f)).sum).getD 0) + f (rowStat [e.row]) := by
  obtain ⟨a1, _, _⟩ := step_all cfg n (fun _ => True) (fun _ => True) h h' e he hwf (fun _ _ _ _ => trivial)
      (fun l _ => G.all_true _) (fun _ _ _ => trivial) hs
  refine ⟨a1, ?_⟩
  have hwf' : (h.root.getD (.leaf (newLeaf cfg true none .unset))).WF n := by
    cases hr : h.root with
    | none => trivial
    | some r => exact (hwf r hr).1
  have hbase : (((h.root.getD (.leaf (newLeaf cfg true none .unset))).leaves.map (part f)).sum =
      (h.root.map fun r => (r.leaves.map (part f)).sum).getD 0) := by
    cases hr : h.root with
    | none => simp [G.leaves, part, newLeaf]
    | some r => rfl
  rw [← hbase]
  have fin : ∀ r' : G (Leaf O) (Option Stat),
      (h.root.getD (.leaf (newLeaf cfg true none .unset))).learn e.x
        (fun l => (l.learn cfg (h.sums.add e.x e.y e.w) e).map (attempt cfg e))
        (fun l => l.learn cfg (h.sums.add e.x e.y e.w) e) (newLeaf cfg true none .unset) = .ok r' →
      ∃ r'', h'.root = some r'' ∧ (r''.leaves.map (part f)).sum = (r'.leaves.map (part f)).sum := by
    intro r' hr'
    simp only [step, hr', Except.ok.injEq] at hs
    subst hs
    refine ⟨_, rfl, ?_⟩
    obtain ⟨_, _, m3, _⟩ := G.mapLeaves_facts n (fun p => setActive cfg (e.memory p)) r' []
    rw [m3 ℚ (part f) fun q l => by rw [part, setActive_stats]; rfl]
  rcases G.learn_spec n e.x he.1 _ hwf' with ⟨l, r1, pre, post, p1, p2⟩ | ⟨s, r1, pre, post, p1, p2⟩
  · obtain ⟨q1, q2⟩ := p2 (fun l => (l.learn cfg (h.sums.add e.x e.y e.w) e).map (attempt cfg e))
      (fun l => l.learn cfg (h.sums.add e.x e.y e.w) e) (newLeaf cfg true none .unset)
    cases g1 : l.learn cfg (h.sums.add e.x e.y e.w) e with
    | error err =>
      have := q1 err (by simp only [g1, Except.map])
      simp [step, this] at hs
    | ok l' =>
      obtain ⟨r', w1, w2, _⟩ := q2 (attempt cfg e l') (by simp only [g1, Except.map])
      obtain ⟨r'', k1, k2⟩ := fin r' w1
      refine ⟨r'', k1, ?_⟩
      obtain ⟨s1, _, _⟩ := learn_stats cfg _ e l l' g1
      rw [k2, w2, p1]
      simp only [List.map_append, List.sum_append, List.map_cons, List.sum_cons]
      rw [attempt_part hf cfg e hch l' (by rw [s1]; simp), part, s1]
      simp only [Option.map_some, Option.getD_some]
      rw [addStat_part hf l.stats e.x]
      show _ = _ + (part f l + _) + _
      unfold part Ev.row
      ring
  · obtain ⟨q1, q2⟩ := p2 (fun l => (l.learn cfg (h.sums.add e.x e.y e.w) e).map (attempt cfg e))
      (fun l => l.learn cfg (h.sums.add e.x e.y e.w) e) (newLeaf cfg true none .unset)
    cases g1 : (newLeaf cfg true none .unset : Leaf O).learn cfg (h.sums.add e.x e.y e.w) e with
    | error err =>
      have := q1 err g1
      simp [step, this] at hs
    | ok l' =>
      obtain ⟨r', w1, w2, _⟩ := q2 l' g1
      obtain ⟨r'', k1, k2⟩ := fin r' w1
      refine ⟨r'', k1, ?_⟩
      obtain ⟨s1, _, _⟩ := learn_stats cfg _ e _ l' g1
      rw [k2, w2, p1]
      simp only [List.map_append, List.sum_append, List.map_cons, List.sum_cons]
      rw [part, s1]
      simp only [Option.map_some, Option.getD_some]
      rw [addStat_part hf _ e.x]
      simp only [newLeaf, Option.map_none, Option.getD_none, zero_add]
      show _ = _ + f (rowStat [⟨e.x, e.y, e.w⟩])
      ring

theorem run_part {f : Stat → ℚ} (hf : Part f) (cfg : Cfg O) (n : Nat) (es : List (Ev O)) (he : ∀ e ∈ es, e.Ok n)
    (hch : ∀ e ∈ es, ∀ l st t ds, l.stats = some st → e.choose l = .split t ds → ∃ a, ds = [a, st - a]) :
    ∀ h h' : Reg O, h.All n (fun _ => True) (fun _ => True) → run cfg h es = .ok h' →
      (h'.root.map fun r => (r.leaves.map (part f)).sum).getD 0 =
      ((h.root.map fun r => (r.leaves.map (part f)).sum).getD 0) + f (rowStat (es.map Ev.row)) := by
  induction es with
  | nil =>
    intro h h' _ hr
    simp only [run, Except.ok.injEq] at hr
    rw [hr]
    have : rowStat (List.map Ev.row ([] : List (Ev O))) = 0 := rfl
    rw [this, hf.zero, add_zero]
  | cons e es ih =>
    intro h h' hwf hr
    cases hs : step cfg h e with
    | error err => simp [run, hs] at hr
    | ok h1 =>
      simp only [run, hs] at hr
      obtain ⟨a1, r1, a2, a3⟩ := step_part hf cfg n h h1 e (he e List.mem_cons_self) (hch e List.mem_cons_self) hwf hs
      rw [ih (fun e' m => he e' (List.mem_cons_of_mem _ m)) (fun e' m => hch e' (List.mem_cons_of_mem _ m)) h1 h' a1 hr, a2]
      simp only [Option.map_some, Option.getD_some]
      rw [a3, List.map_cons, show Ev.row e :: es.map Ev.row = [Ev.row e] ++ es.map Ev.row from rfl, rowStat_append, hf.add]
      ring

/-- C170 (partial): as long as no multiway split is made, the leaves of the tree together carry the
weight, sum and sum of squares of the targets of all training rows; also when observers were
pruned, leaves deactivated, or categories first seen after a split.  Missing (and false, see the
violation): multiway splits. -/
theorem C170_conserved_partial (cfg : Cfg (List Row)) (n : Nat) (es : List (Ev (List Row))) (he : ∀ e ∈ es, e.Ok n)
    (hf : ∀ e ∈ es, e.Fair) (hbin : ∀ e ∈ es, ∀ l t ds, e.choose l = .split t ds → multi t = false)
    (h : Reg (List Row)) (hr : run cfg {} es = .ok h) (r : G (Leaf (List Row)) (Option Stat)) (hroot : h.root = some r) :
    leafTotal Stat.n r = (es.map Ev.w).sum ∧
    leafTotal Stat.s r = (es.map fun e => e.w * e.y).sum ∧
    leafTotal Stat.q r = (es.map fun e => e.w * e.y ^ 2).sum := by
  have hch : ∀ e ∈ es, ∀ l st t ds, l.stats = some st → e.choose l = .split t ds → ∃ a, ds = [a, st - a] := by
    intro e m l st t ds hst hc
    have := (hf e m).1 l st t ds hst hc
    unfold Cand at this
    rw [if_neg (by simp [hbin e m l t ds hc])] at this
    obtain ⟨A, _, hA⟩ := this
    exact ⟨_, hA⟩
  have key : ∀ f, Part f → leafTotal f r = f (rowStat (es.map Ev.row)) := by
    intro f hf'
    have := run_part hf' cfg n es he hch {} h (all_empty n _ _) hr
    rw [hroot] at this
    simpa [leafTotal, funext_iff, show (part f : Leaf (List Row) → ℚ) = fun l => (l.stats.map f).getD 0 from rfl] using this
  refine ⟨?_, ?_, ?_⟩
  · rw [key _ part_n]; simp [rowStat, Ev.row, Function.comp_def]
  · rw [key _ part_s]; simp [rowStat, Ev.row, Function.comp_def]
  · rw [key _ part_q]; simp [rowStat, Ev.row, Function.comp_def]

/-! ### Counterexamples -/

/-- Target-mean leaves, observers that remember the rows, a split attempt every weight 10. -/
def meanCfg : Cfg (List Row) :=
  { perceptron := false, grace := 10, lr := 0, decay := 0, lrConst := true, nominal := fun i => i = 2,
    sqrt := id, fresh := [], update := fun o x y w => o ++ [⟨x, y, w⟩] }

theorem meanCfg_remembers : Remembers meanCfg := ⟨rfl, fun _ _ _ _ => rfl⟩

/-- The suggestion of an unpruned numeric observer. -/
def numSplit (i : Int) (v : ℚ) (l : Leaf (List Row)) : Choice (List Row) :=
  let t := Test.num ⟨i, v, true⟩
  .split t [rowStat (l.obs.filter (goes t 0)), (l.stats.getD 0) - rowStat (l.obs.filter (goes t 0))]

/-- The multiway suggestion of a nominal observer that saw the categories `vals`. -/
def multiSplit (i : Int) (vals : List ℚ) (l : Leaf (List Row)) : Choice (List Row) :=
  let t := Test.multi (MultiTest.create i vals)
  .split t ((List.range vals.length).map fun b => rowStat (l.obs.filter (goes t b)))

/-- A training row of weight 5. -/
def ev (x : List ℚ) (y : ℚ) (choose : Leaf (List Row) → Choice (List Row)) : Ev (List Row) :=
  { x, y, w := 5, init := [0, 0, 0, 0], growth := true, choose, memory := fun _ => none }

theorem ev_num (x : List ℚ) (hx : x.length = 3) (y : ℚ) (i : Int) (h0 : 0 ≤ i) (h1 : i < 3) (v : ℚ) :
    (ev x y (numSplit i v)).Ok 3 ∧ (ev x y (numSplit i v)).Fair := by
  refine ⟨⟨hx, rfl, fun l => ⟨h0, h1, rfl⟩⟩, fun l st t ds hst hc => ?_, fun l f hc => by simp [ev, numSplit] at hc⟩
  simp only [ev, numSplit, Choice.split.injEq] at hc
  obtain ⟨rfl, rfl⟩ := hc
  unfold Cand
  rw [if_neg (by simp [multi])]
  exact ⟨_, List.Subperm.refl _, by rw [hst]; rfl⟩

theorem ev_multi (x : List ℚ) (hx : x.length = 3) (y : ℚ) (i : Int) (h0 : 0 ≤ i) (h1 : i < 3) (vals : List ℚ) (hv : vals.Nodup)
    (hne : vals ≠ []) : (ev x y (multiSplit i vals)).Ok 3 ∧ (ev x y (multiSplit i vals)).Fair := by
  refine ⟨⟨hx, rfl, fun l => ⟨h0, h1, vals, ⟨rfl, hv, hne⟩, by simp⟩⟩, fun l st t ds hst hc => ?_,
    fun l f hc => by simp [ev, multiSplit] at hc⟩
  simp only [ev, multiSplit, Choice.split.injEq] at hc
  obtain ⟨rfl, rfl⟩ := hc
  unfold Cand
  rw [if_pos (by simp [multi])]
  intro b d hd
  rw [List.getElem?_map] at hd
  cases hb : (List.range vals.length)[b]? with
  | none => rw [hb] at hd; simp at hd
  | some c =>
    rw [hb] at hd
    have : c = b := by
      rw [List.getElem?_eq_some_iff] at hb
      obtain ⟨_, hb⟩ := hb
      simpa using hb.symm
    subst this
    simpa using hd.symm

/-- Rows of C170's counterexample: a numeric split of the root, then a multiway split of a leaf
that inherited a row. -/
def lost : List (Ev (List Row)) :=
  [ev [0, 0, 0] 0 (numSplit 0 0), ev [2, 0, 1] 1 (numSplit 0 0), ev [2, 0, 1] 5 (multiSplit 2 [1, 2]),
   ev [2, 0, 2] 9 (multiSplit 2 [1, 2])]

/-- C170 (violated): a multiway split of a leaf that inherited statistics loses them: four rows of
weight 5 were trained, the leaves carry weight 15. -/
theorem C170_multiway_violated :
    ∃ es : List (Ev (List Row)), (∀ e ∈ es, e.Ok 3 ∧ e.Fair) ∧ total es = 20 ∧
      ∃ h r, run meanCfg {} es = .ok h ∧ h.root = some r ∧ leafTotal Stat.n r = 15 := by
  refine ⟨lost, ?_, by decide +kernel, ?_⟩
  · intro e he
    simp only [lost, List.mem_cons, List.not_mem_nil, or_false] at he
    rcases he with rfl | rfl | rfl | rfl
    · exact ev_num _ rfl _ _ (by decide) (by decide) _
    · exact ev_num _ rfl _ _ (by decide) (by decide) _
    · exact ev_multi _ rfl _ _ (by decide) (by decide) _ (by decide +kernel) (by simp)
    · exact ev_multi _ rfl _ _ (by decide) (by decide) _ (by decide +kernel) (by simp)
  · have key : ((run meanCfg {} lost).toOption.bind fun h => h.root.map (leafTotal Stat.n)) = some 15 := by decide +kernel
    cases hr : run meanCfg {} lost with
    | error e => rw [hr] at key; simp [Except.toOption] at key
    | ok h =>
      rw [hr] at key
      cases hroot : h.root with
      | none => simp [Except.toOption, hroot] at key
      | some r =>
        refine ⟨h, r, rfl, hroot, ?_⟩
        simpa [Except.toOption, hroot] using key

/-- Non-vacuity of C170: numeric splits at two levels. -/
example : ((run meanCfg {} [ev [0, 0, 0] 0 (numSplit 0 0), ev [2, 0, 1] 1 (numSplit 0 0), ev [2, 1, 1] 5 (numSplit 1 1),
      ev [2, 2, 2] 9 (numSplit 1 1)]).toOption.bind fun h => h.root.map fun r => (leafTotal Stat.n r, leafTotal Stat.s r)) =
    some (20, 75) := by decide +kernel

/-- C172 (violated): with a single suggestion the code splits whatever its merit, and a numeric
attribute that was constant so far gives an empty second branch: predictions there are 0/0. -/
theorem C172_empty_branch_violated :
    ∃ es : List (Ev (List Row)), es ≠ [] ∧ (∀ e ∈ es, e.Fair ∧ 0 < e.w ∧ e.x = [1] ∧ e.y = 1) ∧
      ∃ h, run meanCfg {} es = .ok h ∧ predict meanCfg h [[2]] = .ok [none] := by
  refine ⟨[ev [1] 1 (numSplit 0 1), ev [1] 1 (numSplit 0 1)], by simp, ?_, ?_⟩
  · intro e he
    have hfair : (ev [1] 1 (numSplit 0 1)).Fair := by
      refine ⟨fun l st t ds hst hc => ?_, fun l f hc => by simp [ev, numSplit] at hc⟩
      simp only [ev, numSplit, Choice.split.injEq] at hc
      obtain ⟨rfl, rfl⟩ := hc
      unfold Cand
      rw [if_neg (by simp [multi])]
      exact ⟨_, List.Subperm.refl _, by rw [hst]; rfl⟩
    simp only [List.mem_cons, List.not_mem_nil, or_false, or_self] at he
    subst he
    exact ⟨hfair, by simp [ev], rfl, rfl⟩
  · have key : ((run meanCfg {} [ev [1] 1 (numSplit 0 1), ev [1] 1 (numSplit 0 1)]).toOption.bind fun h =>
        (predict meanCfg h [[2]]).toOption) = some [none] := by decide +kernel
    cases hr : run meanCfg {} [ev [1] 1 (numSplit 0 1), ev [1] 1 (numSplit 0 1)] with
    | error e => rw [hr] at key; simp [Except.toOption] at key
    | ok h =>
      rw [hr] at key
      refine ⟨h, rfl, ?_⟩
      cases hp : predict meanCfg h [[2]] with
      | error e => simp [Except.toOption, hp] at key
      | ok p => simpa [Except.toOption, hp] using key

/-- Non-vacuity of C172: a split, and a prediction in each branch. -/
example : ((run meanCfg {} [ev [0, 0, 0] 0 (numSplit 0 0), ev [2, 0, 1] 1 (numSplit 0 0), ev [2, 1, 1] 5 (numSplit 1 1)]).toOption.bind
      fun h => (predict meanCfg h [[-1, 0, 0], [1, 0, 0]]).toOption) = some [some 0, some 3] := by decide +kernel

/-! ### C171: a leaf carries the rows that the tree routes to it -/

mutual
/-- A leaf carries the given rows, the last of which it observed; a split node shares them out. -/
def Exact (n : Nat) : G (Leaf (List Row)) (Option Stat) → List Row → Prop
  | .leaf l, rows => l.stats = some (rowStat rows) ∧ (∃ inh, rows = inh ++ l.obs) ∧ (l.active = false → l.obs = []) ∧
      ∀ r ∈ rows, r.x.length = n ∧ 0 < r.w
  | .split t _ kids, rows => multi t = false ∧ ExactF n t kids rows
/-- See `Exact`. -/
def ExactF (n : Nat) (t : Test) : GF (Leaf (List Row)) (Option Stat) → List Row → Prop
  | .nil, _ => True
  | .cons j u rest, rows => Exact n u (rows.filter (goes t j)) ∧ ExactF n t rest rows
end

theorem goes_iff (t : Test) (i : Nat) (r : Row) (b : Int) (hb : t.branch r.x = .ok b) : goes t i r = decide (b = i) := by
  simp [goes, hb]

theorem exactF_other (t : Test) (row : Row) (rest : GF (Leaf (List Row)) (Option Stat)) (b : Nat)
    (hbr : t.branch row.x = .ok (b : Int)) (rows : List Row) (i k n : Nat) (hwf : rest.WFfrom n i k) (hi : b < i)
    (h : ExactF n t rest rows) : ExactF n t rest (rows ++ [row]) := by
  match rest with
  | .nil => trivial
  | .cons j u rest =>
    obtain ⟨rfl, w2, w3⟩ := hwf
    refine ⟨?_, exactF_other t row rest b hbr rows (j + 1) k n w3 (by omega) h.2⟩
    rw [List.filter_append, List.filter_cons_of_neg (by rw [goes_iff t j row b hbr]; simp; omega), List.filter_nil, List.append_nil]
    exact h.1

mutual
theorem exact_learn (n : Nat) (row : Row) (hx : row.x.length = n) (f : Leaf (List Row) → Except PyErr (G (Leaf (List Row)) (Option Stat)))
    (g : Leaf (List Row) → Except PyErr (Leaf (List Row))) (new : Leaf (List Row))
    (hf : ∀ l rows t, Exact n (.leaf l) rows → f l = .ok t → Exact n t (rows ++ [row]))
    (r r' : G (Leaf (List Row)) (Option Stat)) (rows : List Row) (hwf : r.WF n) (h : Exact n r rows)
    (hl : r.learn row.x f g new = .ok r') : Exact n r' (rows ++ [row]) := by
  match r with
  | .leaf l => exact hf l rows r' h (by simpa only [G.learn] using hl)
  | .split t s kids =>
    obtain ⟨k, h1, h2⟩ := hwf
    obtain ⟨e1, e2⟩ := h
    rcases HL.Test.branch_ok h1 row.x hx with ⟨b, hb, hbr⟩ | ⟨m, rfl, hbr⟩
    · rw [G.learn] at hl
      simp only [hbr] at hl
      rw [if_pos (by omega), Int.toNat_natCast] at hl
      cases hk : kids.learn row.x f g new b with
      | error e => rw [hk] at hl; simp at hl
      | ok kids' =>
        rw [hk] at hl
        simp only [Except.ok.injEq] at hl
        rw [← hl]
        exact ⟨e1, exactF_learn n row hx f g new hf t b hbr kids kids' rows 0 k h2 (by omega) hb e2 hk⟩
    · simp [multi] at e1
theorem exactF_learn (n : Nat) (row : Row) (hx : row.x.length = n) (f : Leaf (List Row) → Except PyErr (G (Leaf (List Row)) (Option Stat)))
    (g : Leaf (List Row) → Except PyErr (Leaf (List Row))) (new : Leaf (List Row))
    (hf : ∀ l rows t, Exact n (.leaf l) rows → f l = .ok t → Exact n t (rows ++ [row]))
    (t : Test) (b : Nat) (hbr : t.branch row.x = .ok (b : Int))
    (kids kids' : GF (Leaf (List Row)) (Option Stat)) (rows : List Row) (i k : Nat) (hwf : kids.WFfrom n i k) (hi : i ≤ b) (hk : b < k)
    (h : ExactF n t kids rows) (hl : kids.learn row.x f g new b = .ok kids') : ExactF n t kids' (rows ++ [row]) := by
  match kids with
  | .nil => have : i = k := hwf; omega
  | .cons j u rest =>
    obtain ⟨rfl, w2, w3⟩ := hwf
    obtain ⟨e1, e2⟩ := h
    rw [GF.learn] at hl
    by_cases e' : b = j
    · rw [if_pos e'] at hl
      cases hu : u.learn row.x f g new with
      | error e => rw [hu] at hl; simp at hl
      | ok u' =>
        rw [hu] at hl
        simp only [Except.ok.injEq] at hl
        rw [← hl]
        refine ⟨?_, exactF_other t row rest b hbr rows (j + 1) k n w3 (by omega) e2⟩
        rw [List.filter_append, List.filter_cons_of_pos (by rw [goes_iff t j row b hbr]; simp [e']), List.filter_nil]
        exact exact_learn n row hx f g new hf u u' _ w2 e1 hu
    · rw [if_neg e'] at hl
      cases hu : rest.learn row.x f g new b with
      | error e => rw [hu] at hl; simp at hl
      | ok rest' =>
        rw [hu] at hl
        simp only [Except.ok.injEq] at hl
        rw [← hl]
        refine ⟨?_, exactF_learn n row hx f g new hf t b hbr rest rest' rows (j + 1) k w3 (by omega) hk e2 hu⟩
        rw [List.filter_append, List.filter_cons_of_neg (by rw [goes_iff t j row b hbr]; simp; omega), List.filter_nil,
          List.append_nil]
        exact e1
end

mutual
theorem exact_mapLeaves (n : Nat) (f : List Nat → Leaf (List Row) → Leaf (List Row))
    (hf : ∀ p l rows, Exact n (.leaf l) rows → Exact n (.leaf (f p l)) rows) (r : G (Leaf (List Row)) (Option Stat)) (p : List Nat)
    (rows : List Row) (h : Exact n r rows) : Exact n (r.mapLeaves f p) rows := by
  match r with
  | .leaf l => exact hf p l rows h
  | .split t s kids => exact ⟨h.1, exactF_mapLeaves n f hf t kids p rows h.2⟩
theorem exactF_mapLeaves (n : Nat) (f : List Nat → Leaf (List Row) → Leaf (List Row))
    (hf : ∀ p l rows, Exact n (.leaf l) rows → Exact n (.leaf (f p l)) rows) (t : Test) (kids : GF (Leaf (List Row)) (Option Stat)) (p : List Nat)
    (rows : List Row) (h : ExactF n t kids rows) : ExactF n t (kids.mapLeaves f p) rows := by
  match kids with
  | .nil => trivial
  | .cons j u rest => exact ⟨exact_mapLeaves n f hf u _ _ h.1, exactF_mapLeaves n f hf t rest p rows h.2⟩
end

mutual
theorem exact_route (n : Nat) (x : List ℚ) (r : G (Leaf (List Row)) (Option Stat)) (rows : List Row) (h : Exact n r rows) (l : Leaf (List Row))
    (hl : r.route x = .ok (.leaf l)) : l.stats = some (rowStat (rows.filter fun q => r.path q.x = r.path x)) := by
  match r with
  | .leaf l' =>
    simp only [G.route, Except.ok.injEq, End.leaf.injEq] at hl
    subst hl
    simpa [G.path] using h.1
  | .split t s kids =>
    rw [G.route] at hl
    cases hb : t.branch x with
    | error e => rw [hb] at hl; simp at hl
    | ok b =>
      simp only [hb] at hl
      by_cases hp : b ≥ 0
      · rw [if_pos hp] at hl
        have := exactF_route n t x kids rows b.toNat h.2 l hl
        rw [this]
        congr 2
        apply List.filter_congr
        intro q _
        simp only [G.path, hb]
        cases hq : t.branch q.x with
        | error e => simp [goes, hq]
        | ok c =>
          rw [goes_iff t b.toNat q c hq]
          by_cases hc : c = b
          · subst hc; simp [Int.toNat_of_nonneg hp]
          · simp [hc, Int.toNat_of_nonneg hp]
      · rw [if_neg hp] at hl; simp at hl
theorem exactF_route (n : Nat) (t : Test) (x : List ℚ) (kids : GF (Leaf (List Row)) (Option Stat)) (rows : List Row) (b : Nat)
    (h : ExactF n t kids rows) (l : Leaf (List Row)) (hl : kids.route x b = .ok (.leaf l)) :
    l.stats = some (rowStat (rows.filter fun q => goes t b q && decide (kids.path q.x b = kids.path x b))) := by
  match kids with
  | .nil => simp [GF.route] at hl
  | .cons j u rest =>
    rw [GF.route] at hl
    by_cases e : b = j
    · rw [if_pos e] at hl
      rw [exact_route n x u _ h.1 l hl, List.filter_filter]
      congr 2
      apply List.filter_congr
      intro q _
      subst e
      simp only [GF.path, if_true]
      rw [Bool.and_comm]
    · rw [if_neg e] at hl
      rw [exactF_route n t x rest rows b h.2 l hl]
      congr 2
      apply List.filter_congr
      intro q _
      simp only [GF.path, if_neg e]
end

theorem rowStat_parts (p : Row → Bool) (rows : List Row) :
    rowStat rows = rowStat (rows.filter p) + rowStat (rows.filter fun r => !p r) := by
  rw [← rowStat_append]
  exact rowStat_perm (List.filter_append_perm p rows).symm

theorem weight_zero (l : List Row) (h : ∀ r ∈ l, 0 < r.w) (h0 : (rowStat l).n = 0) : l = [] := by
  by_contra hne
  have : 0 < (rowStat l).n :=
    List.sum_pos _ (by simp only [List.mem_map]; rintro _ ⟨r, m, rfl⟩; exact h r m) (by simpa using hne)
  linarith

/-- Splits of this row: binary, suggested by unpruned observers, and only of leaves that observed
everything they carry. -/
def Ev.Whole (e : Ev (List Row)) : Prop :=
  (∀ l st t ds, l.stats = some st → e.choose l = .split t ds →
    multi t = false ∧ ds = [rowStat (l.obs.filter (goes t 0)), st - rowStat (l.obs.filter (goes t 0))] ∧ st = rowStat l.obs) ∧
  ∀ l f, e.choose l = .keep f → f = id

theorem new_exact (cfg : Cfg (List Row)) (hc : Remembers cfg) (n : Nat) (a : Bool) (rows : List Row) (w : Weights)
    (h : ∀ r ∈ rows, r.x.length = n ∧ 0 < r.w) : Exact n (.leaf (newLeaf cfg a (some (rowStat rows)) w)) rows := by
  exact ⟨rfl, ⟨rows, by simp [newLeaf, hc.1]⟩, fun _ => hc.1, h⟩

theorem attempt_exact (cfg : Cfg (List Row)) (hc : Remembers cfg) (n : Nat) (e : Ev (List Row)) (he : e.Ok n) (hf : e.Whole)
    (l : Leaf (List Row)) (rows : List Row) (h : Exact n (.leaf l) rows) : Exact n (attempt cfg e l) rows := by
  unfold attempt
  by_cases hcnd : e.growth = true ∧ l.active = true ∧ weight l.stats - l.last ≥ cfg.grace
  · rw [if_pos hcnd]
    obtain ⟨h1, ⟨inh, h2⟩, h3, h4⟩ := h
    cases hch : e.choose l with
    | keep f => have := hf.2 l f hch; subst this; exact ⟨h1, ⟨inh, h2⟩, h3, h4⟩
    | prune =>
      simp only []
      rw [h1]
      exact new_exact cfg hc n false rows l.w h4
    | split t ds =>
      obtain ⟨w1, w2, w3⟩ := hf.1 l _ t ds h1 hch
      have hok := he.2.2 l
      rw [hch] at hok
      have hinh : inh = [] := by
        refine weight_zero inh (fun r hr => (h4 r (by rw [h2]; exact List.mem_append_left _ hr)).2) ?_
        rw [h2, rowStat_append] at w3
        have := congrArg Stat.n w3
        rw [add_n] at this
        linarith
      subst hinh
      rw [List.nil_append] at h2
      rw [← h2] at w2
      have hone : rows.filter (fun r => !goes t 0 r) = rows.filter (goes t 1) := by
        apply List.filter_congr
        intro r hr
        have hok2 : t.Ok n 2 := by
          have : ds.length = 2 := by rw [w2]; rfl
          have hok' : t.Ok n ds.length := hok
          rwa [this] at hok'
        rcases HL.Test.branch_ok hok2 r.x (h4 r hr).1 with ⟨b, hb, hbr⟩ | ⟨m, rfl, hbr⟩
        · rw [goes_iff t 0 r b hbr, goes_iff t 1 r b hbr]
          have : b = 0 ∨ b = 1 := by omega
          rcases this with rfl | rfl <;> simp
        · simp [multi] at w1
      have hdiff : rowStat rows - rowStat (rows.filter (goes t 0)) = rowStat (rows.filter (goes t 1)) := by
        rw [rowStat_parts (goes t 0) rows, hone]
        ext <;> simp only [add_n, add_s, add_q, sub_n, sub_s, sub_q] <;> ring
      rw [hdiff] at w2
      subst w2
      exact ⟨w1, new_exact cfg hc n true _ l.w (fun r hr => h4 r (List.mem_filter.mp hr).1),
        new_exact cfg hc n true _ l.w (fun r hr => h4 r (List.mem_filter.mp hr).1), trivial⟩
  · rw [if_neg hcnd]; exact h

theorem learn_exact (cfg : Cfg (List Row)) (hc : Remembers cfg) (n : Nat) (s : Sums) (e : Ev (List Row)) (hx : e.x.length = n)
    (hw : 0 < e.w) (l l' : Leaf (List Row)) (rows : List Row)
    (h : Exact n (.leaf l) rows ∨ (l = newLeaf cfg true none .unset ∧ rows = [])) (hl : l.learn cfg s e = .ok l') :
    Exact n (.leaf l') (rows ++ [e.row]) := by
  obtain ⟨s1, s2, s3⟩ := learn_stats cfg s e l l' hl
  have hrow : ∀ r ∈ [e.row], r.x.length = n ∧ 0 < r.w := by
    intro r hr; rw [List.mem_singleton.mp hr]; exact ⟨hx, hw⟩
  rcases h with ⟨h1, ⟨inh, h2⟩, h3, h4⟩ | ⟨rfl, rfl⟩
  · refine ⟨?_, ?_, ?_, ?_⟩
    · rw [s1, h1, addStat_row rows e.x]; rfl
    · by_cases ha : l.active = true
      · refine ⟨inh, ?_⟩
        rw [s3, if_pos ha, hc.2, h2, List.append_assoc]; rfl
      · refine ⟨inh ++ l.obs ++ [e.row], ?_⟩
        rw [s3, if_neg ha, h3 (by simpa using ha), h2, h3 (by simpa using ha)]; simp
    · intro ha
      rw [s2] at ha
      rw [s3, if_neg (by simp [ha])]; exact h3 ha
    · intro r hr
      rcases List.mem_append.mp hr with hr | hr
      · exact h4 r hr
      · exact hrow r hr
  · refine ⟨?_, ⟨[], ?_⟩, ?_, hrow⟩
    · rw [s1]; simp only [newLeaf]; rw [addStat_row0 e.x]; rfl
    · rw [s3]; simp only [newLeaf, if_true, hc.1, hc.2]; rfl
    · rw [s2]; simp [newLeaf]

theorem run_exact (cfg : Cfg (List Row)) (hc : Remembers cfg) (n : Nat) (es : List (Ev (List Row))) (he : ∀ e ∈ es, e.Ok n)
    (hf : ∀ e ∈ es, e.Whole) (hw : ∀ e ∈ es, 0 < e.w) :
    ∀ (h h' : Reg (List Row)) (rows : List Row), h.All n (fun _ => True) (fun _ => True) →
      (∀ r, h.root = some r → Exact n r rows) → (h.root = none → rows = []) → run cfg h es = .ok h' →
      ∀ r, h'.root = some r → Exact n r (rows ++ es.map Ev.row) := by
  induction es with
  | nil =>
    intro h h' rows _ hex _ hr r hroot
    simp only [run, Except.ok.injEq] at hr
    subst hr
    simpa using hex r hroot
  | cons e es ih =>
    intro h h' rows hall hex hnone hr
    cases hs : step cfg h e with
    | error err => simp [run, hs] at hr
    | ok h1 =>
      simp only [run, hs] at hr
      have hee := he e List.mem_cons_self
      obtain ⟨a1, a2, _⟩ := step_all cfg n (fun _ => True) (fun _ => True) h h1 e hee hall (fun _ _ _ _ => trivial)
        (fun l _ => G.all_true _) (fun _ _ _ => trivial) hs
      have hstep : ∀ r, h1.root = some r → Exact n r (rows ++ [e.row]) := by
        cases hl : (h.root.getD (.leaf (newLeaf cfg true none .unset))).learn e.x
          (fun l => (l.learn cfg (h.sums.add e.x e.y e.w) e).map (attempt cfg e))
          (fun l => l.learn cfg (h.sums.add e.x e.y e.w) e) (newLeaf cfg true none .unset) with
        | error err => simp [step, hl] at hs
        | ok r' =>
          have hr' : Exact n r' (rows ++ [e.row]) := by
            cases hroot : h.root with
            | none =>
              rw [hroot] at hl
              simp only [Option.getD_none, G.learn] at hl
              cases hle : (newLeaf cfg true none .unset : Leaf (List Row)).learn cfg (h.sums.add e.x e.y e.w) e with
              | error err => rw [hle] at hl; simp [Except.map] at hl
              | ok l' =>
                rw [hle] at hl
                simp only [Except.map, Except.ok.injEq] at hl
                rw [← hl]
                exact attempt_exact cfg hc n e hee (hf e List.mem_cons_self) l' _
                  (learn_exact cfg hc n _ e hee.1 (hw e List.mem_cons_self) _ l' rows (.inr ⟨rfl, hnone hroot⟩) hle)
            | some r =>
              rw [hroot] at hl
              refine exact_learn n e.row hee.1 _ _ _ ?_ r r' rows (hall r hroot).1 (hex r hroot) hl
              intro l rows' t hl' ht
              cases hle : l.learn cfg (h.sums.add e.x e.y e.w) e with
              | error err => rw [hle] at ht; simp [Except.map] at ht
              | ok l' =>
                rw [hle] at ht
                simp only [Except.map, Except.ok.injEq] at ht
                rw [← ht]
                exact attempt_exact cfg hc n e hee (hf e List.mem_cons_self) l' _
                  (learn_exact cfg hc n _ e hee.1 (hw e List.mem_cons_self) l l' rows' (.inl hl') hle)
          simp only [step, hl, Except.ok.injEq] at hs
          subst hs
          intro r hr
          simp only [Option.some.injEq] at hr
          rw [← hr]
          refine exact_mapLeaves n _ (fun p l rows hl => ?_) r' [] _ hr'
          unfold setActive
          cases e.memory p with
          | none => exact hl
          | some a =>
            by_cases ha : l.active = a
            · simp only [if_pos ha]; exact hl
            · simp only [if_neg ha]
              rw [hl.1]
              exact new_exact cfg hc n a rows l.w hl.2.2.2
      have := ih (fun e' m => he e' (List.mem_cons_of_mem _ m)) (fun e' m => hf e' (List.mem_cons_of_mem _ m))
        (fun e' m => hw e' (List.mem_cons_of_mem _ m)) h1 h' (rows ++ [e.row]) a1 hstep (fun h0 => absurd h0 a2) hr
      intro r hroot
      simpa using this r hroot

/-- C171 (partial): when only leaves that observed everything they carry are split (the root, say),
by binary tests of unpruned observers, the statistics of the leaf that a row reaches are those of
exactly the training rows that take the same branches.  Missing (and false, see the violation): a
second split below, where the leaf inherited rows it never observed. -/
theorem C171_leaf_rows_partial (cfg : Cfg (List Row)) (hc : Remembers cfg) (n : Nat) (es : List (Ev (List Row)))
    (he : ∀ e ∈ es, e.Ok n) (hf : ∀ e ∈ es, e.Whole) (hw : ∀ e ∈ es, 0 < e.w) (h : Reg (List Row))
    (hr : run cfg {} es = .ok h) (r : G (Leaf (List Row)) (Option Stat)) (hroot : h.root = some r) (x : List ℚ)
    (l : Leaf (List Row)) (hl : r.route x = .ok (.leaf l)) :
    l.stats = some (rowStat ((es.map Ev.row).filter fun q => r.path q.x = r.path x)) := by
  have := run_exact cfg hc n es he hf hw {} h [] (all_empty n _ _) (by simp) (fun _ => rfl) hr r hroot
  rw [List.nil_append] at this
  exact exact_route n x r _ this l hl

/-- The second row is inherited by the right leaf of the first split, and would go left at the
second. -/
def misplaced : List (Ev (List Row)) :=
  [ev [0, 0, 0] 0 (numSplit 0 0), ev [2, 0, 0] 9 (numSplit 0 0), ev [2, 0, 0] 9 (numSplit 1 0), ev [2, 1, 0] 1 (numSplit 1 0)]

/-- C171 (violated): below the second split, the leaf reached by `[2, 0, 0]` carries weight 5
although two training rows of weight 5 take its branches, and the other leaf has their mean 5
although the only row that reaches it has target 1. -/
theorem C171_second_split_violated :
    (∀ e ∈ misplaced, e.Ok 3 ∧ e.Fair) ∧
    ∃ h r, run meanCfg {} misplaced = .ok h ∧ h.root = some r ∧
      ((r.route [2, 0, 0]).toOption.map fun t => match t with | .leaf l => l.stats | _ => none) = some (some ⟨5, 45, 405⟩) ∧
      rowStat ((misplaced.map Ev.row).filter fun q => r.path q.x = r.path [2, 0, 0]) = ⟨10, 90, 810⟩ ∧
      (predict meanCfg h [[2, 1, 0]]).toOption = some [some 5] := by
  refine ⟨?_, ?_⟩
  · intro e he
    simp only [misplaced, List.mem_cons, List.not_mem_nil, or_false] at he
    rcases he with rfl | rfl | rfl | rfl <;> exact ev_num _ rfl _ _ (by decide) (by decide) _
  · have key : ((run meanCfg {} misplaced).toOption.bind fun h => h.root.map fun r =>
        (((r.route [2, 0, 0]).toOption.map fun t => match t with | .leaf l => l.stats | _ => none),
        rowStat ((misplaced.map Ev.row).filter fun q => r.path q.x = r.path [2, 0, 0]),
        (predict meanCfg h [[2, 1, 0]]).toOption)) =
        some (some (some ⟨5, 45, 405⟩), ⟨10, 90, 810⟩, some [some 5]) := by decide +kernel
    cases hr : run meanCfg {} misplaced with
    | error e => rw [hr] at key; simp [Except.toOption] at key
    | ok h =>
      rw [hr] at key
      cases hroot : h.root with
      | none => simp [Except.toOption, hroot] at key
      | some r =>
        refine ⟨h, r, rfl, hroot, ?_⟩
        have k : (some h : Option (Reg (List Row))) = (Except.ok h : Except PyErr _).toOption := rfl
        rw [← k, Option.bind_some, hroot, Option.map_some, Option.some.injEq, Prod.mk.injEq, Prod.mk.injEq] at key
        exact key

/-- The hypotheses of C171 hold for a choice that looks whether the leaf observed all it carries. -/
def rootSplit (i : Int) (v : ℚ) (l : Leaf (List Row)) : Choice (List Row) :=
  if l.stats = some (rowStat l.obs) then numSplit i v l else .keep id

example : (ev [0, 0, 0] 0 (rootSplit 0 0)).Whole := by
  refine ⟨fun l st t ds hst hc => ?_, fun l f hc => ?_⟩
  · by_cases h : l.stats = some (rowStat l.obs)
    · simp only [ev, rootSplit, if_pos h, numSplit, Choice.split.injEq] at hc
      obtain ⟨rfl, rfl⟩ := hc
      refine ⟨rfl, by rw [hst]; rfl, ?_⟩
      rw [hst] at h
      exact Option.some.inj h
    · simp [ev, rootSplit, if_neg h] at hc
  · by_cases h : l.stats = some (rowStat l.obs)
    · simp [ev, rootSplit, if_pos h, numSplit] at hc
    · simp only [ev, rootSplit, if_neg h, Choice.keep.injEq] at hc
      exact hc.symm

end Verif.Trees.HR
