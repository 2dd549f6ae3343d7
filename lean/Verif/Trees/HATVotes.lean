import Verif.Trees.HATProps
import Mathlib.Algebra.Order.BigOperators.Group.List
import Mathlib.Algebra.BigOperators.Ring.List
import Mathlib.Data.List.Nodup

/-!
Properties of the Hoeffding adaptive tree: bootstrap weights (C164), votes (C165), reset (C166).
-/

namespace Verif.Trees.HA

open Verif.Trees Verif.Trees.HL

variable {O D : Type}

/-! ### C164: bootstrap weights -/

/-- The weight of class `c` in a training sequence when each instance counts `f` times. -/
def counted (f : Ev O → ℚ) (es : List (Ev O)) (c : Int) : ℚ :=
  ((es.filter fun e => e.y = c).map fun e => e.w * f e).sum

theorem leaf_stays (cfg : HCfg O D) (e : Ev O) (hk : ∀ l, ∃ f, e.choose l = .keep f) (l : Leaf O) (d : D)
    (ha : l.active = true) : ∃ l' d' c, (N.leaf l d).learn cfg e true 0 = .ok (.leaf l' d', c) ∧ l'.active = true ∧
      l'.stats = bump l.stats e.y (bootWeight cfg.boot (e.draw 0 false) e.w) := by
  obtain ⟨last, h⟩ := attempt_keep cfg e hk true (l.learn cfg.lcfg e.x e.y (bootWeight cfg.boot (e.draw 0 false) e.w))
    (cfg.det.add d (decide (e.y ≠ classOf (leafVotes cfg l d e.x))))
  have hl : (N.leaf l d).learn cfg e true 0 = .ok ((leafLearn cfg e true (e.draw 0 false) l d).1.node,
      (leafLearn cfg e true (e.draw 0 false) l d).2) := by rw [N.learn, if_pos ha]
  rw [show (leafLearn cfg e true (e.draw 0 false) l d).1 = _ from h] at hl
  exact ⟨_, _, _, hl, ha, rfl⟩

theorem boot_run (cfg : HCfg O D) (es : List (Ev O)) (hk : ∀ e ∈ es, ∀ l, ∃ f, e.choose l = .keep f) :
    ∀ (l : Leaf O) (d : D) (c : Cnt) (q : ℚ), l.active = true →
    ∃ l' d' c' q', run cfg ⟨some (.leaf l d), c, q⟩ es = .ok ⟨some (.leaf l' d'), c', q'⟩ ∧
      ∀ y, classWeight l'.stats y = classWeight l.stats y +
        ((es.filter fun e => e.y = y).map fun e => bootWeight cfg.boot (e.draw 0 false) e.w).sum := by
  induction es with
  | nil => intro l d c q _; exact ⟨l, d, c, q, rfl, by simp⟩
  | cons e es ih =>
    intro l d c q ha
    obtain ⟨l1, d1, c1, h1, h2, h3⟩ := leaf_stays cfg e (hk e List.mem_cons_self) l d ha
    obtain ⟨l', d', c', q', k1, k2⟩ := ih (fun e' he' => hk e' (List.mem_cons_of_mem _ he')) l1 d1 (c.add c1) (q + e.w) h2
    refine ⟨l', d', c', q', ?_, fun y => ?_⟩
    · rw [run]
      have : step cfg ⟨some (.leaf l d), c, q⟩ e = .ok ⟨some (.leaf l1 d1), c.add c1, q + e.w⟩ := by
        simp only [step, Option.getD_some, N.inactive, ha, if_true, h1, Option.isSome_some]
      rw [this]
      exact k1
    · rw [k2, h3, classWeight_bump]
      by_cases hy : e.y = y
      · simp [hy]; ring
      · simp [hy]

theorem boot_all (cfg : HCfg O D) (es : List (Ev O)) (hne : es ≠ [])
    (hk : ∀ e ∈ es, ∀ l, ∃ f, e.choose l = .keep f) :
    ∃ h l d, run cfg {} es = .ok h ∧ h.root = some (.leaf l d) ∧ ∀ c, classWeight l.stats c =
        ((es.filter fun e => e.y = c).map fun e => bootWeight cfg.boot (e.draw 0 false) e.w).sum := by
  cases es with
  | nil => exact absurd rfl hne
  | cons e es =>
    obtain ⟨l', d', c', q', h1, h2⟩ := boot_run cfg (e :: es) hk (newLeaf cfg.base true []) cfg.det.new
      { actives := 1 } 0 rfl
    refine ⟨⟨some (.leaf l' d'), c', q'⟩, l', d', ?_, rfl, fun c => ?_⟩
    · rw [← h1]
      simp only [run, step, Option.getD_none, Option.getD_some, Option.isSome_none, Option.isSome_some]
      rfl
    · rw [h2 c]; simp [classWeight, newLeaf]

/-- C164 (partial): without bootstrap sampling, or if no draw is 0, the weight of each class
in a tree of a single leaf is the weight of its training instances, each counted as many
times as drawn.  Missing (and false, see the violation): draws of 0. -/
theorem C164_bootstrap_partial (cfg : HCfg O D) (es : List (Ev O)) (hne : es ≠ [])
    (hk : ∀ e ∈ es, ∀ l, ∃ f, e.choose l = .keep f) :
    ∃ h l d, run cfg {} es = .ok h ∧ h.root = some (.leaf l d) ∧
      (cfg.boot = false → ∀ c, classWeight l.stats c = counted (fun _ => 1) es c) ∧
      (cfg.boot = true → (∀ e ∈ es, 0 < e.draw 0 false) →
        ∀ c, classWeight l.stats c = counted (fun e => (e.draw 0 false : ℚ)) es c) := by
  obtain ⟨h, l, d, h1, h2, h3⟩ := boot_all cfg es hne hk
  refine ⟨h, l, d, h1, h2, fun hb c => ?_, fun hb hd c => ?_⟩
  · rw [h3 c, counted]
    simp [bootWeight, hb]
  · rw [h3 c, counted]
    congr 1
    apply List.map_congr_left
    intro e he
    have := hd e (List.mem_filter.1 he).1
    simp [bootWeight, hb, this]

/-- C164 (violated): an instance that is drawn 0 times is learned all the same, with its full
weight, as if it had been drawn once. -/
theorem C164_zero_violated (cfg : HCfg O D) (hb : cfg.boot = true) (es : List (Ev O)) (hne : es ≠ [])
    (hk : ∀ e ∈ es, ∀ l, ∃ f, e.choose l = .keep f) (hd : ∀ e ∈ es, e.draw 0 false = 0) :
    ∃ h l d, run cfg {} es = .ok h ∧ h.root = some (.leaf l d) ∧
      ∀ c, classWeight l.stats c = counted (fun _ => 1) es c ∧ counted (fun e => (e.draw 0 false : ℚ)) es c = 0 := by
  obtain ⟨h, l, d, h1, h2, h3⟩ := boot_all cfg es hne hk
  refine ⟨h, l, d, h1, h2, fun c => ⟨?_, ?_⟩⟩
  · rw [h3 c, counted]
    congr 1
    apply List.map_congr_left
    intro e he
    have := hd e (List.mem_filter.1 he).1
    simp [bootWeight, this]
  · rw [counted]
    apply List.sum_eq_zero
    intro q hq
    obtain ⟨e, he, rfl⟩ := List.mem_map.1 hq
    simp [hd e (List.mem_filter.1 he).1]

/-- Draws 2, 0, 3: the leaf holds 2 + 1 + 3 instead of 5. -/
example : let ev : Nat → Ev (List (List ℚ × Int × ℚ)) := fun k => ⟨[1], 0, 1, fun _ => .keep id, fun _ _ => k⟩
    ((run { logCfg false with boot := true } {} [ev 2, ev 0, ev 3]).toOption.bind fun h => match h.root with
      | some (.leaf l _) => some l.stats
      | _ => none) = some [(0, 6)] := by decide +kernel

/-! ### C165: votes -/

/-- The child of branch `b`. -/
def K.child : K O D → Nat → Option (N O D)
  | .nil, _ => none
  | .cons j t rest, b => if b = j then some t else rest.child b

/-- The tests of the main tree lead an instance to this leaf. -/
inductive Reaches (x : List ℚ) : N O D → Leaf O → D → Prop
  | here (l d) : Reaches x (.leaf l d) l d
  | down (t s d' alt kids b n l d) : t.branch x = .ok (b : Int) → 0 ≤ b → K.child kids b.toNat = some n →
      Reaches x n l d → Reaches x (.split t s d' alt kids) l d

/-- The tests of the main tree lead an instance to a split node that has no branch for it. -/
inductive Strays (x : List ℚ) : N O D → Prop
  | here (t s d alt kids b) : t.branch x = .ok (b : Int) → b < 0 → Strays x (.split t s d alt kids)
  | down (t s d alt kids b n) : t.branch x = .ok (b : Int) → 0 ≤ b → K.child kids b.toNat = some n →
      Strays x n → Strays x (.split t s d alt kids)

theorem addEntry_fold (v acc : List (Int × ℚ)) (h : ((acc ++ v).map Prod.fst).Nodup) :
    v.foldl addEntry acc = acc ++ v := by
  induction v generalizing acc with
  | nil => simp
  | cons p v ih =>
    have : addEntry acc p = acc ++ [p] := by
      unfold addEntry
      rw [if_neg]
      simp only [List.any_eq_true, beq_iff_eq, not_exists, not_and]
      intro q hq he
      simp only [List.map_append, List.map_cons] at h
      have := (List.nodup_append.1 h).2.2 q.1 (List.mem_map_of_mem hq) p.1 (by simp)
      exact this he
    rw [List.foldl_cons, this, ih _ (by simpa using h)]
    simp

/-- Found nodes of alternate trees carry the branch -999. -/
theorem found_reaches (cfg : HCfg O D) (x : List ℚ) (pb : Int) (hpb : pb ≠ -999) (r : N O D) (l : Leaf O) (d : D)
    (h : Reaches x r l d) (ha : l.active = true) :
    ∃ fs, r.found cfg x pb = .ok fs ∧ fs.filter (fun f => f.2 ≠ -999) = [(leafVotes cfg l d x, pb)] := by
  induction h with
  | here l d => exact ⟨[(leafVotes cfg l d x, pb)], by rw [N.found, if_pos ha], by simp [hpb]⟩
  | down t s d' alt kids b n l d hb hb0 hc _ ih =>
    obtain ⟨fs, h1, h2⟩ := ih ha
    have hk : ∀ kids : K O D, kids.child b.toNat = some n → kids.found cfg x pb s b.toNat = .ok fs := by
      intro kids
      induction kids using K.rec (motive_1 := fun _ => True) with
      | leaf => trivial
      | split => trivial
      | nil => intro h; simp [K.child] at h
      | cons j t rest _ ih =>
        intro h
        rw [K.child] at h
        rw [K.found]
        by_cases e : b.toNat = j
        · rw [if_pos e] at h ⊢
          simp only [Option.some.injEq] at h
          subst h
          exact h1
        · rw [if_neg e] at h ⊢
          exact ih h
    have hf : (N.split t s d' alt kids).found cfg x pb = .ok (fs ++ altFound cfg x alt) := by
      rw [N.found]; simp only [hb]; rw [if_pos hb0, hk kids hc]
    refine ⟨_, hf, ?_⟩
    rw [List.filter_append, h2]
    cases alt with
    | none => simp [altFound]
    | some p => simp [altFound]

theorem found_strays (cfg : HCfg O D) (x : List ℚ) (pb : Int) (r : N O D) (h : Strays x r) :
    ∃ fs, r.found cfg x pb = .ok fs ∧ fs.filter (fun f => f.2 ≠ -999) = [] := by
  induction h with
  | here t s d alt kids b hb hb0 =>
    have hf : (N.split t s d alt kids).found cfg x pb = .ok (altFound cfg x alt) := by
      rw [N.found]; simp only [hb]; rw [if_neg (by omega)]
    refine ⟨_, hf, ?_⟩
    cases alt with
    | none => simp [altFound]
    | some p => simp [altFound]
  | down t s d' alt kids b n hb hb0 hc _ ih =>
    obtain ⟨fs, h1, h2⟩ := ih
    have hk : ∀ kids : K O D, kids.child b.toNat = some n → kids.found cfg x pb s b.toNat = .ok fs := by
      intro kids
      induction kids using K.rec (motive_1 := fun _ => True) with
      | leaf => trivial
      | split => trivial
      | nil => intro h; simp [K.child] at h
      | cons j t rest _ ih =>
        intro h
        rw [K.child] at h
        rw [K.found]
        by_cases e : b.toNat = j
        · rw [if_pos e] at h ⊢
          simp only [Option.some.injEq] at h
          subst h
          exact h1
        · rw [if_neg e] at h ⊢
          exact ih h
    have hf : (N.split t s d' alt kids).found cfg x pb = .ok (fs ++ altFound cfg x alt) := by
      rw [N.found]; simp only [hb]; rw [if_pos hb0, hk kids hc]
    refine ⟨_, hf, ?_⟩
    rw [List.filter_append, h2]
    cases alt with
    | none => simp [altFound]
    | some p => simp [altFound]

/-- What an active leaf would answer without regard to its error rate. -/
def rawVotes (cfg : HCfg O D) (l : Leaf O) (x : List ℚ) : List (Int × ℚ) :=
  match cfg.base.kind with
  | .mc => l.stats
  | .nb => cfg.base.bayes l.stats l.obs x
  | .nba => if l.mc > l.nb then l.stats else cfg.base.bayes l.stats l.obs x

theorem leafVotes_active (cfg : HCfg O D) (l : Leaf O) (d : D) (x : List ℚ) (ha : l.active = true) :
    leafVotes cfg l d x =
      if ((rawVotes cfg l x).map Prod.snd).sum * cfg.det.est d * cfg.det.est d > 0 then
        (rawVotes cfg l x).map fun p => (p.1, p.2 / (((rawVotes cfg l x).map Prod.snd).sum * cfg.det.est d * cfg.det.est d))
      else rawVotes cfg l x := by
  rw [leafVotes, if_pos ha]
  rfl

/-- C165 (partial): if the tests lead an instance to an active leaf, the votes of the tree are
exactly those of this leaf - alternate trees have no say: its class weights (or naive Bayes
scores), divided by their sum and by the squared error rate of the leaf if both are
positive, and unscaled otherwise.  Missing (and false, see the violation): instances for
which a split node has no branch. -/
theorem C165_votes_partial (cfg : HCfg O D) (h : Tree O D) (r : N O D) (hr : h.root = some r) (x : List ℚ)
    (l : Leaf O) (d : D) (hre : Reaches x r l d) (ha : l.active = true)
    (hn : ((rawVotes cfg l x).map Prod.fst).Nodup) :
    ∃ v, votes cfg h x = .ok v ∧
      (((rawVotes cfg l x).map Prod.snd).sum > 0 → cfg.det.est d ≠ 0 →
        v = (rawVotes cfg l x).map fun p => (p.1, p.2 / ((rawVotes cfg l x).map Prod.snd).sum / cfg.det.est d ^ 2)) ∧
      (((rawVotes cfg l x).map Prod.snd).sum ≤ 0 ∨ cfg.det.est d = 0 → v = rawVotes cfg l x) := by
  obtain ⟨fs, h1, h2⟩ := found_reaches cfg x (-1) (by decide) r l d hre ha
  have hin : r.inactive = none := by
    cases hre with
    | here => simp [N.inactive, ha]
    | down => rfl
  have hv : votes cfg h x = .ok ((leafVotes cfg l d x).foldl addEntry []) := by
    simp only [votes, hr, hin, h1, h2, List.foldl_cons, List.foldl_nil]
  have hkeys : (leafVotes cfg l d x).map Prod.fst = (rawVotes cfg l x).map Prod.fst := by
    rw [leafVotes_active cfg l d x ha]
    split
    · simp
    · rfl
  have hfold : (leafVotes cfg l d x).foldl addEntry [] = leafVotes cfg l d x := by
    have := addEntry_fold (leafVotes cfg l d x) [] (by rw [List.nil_append, hkeys]; exact hn)
    simpa using this
  refine ⟨_, hv, ?_, ?_⟩
  · intro hs he
    rw [hfold, leafVotes_active cfg l d x ha, if_pos]
    · apply List.map_congr_left
      intro p _
      rw [div_div, pow_two, mul_assoc]
    · rw [mul_assoc]
      exact mul_pos hs (mul_self_pos.2 he)
  · intro hs
    rw [hfold, leafVotes_active cfg l d x ha, if_neg]
    rw [not_lt, mul_assoc]
    rcases hs with hs | hs
    · exact mul_nonpos_of_nonpos_of_nonneg hs (mul_self_nonneg _)
    · simp [hs]

/-- C165 (violated): if the tests lead an instance to a split node that has no branch for it - an
unseen value of a nominal attribute - there are no votes at all (and class 0 is predicted),
whatever the statistics of the node; the Hoeffding tree answers with those. -/
theorem C165_unseen_violated (cfg : HCfg O D) (h : Tree O D) (r : N O D) (hr : h.root = some r) (x : List ℚ)
    (hs : Strays x r) : votes cfg h x = .ok [] := by
  obtain ⟨fs, h1, h2⟩ := found_strays cfg x (-1) r hs
  have hin : r.inactive = none := by cases hs <;> rfl
  simp only [votes, hr, hin, h1, h2, List.foldl_nil]

/-- A nominal root split on the values 3 and 4, class 1 throughout: the value 3 reaches a leaf,
the value 5 strays and gets no votes. -/
def nomTree : Tree (List (List ℚ × Int × ℚ)) (List Bool) :=
  { root := some (.split (.multi (.create 0 [3, 4])) [(1, 8)] [] (some (newLeaf (logCfg false).base true [(0, 9)], []))
      (newKids (logCfg false) 0 [[(1, 5)], [(1, 3)]])) }

example : (votes (logCfg false) nomTree [3]).toOption = some [(1, 5)] ∧
    (votes (logCfg false) nomTree [5]).toOption = some [] := by decide +kernel

/-! ### C166: reset -/

theorem step_root (cfg : HCfg O D) (h1 h2 : Tree O D) (hr : h1.root = h2.root) (e : Ev O) :
    (∀ err, step cfg h1 e = .error err → step cfg h2 e = .error err) ∧
    ∀ k1, step cfg h1 e = .ok k1 → ∃ k2, step cfg h2 e = .ok k2 ∧ k1.root = k2.root ∧
      ∃ c, k1.cnt = (if h1.root.isSome then h1.cnt else { h1.cnt with actives := 1 }).add c ∧
        k2.cnt = (if h2.root.isSome then h2.cnt else { h2.cnt with actives := 1 }).add c := by
  unfold step
  rw [hr]
  cases hi : (h2.root.getD (.leaf (newLeaf cfg.base true []) cfg.det.new)).inactive with
  | some p =>
    refine ⟨fun err h => by simp [hi] at h, fun k1 h => ?_⟩
    simp only [hi, Except.ok.injEq] at h
    subst h
    exact ⟨⟨_, if h2.root.isSome then h2.cnt else { h2.cnt with actives := 1 }, h2.seen + e.w⟩, by simp only [hi],
      rfl, {}, by simp [Cnt.add], by simp [Cnt.add]⟩
  | none =>
    cases hl : (h2.root.getD (.leaf (newLeaf cfg.base true []) cfg.det.new)).learn cfg e true 0 with
    | error err => exact ⟨fun err' h => by simpa [hi, hl] using h, fun k1 h => by simp [hi, hl] at h⟩
    | ok p =>
      refine ⟨fun err h => by simp [hi, hl] at h, fun k1 h => ?_⟩
      simp only [hi, hl, Except.ok.injEq] at h
      subst h
      exact ⟨⟨some p.1, (if h2.root.isSome then h2.cnt else { h2.cnt with actives := 1 }).add p.2, h2.seen + e.w⟩,
        by simp only [hi, hl], rfl, p.2, rfl, rfl⟩

/-- Two trees with the same root, the counters of the second ahead by `i` and `s`. -/
def Ahead (i s : Int) (h1 h2 : Tree O D) : Prop :=
  h1.root = h2.root ∧ h1.root ≠ none ∧ h2.cnt = h1.cnt.add { inactives := i, decisions := s }

theorem run_ahead (cfg : HCfg O D) (i s : Int) (es : List (Ev O)) : ∀ h1 h2 : Tree O D, Ahead i s h1 h2 →
    (∀ err, run cfg h1 es = .error err → run cfg h2 es = .error err) ∧
    ∀ k1, run cfg h1 es = .ok k1 → ∃ k2, run cfg h2 es = .ok k2 ∧ Ahead i s k1 k2 := by
  induction es with
  | nil =>
    intro h1 h2 h
    refine ⟨fun err h' => by simp [run] at h', fun k1 hk => ?_⟩
    simp only [run, Except.ok.injEq] at hk
    subst hk
    exact ⟨h2, rfl, h⟩
  | cons e es ih =>
    intro h1 h2 h
    obtain ⟨e1, e2⟩ := step_root cfg h1 h2 h.1 e
    have hroot : ∀ k, step cfg h1 e = .ok k → k.root ≠ none := by
      intro k hk
      unfold step at hk
      simp only at hk
      split at hk
      · simp only [Except.ok.injEq] at hk; subst hk; simp
      · split at hk
        · simp at hk
        · simp only [Except.ok.injEq] at hk; subst hk; simp
    cases hs : step cfg h1 e with
    | error err =>
      have := e1 err hs
      exact ⟨fun err' h' => by simp only [run, hs] at h'; simp only [run, this]; exact h',
        fun k1 h' => by simp [run, hs] at h'⟩
    | ok k =>
      obtain ⟨k2, f1, f2, c, f3, f4⟩ := e2 k hs
      have ho1 : h1.root.isSome = true := by
        cases hh : h1.root with
        | none => exact absurd hh h.2.1
        | some _ => rfl
      have ho2 : h2.root.isSome = true := by rw [← h.1]; exact ho1
      rw [ho1, if_pos rfl] at f3
      rw [ho2, if_pos rfl] at f4
      have := ih k k2 ⟨f2, hroot k hs, by rw [f3, f4, h.2.2]; simp only [Cnt.add, Cnt.mk.injEq]; omega⟩
      simpa only [run, hs, f1] using this

/-- C166 (partial): after `reset` the tree learns and answers as a new one: the same training
either fails in both cases or gives the same tree, the same votes and the same number of
active leaves, alternate trees, pruned and switched ones.  Missing (and false, see the
violation): the counters of decision nodes and inactive leaves, which go on from the values
before the reset. -/
theorem C166_reset_partial (cfg : HCfg O D) (h : Tree O D) (es : List (Ev O)) (hne : es ≠ []) :
    (∀ err, run cfg {} es = .error err → run cfg (reset h) es = .error err) ∧
    ∀ k1, run cfg {} es = .ok k1 → ∃ k2, run cfg (reset h) es = .ok k2 ∧ k2.root = k1.root ∧
      (∀ x, votes cfg k2 x = votes cfg k1 x) ∧ k2.cnt.actives = k1.cnt.actives ∧
      k2.cnt.alternates = k1.cnt.alternates ∧ k2.cnt.pruned = k1.cnt.pruned ∧ k2.cnt.switched = k1.cnt.switched ∧
      k2.cnt.decisions = k1.cnt.decisions + h.cnt.decisions ∧
      k2.cnt.inactives = k1.cnt.inactives + h.cnt.inactives := by
  cases es with
  | nil => exact absurd rfl hne
  | cons e es =>
    obtain ⟨e1, e2⟩ := step_root cfg {} (reset h) rfl e
    cases hs : step cfg ({} : Tree O D) e with
    | error err =>
      have := e1 err hs
      exact ⟨fun err' h' => by simp only [run, hs] at h'; simp only [run, this]; exact h',
        fun k1 h' => by simp [run, hs] at h'⟩
    | ok k =>
      obtain ⟨k2, f1, f2, c, f3, f4⟩ := e2 k hs
      have hroot : k.root ≠ none := by
        unfold step at hs
        simp only at hs
        split at hs
        · simp only [Except.ok.injEq] at hs; subst hs; simp
        · split at hs
          · simp at hs
          · simp only [Except.ok.injEq] at hs; subst hs; simp
      have hah : Ahead h.cnt.inactives h.cnt.decisions k k2 := by
        refine ⟨f2, hroot, ?_⟩
        rw [f3, f4]
        simp only [reset, Option.isSome_none, Cnt.add, Cnt.mk.injEq]
        simp
        omega
      obtain ⟨g1, g2⟩ := run_ahead cfg _ _ es k k2 hah
      refine ⟨fun err h' => by simp only [run, hs] at h'; simp only [run, f1]; exact g1 err h', fun k1 h' => ?_⟩
      simp only [run, hs] at h'
      obtain ⟨k3, q1, q2, _, q4⟩ := g2 k1 h'
      refine ⟨k3, by simp only [run, f1]; exact q1, q2.symm, fun x => by simp only [votes, q2], ?_⟩
      rw [q4]
      simp [Cnt.add]

/-- C166 (violated): the counters of decision nodes and inactive leaves and the training weight
seen are not reset.  Here a tree that consists of one leaf after the reset reports one
decision node. -/
theorem C166_counters_violated :
    ((run (logCfg false) {} (takeover.take 2)).toOption.bind fun h =>
      (run (logCfg false) (reset h) (takeover.take 1)).toOption.map fun k =>
        ((match k.root with | some (.leaf _ _) => true | _ => false), k.cnt.decisions, k.seen)) = some (true, 1, 3) ∧
    ((run (logCfg false) {} (takeover.take 1)).toOption.map fun k => (k.cnt.decisions, k.seen)) = some (0, 1) := by
  decide +kernel

end Verif.Trees.HA
