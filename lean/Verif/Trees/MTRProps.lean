import Verif.Trees.MTR
import Verif.Trees.GrowMap

/-!
C200: with mean leaves a multi-target tree is a single-target tree per target.
-/

namespace Verif.Trees.MT

open Verif.Trees Verif.Trees.Grow

variable {O H : Type} {T : Nat}

/-! ### Leaves and split nodes have statistics -/

theorem learn_stats (cfg : Cfg T O H) (s : Sums T) (e : Ev T O H) (l l' : Leaf T O H) (h : l.learn cfg s e = .ok l') :
    l'.stats = some (addStat l.stats e.y e.w) := by
  unfold Leaf.learn at h
  simp only at h
  cases hh : cfg.head.learn s (addStat l.stats e.y e.w)
      ⟨e.x, e.y, e.w, cfg.ratio (addStat l.stats e.y e.w).n, e.init, e.init2⟩ l.head with
  | error err => rw [hh] at h; cases h
  | ok v => rw [hh] at h; cases h; rfl

/-- A condition on leaves that learning, split attempts and (de)activation keep holds in every leaf. -/
theorem step_all (cfg : Cfg T O H) (P : Leaf T O H → Prop) (Q : Option (VStat T) → Prop) (h h' : Reg T O H) (e : Ev T O H)
    (hP : ∀ r, h.root = some r → r.All P Q)
    (hl : ∀ l l', P l ∨ l = newLeaf cfg → l.learn cfg (h.sums.add e.x e.y e.w) e = .ok l' →
      P l' ∧ (attempt cfg e l').All P Q)
    (hs : ∀ a l, P l → P (setActive cfg a l)) (hr : step cfg h e = .ok h') :
    h'.sums = h.sums.add e.x e.y e.w ∧ ∃ r, h'.root = some r ∧ r.All P Q := by
  unfold step at hr
  simp only at hr
  split at hr
  · cases hr
  · rename_i r hlr
    cases hr
    refine ⟨rfl, _, rfl, ?_⟩
    refine ((G.mapLeaves_facts 0 _ r []).2.2.2) P Q (fun q l hp => hs _ l hp) ?_
    have hf : ∀ l, P l ∨ l = newLeaf cfg → ∀ t,
        (l.learn cfg (h.sums.add e.x e.y e.w) e).map (attempt cfg e) = .ok t → t.All P Q := by
      intro l hpl t ht
      cases hll : l.learn cfg (h.sums.add e.x e.y e.w) e with
      | error err => rw [hll] at ht; cases ht
      | ok l' => rw [hll] at ht; cases ht; exact (hl l l' hpl hll).2
    have hg : ∀ l, (newLeaf cfg).learn cfg (h.sums.add e.x e.y e.w) e = .ok l → P l :=
      fun l hll => (hl _ l (.inr rfl) hll).1
    cases hroot : h.root with
    | some r0 =>
      rw [hroot, Option.getD_some] at hlr
      exact G.learn_all P Q _ _ _ _ hf hg r0 (hP r0 hroot) r hlr
    | none =>
      rw [hroot, Option.getD_none, G.learn] at hlr
      exact hf _ (.inr rfl) r hlr

/-- The same for a run. -/
theorem run_all (cfg : Cfg T O H) (P : Leaf T O H → Prop) (Q : Option (VStat T) → Prop) (es : List (Ev T O H))
    (hl : ∀ s, ∀ e ∈ es, ∀ l l', P l ∨ l = newLeaf cfg → l.learn cfg s e = .ok l' → P l' ∧ (attempt cfg e l').All P Q)
    (hs : ∀ a l, P l → P (setActive cfg a l)) (h h' : Reg T O H) (hP : ∀ r, h.root = some r → r.All P Q)
    (hr : run cfg h es = .ok h') : ∀ r, h'.root = some r → r.All P Q := by
  induction es generalizing h with
  | nil => cases hr; exact hP
  | cons e es ih =>
    rw [run] at hr
    cases hst : step cfg h e with
    | error err => rw [hst] at hr; cases hr
    | ok h1 =>
      rw [hst] at hr
      obtain ⟨-, r1, hr1, ha1⟩ := step_all cfg P Q h h1 e hP (hl _ e List.mem_cons_self) hs hst
      exact ih (fun s e' he' => hl s e' (List.mem_cons_of_mem _ he')) h1
        (fun r hr' => by rw [hr1] at hr'; cases hr'; exact ha1) hr

theorem heir_stats (cfg : Cfg T O H) (a : Bool) (s : Option (VStat T)) (h : H) : (heir cfg a s h).stats = s := rfl

theorem setActive_stats (cfg : Cfg T O H) (a : Option Bool) (l : Leaf T O H) : (setActive cfg a l).stats = l.stats := by
  cases a with
  | none => rfl
  | some a =>
    unfold setActive
    simp only
    split
    · rfl
    · rfl

/-- Every leaf and every split node of a trained tree has statistics. -/
theorem run_stats (cfg : Cfg T O H) (es : List (Ev T O H)) (h : Reg T O H) (hr : run cfg {} es = .ok h) :
    ∀ r, h.root = some r → r.All (fun l => l.stats.isSome) (fun s => s.isSome) := by
  refine run_all cfg _ _ es ?_ ?_ {} h (fun r hr => by cases hr) hr
  · intro s e he l l' _ hll
    have hst := learn_stats cfg s e l l' hll
    refine ⟨by rw [hst]; rfl, ?_⟩
    unfold attempt
    split
    · split
      · show Option.isSome _; rw [hst]; rfl
      · show Option.isSome _; rw [heir_stats, hst]; rfl
      · refine ⟨by rw [hst]; rfl, ?_⟩
        exact (kidsFrom_facts 0 _ _ 0).2.2 _ _ (fun d _ => rfl)
    · show Option.isSome _; rw [hst]; rfl
  · intro a l hl
    rw [setActive_stats]; exact hl

/-! ### C200 -/

/-- Statistics of one target. -/
def VStat.at (j : Fin T) (s : VStat T) : EBST.Stat := ⟨s.n, s.s j, s.q j⟩

/-- A leaf seen from one target. -/
def Leaf.at {O' : Type} (j : Fin T) (π : O → O') (l : Leaf T O Unit) : HR.Leaf O' :=
  ⟨l.active, l.stats.map (VStat.at j), π l.obs, .unset, l.last⟩

/-- The row with target `j` only, for a single-target tree that decides as the multi-target tree decides
at some leaf. -/
def SameRow {O' : Type} (j : Fin T) (π : O → O') (e : Ev T O Unit) (e' : HR.Ev O') : Prop :=
  e'.x = e.x ∧ e'.y = e.y j ∧ e'.w = e.w ∧ e'.growth = e.growth ∧ e'.memory = e.memory ∧
    ∃ l, ∀ l', e'.choose l' =
      match e.choose l with
      | .keep f => .keep fun _ => π (f l.obs)
      | .prune => .prune
      | .split t ds => .split t (ds.map fun d => ⟨d.n, d.s j, d.q j⟩)

/-- A single-target tree with mean leaves, parameters as the multi-target tree, and observers that
see what the observers of the multi-target tree see of the target. -/
def SameCfg {O' : Type} (j : Fin T) (π : O → O') (cfg : Cfg T O Unit) (cfg' : HR.Cfg O') : Prop :=
  cfg.head = meanHead T ∧ cfg'.perceptron = false ∧ cfg'.grace = cfg.grace ∧ π cfg.fresh = cfg'.fresh ∧
    ∀ o x y w, π (cfg.update o x y w) = cfg'.update (π o) x (y j) w

theorem weight_at (j : Fin T) (s : Option (VStat T)) : HR.weight (s.map (VStat.at j)) = weight s := by
  cases s <;> rfl

theorem addStat_at (j : Fin T) (s : Option (VStat T)) (y : V T) (w : ℚ) :
    HR.addStat (s.map (VStat.at j)) (y j) w = (addStat s y w).at j := by
  cases s <;> rfl

theorem heir_at {O' : Type} (j : Fin T) (π : O → O') (cfg : Cfg T O Unit) (cfg' : HR.Cfg O') (hc : SameCfg j π cfg cfg')
    (a : Bool) (s : Option (VStat T)) (u : Unit) :
    (heir cfg a s u).at j π = HR.newLeaf cfg' a (s.map (VStat.at j)) .unset := by
  simp only [heir, Leaf.at, HR.newLeaf, hc.2.2.2.1, weight_at]

theorem new_at {O' : Type} (j : Fin T) (π : O → O') (cfg : Cfg T O Unit) (cfg' : HR.Cfg O') (hc : SameCfg j π cfg cfg') :
    (newLeaf cfg).at j π = HR.newLeaf cfg' true none .unset := by
  simp only [newLeaf, Leaf.at, HR.newLeaf, hc.2.2.2.1, Option.map_none, HR.weight, Option.getD_none]

theorem setActive_at {O' : Type} (j : Fin T) (π : O → O') (cfg : Cfg T O Unit) (cfg' : HR.Cfg O') (hc : SameCfg j π cfg cfg')
    (a : Option Bool) (l : Leaf T O Unit) : HR.setActive cfg' a (l.at j π) = (setActive cfg a l).at j π := by
  cases a with
  | none => rfl
  | some a =>
    unfold HR.setActive setActive
    simp only
    by_cases h : l.active = a
    · rw [if_pos h, if_pos (show (l.at j π).active = a from h)]
    · rw [if_neg h, if_neg (show ¬(l.at j π).active = a from h), heir_at j π cfg cfg' hc]
      rfl

theorem learn_mean (cfg : Cfg T O Unit) (hm : cfg.head = meanHead T) (s : Sums T) (e : Ev T O Unit) (l : Leaf T O Unit) :
    l.learn cfg s e = .ok ⟨l.active, some (addStat l.stats e.y e.w),
      if l.active then cfg.update l.obs e.x e.y e.w else l.obs, (), l.last⟩ := by
  unfold Leaf.learn
  simp only [hm, meanHead]

theorem learn_at {O' : Type} (j : Fin T) (π : O → O') (cfg : Cfg T O Unit) (cfg' : HR.Cfg O') (hc : SameCfg j π cfg cfg')
    (s : Sums T) (s' : HR.Sums) (e : Ev T O Unit) (e' : HR.Ev O') (he : e'.x = e.x ∧ e'.y = e.y j ∧ e'.w = e.w)
    (l : Leaf T O Unit) : (l.at j π).learn cfg' s' e' = (l.learn cfg s e).map (Leaf.at j π) := by
  rw [learn_mean cfg hc.1]
  unfold HR.Leaf.learn
  rw [if_neg (by rw [hc.2.1]; simp)]
  simp only [Except.map, Leaf.at, he.1, he.2.1, he.2.2, addStat_at, Option.map_some]
  cases l.active <;> simp [hc.2.2.2.2]

/-- The leaf a row reaches, or the new one. -/
def reached (new : Leaf T O Unit) (r : G (Leaf T O Unit) (Option (VStat T))) (x : List ℚ) : Leaf T O Unit :=
  match r.route x with
  | .ok (.leaf l) => l
  | _ => new

theorem step_at {O' : Type} (j : Fin T) (π : O → O') (cfg : Cfg T O Unit) (cfg' : HR.Cfg O') (hc : SameCfg j π cfg cfg')
    (h h1 : Reg T O Unit) (e : Ev T O Unit) (hs : step cfg h e = .ok h1) (h' : HR.Reg O')
    (hr : h'.root = h.root.map (G.map (Leaf.at j π) (Option.map (VStat.at j)))) :
    ∃ e' h1', SameRow j π e e' ∧ HR.step cfg' h' e' = .ok h1' ∧
      h1'.root = h1.root.map (G.map (Leaf.at j π) (Option.map (VStat.at j))) := by
  obtain ⟨r0, hr0⟩ : ∃ r0, r0 = h.root.getD (.leaf (newLeaf cfg)) := ⟨_, rfl⟩
  obtain ⟨lr, hlr⟩ : ∃ lr, (reached (newLeaf cfg) r0 e.x).learn cfg (h.sums.add e.x e.y e.w) e = .ok lr :=
    ⟨_, learn_mean cfg hc.1 _ _ _⟩
  refine ⟨⟨e.x, e.y j, e.w, [], e.growth, fun _ =>
      match e.choose lr with
      | .keep f => .keep fun _ => π (f lr.obs)
      | .prune => .prune
      | .split t ds => .split t (ds.map fun d => ⟨d.n, d.s j, d.q j⟩), e.memory⟩, ?_⟩
  generalize hE : (HR.Ev.mk e.x (e.y j) e.w [] e.growth (fun _ => match e.choose lr with
      | .keep f => HR.Choice.keep fun _ => π (f lr.obs)
      | .prune => .prune
      | .split t ds => .split t (ds.map fun d => ⟨d.n, d.s j, d.q j⟩)) e.memory) = e'
  have hE1 : e'.x = e.x := by rw [← hE]
  have hE2 : e'.y = e.y j := by rw [← hE]
  have hE3 : e'.w = e.w := by rw [← hE]
  have hE4 : e'.growth = e.growth := by rw [← hE]
  have hE5 : e'.memory = e.memory := by rw [← hE]
  have hE6 : ∀ l', e'.choose l' = match e.choose lr with
      | .keep f => HR.Choice.keep fun _ => π (f lr.obs)
      | .prune => .prune
      | .split t ds => .split t (ds.map fun d => ⟨d.n, d.s j, d.q j⟩) := fun l' => by rw [← hE]
  -- the attempt at the reached leaf
  have hatt : HR.attempt cfg' e' (lr.at j π) = (attempt cfg e lr).map (Leaf.at j π) (Option.map (VStat.at j)) := by
    unfold HR.attempt attempt
    simp only [hE4, show (lr.at j π).active = lr.active from rfl, show (lr.at j π).last = lr.last from rfl,
      show (lr.at j π).stats = lr.stats.map (VStat.at j) from rfl, weight_at, hc.2.2.1]
    by_cases hg : e.growth = true ∧ lr.active = true ∧ weight lr.stats - lr.last ≥ cfg.grace
    · rw [if_pos hg, if_pos hg, hE6]
      cases e.choose lr with
      | keep f => rfl
      | prune =>
        simp only [G.map, heir_at j π cfg cfg' hc]
        rfl
      | split t ds =>
        simp only [G.map]
        rw [kidsFrom_map (Leaf.at j π) (Option.map (VStat.at j)) _ (fun d => HR.newLeaf cfg' true (some d) .unset) (VStat.at j)
          (fun d => heir_at j π cfg cfg' hc true (some d) lr.head)]
        rfl
    · rw [if_neg hg, if_neg hg]
      rfl
  unfold step at hs
  simp only at hs
  unfold HR.step
  simp only
  have hnew := new_at j π cfg cfg' hc
  have hroot : h'.root.getD (.leaf (HR.newLeaf cfg' true none .unset)) = r0.map (Leaf.at j π) (Option.map (VStat.at j)) := by
    rw [hr, hr0]
    cases h.root with
    | none => rw [Option.map_none, Option.getD_none, Option.getD_none, G.map, hnew]
    | some r => rfl
  rw [hroot, ← hnew, hE1]
  have hlearn := G.learn_map (Leaf.at j π) (Option.map (VStat.at j)) e.x
    (fun l => (l.learn cfg (h.sums.add e.x e.y e.w) e).map (attempt cfg e))
    (fun l => l.learn cfg (h.sums.add e.x e.y e.w) e)
    (fun l => (l.learn cfg' (h'.sums.add e.x e'.y e'.w) e').map (HR.attempt cfg' e'))
    (fun l => l.learn cfg' (h'.sums.add e.x e'.y e'.w) e') (newLeaf cfg)
    (learn_at j π cfg cfg' hc _ _ e e' ⟨hE1, hE2, hE3⟩ _) r0
    (fun l hl => by
      have hl' : reached (newLeaf cfg) r0 e.x = l := by
        rcases hl with hl | ⟨hl, rfl⟩ <;> simp only [reached, hl]
      rw [learn_at j π cfg cfg' hc (h.sums.add e.x e.y e.w) _ e e' ⟨hE1, hE2, hE3⟩]
      rw [hl'] at hlr
      rw [hlr]
      simp only [Except.map]
      rw [hatt])
  rw [hlearn]
  rw [← hr0] at hs
  cases hrr : r0.learn e.x (fun l => (l.learn cfg (h.sums.add e.x e.y e.w) e).map (attempt cfg e))
      (fun l => l.learn cfg (h.sums.add e.x e.y e.w) e) (newLeaf cfg) with
  | error err => rw [hrr] at hs; cases hs
  | ok r =>
    rw [hrr] at hs
    cases hs
    refine ⟨_, ⟨hE1, hE2, hE3, hE4, hE5, lr, hE6⟩, rfl, ?_⟩
    simp only [Option.map_some, Option.some.injEq, hE5]
    exact G.mapLeaves_map _ _ _ _ (fun p l => setActive_at j π cfg cfg' hc _ l) r []

theorem run_at {O' : Type} (j : Fin T) (π : O → O') (cfg : Cfg T O Unit) (cfg' : HR.Cfg O') (hc : SameCfg j π cfg cfg')
    (es : List (Ev T O Unit)) (h h1 : Reg T O Unit) (hs : run cfg h es = .ok h1) (h' : HR.Reg O')
    (hr : h'.root = h.root.map (G.map (Leaf.at j π) (Option.map (VStat.at j)))) :
    ∃ es' h1', List.Forall₂ (SameRow j π) es es' ∧ HR.run cfg' h' es' = .ok h1' ∧
      h1'.root = h1.root.map (G.map (Leaf.at j π) (Option.map (VStat.at j))) := by
  induction es generalizing h h' with
  | nil => cases hs; exact ⟨[], h', .nil, rfl, hr⟩
  | cons e es ih =>
    rw [run] at hs
    cases hst : step cfg h e with
    | error err => rw [hst] at hs; cases hs
    | ok h2 =>
      rw [hst] at hs
      obtain ⟨e', h2', p1, p2, p3⟩ := step_at j π cfg cfg' hc h h2 e hst h' hr
      obtain ⟨es', h1', q1, q2, q3⟩ := ih h2 hs h2' p3
      exact ⟨e' :: es', h1', .cons p1 q1, by rw [HR.run, p2]; exact q2, q3⟩

theorem mean_at (j : Fin T) (s : VStat T) : HR.mean (some (s.at j)) = mean (some s) j := rfl

/-- C200: after any training of a multi-target tree with mean leaves there is, for every target, a
training of the single-target tree on the same rows with that target alone, taking the same decisions,
after which both answer every row in the same way. -/
theorem C200_targets_apart {O' : Type} (j : Fin T) (π : O → O') (cfg : Cfg T O Unit) (cfg' : HR.Cfg O')
    (hc : SameCfg j π cfg cfg') (es : List (Ev T O Unit)) (h : Reg T O Unit) (hrun : run cfg {} es = .ok h) :
    ∃ es' h', List.Forall₂ (SameRow j π) es es' ∧ HR.run cfg' {} es' = .ok h' ∧
      (h'.root.isSome ↔ h.root.isSome) ∧
      ∀ r r', h.root = some r → h'.root = some r' → ∀ x,
        HR.predictOne cfg' h'.sums r' x = (predictOne cfg h.sums r x).map (fun v => v j) := by
  obtain ⟨es', h', p1, p2, p3⟩ := run_at j π cfg cfg' hc es {} h hrun {} rfl
  refine ⟨es', h', p1, p2, by rw [p3]; simp, fun r r' hr hr' x => ?_⟩
  rw [p3, hr, Option.map_some, Option.some.injEq] at hr'
  subst hr'
  have hall := run_stats cfg es h hrun r hr
  unfold HR.predictOne predictOne
  rw [G.route_map]
  obtain ⟨q1, q2⟩ := G.route_all _ _ x r hall
  cases hro : r.route x with
  | error e => rfl
  | ok en =>
    cases en with
    | leaf l =>
      have := q1 l hro
      simp only [Except.map, End.map, hc.2.1, hc.1, meanHead]
      cases hst : l.stats with
      | none => rw [hst] at this; cases this
      | some s => simp [Leaf.at, hst, mean_at]
    | stuck s =>
      have := q2 s hro
      cases s with
      | none => cases this
      | some s => simp [Except.map, End.map, mean_at]
    | missing => rfl

/-- Two targets, mean leaves, grace period 2. -/
def meanCfg : Cfg 2 Unit Unit := ⟨meanHead 2, 2, 0, 0, true, (), fun _ _ _ _ => ()⟩

/-- The tree for one target. -/
def meanCfg' : HR.Cfg Unit := ⟨false, 2, 0, 0, true, fun _ => false, id, (), fun _ _ _ _ => ()⟩

/-- A row; a leaf of weight 2 is split at 0 into halves. -/
def meanEv (x a b : ℚ) : Ev 2 Unit Unit :=
  ⟨[x], ![a, b], 1, fun _ => [], fun _ => [], true, fun l =>
    match l.stats with
    | some s => .split (.num ⟨0, 0, true⟩) [⟨1, fun j => s.s j / 2, fun j => s.q j / 2⟩, ⟨1, fun j => s.s j / 2, fun j => s.q j / 2⟩]
    | none => .prune, fun _ => none⟩

example : SameCfg (1 : Fin 2) id meanCfg meanCfg' := ⟨rfl, rfl, rfl, rfl, fun _ _ _ _ => rfl⟩

example : ((run meanCfg {} [meanEv 1 3 8, meanEv (-1) 5 4, meanEv 1 8 9]).toOption.bind fun h => h.root.bind fun r =>
    (predictOne meanCfg h.sums r [1]).toOption.map fun v => (v 0, v 1)) = some (some 6, some (15 / 2)) := by
  decide +kernel

end Verif.Trees.MT
