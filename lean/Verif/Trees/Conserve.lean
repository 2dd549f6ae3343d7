import Verif.Trees.Learn
import Mathlib.Algebra.Order.BigOperators.Group.List

/-!
How much of the training weight the leaves of a Hoeffding tree hold (C124).

The class distributions of a split suggestion come from the attribute observers
(`trees/_attribute_observer/`, C34 and C63), so they add up to what the observers of the
leaf have seen.  A leaf that came out of a split starts with class weights but with fresh
observers (hoeffding_tree.py 619-622, base.py 427-432), and so does a leaf that was
deactivated and activated again (742).
-/

namespace Verif.Trees.HL

open Verif.Trees

variable {O : Type}

/-! ### Specification -/

/-- `seen o c` is the weight of class `c` shown to observers in state `o`; `good` holds of the
states observers get into with non-negative weights. -/
def Cfg.Observes (cfg : Cfg O) (good : O → Prop) (seen : O → Int → ℚ) : Prop :=
  (good cfg.fresh ∧ ∀ c, seen cfg.fresh c = 0) ∧
  ∀ o x y w, (good o → 0 ≤ w → good (cfg.update o x y w)) ∧
    ∀ c, seen (cfg.update o x y w) c = seen o c + if y = c then w else 0

/-- The splits chosen share out, in non-negative parts, what the observers of the leaf have
seen; disabling poor attributes does not change what the other observers have seen. -/
def Ev.SharesSeen (good : O → Prop) (seen : O → Int → ℚ) (e : Ev O) : Prop :=
  ∀ l : Leaf O, good l.obs →
    (∀ t ds, e.choose l = .split t ds → ∀ c, (ds.map fun d => classWeight d c).sum = seen l.obs c ∧
      ∀ d ∈ ds, 0 ≤ classWeight d c) ∧
    ∀ f, e.choose l = .keep f → good (f l.obs) ∧ ∀ c, seen (f l.obs) c = seen l.obs c

/-! ### Proofs -/

/-- A leaf holds at least what its observers have seen. -/
def Leaf.Covers (good : O → Prop) (seen : O → Int → ℚ) (l : Leaf O) : Prop :=
  good l.obs ∧ ∀ c, 0 ≤ classWeight l.stats c ∧ seen l.obs c ≤ classWeight l.stats c

mutual
theorem T.leaves_modify (f : T O → T O) (t : T O) (p : Path) (s : T O) (h : t.get p = some s) (l : Leaf O)
    (hl : l ∈ (t.modify f p).leaves) : l ∈ t.leaves ∨ l ∈ (f s).leaves := by
  match t, p with
  | .leaf a, [] => simp only [T.get, Option.some.injEq] at h; subst h; exact .inr hl
  | .split m st kids, [] => simp only [T.get, Option.some.injEq] at h; subst h; exact .inr hl
  | .leaf a, i :: p => simp [T.get] at h
  | .split m st kids, i :: p =>
    simp only [T.get] at h
    exact F.leaves_modify f kids i p s h l hl
theorem F.leaves_modify (f : T O → T O) (k : F O) (i : Nat) (p : Path) (s : T O) (h : k.get i p = some s) (l : Leaf O)
    (hl : l ∈ (k.modify f i p).leaves) : l ∈ k.leaves ∨ l ∈ (f s).leaves := by
  match k with
  | .nil => simp [F.get] at h
  | .cons j t rest =>
    rw [F.get] at h
    rw [F.modify] at hl
    by_cases e : i = j
    · rw [if_pos e] at h hl
      simp only [F.leaves, List.mem_append] at hl ⊢
      rcases hl with hl | hl
      · rcases T.leaves_modify f t p s h l hl with h' | h'
        · exact .inl (.inl h')
        · exact .inr h'
      · exact .inl (.inr hl)
    · rw [if_neg e] at h hl
      simp only [F.leaves, List.mem_append] at hl ⊢
      rcases hl with hl | hl
      · exact .inl (.inl hl)
      · rcases F.leaves_modify f rest i p s h l hl with h' | h'
        · exact .inl (.inr h')
        · exact .inr h'
end

mutual
theorem T.leaves_get (t : T O) (p : Path) (s : T O) (h : t.get p = some s) (l : Leaf O) (hl : l ∈ s.leaves) :
    l ∈ t.leaves := by
  match t, p with
  | .leaf a, [] => simp only [T.get, Option.some.injEq] at h; subst h; exact hl
  | .split m st kids, [] => simp only [T.get, Option.some.injEq] at h; subst h; exact hl
  | .leaf a, i :: p => simp [T.get] at h
  | .split m st kids, i :: p =>
    simp only [T.get] at h
    exact F.leaves_get kids i p s h l hl
theorem F.leaves_get (k : F O) (i : Nat) (p : Path) (s : T O) (h : k.get i p = some s) (l : Leaf O)
    (hl : l ∈ s.leaves) : l ∈ k.leaves := by
  match k with
  | .nil => simp [F.get] at h
  | .cons j t rest =>
    rw [F.get] at h
    simp only [F.leaves, List.mem_append]
    by_cases e : i = j
    · rw [if_pos e] at h; exact .inl (T.leaves_get t p s h l hl)
    · rw [if_neg e] at h; exact .inr (F.leaves_get rest i p s h l hl)
end

theorem newLeaf_covers (cfg : Cfg O) (good : O → Prop) (seen : O → Int → ℚ) (ho : cfg.Observes good seen) (a : Bool) (s : Stats)
    (h : ∀ c, 0 ≤ classWeight s c) : (newLeaf cfg a s).Covers good seen :=
  ⟨ho.1.1, fun c => ⟨h c, by simp only [newLeaf, ho.1.2]; exact h c⟩⟩

theorem learn_covers (cfg : Cfg O) (good : O → Prop) (seen : O → Int → ℚ) (ho : cfg.Observes good seen) (l : Leaf O) (h : l.Covers good seen)
    (x : List ℚ) (y : Int) (w : ℚ) (hw : 0 ≤ w) : (l.learn cfg x y w).Covers good seen := by
  refine ⟨?_, fun c => ?_⟩
  · by_cases ha : l.active = true
    · have : (l.learn cfg x y w).obs = cfg.update l.obs x y w := by simp [Leaf.learn, ha]
      rw [this]
      exact (ho.2 _ x y w).1 h.1 hw
    · have : (l.learn cfg x y w).obs = l.obs := by simp [Leaf.learn, ha]
      rw [this]
      exact h.1
  obtain ⟨h1, h2⟩ := h.2 c
  have hs : (l.learn cfg x y w).stats = bump l.stats y w := rfl
  rw [hs, classWeight_bump]
  have hnn : (0 : ℚ) ≤ if y = c then w else 0 := by split <;> simp [hw]
  refine ⟨by linarith, ?_⟩
  by_cases ha : l.active = true
  · have : (l.learn cfg x y w).obs = cfg.update l.obs x y w := by simp [Leaf.learn, ha]
    rw [this, (ho.2 _ x y w).2]
    linarith
  · have : (l.learn cfg x y w).obs = l.obs := by simp [Leaf.learn, ha]
    rw [this]
    linarith

theorem manage_covers (cfg : Cfg O) (good : O → Prop) (seen : O → Int → ℚ) (ho : cfg.Observes good seen) (m : List (Path × Bool)) (r : T O)
    (h : ∀ l ∈ r.leaves, l.Covers good seen) : ∀ l ∈ (manage cfg r m).leaves, l.Covers good seen := by
  induction m generalizing r with
  | nil => exact h
  | cons q m ih =>
    have : manage cfg r (q :: m) = manage cfg (r.modify (setActive cfg q.2) q.1) m := rfl
    rw [this]
    apply ih
    intro l hl
    cases hg : r.get q.1 with
    | none => rw [T.modify_none _ _ _ hg] at hl; exact h l hl
    | some s =>
      rcases T.leaves_modify _ r q.1 s hg l hl with h' | h'
      · exact h l h'
      · cases s with
        | split t st kids => exact h l (T.leaves_get r q.1 _ hg l h')
        | leaf l0 =>
          have h0 := h l0 (T.leaves_get r q.1 _ hg l0 (by simp [T.leaves]))
          rw [setActive] at h'
          split at h'
          · simp only [T.leaves, List.mem_singleton] at h'; subst h'; exact h0
          · simp only [T.leaves, List.mem_singleton] at h'; subst h'
            exact newLeaf_covers cfg good seen ho q.2 l0.stats fun c => (h0.2 c).1

theorem attempt_covers (cfg : Cfg O) (good : O → Prop) (seen : O → Int → ℚ) (ho : cfg.Observes good seen) (e : Ev O) (he : e.SharesSeen good seen)
    (l : Leaf O) (h : l.Covers good seen) :
    (∀ l' ∈ (attempt cfg e l).leaves, l'.Covers good seen) ∧
    ∀ c, weightIn (attempt cfg e l).leaves c ≤ classWeight l.stats c := by
  unfold attempt
  by_cases hc : e.growth ∧ l.active ∧ total l.stats - l.last ≥ cfg.grace
  · rw [if_pos hc]
    cases hch : e.choose l with
    | keep f =>
      refine ⟨fun l' hl' => ?_, fun c => by simp [T.leaves, weightIn]⟩
      simp only [T.leaves, List.mem_singleton] at hl'
      subst hl'
      obtain ⟨k1, k2⟩ := (he l h.1).2 f hch
      refine ⟨k1, fun c => ⟨(h.2 c).1, ?_⟩⟩
      simp only [k2 c]
      exact (h.2 c).2
    | prune =>
      refine ⟨fun l' hl' => ?_, fun c => by simp [T.leaves, weightIn, newLeaf]⟩
      simp only [T.leaves, List.mem_singleton] at hl'
      subst hl'
      exact newLeaf_covers cfg good seen ho _ _ fun c => (h.2 c).1
    | split t ds =>
      have hsh := (he l h.1).1 t ds hch
      refine ⟨fun l' hl' => ?_, fun c => ?_⟩
      · simp only [T.leaves, newKids_leaves, List.mem_map] at hl'
        obtain ⟨d, hd, rfl⟩ := hl'
        exact newLeaf_covers cfg good seen ho _ _ fun c => (hsh c).2 d hd
      · simp only [T.leaves, newKids_leaves, weightIn, List.map_map]
        have : (ds.map ((fun l : Leaf O => classWeight l.stats c) ∘ newLeaf cfg true)) =
            ds.map fun d => classWeight d c := rfl
        rw [this, (hsh c).1]
        exact (h.2 c).2
  · rw [if_neg hc]
    refine ⟨fun l' hl' => ?_, fun c => by simp [T.leaves, weightIn]⟩
    simp only [T.leaves, List.mem_singleton] at hl'
    subst hl'
    exact h

/-- **C124** (partial). With splits that share out what the observers of the leaf have
seen, the leaves never hold more of a class than the training instances of that class
weigh. -/
theorem C124_never_more_partial (cfg : Cfg O) (good : O → Prop) (seen : O → Int → ℚ) (ho : cfg.Observes good seen) (n : Nat) (es : List (Ev O))
    (he : ∀ e ∈ es, e.Ok n ∧ e.SharesSeen good seen ∧ 0 ≤ e.w) :
    ∃ root, run cfg none es = .ok root ∧ ∀ c, held root c ≤ trained es c := by
  have key : ∀ (es : List (Ev O)) (root : Option (T O)), (∀ e ∈ es, e.Ok n ∧ e.SharesSeen good seen ∧ 0 ≤ e.w) →
      (∀ r, root = some r → r.WF n ∧ ∀ l ∈ r.leaves, l.Covers good seen) →
      ∃ root', run cfg root es = .ok root' ∧ ∀ c, held root' c ≤ held root c + trained es c := by
    intro es
    induction es with
    | nil => intro root _ _; exact ⟨root, rfl, fun c => by simp [trained]⟩
    | cons e es ih =>
      intro root h1 h2
      obtain ⟨heo, hes, hew⟩ := h1 e List.mem_cons_self
      obtain ⟨r', p, s, g1, g2, _, g4, g5⟩ := step_spec cfg n root (fun r hr => (h2 r hr).1) e heo
      have hcov : ∀ l ∈ (root.getD (.leaf (newLeaf cfg true []))).leaves, l.Covers good seen := by
        cases root with
        | none =>
          intro l hl
          simp only [Option.getD_none, T.leaves, List.mem_singleton] at hl
          subst hl
          exact newLeaf_covers cfg good seen ho true [] fun c => by simp [classWeight]
        | some r => exact (h2 r rfl).2
      have h0 : ∀ c, weightIn (root.getD (.leaf (newLeaf cfg true []))).leaves c = held root c := by
        intro c
        cases root with
        | none => simp [T.leaves, weightIn, newLeaf, classWeight, held]
        | some r => rfl
      have hstep : (∀ l ∈ r'.leaves, l.Covers good seen) ∧
          ∀ c, weightIn r'.leaves c ≤ held root c + if e.y = c then e.w else 0 := by
        rcases g5 with ⟨l, rfl, rfl⟩ | ⟨m, m', st, kids, id, rfl, rfl⟩
        · have hlc := learn_covers cfg good seen ho l
            (hcov l (T.leaves_get _ p _ g4 l (by simp [T.leaves]))) e.x e.y e.w hew
          obtain ⟨a1, a2⟩ := attempt_covers cfg good seen ho e hes _ hlc
          refine ⟨fun l' hl' => ?_, fun c => ?_⟩
          · rcases T.leaves_modify _ _ p _ g4 l' hl' with h' | h'
            · exact hcov l' h'
            · exact a1 l' h'
          · have := T.weight_modify c (fun _ => attempt cfg e (l.learn cfg e.x e.y e.w)) _ p _ g4
            have h3 := a2 c
            rw [show (l.learn cfg e.x e.y e.w).stats = bump l.stats e.y e.w from rfl, classWeight_bump] at h3
            have hl : weightIn (T.leaf l).leaves c = classWeight l.stats c := by simp [T.leaves, weightIn]
            rw [hl, h0] at this
            linarith
        · have hnew := learn_covers cfg good seen ho (newLeaf cfg true [])
            (newLeaf_covers cfg good seen ho true [] fun c => by simp [classWeight]) e.x e.y e.w hew
          refine ⟨fun l' hl' => ?_, fun c => ?_⟩
          · rcases T.leaves_modify _ _ p _ g4 l' hl' with h' | h'
            · exact hcov l' h'
            · simp only [T.leaves, F.leaves_snoc, List.mem_append, List.mem_singleton] at h'
              rcases h' with h' | h'
              · exact hcov l' (T.leaves_get _ p _ g4 l' h')
              · subst h'; exact hnew
          · have := T.weight_modify c (fun _ => .split (.multi m') st
              (kids.snoc id (.leaf ((newLeaf cfg true []).learn cfg e.x e.y e.w)))) _ p _ g4
            simp only [T.leaves, F.leaves_snoc, weightIn_append] at this
            have h6 : weightIn [(newLeaf cfg true []).learn cfg e.x e.y e.w] c = if e.y = c then e.w else 0 := by
              simp only [weightIn, List.map_cons, List.map_nil, List.sum_cons, List.sum_nil, Leaf.learn,
                classWeight_bump, newLeaf]
              simp [classWeight]
            rw [h6, h0] at this
            linarith
      obtain ⟨root', k1, k2⟩ := ih (some (manage cfg r' e.memory)) (fun e he => h1 e (List.mem_cons_of_mem _ he))
        (fun r hr => by
          cases hr
          exact ⟨manage_WF cfg n e.memory r' g2, manage_covers cfg good seen ho e.memory r' hstep.1⟩)
      refine ⟨root', by simp only [run, g1, k1], fun c => ?_⟩
      have h3 := k2 c
      rw [show held (some (manage cfg r' e.memory)) c = weightIn (manage cfg r' e.memory).leaves c from rfl,
        manage_weight] at h3
      have h4 := hstep.2 c
      have : trained (e :: es) c = (if e.y = c then e.w else 0) + trained es c := by
        by_cases h : e.y = c <;> simp [trained, h]
      rw [this]; linarith
  obtain ⟨root, h1, h2⟩ := key es none he (by simp)
  exact ⟨root, h1, fun c => by have := h2 c; simpa [held] using this⟩

/-! ### Violation -/

/-- Observers that keep the instances. -/
abbrev Log := List (List ℚ × Int × ℚ)

/-- Majority leaves, grace period 2, observers that keep the instances. -/
def logCfg : Cfg Log := ⟨.mc, 0, 2, [], fun o x y w => o ++ [(x, y, w)], fun s _ _ => s⟩

/-- Class weights in a log. -/
def logged (o : Log) (c : Int) : ℚ := classWeight (o.foldl (fun s r => bump s r.2.1 r.2.2) []) c

/-- Split on attribute 0 at `v` with the class distributions of the logged instances. -/
def logEv (v x : ℚ) (y : Int) : Ev Log :=
  ⟨[x], y, 1, true, fun l => .split (.num ⟨0, v, true⟩)
    [(l.obs.filter fun r => r.1.getD 0 0 ≤ v).foldl (fun s r => bump s r.2.1 r.2.2) [],
     (l.obs.filter fun r => ¬ r.1.getD 0 0 ≤ v).foldl (fun s r => bump s r.2.1 r.2.2) []], []⟩

/-- Four instances: the root splits after two, its left leaf after two more. -/
def logRun : List (Ev Log) := [logEv 5 1 0, logEv 5 2 1, logEv 1 1 0, logEv 1 2 1]

/-- **C124** (violated). What a leaf inherited when it was created is lost when it splits: the
class distributions of the new branches come from observers that have only seen what came
later.  After four instances of weight 1 the leaves hold a weight of 2. -/
theorem C124_inherited_lost_violated :
    ((run logCfg none (logRun.take 3)).toOption.map fun r => (held r 0, held r 1)) = some (2, 1) ∧
    ((run logCfg none logRun).toOption.map fun r => (held r 0, held r 1)) = some (1, 1) ∧
    (trained logRun 0, trained logRun 1) = (2, 2) := by decide +kernel

theorem fold_bump_weight (o : Log) (s : Stats) (c : Int) :
    classWeight (o.foldl (fun s r => bump s r.2.1 r.2.2) s) c =
      classWeight s c + ((o.filter fun r => r.2.1 = c).map fun r => r.2.2).sum := by
  induction o generalizing s with
  | nil => simp
  | cons a o ih =>
    rw [List.foldl_cons, ih, classWeight_bump]
    by_cases h : a.2.1 = c <;> simp [h]
    ring

theorem fold_bump_nonneg (o : Log) (h : ∀ r ∈ o, (0 : ℚ) ≤ r.2.2) (c : Int) :
    0 ≤ classWeight (o.foldl (fun s r => bump s r.2.1 r.2.2) []) c := by
  rw [fold_bump_weight]
  have : (0 : ℚ) ≤ ((o.filter fun r => r.2.1 = c).map fun r => r.2.2).sum := by
    apply List.sum_nonneg
    intro q hq
    obtain ⟨r, hr, rfl⟩ := List.mem_map.1 hq
    exact h r (List.mem_filter.1 hr).1
  simpa [classWeight] using this

/-- The parts of a log add up to the log. -/
theorem log_parts (p : List ℚ × Int × ℚ → Bool) (o : Log) (c : Int) :
    classWeight ((o.filter p).foldl (fun s r => bump s r.2.1 r.2.2) []) c +
      classWeight ((o.filter fun r => ¬ p r).foldl (fun s r => bump s r.2.1 r.2.2) []) c = logged o c := by
  rw [logged, fold_bump_weight, fold_bump_weight, fold_bump_weight]
  simp only [classWeight, List.filter_nil, List.map_nil, List.sum_nil, zero_add]
  induction o with
  | nil => simp
  | cons a o ih =>
    by_cases h1 : p a = true <;> by_cases h2 : a.2.1 = c <;>
      simp [List.filter_cons, h1, h2] at ih ⊢ <;> linarith

/-- `C124_never_more_partial` applies to the run of the violation. -/
example : logCfg.Observes (fun o => ∀ r ∈ o, (0 : ℚ) ≤ r.2.2) logged ∧
    ∀ e ∈ logRun, e.Ok 1 ∧ e.SharesSeen (fun o => ∀ r ∈ o, (0 : ℚ) ≤ r.2.2) logged ∧ 0 ≤ e.w := by
  constructor
  · refine ⟨⟨by simp [logCfg], fun c => by simp [logged, logCfg, classWeight]⟩,
      fun o x y w => ⟨fun h hw r hr => ?_, fun c => ?_⟩⟩
    · simp only [logCfg, List.mem_append, List.mem_singleton] at hr
      rcases hr with hr | rfl
      · exact h r hr
      · exact hw
    · simp only [logged, logCfg, List.foldl_append, List.foldl_cons, List.foldl_nil, classWeight_bump]
  · have : ∀ v x y, (logEv v x y).Ok 1 ∧
        (logEv v x y).SharesSeen (fun o => ∀ r ∈ o, (0 : ℚ) ≤ r.2.2) logged ∧ 0 ≤ (logEv v x y).w := by
      intro v x y
      refine ⟨⟨rfl, fun l => by simp [logEv, Choice.Ok, Test.Ok]⟩, fun l hl => ⟨fun t ds h c => ?_, ?_⟩, by simp [logEv]⟩
      · simp only [logEv, Choice.split.injEq] at h
        obtain ⟨_, rfl⟩ := h
        refine ⟨?_, fun d hd => ?_⟩
        · have := log_parts (fun r => decide (r.1.getD 0 0 ≤ v)) l.obs c
          simpa using this
        · simp only [List.mem_cons, List.not_mem_nil, or_false] at hd
          rcases hd with rfl | rfl
          all_goals exact fold_bump_nonneg _ (fun r hr => hl r (List.mem_filter.1 hr).1) c
      · intro f h; simp [logEv] at h
    intro e he
    simp only [logRun, List.mem_cons, List.not_mem_nil, or_false] at he
    rcases he with rfl | rfl | rfl | rfl <;> exact this _ _ _

end Verif.Trees.HL
