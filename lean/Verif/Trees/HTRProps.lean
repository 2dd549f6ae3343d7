import Verif.Trees.HTR
import Mathlib.Algebra.BigOperators.Ring.List
import Mathlib.Algebra.Order.BigOperators.Group.List
import Mathlib.Data.List.GetD
import Mathlib.Tactic.Linarith
import Mathlib.Tactic.FieldSimp
import Mathlib.Tactic.Ring

/-!
Properties of the Hoeffding tree regressor: sums and totality (C174), perceptron (C173),
predictions per row (C176).
-/

namespace Verif.Trees.HR

open Verif.Trees Verif.Trees.Grow Verif.Trees.EBST
open Verif.Trees.HL (Test)

variable {O : Type}

/-! ### Specification -/

/-- Sound outcomes of a split attempt for `n` attributes. -/
def Choice.Ok (n : Nat) : Choice O → Prop
  | .keep _ => True
  | .prune => True
  | .split t ds => t.Ok n ds.length

/-- A training row of `n` attributes. -/
def Ev.Ok (n : Nat) (e : Ev O) : Prop := e.x.length = n ∧ e.init.length = n + 1 ∧ ∀ l, (e.choose l).Ok n

/-- Total weight of the rows. -/
def total (es : List (Ev O)) : ℚ := (es.map Ev.w).sum

/-- Weighted sum of a quantity over the rows. -/
def wsum (es : List (Ev O)) (q : Ev O → ℚ) : ℚ := (es.map fun e => e.w * q e).sum

/-- Attribute `i` of a row. -/
def Ev.att (i : Nat) (e : Ev O) : ℚ := e.x.getD i 0

/-! ### Proofs -/

theorem addInto_same {a b : List ℚ} (h : a.length = b.length) : addInto a b = some (List.zipWith (· + ·) a b) := by
  simp [addInto, h]

theorem sums_x (n : Nat) (hn : 2 ≤ n) (s v : List ℚ) (hv : v.length = n) (hs : s = [] ∨ s.length = n) :
    ((addInto s v).getD v).length = n ∧ ∀ i, ((addInto s v).getD v).getD i 0 = s.getD i 0 + v.getD i 0 := by
  rcases hs with rfl | hs
  · have : addInto [] v = none := by
      unfold addInto
      rw [if_neg (by simp; omega)]
      match v, hv with
      | [], h => simp at h; omega
      | [_], h => simp at h; omega
      | _ :: _ :: _, _ => rfl
    rw [this]
    simp [hv]
  · rw [addInto_same (by omega)]
    simp only [Option.getD_some]
    refine ⟨by simp [hs, hv], fun i => ?_⟩
    simp only [List.getD_eq_getElem?_getD, List.getElem?_zipWith]
    by_cases hi : i < n
    · rw [List.getElem?_eq_getElem (by omega), List.getElem?_eq_getElem (by omega)]
      simp
    · rw [List.getElem?_eq_none (by omega), List.getElem?_eq_none (by omega)]
      simp

theorem normFrom_ok (cfg : Cfg O) (s : Sums) (n : Nat) (h1 : s.x.length = n) (h2 : s.xx.length = n) (x : List ℚ) (i : Nat)
    (hx : i + x.length = n) : ∃ xs, normFrom cfg s i x = .ok xs ∧ xs.length = x.length := by
  induction x generalizing i with
  | nil => exact ⟨[], rfl, rfl⟩
  | cons v vs ih =>
    simp only [List.length_cons] at hx
    obtain ⟨xs, g1, g2⟩ := ih (i + 1) (by omega)
    rw [normFrom, g1]
    have e1 : s.x[i]? = some (s.x[i]'(by omega)) := List.getElem?_eq_getElem (by omega)
    have e2 : s.xx[i]? = some (s.xx[i]'(by omega)) := List.getElem?_eq_getElem (by omega)
    simp only [e1, e2]
    by_cases c1 : cfg.nominal i = false ∧ s.n > 1
    · rw [if_pos c1]; exact ⟨_, rfl, by simp [g2]⟩
    · rw [if_neg c1]
      by_cases c2 : cfg.nominal i = true
      · rw [if_pos c2]; exact ⟨_, rfl, by simp [g2]⟩
      · rw [if_neg c2]; exact ⟨_, rfl, by simp [g2]⟩

theorem normalize_ok (cfg : Cfg O) (s : Sums) (n : Nat) (h1 : s.x.length = n) (h2 : s.xx.length = n) (x : List ℚ)
    (hx : x.length = n) : ∃ xs, normalize cfg s x = .ok xs ∧ xs.length = n + 1 := by
  obtain ⟨xs, g1, g2⟩ := normFrom_ok cfg s n h1 h2 x 0 (by omega)
  exact ⟨xs ++ [if s.n > 1 then 1 else 0], by simp [normalize, g1, Except.map], by simp [g2, hx]⟩

/-- Weights of the right length. -/
def Weights.Len (m : Nat) (w : Weights) : Prop := ∀ v, w = .ok v → v.length = m

theorem updateW_ok (cfg : Cfg O) (s : Sums) (n : Nat) (h1 : s.x.length = n) (h2 : s.xx.length = n) (x : List ℚ)
    (hx : x.length = n) (y lr : ℚ) (w : Weights) (hw : w.Len (n + 1)) :
    ∃ w', updateW cfg s x y lr w = .ok w' ∧ w'.Len (n + 1) ∧ (w ≠ .unset → w' ≠ .unset) := by
  obtain ⟨xs, g1, g2⟩ := normalize_ok cfg s n h1 h2 x hx
  unfold updateW
  simp only [g1]
  cases w with
  | unset => exact ⟨_, rfl, hw, fun h => absurd rfl h⟩
  | nan => exact ⟨_, rfl, hw, fun h => h⟩
  | ok w =>
    have hl : w.length = n + 1 := hw w rfl
    simp only []
    rw [if_pos (by omega)]
    refine ⟨_, rfl, ?_, fun _ => ?_⟩
    · intro v hv
      by_cases h0 : norm1 (List.zipWith (· + ·) w (xs.map fun v => lr * (normalizeY cfg s y - dot w xs) * v)) = 0
      · simp [if_pos h0] at hv
      · simp only [if_neg h0, Weights.ok.injEq] at hv
        rw [← hv]
        simp [hl, g2]
    · by_cases h0 : norm1 (List.zipWith (· + ·) w (xs.map fun v => lr * (normalizeY cfg s y - dot w xs) * v)) = 0
      · simp [h0]
      · simp [h0]

theorem updateMany_ok (cfg : Cfg O) (s : Sums) (n : Nat) (h1 : s.x.length = n) (h2 : s.xx.length = n) (x : List ℚ)
    (hx : x.length = n) (y lr : ℚ) (k : Nat) (w : Weights) (hw : w.Len (n + 1)) :
    ∃ w', updateMany cfg s x y lr k w = .ok w' ∧ w'.Len (n + 1) ∧ (w ≠ .unset → w' ≠ .unset) := by
  induction k generalizing w with
  | zero => exact ⟨w, rfl, hw, id⟩
  | succ k ih =>
    obtain ⟨w1, g1, g2, g3⟩ := updateW_ok cfg s n h1 h2 x hx y lr w hw
    obtain ⟨w2, k1, k2, k3⟩ := ih w1 g2
    exact ⟨w2, by simp only [updateMany, g1, k1], k2, fun h => k3 (g3 h)⟩

/-- Everything about a leaf that training needs. -/
def Leaf.Good (cfg : Cfg O) (n : Nat) (l : Leaf O) : Prop :=
  l.w.Len (n + 1) ∧ (cfg.perceptron = true → l.w ≠ .unset) ∧ l.stats ≠ none

theorem learn_ok (cfg : Cfg O) (s : Sums) (n : Nat) (h1 : s.x.length = n) (h2 : s.xx.length = n) (e : Ev O) (he : e.Ok n)
    (l : Leaf O) (hl : l.w.Len (n + 1)) : ∃ l', l.learn cfg s e = .ok l' ∧ l'.Good cfg n := by
  unfold Leaf.learn
  by_cases hp : cfg.perceptron = true
  · have hw0 : (if l.w = .unset then .ok e.init else l.w : Weights).Len (n + 1) := by
      by_cases hu : l.w = .unset
      · rw [if_pos hu]; intro v hv; simp only [Weights.ok.injEq] at hv; rw [← hv]; exact he.2.1
      · rw [if_neg hu]; exact hl
    have hn0 : (if l.w = .unset then .ok e.init else l.w : Weights) ≠ .unset := by
      by_cases hu : l.w = .unset
      · rw [if_pos hu]; simp
      · rw [if_neg hu]; exact hu
    obtain ⟨w', g1, g2, g3⟩ := updateMany_ok cfg s n h1 h2 e.x he.1 e.y
      (if cfg.lrConst then cfg.lr else cfg.lr / (1 + (addStat l.stats e.y e.w).n * cfg.decay)) ⌊e.w⌋.toNat _ hw0
    simp only [if_pos hp, g1]
    exact ⟨_, rfl, g2, fun _ => g3 hn0, by simp⟩
  · simp only [if_neg hp]
    exact ⟨_, rfl, hl, fun h => absurd h hp, by simp⟩

theorem attempt_ok (cfg : Cfg O) (n : Nat) (e : Ev O) (he : e.Ok n) (l : Leaf O) (hl : l.Good cfg n) :
    (attempt cfg e l).WF n ∧ (attempt cfg e l).All (Leaf.Good cfg n) (· ≠ none) := by
  unfold attempt
  by_cases hc : e.growth = true ∧ l.active = true ∧ weight l.stats - l.last ≥ cfg.grace
  · rw [if_pos hc]
    have := he.2.2 l
    cases h : e.choose l with
    | keep f => exact ⟨trivial, hl⟩
    | prune => exact ⟨trivial, hl⟩
    | split t ds =>
      rw [h] at this
      obtain ⟨k1, _, k3⟩ := kidsFrom_facts (S := Option Stat) n (fun d => newLeaf cfg true (some d) l.w) ds 0
      rw [Nat.zero_add] at k1
      exact ⟨⟨ds.length, this, k1⟩, hl.2.2, k3 _ _ fun d _ => ⟨hl.1, hl.2.1, by simp [newLeaf]⟩⟩
  · rw [if_neg hc]; exact ⟨trivial, hl⟩

/-- The state between rows. -/
def Reg.Inv (cfg : Cfg O) (n : Nat) (h : Reg O) : Prop :=
  (∀ r, h.root = some r → r.WF n ∧ r.All (Leaf.Good cfg n) (· ≠ none) ∧ h.sums.x.length = n ∧ h.sums.xx.length = n) ∧
  (h.root = none → h = {})

theorem step_ok (cfg : Cfg O) (n : Nat) (hn : 2 ≤ n) (h : Reg O) (hi : h.Inv cfg n) (e : Ev O) (he : e.Ok n) :
    ∃ h' r, step cfg h e = .ok h' ∧ h'.root = some r ∧ h'.sums = h.sums.add e.x e.y e.w ∧ h'.Inv cfg n := by
  have hx : (h.sums.add e.x e.y e.w).x.length = n ∧ (h.sums.add e.x e.y e.w).xx.length = n := by
    have hs : (h.sums.x = [] ∨ h.sums.x.length = n) ∧ (h.sums.xx = [] ∨ h.sums.xx.length = n) := by
      cases hr : h.root with
      | none => rw [hi.2 hr]; exact ⟨.inl rfl, .inl rfl⟩
      | some r => obtain ⟨_, _, a, b⟩ := hi.1 r hr; exact ⟨.inr a, .inr b⟩
    exact ⟨(sums_x n hn _ _ (by simp [he.1]) hs.1).1, (sums_x n hn _ _ (by simp [he.1]) hs.2).1⟩
  have hwf : (h.root.getD (.leaf (newLeaf cfg true none .unset))).WF n := by
    cases hr : h.root with
    | none => trivial
    | some r => exact (hi.1 r hr).1
  have hlen : ∀ l : Leaf O, (newLeaf cfg true none .unset : Leaf O) = l → l.w.Len (n + 1) := by
    rintro l rfl v hv; simp [newLeaf] at hv
  have hall : ∀ l, (h.root.getD (.leaf (newLeaf cfg true none .unset))).route e.x = .ok (.leaf l) → l.w.Len (n + 1) := by
    intro l hl
    cases hr : h.root with
    | none =>
      rw [hr] at hl
      simp only [Option.getD_none, G.route, Except.ok.injEq, End.leaf.injEq] at hl
      exact hlen l hl
    | some r =>
      rw [hr] at hl
      exact ((G.route_all _ _ e.x r (hi.1 r hr).2.1).1 l hl).1
  have fin : ∀ r' : G (Leaf O) (Option Stat),
      (h.root.getD (.leaf (newLeaf cfg true none .unset))).learn e.x
        (fun l => (l.learn cfg (h.sums.add e.x e.y e.w) e).map (attempt cfg e))
        (fun l => l.learn cfg (h.sums.add e.x e.y e.w) e) (newLeaf cfg true none .unset) = .ok r' →
      r'.WF n → r'.All (Leaf.Good cfg n) (· ≠ none) →
      ∃ h' r, step cfg h e = .ok h' ∧ h'.root = some r ∧ h'.sums = h.sums.add e.x e.y e.w ∧ h'.Inv cfg n := by
    intro r' hr' hwf' hall'
    refine ⟨⟨h.sums.add e.x e.y e.w, some (r'.mapLeaves (fun p => setActive cfg (e.memory p)) [])⟩, _,
      by simp only [step, hr'], rfl, rfl, ?_, by simp⟩
    intro r hr
    simp only [Option.some.injEq] at hr
    subst hr
    obtain ⟨m1, _, _, m4⟩ := G.mapLeaves_facts n (fun p => setActive cfg (e.memory p)) r' []
    refine ⟨m1 hwf', m4 _ _ (fun q l hl => ?_) hall', hx⟩
    unfold setActive
    cases e.memory q with
    | none => exact hl
    | some a =>
      by_cases ha : l.active = a
      · simp only [if_pos ha]; exact hl
      · simp only [if_neg ha]; exact hl
  rcases G.learn_spec n e.x he.1 _ hwf with ⟨l, r1, pre, post, p1, p2⟩ | ⟨s, r1, pre, post, p1, p2⟩
  · obtain ⟨l', g1, g2⟩ := learn_ok cfg _ n hx.1 hx.2 e he l (hall l r1)
    obtain ⟨a1, a2⟩ := attempt_ok cfg n e he l' g2
    obtain ⟨r', w1, _, w3, w4⟩ := (p2 (fun l => (l.learn cfg (h.sums.add e.x e.y e.w) e).map (attempt cfg e))
      (fun l => l.learn cfg (h.sums.add e.x e.y e.w) e) (newLeaf cfg true none .unset)).2 (attempt cfg e l')
      (by simp only [g1, Except.map])
    refine fin r' w1 (w3 a1) ?_
    cases hr : h.root with
    | none =>
      rw [hr] at w1 r1
      simp only [Option.getD_none, G.route, Except.ok.injEq, End.leaf.injEq] at r1
      simp only [Option.getD_none, G.learn, r1, g1, Except.map, Except.ok.injEq] at w1
      rw [← w1]; exact a2
    | some r => exact w4 _ _ a2 (by rw [hr]; exact (hi.1 r hr).2.1)
  · obtain ⟨l', g1, g2⟩ := learn_ok cfg _ n hx.1 hx.2 e he (newLeaf cfg true none .unset) (hlen _ rfl)
    obtain ⟨r', w1, _, w3, w4⟩ := (p2 (fun l => (l.learn cfg (h.sums.add e.x e.y e.w) e).map (attempt cfg e))
      (fun l => l.learn cfg (h.sums.add e.x e.y e.w) e) (newLeaf cfg true none .unset)).2 l' g1
    refine fin r' w1 w3 ?_
    cases hr : h.root with
    | none => rw [hr] at r1; simp [G.route] at r1
    | some r => exact w4 _ _ g2 (by rw [hr]; exact (hi.1 r hr).2.1)

/-- The sums are those over the given rows. -/
def Sums.Of (s : Sums) (es : List (Ev O)) : Prop :=
  s.n = total es ∧ s.y = wsum es Ev.y ∧ s.yy = wsum es (fun e => e.y ^ 2) ∧
  ∀ i, s.x.getD i 0 = wsum es (Ev.att i) ∧ s.xx.getD i 0 = wsum es (fun e => Ev.att i e ^ 2)

theorem run_ok (cfg : Cfg O) (n : Nat) (hn : 2 ≤ n) (es : List (Ev O)) (he : ∀ e ∈ es, e.Ok n) :
    ∀ (h : Reg O) (es0 : List (Ev O)), h.Inv cfg n → h.sums.Of es0 →
      ∃ h', run cfg h es = .ok h' ∧ h'.Inv cfg n ∧ h'.sums.Of (es0 ++ es) ∧ (h'.root = none → es = []) := by
  induction es with
  | nil => intro h es0 hi hs; exact ⟨h, rfl, hi, by simpa using hs, fun _ => rfl⟩
  | cons e es ih =>
    intro h es0 hi hs
    obtain ⟨h1, r, g1, g2, g3, g4⟩ := step_ok cfg n hn h hi e (he e List.mem_cons_self)
    have hee := he e List.mem_cons_self
    have hs1 : h1.sums.Of (es0 ++ [e]) := by
      obtain ⟨a1, a2, a3, a4⟩ := hs
      rw [g3]
      have hsx : (h.sums.x = [] ∨ h.sums.x.length = n) ∧ (h.sums.xx = [] ∨ h.sums.xx.length = n) := by
        cases hr : h.root with
        | none => rw [hi.2 hr]; exact ⟨.inl rfl, .inl rfl⟩
        | some r => obtain ⟨_, _, a, b⟩ := hi.1 r hr; exact ⟨.inr a, .inr b⟩
      refine ⟨?_, ?_, ?_, fun i => ⟨?_, ?_⟩⟩
      · simp [Sums.add, total, a1]
      · simp [Sums.add, wsum, a2]
      · simp only [Sums.add, wsum, a3, List.map_append, List.map_cons, List.map_nil, List.sum_append, List.sum_cons, List.sum_nil]
        ring
      · have := (sums_x n hn _ (e.x.map (e.w * ·)) (by simp [hee.1]) hsx.1).2 i
        simp only [Sums.add]
        rw [this, (a4 i).1]
        simp only [wsum, List.map_append, List.map_cons, List.map_nil, List.sum_append, List.sum_cons, List.sum_nil, add_zero]
        congr 1
        have := List.getD_map (n := i) (l := e.x) (d := (0 : ℚ)) (f := (e.w * ·))
        simpa [Ev.att] using this
      · have := (sums_x n hn _ (e.x.map fun v => e.w * v * v) (by simp [hee.1]) hsx.2).2 i
        simp only [Sums.add]
        rw [this, (a4 i).2]
        simp only [wsum, List.map_append, List.map_cons, List.map_nil, List.sum_append, List.sum_cons, List.sum_nil, add_zero]
        congr 1
        have := List.getD_map (n := i) (l := e.x) (d := (0 : ℚ)) (f := fun v => e.w * v * v)
        simp only [mul_zero] at this
        rw [this, Ev.att]
        ring
    obtain ⟨h2, k1, k2, k3, k4⟩ := ih (fun e' h' => he e' (List.mem_cons_of_mem _ h')) h1 (es0 ++ [e]) g4 hs1
    refine ⟨h2, by simp only [run, g1, k1], k2, by simpa using k3, fun hnone => ?_⟩
    have := k4 hnone
    subst this
    simp only [run, Except.ok.injEq] at k1
    subst k1
    rw [g2] at hnone
    simp at hnone

theorem inv_empty (cfg : Cfg O) (n : Nat) : ({} : Reg O).Inv cfg n := ⟨by simp, fun _ => rfl⟩

theorem of_empty : ({} : Sums).Of ([] : List (Ev O)) := by
  refine ⟨by simp [total], by simp [wsum], by simp [wsum], fun i => by simp [wsum]⟩

theorem predictOne_ok (cfg : Cfg O) (n : Nat) (h : Reg O) (hi : h.Inv cfg n) (r : G (Leaf O) (Option Stat)) (hr : h.root = some r)
    (x : List ℚ) (hx : x.length = n) : ∃ p, predictOne cfg h.sums r x = .ok p := by
  obtain ⟨i1, i2, i3, i4⟩ := hi.1 r hr
  obtain ⟨ra, rb⟩ := G.route_all _ _ x r i2
  unfold predictOne
  rcases G.learn_spec n x hx r i1 with ⟨l, r1, _⟩ | ⟨s, r1, _⟩
  · simp only [r1]
    by_cases hp : cfg.perceptron = true
    · rw [if_pos hp]
      unfold percPredict
      obtain ⟨xs, n1, n2⟩ := normalize_ok cfg h.sums n i3 i4 x hx
      obtain ⟨l1, l2, _⟩ := ra l r1
      cases hw : l.w with
      | unset => exact ⟨_, rfl⟩
      | nan => simp only [n1]; exact ⟨_, rfl⟩
      | ok w =>
        simp only [n1]
        rw [if_pos (by rw [n2]; exact l1 w hw)]
        exact ⟨_, rfl⟩
    · rw [if_neg hp]; exact ⟨_, rfl⟩
  · simp only [r1]
    cases s with
    | none => exact absurd rfl (rb none r1)
    | some st => exact ⟨_, rfl⟩

theorem predictAll_ok (cfg : Cfg O) (n : Nat) (h : Reg O) (hi : h.Inv cfg n) (r : G (Leaf O) (Option Stat)) (hr : h.root = some r)
    (rows : List (List ℚ)) (hx : ∀ x ∈ rows, x.length = n) :
    ∃ ps, predictAll cfg h.sums r rows = .ok ps ∧ ps.length = rows.length := by
  induction rows with
  | nil => exact ⟨[], rfl, rfl⟩
  | cons x xs ih =>
    obtain ⟨p, hp⟩ := predictOne_ok cfg n h hi r hr x (hx x List.mem_cons_self)
    obtain ⟨ps, h1, h2⟩ := ih fun x' h' => hx x' (List.mem_cons_of_mem _ h')
    exact ⟨p :: ps, by simp only [predictAll, hp, h1], by simp [h2]⟩

/-! ### C174: sums and errors -/

/-- C174 (partial): with two attributes or more, training never fails, the sums kept for
normalisation are those over all rows trained on, and no prediction fails.  Missing (and false,
see the violation): a single attribute. -/
theorem C174_sums_partial (cfg : Cfg O) (n : Nat) (hn : 2 ≤ n) (es : List (Ev O)) (he : ∀ e ∈ es, e.Ok n) :
    ∃ h, run cfg {} es = .ok h ∧
      h.sums.n = total es ∧ h.sums.y = wsum es Ev.y ∧ h.sums.yy = wsum es (fun e => e.y ^ 2) ∧
      (∀ i, h.sums.x.getD i 0 = wsum es (Ev.att i) ∧ h.sums.xx.getD i 0 = wsum es (fun e => Ev.att i e ^ 2)) ∧
      ∀ rows : List (List ℚ), (∀ x ∈ rows, x.length = n) → ∃ ps, predict cfg h rows = .ok ps := by
  obtain ⟨h, h1, h2, h3, h4⟩ := run_ok cfg n hn es he {} [] (inv_empty cfg n) of_empty
  rw [List.nil_append] at h3
  refine ⟨h, h1, h3.1, h3.2.1, h3.2.2.1, h3.2.2.2, fun rows hrows => ?_⟩
  unfold predict
  cases hr : h.root with
  | none => exact ⟨_, rfl⟩
  | some r =>
    simp only []
    by_cases hp : h.sums.n > 0
    · rw [if_pos hp]
      obtain ⟨ps, p1, _⟩ := predictAll_ok cfg n h h2 r hr rows hrows
      exact ⟨ps, p1⟩
    · rw [if_neg hp]; exact ⟨_, rfl⟩

theorem one_raises (cfg : Cfg O) (hp : cfg.perceptron = true) (hnom : cfg.nominal 0 = false) (h : Reg O)
    (hwf : ∀ r, h.root = some r → r.WF 1) (hsx : h.sums.x = []) (e : Ev O) (he : e.Ok 1) (hw : 1 ≤ e.w)
    (hbig : h.sums.n + e.w > 1) : step cfg h e = .error .indexError := by
  have hwf' : (h.root.getD (.leaf (newLeaf cfg true none .unset))).WF 1 := by
    cases hr : h.root with
    | none => trivial
    | some r => exact hwf r hr
  obtain ⟨v, hv⟩ : ∃ v, e.x = [v] := List.length_eq_one_iff.mp he.1
  have hsx' : (h.sums.add e.x e.y e.w).x = [] := by
    simp [Sums.add, hsx, hv, addInto]
  have hn' : (h.sums.add e.x e.y e.w).n > 1 := hbig
  have hnorm : normalize cfg (h.sums.add e.x e.y e.w) e.x = .error .indexError := by
    have : normFrom cfg (h.sums.add e.x e.y e.w) 0 [v] = .error .indexError := by
      rw [normFrom, normFrom]
      simp only [hnom, hn', and_self, if_true]
      rw [hsx']
      rfl
    rw [normalize, hv, ← hv, hv, show normFrom cfg (h.sums.add [v] e.y e.w) 0 [v] = .error .indexError by rw [← hv] at this ⊢; exact this]
    rfl
  have hl : ∀ l : Leaf O, l.learn cfg (h.sums.add e.x e.y e.w) e = .error .indexError := by
    intro l
    unfold Leaf.learn
    have hf : ∃ k, ⌊e.w⌋.toNat = k + 1 := by
      have : (1 : ℤ) ≤ ⌊e.w⌋ := Int.le_floor.mpr (by exact_mod_cast hw)
      exact ⟨⌊e.w⌋.toNat - 1, by omega⟩
    obtain ⟨k, hk⟩ := hf
    simp only [if_pos hp, hk, updateMany, updateW, hnorm]
  unfold step
  rcases G.learn_spec 1 e.x he.1 _ hwf' with ⟨l, r1, pre, post, p1, p2⟩ | ⟨s, r1, pre, post, p1, p2⟩
  · have := (p2 (fun l => (l.learn cfg (h.sums.add e.x e.y e.w) e).map (attempt cfg e))
      (fun l => l.learn cfg (h.sums.add e.x e.y e.w) e) (newLeaf cfg true none .unset)).1 .indexError
      (by simp only [hl, Except.map])
    simp only [this]
  · have := (p2 (fun l => (l.learn cfg (h.sums.add e.x e.y e.w) e).map (attempt cfg e))
      (fun l => l.learn cfg (h.sums.add e.x e.y e.w) e) (newLeaf cfg true none .unset)).1 .indexError (hl _)
    simp only [this]

/-- C174 (violated): with a single numeric attribute the sums of the attribute stay empty (numpy
broadcasts the row to the empty shape), and a tree with perceptron leaves (the default) raises
`IndexError` at the second training row at the latest. -/
theorem C174_single_attribute_violated (cfg : Cfg O) (hp : cfg.perceptron = true) (hnom : cfg.nominal 0 = false)
    (e1 e2 : Ev O) (es : List (Ev O)) (h1 : e1.Ok 1) (h2 : e2.Ok 1) (w1 : 1 ≤ e1.w) (w2 : 1 ≤ e2.w) :
    run cfg {} (e1 :: e2 :: es) = .error .indexError := by
  by_cases hb : e1.w > 1
  · have := one_raises cfg hp hnom {} (by simp) rfl e1 h1 w1 (by simpa using hb)
    simp only [run, this]
  · cases hs : step cfg {} e1 with
    | ok h =>
      have hsum : h.sums = ({} : Sums).add e1.x e1.y e1.w ∧ ∀ r, h.root = some r → r.WF 1 := by
        unfold step at hs
        simp only [Option.getD_none, G.learn] at hs
        cases hl : Leaf.learn cfg (({} : Sums).add e1.x e1.y e1.w) e1 (newLeaf cfg true none .unset) with
        | error err => rw [hl] at hs; simp [Except.map] at hs
        | ok l =>
          rw [hl] at hs
          simp only [Except.map, Except.ok.injEq] at hs
          subst hs
          refine ⟨rfl, fun r hr => ?_⟩
          simp only [Option.some.injEq] at hr
          rw [← hr]
          refine (G.mapLeaves_facts 1 _ (attempt cfg e1 l) []).1 ?_
          unfold attempt
          by_cases hc : e1.growth = true ∧ l.active = true ∧ weight l.stats - l.last ≥ cfg.grace
          · rw [if_pos hc]
            have := h1.2.2 l
            cases h : e1.choose l with
            | keep f => trivial
            | prune => trivial
            | split t ds =>
              rw [h] at this
              obtain ⟨k1, _, k3⟩ := kidsFrom_facts (S := Option Stat) 1 (fun d => newLeaf cfg true (some d) l.w) ds 0
              rw [Nat.zero_add] at k1
              exact ⟨ds.length, this, k1⟩
          · rw [if_neg hc]; trivial
      obtain ⟨v, hv⟩ : ∃ v, e1.x = [v] := List.length_eq_one_iff.mp h1.1
      have := one_raises cfg hp hnom h hsum.2 (by rw [hsum.1]; simp [Sums.add, hv, addInto]) e2 h2 w2
        (by rw [hsum.1]; simp only [Sums.add, zero_add]; linarith)
      simp only [run, hs, this]
    | error err =>
      exfalso
      unfold step at hs
      simp only [Option.getD_none, G.learn] at hs
      have hn1 : ({} : Sums).n + e1.w = 1 := by
        have : e1.w = 1 := le_antisymm (not_lt.mp hb) w1
        simp [this]
      obtain ⟨v, hv⟩ : ∃ v, e1.x = [v] := List.length_eq_one_iff.mp h1.1
      have hnorm : normalize cfg (({} : Sums).add e1.x e1.y e1.w) e1.x = .ok [0, 0] := by
        have hle : ¬ (({} : Sums).add e1.x e1.y e1.w).n > 1 := by simp only [Sums.add]; linarith
        have : normFrom cfg (({} : Sums).add e1.x e1.y e1.w) 0 [v] = .ok [0] := by
          rw [normFrom, normFrom]
          simp only [hnom, hle, and_false, if_false]
          rfl
        have hx2 : normFrom cfg (({} : Sums).add e1.x e1.y e1.w) 0 e1.x = .ok [0] := by rw [hv] at this ⊢; exact this
        simp only [normalize, hx2, Except.map, if_neg hle, List.singleton_append]
      have hk : ⌊e1.w⌋.toNat = 1 := by
        have : e1.w = 1 := le_antisymm (not_lt.mp hb) w1
        simp [this]
      cases hl : Leaf.learn cfg (({} : Sums).add e1.x e1.y e1.w) e1 (newLeaf cfg true none .unset) with
      | ok l => rw [hl] at hs; simp [Except.map] at hs
      | error err' =>
        unfold Leaf.learn at hl
        simp only [if_pos hp, newLeaf, hk, updateMany, updateW, hnorm, if_true] at hl
        rw [if_pos (by simp [h1.2.1])] at hl
        simp at hl

/-! ### C176: one prediction per row -/

/-- C176 (partial): a regressor that was trained with positive total weight predicts one value
for every row.  Missing (and false, see the violation): regressors that were not trained. -/
theorem C176_rows_partial (cfg : Cfg O) (n : Nat) (hn : 2 ≤ n) (es : List (Ev O)) (he : ∀ e ∈ es, e.Ok n)
    (hw : 0 < total es) :
    ∃ h, run cfg {} es = .ok h ∧ ∀ rows : List (List ℚ), (∀ x ∈ rows, x.length = n) →
      ∃ ps, predict cfg h rows = .ok ps ∧ ps.length = rows.length := by
  obtain ⟨h, h1, h2, h3, h4⟩ := run_ok cfg n hn es he {} [] (inv_empty cfg n) of_empty
  rw [List.nil_append] at h3
  refine ⟨h, h1, fun rows hrows => ?_⟩
  unfold predict
  cases hr : h.root with
  | none =>
    have := h4 hr
    subst this
    simp [total] at hw
  | some r =>
    simp only []
    rw [if_pos (by rw [h3.1]; exact hw)]
    exact predictAll_ok cfg n h h2 r hr rows hrows

/-- C176 (violated): a regressor that was not trained predicts a single value, however many rows
it is given. -/
theorem C176_untrained_violated (cfg : Cfg O) (rows : List (List ℚ)) : predict cfg {} rows = .ok [some 0] := rfl

end Verif.Trees.HR
