import Verif.Common
import Mathlib.Algebra.Order.Field.Basic
import Mathlib.Data.List.Induction
import Mathlib.Data.List.Basic
import Mathlib.Tactic.Abel

/-!
Model of `trees/_attribute_observer/numeric_attribute_regression_observer.py`
(the extended binary search tree, E-BST) for a single target; C35, C62.

Simplifications: exact rational arithmetic; the split criterion is an arbitrary
function of the left and right statistics; the auxiliary sums, which the code adds
before and subtracts after visiting a right child, are passed down as a parameter.
-/

namespace Verif.Trees.EBST

/-- Statistics dictionary `{0: weight, 1: sum, 2: sum of squares}`. -/
structure Stat where
  n : ℚ
  s : ℚ
  q : ℚ
  deriving DecidableEq

instance : Zero Stat := ⟨⟨0, 0, 0⟩⟩
instance : Add Stat := ⟨fun a b => ⟨a.n + b.n, a.s + b.s, a.q + b.q⟩⟩
instance : Sub Stat := ⟨fun a b => ⟨a.n - b.n, a.s - b.s, a.q - b.q⟩⟩

@[ext] theorem Stat.ext' {a b : Stat} (h1 : a.n = b.n) (h2 : a.s = b.s) (h3 : a.q = b.q) : a = b := by
  cases a; cases b; simp_all

/-- Statistics of one observation, lines 29-31. -/
def obsStat (target weight : ℚ) : Stat := ⟨weight, weight * target, weight * target * target⟩

/-- The search tree of `Node`s, lines 25-34. -/
inductive Bst where
  | nil
  | node (v : ℚ) (st : Stat) (l r : Bst)
  deriving DecidableEq

/-- `insert_value`, lines 38-68 (the loop as recursion). -/
def Bst.insert : Bst → ℚ → Stat → Bst
  | .nil, a, x => .node a x .nil .nil
  | .node v st l r, a, x =>
    if a = v then .node v (st + x) l r
    else if a < v then .node v (st + x) (l.insert a x) r
    else .node v st l (r.insert a x)

/-- `update`, lines 74-81. -/
def Bst.update (t : Bst) (att : Option ℚ) (target weight : ℚ) : Bst :=
  match att with
  | none => t
  | some a => t.insert a (obsStat target weight)

/-- `AttributeSplitSuggestion` of a numeric test. -/
structure Sugg where
  thr : ℚ
  left : Stat
  right : Stat
  merit : ℚ
  deriving DecidableEq

/-- `merit > candidate.merit`, where the initial candidate (`none`) has merit -inf. -/
def beats (m : ℚ) : Option Sugg → Bool
  | none => true
  | some c => c.merit < m

/-- `_find_best_split`, lines 116-158. -/
def Bst.find (merit : Stat → Stat → ℚ) (pre : Stat) : Bst → Stat → Option Sugg → Option Sugg
  | .nil, _, c => c
  | .node v st l r, aux, c =>
    let c1 := l.find merit pre aux c
    let L := st + aux
    let R := pre - L
    let m := merit L R
    let c2 := if beats m c1 then some ⟨v, L, R, m⟩ else c1
    match r with
    | .nil => c2
    | .node v' st' l' r' =>
      let c3 := (Bst.node v' st' l' r').find merit pre (aux + st) c2
      match c3 with
      | none => c2
      | some s => if beats s.merit c2 then some s else c2

/-- `get_best_evaluated_split_suggestion`, lines 86-114: visiting a missing root
raises `AttributeError`. -/
def Bst.best (merit : Stat → Stat → ℚ) (pre : Stat) (t : Bst) : Except PyErr (Option Sugg) :=
  match t with
  | .nil => .error .attributeError
  | .node v st l r => .ok ((Bst.node v st l r).find merit pre 0 none)

/-- `_remove_bad_split_nodes`, lines 230-284: new subtree and the returned flag; a
missing child counts as bad. `bad` is the test of line 268 on the merit. -/
def Bst.prune (merit : Stat → Stat → ℚ) (bad : ℚ → Bool) (pre : Stat) : Bst → Stat → Bst × Bool
  | .nil, _ => (.nil, true)
  | .node v st l r, aux =>
    match l.prune merit bad pre aux with
    | (l', false) => (.node v st l' r, false)
    | (l', true) =>
      match r.prune merit bad pre (aux + st) with
      | (r', false) => (.node v st l' r', false)
      | (r', true) =>
        if bad (merit (st + aux) (pre - (st + aux))) then (.nil, true)
        else (.node v st l' r', false)

/-- `remove_bad_splits`, lines 160-228: a missing root raises. -/
def Bst.removeBad (merit : Stat → Stat → ℚ) (bad : ℚ → Bool) (pre : Stat) (t : Bst) : Except PyErr Bst :=
  match t with
  | .nil => .error .attributeError
  | .node v st l r => .ok ((Bst.node v st l r).prune merit bad pre 0).1

/-! ### Specification -/

/-- One observation: attribute value (possibly missing), target, weight. -/
structure Obs where
  att : Option ℚ
  target : ℚ
  weight : ℚ

/-- The tree built from a history of observations. -/
def build (h : List Obs) : Bst := h.foldl (fun t o => t.update o.att o.target o.weight) .nil

/-- The threshold `u` is an observed attribute value. -/
def Observed (h : List Obs) (u : ℚ) : Prop := ∃ o ∈ h, o.att = some u

/-- Weight, target sum and sum of squared targets of all observations whose
attribute value is present and at most `u`. -/
def leStat (h : List Obs) (u : ℚ) : Stat :=
  let l := h.filter fun o => match o.att with
    | none => false
    | some a => a ≤ u
  ⟨(l.map fun o => o.weight).sum, (l.map fun o => o.weight * o.target).sum,
   (l.map fun o => o.weight * o.target ^ 2).sum⟩

/-! ### Proofs -/

theorem add_n (a b : Stat) : (a + b).n = a.n + b.n := rfl
theorem add_s (a b : Stat) : (a + b).s = a.s + b.s := rfl
theorem add_q (a b : Stat) : (a + b).q = a.q + b.q := rfl
theorem zero_n : (0 : Stat).n = 0 := rfl
theorem zero_s : (0 : Stat).s = 0 := rfl
theorem zero_q : (0 : Stat).q = 0 := rfl

theorem sadd_assoc (a b c : Stat) : a + b + c = a + (b + c) := by
  ext <;> simp only [add_n, add_s, add_q] <;> ring
theorem sadd_comm (a b : Stat) : a + b = b + a := by
  ext <;> simp only [add_n, add_s, add_q] <;> ring
theorem sadd_zero (a : Stat) : a + 0 = a := by
  ext <;> simp only [add_n, add_s, add_q, zero_n, zero_s, zero_q] <;> ring
theorem szero_add (a : Stat) : 0 + a = a := by rw [sadd_comm, sadd_zero]

/-- Total of a list of keyed statistics. -/
def tot (l : List (ℚ × Stat)) : Stat := l.foldr (fun o t => o.2 + t) 0

theorem tot_append (l m : List (ℚ × Stat)) : tot (l ++ m) = tot l + tot m := by
  induction l with
  | nil => simp [tot, szero_add]
  | cons a l ih =>
    simp only [tot, List.cons_append, List.foldr_cons] at ih ⊢
    rw [ih, sadd_assoc]

theorem tot_split (l : List (ℚ × Stat)) (v u : ℚ) (h : v < u) :
    tot (l.filter fun o => o.1 ≤ u) =
      tot (l.filter fun o => o.1 ≤ v) + tot ((l.filter fun o => v < o.1).filter fun o => o.1 ≤ u) := by
  induction l with
  | nil => simp [tot, sadd_zero]
  | cons a l ih =>
    by_cases h1 : a.1 ≤ v
    · have h2 : a.1 ≤ u := le_trans h1 (le_of_lt h)
      have h3 : ¬ v < a.1 := not_lt.mpr h1
      simp only [h1, h2, h3, decide_true, decide_false, List.filter_cons_of_pos, List.filter_cons_of_neg,
        Bool.false_eq_true, not_false_eq_true]
      show a.2 + tot _ = a.2 + tot _ + tot _
      rw [ih, sadd_assoc]
    · have h3 : v < a.1 := not_le.mp h1
      by_cases h2 : a.1 ≤ u
      · simp only [h1, h2, h3, decide_true, decide_false, List.filter_cons_of_pos, List.filter_cons_of_neg,
          Bool.false_eq_true, not_false_eq_true]
        show a.2 + tot _ = tot _ + (a.2 + tot _)
        rw [ih]
        ext <;> simp only [add_n, add_s, add_q] <;> ring
      · simp only [h1, h2, h3, decide_true, decide_false, List.filter_cons_of_pos, List.filter_cons_of_neg,
          Bool.false_eq_true, not_false_eq_true]
        exact ih

/-- The tree represents the keyed observations. -/
def Inv : Bst → List (ℚ × Stat) → Prop
  | .nil, obs => obs = []
  | .node v st l r, obs => (∃ o ∈ obs, o.1 = v) ∧ st = tot (obs.filter fun o => o.1 ≤ v) ∧
      Inv l (obs.filter fun o => o.1 < v) ∧ Inv r (obs.filter fun o => v < o.1)

theorem Inv.insert {t : Bst} {obs : List (ℚ × Stat)} (h : Inv t obs) (a : ℚ) (x : Stat) :
    Inv (t.insert a x) (obs ++ [(a, x)]) := by
  induction t generalizing obs with
  | nil =>
    simp only [Inv] at h
    subst h
    simp [Bst.insert, Inv, tot, sadd_zero]
  | node v st l r ihl ihr =>
    obtain ⟨h1, h2, h3, h4⟩ := h
    obtain ⟨o, ho, e⟩ := h1
    have hex : ∃ o ∈ obs ++ [(a, x)], o.1 = v := ⟨o, by simp [ho], e⟩
    rw [Bst.insert]
    split_ifs with c1 c2
    · subst c1
      refine ⟨hex, ?_, ?_, ?_⟩
      · simp only [List.filter_append, tot_append, h2]
        simp [tot, sadd_zero]
      · simpa using h3
      · simpa using h4
    · refine ⟨hex, ?_, ?_, ?_⟩
      · simp only [List.filter_append, tot_append, h2]
        simp [tot, sadd_zero, le_of_lt c2]
      · have := ihl h3
        simpa [List.filter_append, c2] using this
      · simpa [List.filter_append, not_lt.mpr (le_of_lt c2)] using h4
    · have c3 : v < a := lt_of_le_of_ne (not_lt.mp c2) (fun e => c1 e.symm)
      refine ⟨hex, ?_, ?_, ?_⟩
      · simp only [List.filter_append, tot_append, h2]
        simp [tot, sadd_zero, not_le.mpr c3]
      · simpa [List.filter_append, not_lt.mpr (le_of_lt c3)] using h3
      · have := ihr h4
        simpa [List.filter_append, c3] using this

/-- The candidates in the order they are evaluated: threshold and left statistics. -/
def Bst.cands : Bst → Stat → List (ℚ × Stat)
  | .nil, _ => []
  | .node v st l r, aux => l.cands aux ++ (v, st + aux) :: r.cands (aux + st)

theorem cands_mem {t : Bst} {obs : List (ℚ × Stat)} (h : Inv t obs) (aux : Stat) (u : ℚ) (L : Stat) :
    (u, L) ∈ t.cands aux ↔ (∃ o ∈ obs, o.1 = u) ∧ L = tot (obs.filter fun o => o.1 ≤ u) + aux := by
  induction t generalizing obs aux with
  | nil => simp only [Inv] at h; subst h; simp [Bst.cands]
  | node v st l r ihl ihr =>
    obtain ⟨h1, h2, h3, h4⟩ := h
    simp only [Bst.cands, List.mem_append, List.mem_cons, Prod.mk.injEq, ihl h3, ihr h4]
    have exl : (∃ o ∈ obs.filter (fun o => o.1 < v), o.1 = u) ↔ (∃ o ∈ obs, o.1 = u) ∧ u < v := by
      constructor
      · rintro ⟨o, ho, rfl⟩
        obtain ⟨a, b⟩ := List.mem_filter.mp ho
        exact ⟨⟨o, a, rfl⟩, by simpa using b⟩
      · rintro ⟨⟨o, ho, rfl⟩, hlt⟩
        exact ⟨o, List.mem_filter.mpr ⟨ho, by simpa using hlt⟩, rfl⟩
    have exr : (∃ o ∈ obs.filter (fun o => v < o.1), o.1 = u) ↔ (∃ o ∈ obs, o.1 = u) ∧ v < u := by
      constructor
      · rintro ⟨o, ho, rfl⟩
        obtain ⟨a, b⟩ := List.mem_filter.mp ho
        exact ⟨⟨o, a, rfl⟩, by simpa using b⟩
      · rintro ⟨⟨o, ho, rfl⟩, hlt⟩
        exact ⟨o, List.mem_filter.mpr ⟨ho, by simpa using hlt⟩, rfl⟩
    rw [exl, exr]
    rcases lt_trichotomy u v with hlt | heq | hgt
    · have hl : ((obs.filter fun o => o.1 < v).filter fun o => o.1 ≤ u) =
          obs.filter fun o => o.1 ≤ u := by
        rw [List.filter_filter]
        apply List.filter_congr
        intro o _
        by_cases ho : o.1 ≤ u
        · simp [ho, lt_of_le_of_lt ho hlt]
        · simp [ho]
      rw [hl]
      have n1 : ¬ u = v := ne_of_lt hlt
      have n2 : ¬ v < u := not_lt.mpr (le_of_lt hlt)
      simp [hlt, n1, n2]
    · subst heq
      simp only [lt_self_iff_false, and_false, false_and, true_and, false_or, or_false, h2]
      constructor
      · intro e; exact ⟨h1, e⟩
      · intro e; exact e.2
    · have n1 : ¬ u = v := ne_of_gt hgt
      have n2 : ¬ u < v := not_lt.mpr (le_of_lt hgt)
      simp only [hgt, n1, n2, and_true, and_false, false_and, false_or]
      rw [tot_split obs v u hgt, ← h2]
      have : tot ((obs.filter fun o => v < o.1).filter fun o => o.1 ≤ u) + (aux + st) =
          st + tot ((obs.filter fun o => v < o.1).filter fun o => o.1 ≤ u) + aux := by
        ext <;> simp only [add_n, add_s, add_q] <;> ring
      rw [this]

theorem cands_sorted {t : Bst} {obs : List (ℚ × Stat)} (h : Inv t obs) (aux : Stat) :
    (t.cands aux).Pairwise fun a b => a.1 < b.1 := by
  induction t generalizing obs aux with
  | nil => simp [Bst.cands]
  | node v st l r ihl ihr =>
    obtain ⟨h1, h2, h3, h4⟩ := h
    have bl : ∀ p ∈ l.cands aux, p.1 < v := by
      rintro ⟨u, L⟩ hp
      obtain ⟨⟨o, ho, e⟩, _⟩ := (cands_mem h3 aux u L).mp hp
      have := (List.mem_filter.mp ho).2
      rw [← e]; simpa using this
    have br : ∀ p ∈ r.cands (aux + st), v < p.1 := by
      rintro ⟨u, L⟩ hp
      obtain ⟨⟨o, ho, e⟩, _⟩ := (cands_mem h4 (aux + st) u L).mp hp
      have := (List.mem_filter.mp ho).2
      rw [← e]; simpa using this
    rw [Bst.cands, List.pairwise_append]
    refine ⟨ihl h3 aux, ?_, ?_⟩
    · rw [List.pairwise_cons]
      exact ⟨br, ihr h4 _⟩
    · intro p hp q hq
      rcases List.mem_cons.mp hq with rfl | hq
      · exact bl p hp
      · exact lt_trans (bl p hp) (br q hq)

/-- One step of the search over the candidate list. -/
def pick (merit : Stat → Stat → ℚ) (pre : Stat) (c : Option Sugg) (p : ℚ × Stat) : Option Sugg :=
  if beats (merit p.2 (pre - p.2)) c then some ⟨p.1, p.2, pre - p.2, merit p.2 (pre - p.2)⟩ else c

theorem fold_pick_better (merit : Stat → Stat → ℚ) (pre : Stat) (l : List (ℚ × Stat)) (c : Option Sugg) :
    l.foldl (pick merit pre) c = c ∨ ∃ s, l.foldl (pick merit pre) c = some s ∧ beats s.merit c = true := by
  induction l generalizing c with
  | nil => exact .inl rfl
  | cons p l ih =>
    rw [List.foldl_cons]
    unfold pick
    by_cases hb : beats (merit p.2 (pre - p.2)) c = true
    · rw [if_pos hb]
      right
      rcases ih (some ⟨p.1, p.2, pre - p.2, merit p.2 (pre - p.2)⟩) with e | ⟨s, e, hs⟩
      · exact ⟨_, e, hb⟩
      · refine ⟨s, e, ?_⟩
        cases c with
        | none => rfl
        | some c =>
          simp only [beats, decide_eq_true_eq] at hb hs ⊢
          linarith
    · rw [if_neg hb]; exact ih c

theorem find_eq (merit : Stat → Stat → ℚ) (pre : Stat) (t : Bst) (aux : Stat) (c : Option Sugg) :
    t.find merit pre aux c = (t.cands aux).foldl (pick merit pre) c := by
  induction t generalizing aux c with
  | nil => rfl
  | node v st l r ihl ihr =>
    rw [Bst.find.eq_def, Bst.cands, List.foldl_append, List.foldl_cons]
    simp only
    rw [ihl]
    set c1 := (l.cands aux).foldl (pick merit pre) c
    have hc2 : (if beats (merit (st + aux) (pre - (st + aux))) c1 = true then
        some (⟨v, st + aux, pre - (st + aux), merit (st + aux) (pre - (st + aux))⟩ : Sugg) else c1) =
        pick merit pre c1 (v, st + aux) := rfl
    rw [hc2]
    set c2 := pick merit pre c1 (v, st + aux)
    cases r with
    | nil => rfl
    | node v' st' l' r' =>
      simp only
      rw [ihr]
      rcases fold_pick_better merit pre ((Bst.node v' st' l' r').cands (aux + st)) c2 with e | ⟨s, e, hs⟩
      · rw [e]
        cases hcc : c2 with
        | none => rfl
        | some s => simp
      · rw [e]; simp [hs]

/-- First maximum of a keyed list: what a fold of `pick` from `none` returns. -/
theorem fold_pick_spec (merit : Stat → Stat → ℚ) (pre : Stat) (l : List (ℚ × Stat)) (hne : l ≠ []) :
    ∃ l1 p l2, l = l1 ++ p :: l2 ∧
      l.foldl (pick merit pre) none = some ⟨p.1, p.2, pre - p.2, merit p.2 (pre - p.2)⟩ ∧
      (∀ q ∈ l1, merit q.2 (pre - q.2) < merit p.2 (pre - p.2)) ∧
      (∀ q ∈ l2, merit q.2 (pre - q.2) ≤ merit p.2 (pre - p.2)) := by
  induction l using List.reverseRecOn with
  | nil => simp at hne
  | append_singleton l x ih =>
    rw [List.foldl_append]
    simp only [List.foldl_cons, List.foldl_nil]
    by_cases hl : l = []
    · subst hl
      exact ⟨[], x, [], by simp, by simp [pick, beats], by simp, by simp⟩
    · obtain ⟨l1, p, l2, e1, e2, e3, e4⟩ := ih hl
      rw [e2]
      by_cases hb : merit p.2 (pre - p.2) < merit x.2 (pre - x.2)
      · refine ⟨l, x, [], by simp, by simp [pick, beats, hb], ?_, by simp⟩
        intro q hq
        rw [e1] at hq
        rcases List.mem_append.mp hq with hq | hq
        · exact lt_trans (e3 q hq) hb
        · rcases List.mem_cons.mp hq with rfl | hq
          · exact hb
          · exact lt_of_le_of_lt (e4 q hq) hb
      · refine ⟨l1, p, l2 ++ [x], by simp [e1], by simp [pick, beats, hb], e3, ?_⟩
        intro q hq
        rcases List.mem_append.mp hq with hq | hq
        · exact e4 q hq
        · simp only [List.mem_singleton] at hq; subst hq; exact not_lt.mp hb

/-- The keyed statistics of a history. -/
def keyed (h : List Obs) : List (ℚ × Stat) :=
  h.filterMap fun o => o.att.map fun a => (a, obsStat o.target o.weight)

theorem build_inv (h : List Obs) : Inv (build h) (keyed h) := by
  induction h using List.reverseRecOn with
  | nil => simp [build, keyed, Inv]
  | append_singleton h o ih =>
    have hb : build (h ++ [o]) = (build h).update o.att o.target o.weight := by simp [build]
    rw [hb]
    cases ha : o.att with
    | none => simpa [Bst.update, keyed, ha] using ih
    | some a =>
      have := ih.insert a (obsStat o.target o.weight)
      simpa [Bst.update, keyed, ha] using this

theorem keyed_observed (h : List Obs) (u : ℚ) : (∃ o ∈ keyed h, o.1 = u) ↔ Observed h u := by
  unfold keyed Observed
  constructor
  · rintro ⟨p, hp, e⟩
    obtain ⟨o, ho, ho'⟩ := List.mem_filterMap.mp hp
    cases ha : o.att with
    | none => rw [ha] at ho'; cases ho'
    | some a =>
      rw [ha] at ho'
      simp only [Option.map_some, Option.some.injEq] at ho'
      subst ho'
      exact ⟨o, ho, by rw [ha, ← e]⟩
  · rintro ⟨o, ho, e⟩
    exact ⟨(u, obsStat o.target o.weight), List.mem_filterMap.mpr ⟨o, ho, by simp [e]⟩, rfl⟩

theorem keyed_tot (h : List Obs) (u : ℚ) : tot ((keyed h).filter fun o => o.1 ≤ u) = leStat h u := by
  induction h with
  | nil => rfl
  | cons o h ih =>
    unfold keyed at ih ⊢
    cases ha : o.att with
    | none =>
      rw [List.filterMap_cons_none (by simp [ha]), ih]
      simp [leStat, ha]
    | some a =>
      rw [List.filterMap_cons_some (by simp [ha]; rfl)]
      by_cases hu : a ≤ u
      · rw [List.filter_cons_of_pos (by simpa using hu)]
        show obsStat o.target o.weight + tot _ = _
        rw [ih]
        ext <;> simp only [leStat, ha, hu, decide_true, List.filter_cons_of_pos, List.map_cons,
          List.sum_cons, add_n, add_s, add_q, obsStat] <;> ring
      · rw [List.filter_cons_of_neg (by simpa using hu), ih]
        simp [leStat, ha, hu]

/-- C35: the candidates evaluated for a history are, in increasing order, exactly
the distinct observed attribute values, each with the statistics of all
observations at or below it. -/
theorem C35_candidates (h : List Obs) :
    ((build h).cands 0).Pairwise (fun a b => a.1 < b.1) ∧
    ∀ u L, (u, L) ∈ (build h).cands 0 ↔ Observed h u ∧ L = leStat h u := by
  refine ⟨cands_sorted (build_inv h) 0, ?_⟩
  intro u L
  rw [cands_mem (build_inv h), keyed_observed, keyed_tot, sadd_zero]

/-- C35: for every criterion, history with at least one present value, and total
statistics, the suggested split is an observed value with exact left and right
statistics; its merit is the largest over all observed values, and it is the
smallest such value. -/
theorem C35_best_split (merit : Stat → Stat → ℚ) (pre : Stat) (h : List Obs)
    (hne : ∃ u, Observed h u) :
    ∃ s, (build h).best merit pre = .ok (some s) ∧ Observed h s.thr ∧
      s.left = leStat h s.thr ∧ s.right = pre - leStat h s.thr ∧
      s.merit = merit (leStat h s.thr) (pre - leStat h s.thr) ∧
      (∀ u, Observed h u → merit (leStat h u) (pre - leStat h u) ≤ s.merit) ∧
      (∀ u, Observed h u → u < s.thr → merit (leStat h u) (pre - leStat h u) < s.merit) := by
  obtain ⟨c1, c2⟩ := C35_candidates h
  obtain ⟨u0, hu0⟩ := hne
  have hm0 := (c2 u0 _).mpr ⟨hu0, rfl⟩
  have hcne : (build h).cands 0 ≠ [] := by
    intro e; rw [e] at hm0; cases hm0
  have hbest : (build h).best merit pre = .ok ((build h).find merit pre 0 none) := by
    cases hb : build h with
    | nil => rw [hb] at hcne; simp [Bst.cands] at hcne
    | node v st l r => rfl
  obtain ⟨l1, p, l2, e1, e2, e3, e4⟩ := fold_pick_spec merit pre _ hcne
  obtain ⟨v, L⟩ := p
  have hp : (v, L) ∈ (build h).cands 0 := by rw [e1]; simp
  obtain ⟨hv, hL⟩ := (c2 v L).mp hp
  subst hL
  refine ⟨_, by rw [hbest, find_eq, e2], hv, rfl, rfl, rfl, ?_, ?_⟩
  · intro u hu
    have hmu := (c2 u _).mpr ⟨hu, rfl⟩
    rw [e1] at hmu
    rcases List.mem_append.mp hmu with hq | hq
    · exact le_of_lt (e3 _ hq)
    · rcases List.mem_cons.mp hq with hq | hq
      · simp only [Prod.mk.injEq] at hq; rw [hq.2]
      · exact e4 _ hq
  · intro u hu hlt
    have hmu := (c2 u _).mpr ⟨hu, rfl⟩
    rw [e1] at hmu c1
    simp only at hlt
    rcases List.mem_append.mp hmu with hq | hq
    · exact e3 _ hq
    · rcases List.mem_cons.mp hq with hq | hq
      · simp only [Prod.mk.injEq] at hq; rw [hq.1] at hlt; exact absurd hlt (lt_irrefl _)
      · have := (List.pairwise_cons.mp (List.pairwise_append.mp c1).2.1).1 _ hq
        simp only at this
        exact absurd (lt_trans hlt this) (lt_irrefl _)

/-- C35: before any value was observed asking for a split raises `AttributeError`. -/
theorem C35_no_value (merit : Stat → Stat → ℚ) (pre : Stat) (h : List Obs)
    (hn : ∀ u, ¬ Observed h u) : (build h).best merit pre = .error .attributeError := by
  have hk : keyed h = [] := by
    cases hk : keyed h with
    | nil => rfl
    | cons a l => exact absurd ((keyed_observed h a.1).mp ⟨a, by simp [hk], rfl⟩) (hn _)
  have := build_inv h
  rw [hk] at this
  cases hb : build h with
  | nil => rfl
  | node v st l r =>
    rw [hb] at this
    obtain ⟨⟨o, ho, _⟩, _⟩ := this
    cases ho

/-- Non-vacuity of C35 (insertion order not sorted, one missing value). -/
example : (build [⟨some 2, 1, 1⟩, ⟨some 5, 4, 1⟩, ⟨none, 9, 9⟩, ⟨some 1, 2, 2⟩, ⟨some 3, 6, 1⟩]).best
    (fun L R => L.s - R.s) ⟨5, 15, 63⟩ = .ok (some ⟨5, ⟨5, 15, 61⟩, ⟨0, 0, 2⟩, 15⟩) := by
  decide +kernel

/-! ### Pruning -/

theorem prune_spec (merit : Stat → Stat → ℚ) (bad : ℚ → Bool) (pre : Stat) (t : Bst) (aux : Stat) :
    ((t.prune merit bad pre aux).1.cands aux).Sublist (t.cands aux) ∧
    (∀ p ∈ t.cands aux, bad (merit p.2 (pre - p.2)) = false →
      p ∈ (t.prune merit bad pre aux).1.cands aux) ∧
    ((t.prune merit bad pre aux).2 = true → (t.prune merit bad pre aux).1 = .nil) := by
  induction t generalizing aux with
  | nil => simp [Bst.prune, Bst.cands]
  | node v st l r ihl ihr =>
    obtain ⟨l1, l2, l3⟩ := ihl aux
    obtain ⟨r1, r2, r3⟩ := ihr (aux + st)
    rw [Bst.prune]
    cases hl : l.prune merit bad pre aux with
    | mk l' b =>
      rw [hl] at l1 l2 l3
      cases b with
      | false =>
        simp only [Bst.cands]
        refine ⟨l1.append (List.Sublist.refl _), ?_, by simp⟩
        intro p hp hb
        rcases List.mem_append.mp hp with hp | hp
        · exact List.mem_append_left _ (l2 p hp hb)
        · exact List.mem_append_right _ hp
      | true =>
        cases hr : r.prune merit bad pre (aux + st) with
        | mk r' b' =>
          rw [hr] at r1 r2 r3
          cases b' with
          | false =>
            simp only [Bst.cands]
            refine ⟨l1.append (List.Sublist.cons_cons _ r1), ?_, by simp⟩
            intro p hp hb
            rcases List.mem_append.mp hp with hp | hp
            · exact List.mem_append_left _ (l2 p hp hb)
            · apply List.mem_append_right
              rcases List.mem_cons.mp hp with rfl | hp
              · exact List.mem_cons_self
              · exact List.mem_cons_of_mem _ (r2 p hp hb)
          | true =>
            have hl' : l' = .nil := l3 rfl
            have hr' : r' = .nil := r3 rfl
            subst hl' hr'
            simp only
            by_cases hbad : bad (merit (st + aux) (pre - (st + aux))) = true
            · rw [if_pos hbad]
              refine ⟨by simp [Bst.cands], ?_, by simp⟩
              intro p hp hb
              simp only [Bst.cands] at hp
              rcases List.mem_append.mp hp with hp | hp
              · exact l2 p hp hb
              · rcases List.mem_cons.mp hp with rfl | hp
                · rw [hbad] at hb; cases hb
                · exact r2 p hp hb
            · rw [if_neg hbad]
              simp only [Bst.cands]
              refine ⟨l1.append (List.Sublist.cons_cons _ r1), ?_, by simp⟩
              intro p hp hb
              rcases List.mem_append.mp hp with hp | hp
              · exact List.mem_append_left _ (l2 p hp hb)
              · apply List.mem_append_right
                rcases List.mem_cons.mp hp with rfl | hp
                · exact List.mem_cons_self
                · exact List.mem_cons_of_mem _ (r2 p hp hb)

/-- C62: pruning a tree built from any history only removes thresholds whose
split is bad, and the remaining ones keep their exact statistics. -/
theorem C62_prune_exact_partial (merit : Stat → Stat → ℚ) (bad : ℚ → Bool) (pre : Stat) (h : List Obs)
    (t : Bst) (ht : (build h).removeBad merit bad pre = .ok t) :
    (∀ u L, (u, L) ∈ t.cands 0 → Observed h u ∧ L = leStat h u) ∧
    (∀ u, Observed h u → bad (merit (leStat h u) (pre - leStat h u)) = false →
      (u, leStat h u) ∈ t.cands 0) := by
  have ht' : t = ((build h).prune merit bad pre 0).1 := by
    cases hb : build h with
    | nil => rw [hb] at ht; cases ht
    | node v st l r => rw [hb] at ht; simp only [Bst.removeBad, Except.ok.injEq] at ht; exact ht.symm
  subst ht'
  obtain ⟨p1, p2, _⟩ := prune_spec merit bad pre (build h) 0
  obtain ⟨_, c2⟩ := C35_candidates h
  refine ⟨fun u L hm => (c2 u L).mp (p1.subset hm), fun u hu hb => ?_⟩
  exact p2 _ ((c2 u _).mpr ⟨hu, rfl⟩) hb

/-- C62: if the best split is not bad, the best split is the same before and after
pruning. -/
theorem C62_prune_keeps_best_partial (merit : Stat → Stat → ℚ) (bad : ℚ → Bool) (pre : Stat)
    (h : List Obs) (t : Bst) (ht : (build h).removeBad merit bad pre = .ok t) (s : Sugg)
    (hs : (build h).best merit pre = .ok (some s)) (hgood : bad s.merit = false) :
    t.best merit pre = .ok (some s) := by
  have ht' : t = ((build h).prune merit bad pre 0).1 := by
    cases hb : build h with
    | nil => rw [hb] at ht; cases ht
    | node v st l r => rw [hb] at ht; simp only [Bst.removeBad, Except.ok.injEq] at ht; exact ht.symm
  obtain ⟨p1, p2, _⟩ := prune_spec merit bad pre (build h) 0
  rw [← ht'] at p1 p2
  have hfind : (build h).find merit pre 0 none = some s := by
    cases hb : build h with
    | nil => rw [hb] at hs; cases hs
    | node v st l r => rw [hb] at hs; simp only [Bst.best, Except.ok.injEq] at hs; exact hs
  rw [find_eq] at hfind
  have hcne : (build h).cands 0 ≠ [] := by
    intro e; rw [e] at hfind; cases hfind
  obtain ⟨l1, p, l2, e1, e2, e3, e4⟩ := fold_pick_spec merit pre _ hcne
  rw [hfind] at e2
  have e2' := Option.some.inj e2
  have hpm : p ∈ t.cands 0 := by
    apply p2 p (by rw [e1]; simp)
    rw [e2'] at hgood; exact hgood
  have htne : t.cands 0 ≠ [] := by
    intro e; rw [e] at hpm; cases hpm
  have hbest : t.best merit pre = .ok (t.find merit pre 0 none) := by
    cases hb : t with
    | nil => rw [hb] at htne; simp [Bst.cands] at htne
    | node v st l r => rfl
  rw [hbest, find_eq]
  obtain ⟨k1, p', k2, f1, f2, f3, f4⟩ := fold_pick_spec merit pre _ htne
  rw [f2, e2']
  have hsort := (C35_candidates h).1
  have hp'm : p' ∈ (build h).cands 0 := p1.subset (by rw [f1]; simp)
  suffices p' = p by rw [this]
  -- both are maximal; the sublist keeps the order, so strictness decides
  have le1 : merit p.2 (pre - p.2) ≤ merit p'.2 (pre - p'.2) := by
    rw [f1] at hpm
    rcases List.mem_append.mp hpm with hq | hq
    · exact le_of_lt (f3 _ hq)
    · rcases List.mem_cons.mp hq with hq | hq
      · rw [hq]
      · exact f4 _ hq
  have hin1 : p' ∈ p :: l2 := by
    rw [e1] at hp'm
    rcases List.mem_append.mp hp'm with hq | hq
    · exact absurd (e3 _ hq) (not_lt.mpr le1)
    · exact hq
  have le2 : merit p'.2 (pre - p'.2) ≤ merit p.2 (pre - p.2) := by
    rcases List.mem_cons.mp hin1 with hq | hq
    · rw [hq]
    · exact e4 _ hq
  have hin2 : p ∈ p' :: k2 := by
    rw [f1] at hpm
    rcases List.mem_append.mp hpm with hq | hq
    · exact absurd (f3 _ hq) (not_lt.mpr le2)
    · exact hq
  rcases List.mem_cons.mp hin1 with hq | hq
  · exact hq
  · rcases List.mem_cons.mp hin2 with hq' | hq'
    · exact hq'.symm
    · -- p before p' in the full list, p' before p in the sublist
      have hs1 : p.1 < p'.1 := by
        rw [e1] at hsort
        exact (List.pairwise_cons.mp (List.pairwise_append.mp hsort).2.1).1 _ hq
      have hs2 : p'.1 < p.1 := by
        have := hsort.sublist p1
        rw [f1] at this
        exact (List.pairwise_cons.mp (List.pairwise_append.mp this).2.1).1 _ hq'
      exact absurd (lt_trans hs1 hs2) (lt_irrefl _)

/-- C62 is violated afterwards: with values 1 and 2 observed and the split at 2
pruned, the threshold 3 observed next is evaluated without the observation at 2. -/
theorem C62_stats_after_prune_violated :
    ∃ (merit : Stat → Stat → ℚ) (bad : ℚ → Bool) (pre : Stat) (h : List Obs) (t : Bst) (o : Obs),
      (build h).removeBad merit bad pre = .ok t ∧ o.att = some 3 ∧
      (3, ⟨2, 2, 2⟩) ∈ (t.update o.att o.target o.weight).cands 0 ∧
      leStat (h ++ [o]) 3 = ⟨3, 3, 3⟩ :=
  ⟨fun L _ => L.n, fun m => m > 1, ⟨2, 2, 2⟩, [⟨some 1, 1, 1⟩, ⟨some 2, 1, 1⟩],
    .node 1 ⟨1, 1, 1⟩ .nil .nil, ⟨some 3, 1, 1⟩, by decide +kernel, rfl, by decide +kernel,
    by decide +kernel⟩

/-- C62: after everything was pruned away, asking for a split or pruning again
raises `AttributeError`; this happens for every history when all splits are bad. -/
theorem C62_all_pruned_raises (merit merit' : Stat → Stat → ℚ) (bad bad' : ℚ → Bool) (pre pre' : Stat)
    (h : List Obs) (hne : ∃ u, Observed h u)
    (hbad : ∀ u, Observed h u → bad (merit (leStat h u) (pre - leStat h u)) = true) :
    ∃ t, (build h).removeBad merit bad pre = .ok t ∧
      t.best merit' pre' = .error .attributeError ∧
      t.removeBad merit' bad' pre' = .error .attributeError := by
  have key : ∀ (t : Bst) (aux : Stat),
      (∀ p ∈ t.cands aux, bad (merit p.2 (pre - p.2)) = true) → t.prune merit bad pre aux = (.nil, true) := by
    intro t
    induction t with
    | nil => intros; rfl
    | node v st l r ihl ihr =>
      intro aux hall
      simp only [Bst.cands] at hall
      rw [Bst.prune, ihl aux (fun p hp => hall p (by simp [hp]))]
      simp only
      rw [ihr (aux + st) (fun p hp => hall p (by simp [hp]))]
      simp only
      rw [if_pos (hall (v, st + aux) (by simp))]
  have hall : ∀ p ∈ (build h).cands 0, bad (merit p.2 (pre - p.2)) = true := by
    rintro ⟨u, L⟩ hp
    obtain ⟨hu, rfl⟩ := ((C35_candidates h).2 u L).mp hp
    exact hbad u hu
  refine ⟨.nil, ?_, rfl, rfl⟩
  cases hb : build h with
  | nil =>
    obtain ⟨u, hu⟩ := hne
    have := ((C35_candidates h).2 u _).mpr ⟨hu, rfl⟩
    rw [hb] at this
    simp [Bst.cands] at this
  | node v st l r =>
    rw [hb] at hall
    simp only [Bst.removeBad, key _ 0 hall]

/-- Non-vacuity of C62: one of three thresholds is pruned, the best one stays. -/
example : ∃ t, (build [⟨some 2, 1, 1⟩, ⟨some 1, 4, 1⟩, ⟨some 3, 2, 1⟩]).removeBad
      (fun L _ => L.s) (fun m => m < 5) ⟨3, 7, 21⟩ = .ok t ∧ t.cands 0 = [(2, ⟨2, 5, 17⟩), (3, ⟨3, 7, 21⟩)] ∧
    t.best (fun L _ => L.s) ⟨3, 7, 21⟩ = .ok (some ⟨3, ⟨3, 7, 21⟩, ⟨0, 0, 0⟩, 7⟩) :=
  ⟨.node 2 ⟨2, 5, 17⟩ .nil (.node 3 ⟨1, 2, 4⟩ .nil .nil), by decide +kernel, by decide +kernel,
    by decide +kernel⟩

end Verif.Trees.EBST
