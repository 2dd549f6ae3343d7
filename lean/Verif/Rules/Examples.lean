import Verif.Rules.Votes

/-!
Witnesses for C109-C116: a small concrete classifier with counting observers, and the
reachable states that break the claims as documented. C116: equality of rules.
-/

namespace Verif.Rules

/-! ### A concrete classifier -/

/-- Class weights of the observations that satisfy `f`. -/
def countsOf (f : ℚ → Bool) (o : List (ℚ × Nat × ℚ)) : SDict Nat ℚ :=
  (o.filter fun p => f p.1).foldl (fun d p => d.alter (fun v => v.getD 0 + p.2.2) p.2.1) []

/-- Observers that keep everything and suggest the condition `att op 0`; the merit is
given per attribute and class; detectors that report a change at every error. -/
def exEnv (op : Op) (merit : Nat → Option Nat → WithBot ℚ) (crit : Crit) (ordered : Bool) (mode : Mode)
    (nAtt maxRules : Nat) (grace bound : ℚ) (detector : Option Bool) :
    Env (List (ℚ × Nat × ℚ)) Bool Unit where
  nAtt := nAtt
  freshObs := fun _ => []
  update := fun o v y w => o ++ [(v, y, w)]
  nullObs := []
  crit0 := ()
  suggest := fun _ o _ i c =>
    (if o = [] then none else
      some ⟨i, 0, op, if op = .le then countsOf (· ≤ 0) o else countsOf (· = 0) o,
        if op = .le then countsOf (· > 0) o else countsOf (· ≠ 0) o, merit i c⟩, ())
  bound := fun _ _ => bound
  nb := fun _ d _ => d
  detector := detector
  detAdd := fun _ p => p = 0
  detChange := id
  detReset := fun _ => false
  crit := crit
  ordered := ordered
  mode := mode
  grace := grace
  tie := 1 / 20
  maxRules := maxRules
  minWeight := 1
  nbThreshold := 0
  nbPrediction := false
  removePoor := false

/-- A one-attribute instance. -/
def inst (v : ℚ) (y : Nat) : Inst := ⟨fun _ => v, y, 1⟩

/-- What can be read off a rule. -/
def Rule.view {O D : Type} (r : Rule O D) : List Pred × SDict Nat ℚ × ℚ := (r.preds, r.dist, r.last)

-- Four instances create the rule `x0 <= 0`; the default rule keeps the other side.
example :
    let s := St.init.fit (exEnv .le (fun _ _ => ((1 : ℚ) : WithBot ℚ)) .gain true .firstHit 1 5 4 (1/2) none)
      [inst (-1) 0, inst (-2) 0, inst (-1) 1, inst 3 1]
    s.rules.map Rule.view = [([⟨0, .le, 0⟩], [(0, 2), (1, 1)], 0)] ∧ s.default.view = ([], [(1, 1)], 0) := by
  decide +kernel

-- Two attributes: expansion happens only when one is clearly better.
example :
    let s := St.init.fit (exEnv .le (fun i _ => if i = 0 then ((1 : ℚ) : WithBot ℚ) else ((9/10 : ℚ) : WithBot ℚ))
      .gain true .firstHit 2 5 4 (1/2) none) [inst (-1) 0, inst (-2) 0, inst (-1) 1, inst 3 1]
    s.rules.map Rule.view = [] ∧ s.default.view = ([], [(0, 2), (1, 2)], 4) := by
  decide +kernel

/-- C111 (violated, reachable): grace period 4. The rule created from the first four
instances attempts to expand at the first instance it learns, not the fourth. -/
theorem C111_reachable_violated :
    let E := exEnv .le (fun _ _ => ((1 : ℚ) : WithBot ℚ)) .gain true .firstHit 1 5 4 (1/2) none
    let s := St.init.fit E [inst (-1) 0, inst (-2) 0, inst (-1) 1, inst 3 1]
    let t := s.fit E [inst (-1) 0]
    s.rules.map Rule.view = [([⟨0, .le, 0⟩], [(0, 2), (1, 1)], 0)] ∧
    t.rules.map Rule.view = [([⟨0, .le, 0⟩], [(0, 1)], 1)] := by
  decide +kernel

/-- C112 (violated): with `foil_gain` one creation can make a rule for every class: two
rules although `max_rules` is 1. -/
theorem C112_foil_violated :
    let E := exEnv .le (fun _ _ => ((1 : ℚ) : WithBot ℚ)) .foil true .firstHit 1 1 2 (1/2) none
    E.maxRules = 1 ∧ (St.init.fit E [inst (-1) 0, inst 1 1]).rules.length = 2 := by
  decide +kernel

/-- C114 (violated, reachable): with `foil_gain`, the suggestions for class 1 are tied
and the bound is above the tie threshold, yet class 1 gets a rule, because class 0 had a
clear suggestion; without class 0 passing, it gets none. -/
theorem C114_foil_reachable_violated :
    let merit (clear : Bool) : Nat → Option Nat → WithBot ℚ := fun i c =>
      if clear ∧ c = some 0 ∧ i = 0 then ((5 : ℚ) : WithBot ℚ) else ((1 : ℚ) : WithBot ℚ)
    let run (clear : Bool) := (St.init.fit (exEnv .le (merit clear) .foil true .firstHit 2 5 2 (1/2) none)
      [inst (-1) 0, inst 1 1]).rules.map fun r => (r.preds, r.cls)
    run true = [([⟨0, .le, 0⟩], some 0), ([⟨1, .le, 0⟩], some 1)] ∧ run false = [] := by
  decide +kernel

/-- C109 (violated, reachable): the rule `x0 != 0` stays as it is when `x0 != 5` is its
only suggestion. -/
theorem C109_nominal_reachable_violated :
    ∃ (E : Env (List (ℚ × Nat × ℚ)) Bool Unit) (r : Rule (List (ℚ × Nat × ℚ)) Bool),
      r.preds = [⟨0, .ne, 0⟩] ∧
      (candidates E r).map (fun s => (s.att, s.op, s.value)) = [(0, .ne, 5)] ∧
      (expandRule E r).1.covers (fun _ => 5) = true := by
  refine ⟨{ exEnv .ne (fun _ _ => ((1 : ℚ) : WithBot ℚ)) .gain true .firstHit 1 5 4 (1/2) none with
      suggest := fun _ _ _ i _ => (some ⟨i, 5, .ne, [(0, 1)], [(0, 1), (1, 1)], ((1 : ℚ) : WithBot ℚ)⟩, ()) },
    ⟨[⟨0, .ne, 0⟩], [(0, 2), (1, 1)], 0, [(0, [(1, 0, 1)])], none, none⟩, rfl, ?_⟩
  decide +kernel

/-- C110 (violated, concrete): three rules cover the instance; the first is removed, the
second learns nothing, the third learns. -/
theorem C110_skipped_example_violated :
    let E := exEnv .le (fun _ _ => ((1 : ℚ) : WithBot ℚ)) .gain false .weightedSum 1 5 100 (1/2) (some false)
    let r (d : SDict Nat ℚ) : Rule (List (ℚ × Nat × ℚ)) Bool := ⟨[], d, 0, [], some false, none⟩
    let s : St (List (ℚ × Nat × ℚ)) Bool := ⟨[r [(0, 5)], r [(1, 5)], r [(1, 7)]], r []⟩
    (s.fit E [inst 1 1]).rules.map (fun r => r.dist) = [[(1, 5)], [(1, 8)]] := by
  decide +kernel

/-- C113 (violated): three rules fire; by equal shares class 0 has 3/5 of the votes, but
`weighted_sum` gives class 1 the larger vote; with the last rule put first it does not. -/
theorem C113_order_dependent_violated :
    let E := exEnv .le (fun _ _ => ((1 : ℚ) : WithBot ℚ)) .gain false .weightedSum 1 5 100 (1/2) none
    let r (d : SDict Nat ℚ) : Rule (List (ℚ × Nat × ℚ)) Bool := ⟨[], d, 0, [], none, none⟩
    let a := r [(0, 9), (1, 1)]
    let b := r [(0, 18), (1, 2)]
    let c := r [(1, 4)]
    (probaRow E (some [0, 1]) ⟨[a, b, c], r []⟩ (fun _ => 0)).toOption = some [9/20, 11/20] ∧
    (probaRow E (some [0, 1]) ⟨[c, a, b], r []⟩ (fun _ => 0)).toOption = some [27/40, 13/40] := by
  decide +kernel

-- `weighted_max`: the rule with the most confident vote.
example :
    let E := exEnv .le (fun _ _ => ((1 : ℚ) : WithBot ℚ)) .gain false .weightedMax 1 5 100 (1/2) none
    let r (d : SDict Nat ℚ) : Rule (List (ℚ × Nat × ℚ)) Bool := ⟨[], d, 0, [], none, none⟩
    votesFor E ⟨[r [(0, 60), (1, 40)], r [(0, 1), (1, 9)], r [(0, 7), (1, 3)]], r []⟩ (fun _ => 0) =
      [(0, 1/10), (1, 9/10)] := by
  decide +kernel

/-! ### Equality of rules -/

/-- C116 (partial): rules compare equal exactly when their conditions agree in attribute
and operator, position by position; this is an equivalence. Missing: the values of the
conditions, see `C116_value_ignored_violated`. -/
theorem C116_equality_partial {O D : Type} (r s : Rule O D) :
    r.pyEq s = true ↔ r.preds.map (fun p => (p.att, p.op)) = s.preds.map fun p => (p.att, p.op) := by
  have key : ∀ ps qs : List Pred,
      (decide (ps.length = qs.length) && (ps.zip qs).all fun pq => pq.1.pyEq pq.2) = true ↔
      ps.map (fun p => (p.att, p.op)) = qs.map fun p => (p.att, p.op) := by
    intro ps
    induction ps with
    | nil =>
      intro qs
      cases qs with
      | nil => simp
      | cons q qs => simp
    | cons p ps ih =>
      intro qs
      cases qs with
      | nil => simp
      | cons q qs =>
        have := ih qs
        simp only [Bool.and_eq_true, decide_eq_true_eq] at this
        simp only [List.length_cons, List.zip_cons_cons, List.all_cons, List.map_cons, List.cons.injEq,
          Bool.and_eq_true, decide_eq_true_eq, ← this, Nat.add_right_cancel_iff, Pred.pyEq, Prod.mk.injEq,
          eq_comm (a := p.att), eq_comm (a := p.op)]
        tauto
  exact key r.preds s.preds

/-- C116 (violated): rules over disjoint sets of rows compare equal. -/
theorem C116_value_ignored_violated {O D : Type} (att : Nat) (op : Op) (v w : ℚ) (r : Rule O D) :
    ({ r with preds := [⟨att, op, v⟩] } : Rule O D).pyEq { r with preds := [⟨att, op, w⟩] } = true := by
  rw [C116_equality_partial]
  rfl

example : ∃ r s : Rule Unit Unit, r.pyEq s = true ∧ ∀ x, ¬ (r.covers x = true ∧ s.covers x = true) := by
  refine ⟨⟨[⟨0, .eq, 1⟩], [], 0, [], none, none⟩, ⟨[⟨0, .eq, 2⟩], [], 0, [], none, none⟩, rfl, ?_⟩
  rintro x ⟨h1, h2⟩
  simp [Rule.covers, Pred.covers] at h1 h2
  rw [h1] at h2
  norm_num at h2

end Verif.Rules
