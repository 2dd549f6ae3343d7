import Verif.Rules.Examples

/-!
Model of `get_model_rules` and `get_model_description` of `VeryFastDecisionRulesClassifier`
(rules/very_fast_decision_rules.py 868-896); C245.

Simplifications: of a description only the class of every line is modelled.
-/

namespace Verif.Rules

variable {O D K : Type}

/-- `max(dist.items(), key=itemgetter(1))[0]`, lines 876, 890, 893: the first class with the largest
weight; `max` of nothing raises `ValueError`. -/
def majorityOf (d : SDict Nat ℚ) : Except PyErr Nat :=
  match d with
  | [] => .error .valueError
  | p :: ps => .ok (ps.foldl (fun (b : Nat × ℚ) q => if q.2 > b.2 then q else b) p).1

/-- The loop of `get_model_rules`, lines 875-877: every rule gets its majority class as its class. -/
def labelRules : List (Rule O D) → Except PyErr (List (Rule O D))
  | [] => .ok []
  | r :: rs =>
    match majorityOf r.dist with
    | .error e => .error e
    | .ok c =>
      match labelRules rs with
      | .error e => .error e
      | .ok rs' => .ok ({ r with cls := some c } :: rs')

/-- `get_model_rules`, lines 868-878: the model afterwards. -/
def St.modelRules (s : St O D) : Except PyErr (St O D) := (labelRules s.rules).map fun rs => { s with rules := rs }

/-- The classes in the lines 889-892 of a description. -/
def describeRules : List (Rule O D) → Except PyErr (List Nat)
  | [] => .ok []
  | r :: rs =>
    match majorityOf r.dist with
    | .error e => .error e
    | .ok c => (describeRules rs).map (c :: ·)

/-- `get_model_description`, lines 880-896: the class of every rule and of the default rule. -/
def St.describe (s : St O D) : Except PyErr (List Nat × Nat) :=
  match describeRules s.rules with
  | .error e => .error e
  | .ok cs => (majorityOf s.default.dist).map fun c => (cs, c)

/-! ### Specification -/

/-- `c` is the first class of largest weight. -/
def IsMajority (d : SDict Nat ℚ) (c : Nat) : Prop :=
  ∃ l r w, d = l ++ (c, w) :: r ∧ (∀ p ∈ l, p.2 < w) ∧ ∀ p ∈ r, p.2 ≤ w

/-! ### Proofs -/

theorem majority_fold (ps : SDict Nat ℚ) (p : Nat × ℚ) (l m : SDict Nat ℚ) (hl : ∀ q ∈ l, q.2 < p.2) (hm : ∀ q ∈ m, q.2 ≤ p.2) :
    IsMajority (l ++ p :: m ++ ps) (ps.foldl (fun (b : Nat × ℚ) q => if q.2 > b.2 then q else b) p).1 := by
  induction ps generalizing p l m with
  | nil => exact ⟨l, m, p.2, by simp, hl, hm⟩
  | cons q ps ih =>
    rw [List.foldl_cons]
    by_cases h : q.2 > p.2
    · rw [if_pos h]
      have := ih q (l ++ p :: m) [] (by
        intro r hr
        simp only [List.mem_append, List.mem_cons] at hr
        rcases hr with hr | rfl | hr
        · exact lt_trans (hl r hr) h
        · exact h
        · exact lt_of_le_of_lt (hm r hr) h) (by simp)
      simpa using this
    · rw [if_neg h]
      have := ih p l (m ++ [q]) hl (by
        intro r hr
        simp only [List.mem_append, List.mem_singleton] at hr
        rcases hr with hr | rfl
        · exact hm r hr
        · exact not_lt.mp h)
      simpa using this

theorem majorityOf_ok (d : SDict Nat ℚ) (h : d ≠ []) : ∃ c, majorityOf d = .ok c ∧ IsMajority d c := by
  cases d with
  | nil => exact absurd rfl h
  | cons p ps => exact ⟨_, rfl, by simpa using majority_fold ps p [] [] (by simp) (by simp)⟩

theorem labelRules_ok (rs : List (Rule O D)) (h : ∀ r ∈ rs, r.dist ≠ []) :
    ∃ rs', labelRules rs = .ok rs' ∧
      List.Forall₂ (fun r r' => ∃ c, IsMajority r.dist c ∧ r' = { r with cls := some c }) rs rs' := by
  induction rs with
  | nil => exact ⟨[], rfl, .nil⟩
  | cons r rs ih =>
    obtain ⟨c, hc, hm⟩ := majorityOf_ok r.dist (h r (by simp))
    obtain ⟨rs', h1, h2⟩ := ih fun q hq => h q (by simp [hq])
    exact ⟨{ r with cls := some c } :: rs', by simp [labelRules, hc, h1], .cons ⟨c, hm, rfl⟩ h2⟩

/-- The rule without its class. -/
def Rule.erase (r : Rule O D) : Rule O D := { r with cls := none }

/-- The model without the classes of its rules. -/
def St.erase (s : St O D) : St O D := ⟨s.rules.map Rule.erase, s.default.erase⟩

theorem labelRules_erase (rs rs' : List (Rule O D)) (h : labelRules rs = .ok rs') : rs'.map Rule.erase = rs.map Rule.erase := by
  induction rs generalizing rs' with
  | nil =>
    have : ([] : List (Rule O D)) = rs' := by simpa [labelRules] using h
    rw [← this]
  | cons r rs ih =>
    unfold labelRules at h
    cases hc : majorityOf r.dist with
    | error e => rw [hc] at h; cases h
    | ok c =>
      rw [hc] at h
      cases hr : labelRules rs with
      | error e => rw [hr] at h; cases h
      | ok q =>
        rw [hr] at h
        have := Except.ok.inj h
        rw [← this]
        simp [ih q hr, Rule.erase]

theorem modelRules_erase (s s' : St O D) (h : s.modelRules = .ok s') : s'.erase = s.erase := by
  unfold St.modelRules at h
  cases hr : labelRules s.rules with
  | error e => rw [hr] at h; cases h
  | ok q =>
    rw [hr] at h
    have := Except.ok.inj h
    rw [← this]
    simp [St.erase, labelRules_erase _ _ hr]

theorem considerExpand_erase (E : Env O D K) (r : Rule O D) (cls : Option Nat) :
    considerExpand E r.erase cls = ((considerExpand E r cls).1.erase, (considerExpand E r cls).2) := by
  have e1 : r.erase.dist = r.dist := rfl
  have e2 : r.erase.obs = r.obs := rfl
  have e3 : r.erase.weight = r.weight := rfl
  unfold considerExpand
  simp only [e1, e2, e3]
  cases (sortSugg (suggestAll E r.dist cls E.crit0 r.obs).1).reverse with
  | nil => rfl
  | cons a l =>
    cases l with
    | nil => rfl
    | cons b l =>
      simp only
      by_cases hp : E.removePoor = true
      · simp only [hp, if_true]; rfl
      · simp only [hp]; rfl

theorem applyBest_erase (r : Rule O D) (b : Sugg) : applyBest r.erase b = (applyBest r b).erase := by
  have e1 : r.erase.preds = r.preds := rfl
  unfold applyBest
  rw [e1]
  cases mergePred b.pred r.preds with
  | none => rfl
  | some ps => cases hb : b.op <;> rfl

theorem expandRule_erase (E : Env O D K) (hc : E.crit = .gain) (r : Rule O D) :
    expandRule E r.erase = ((expandRule E r).1.erase, []) := by
  have h2 := C109_no_copies E r.erase
  refine Prod.ext ?_ h2
  have e1 : r.erase.dist = r.dist := rfl
  have hn : (if E.crit = Crit.foil then r.cls else none) = none := by rw [hc]; rfl
  have hn' : (if E.crit = Crit.foil then r.erase.cls else none) = none := by rw [hc]; rfl
  unfold expandRule
  rw [e1, hn, hn', considerExpand_erase]
  by_cases h : r.dist.length ≥ 2
  · rw [if_pos h, if_pos h]
    cases hx : considerExpand E r none with
    | mk r' o =>
      cases o with
      | none => rfl
      | some b => simp only [applyBest_erase]
  · rw [if_neg h, if_neg h]

theorem ruleStep_erase (E : Env O D K) (hc : E.crit = .gain) (r : Rule O D) (x : Nat → ℚ) (y : Nat) (w : ℚ) :
    ruleStep E r.erase x y w = ((ruleStep E r x y w).1.erase, []) ∧ (ruleStep E r x y w).2 = [] := by
  have e1 : r.erase.learn E x y w = (r.learn E x y w).erase := rfl
  have e2 : ∀ q : Rule O D, q.erase.weight = q.weight := fun _ => rfl
  have e3 : ∀ q : Rule O D, q.erase.last = q.last := fun _ => rfl
  unfold ruleStep
  simp only [e1, e2, e3]
  by_cases h : (r.learn E x y w).weight - (r.learn E x y w).last ≥ E.grace
  · simp only [h, if_true, expandRule_erase E hc]
    exact ⟨rfl, C109_no_copies E _⟩
  · simp only [h, if_false]
    exact ⟨trivial, trivial⟩

theorem check_erase (E : Env O D K) (r : Rule O D) (y : Nat) :
    r.erase.check E y = ((r.check E y).1.erase, (r.check E y).2) := by
  have e1 : r.erase.det = r.det := rfl
  have e2 : r.erase.correct y = r.correct y := rfl
  have e3 : r.erase.weight = r.weight := rfl
  unfold Rule.check
  rw [e1, e2, e3]
  cases E.detector with
  | none => rfl
  | some d => cases r.det <;> rfl

theorem scan_erase (E : Env O D K) (hc : E.crit = .gain) (x : Nat → ℚ) (y : Nat) (w : ℚ) (n : Nat) :
    ∀ rs : List (Rule O D), rs.length ≤ n → scan E x y w (rs.map Rule.erase) =
      ((scan E x y w rs).1.map Rule.erase, (scan E x y w rs).2.1.map Rule.erase, (scan E x y w rs).2.2) := by
  induction n with
  | zero =>
    intro rs h
    have : rs = [] := List.length_eq_zero_iff.mp (by omega)
    subst this
    rfl
  | succ n ih =>
    intro rs h
    cases rs with
    | nil => rfl
    | cons r rest =>
      have hr : rest.length ≤ n := by simpa using h
      have e1 : r.erase.covers x = r.covers x := rfl
      rw [List.map_cons]
      unfold scan
      rw [e1, check_erase]
      by_cases h1 : r.covers x = true
      · rw [if_pos h1, if_pos h1]
        simp only
        by_cases h2 : (r.check E y).2 = true
        · rw [if_pos h2, if_pos h2]
          cases rest with
          | nil => rfl
          | cons m rest =>
            have hr' : rest.length ≤ n := by simp at hr; omega
            simp only [List.map_cons, ih rest hr']
        · rw [if_neg h2, if_neg h2]
          obtain ⟨s1, s2⟩ := ruleStep_erase E hc (r.check E y).1 x y w
          rw [s1]
          by_cases h3 : E.ordered = true
          · rw [if_pos h3, if_pos h3, s2]; rfl
          · rw [if_neg h3, if_neg h3, s2, ih rest hr]; rfl
      · rw [if_neg h1, if_neg h1]
        simp only [ih rest hr, List.map_cons]

theorem createRule_erase (E : Env O D K) (hc : E.crit = .gain) (s : St O D) :
    createRule E s.erase = (createRule E s).erase := by
  have e1 : s.erase.default.dist = s.default.dist := rfl
  unfold createRule
  rw [e1, hc]
  by_cases h : s.default.dist.length ≥ 2
  · rw [if_pos h, if_pos h]
    simp only
    unfold createGain
    have e2 : s.erase.default.obs = s.default.obs := rfl
    have e3 : s.erase.default.weight = s.default.weight := rfl
    simp only [e1, e2, e3]
    cases shouldExpand E s.default.dist s.default.weight
      (sortSugg (suggestAll E s.default.dist none E.crit0 s.default.obs).1) false with
    | false => rfl
    | true =>
      cases (sortSugg (suggestAll E s.default.dist none E.crit0 s.default.obs).1).getLast? with
      | none => rfl
      | some b => simp [St.erase, Rule.erase, ruleOf, newRule, Rule.restart]
  · rw [if_neg h, if_neg h]; rfl

theorem learn_erase (E : Env O D K) (hc : E.crit = .gain) (s : St O D) (x : Nat → ℚ) (y : Nat) (w : ℚ) :
    s.erase.learn E x y w = (s.learn E x y w).erase := by
  have e1 : s.erase.rules = s.rules.map Rule.erase := rfl
  unfold St.learn
  rw [e1, scan_erase E hc x y w _ s.rules (le_refl _)]
  simp only
  by_cases h : (scan E x y w s.rules).2.2 = true
  · rw [if_pos h, if_pos h]; simp [St.erase]
  · rw [if_neg h, if_neg h]
    have e2 : ∀ (q : List (Rule O D)) (d : Rule O D), (⟨q.map Rule.erase, d.erase⟩ : St O D) = St.erase ⟨q, d⟩ :=
      fun _ _ => rfl
    have e3 : s.erase.default.learn E x y w = (s.default.learn E x y w).erase := rfl
    have e4 : ∀ q : Rule O D, q.erase.weight = q.weight := fun _ => rfl
    have e5 : ∀ q : Rule O D, q.erase.last = q.last := fun _ => rfl
    simp only [← List.map_append, e3, List.length_map, e4, e5, e2, createRule_erase E hc]
    split <;> rfl

theorem fit_erase (E : Env O D K) (hc : E.crit = .gain) (l : List Inst) (s : St O D) :
    s.erase.fit E l = (s.fit E l).erase := by
  induction l generalizing s with
  | nil => rfl
  | cons i l ih =>
    have e : ∀ q : St O D, q.fit E (i :: l) = (if i.w ≠ 0 then q.learn E i.x i.y i.w else q).fit E l := fun _ => rfl
    rw [e, e]
    by_cases h : i.w ≠ 0
    · rw [if_pos h, if_pos h, learn_erase E hc, ih]
    · rw [if_neg h, if_neg h, ih]

theorem find_erase (x : Nat → ℚ) (l : List (Rule O D)) :
    (l.map Rule.erase).find? (fun r => r.covers x) = (l.find? fun r => r.covers x).map Rule.erase := by
  induction l with
  | nil => rfl
  | cons r l ih =>
    have e1 : r.erase.covers x = r.covers x := rfl
    rw [List.map_cons, List.find?_cons, List.find?_cons, e1, ih]
    cases r.covers x <;> rfl

theorem filter_erase (x : Nat → ℚ) (l : List (Rule O D)) :
    (l.map Rule.erase).filter (fun r => r.covers x) = (l.filter fun r => r.covers x).map Rule.erase := by
  rw [List.filter_map]
  rfl

theorem votesFor_erase (E : Env O D K) (s : St O D) (x : Nat → ℚ) : votesFor E s.erase x = votesFor E s x := by
  have hv : ∀ r : Rule O D, r.erase.votes E x = r.votes E x := fun _ => rfl
  unfold votesFor firstHit weightedMax weightedSum
  have e1 : s.erase.rules = s.rules.map Rule.erase := rfl
  have e2 : s.erase.default.votes E x = s.default.votes E x := rfl
  rw [e1, e2, find_erase, filter_erase]
  cases (if E.ordered = true then Mode.firstHit else E.mode) with
  | firstHit => cases s.rules.find? (fun r => r.covers x) <;> rfl
  | weightedMax => simp only [List.foldl_map, hv]
  | weightedSum =>
    simp only
    cases h : s.rules.filter (fun r => r.covers x) with
    | nil => rfl
    | cons r l => simp only [List.map_cons, List.foldl_cons, List.foldl_map, hv]

/-- C245 (partial): `get_model_rules` gives every rule its majority class; with `info_gain` and
`hellinger` it changes nothing else: whatever is learned afterwards, the rules are the same up
to that label, and so are the class probabilities.  Missing (and false): `foil_gain`. -/
theorem C245_reading_partial (E : Env O D K) (hc : E.crit = .gain) (s s' : St O D) (h : s.modelRules = .ok s')
    (l : List Inst) (classes : Option (List Nat)) (x : Nat → ℚ) :
    (s'.fit E l).rules.map (fun r => (r.preds, r.dist, r.last, r.obs, r.det)) =
      (s.fit E l).rules.map (fun r => (r.preds, r.dist, r.last, r.obs, r.det)) ∧
    probaRow E classes (s'.fit E l) x = probaRow E classes (s.fit E l) x := by
  have he : (s'.fit E l).erase = (s.fit E l).erase := by
    rw [← fit_erase E hc, ← fit_erase E hc, modelRules_erase s s' h]
  constructor
  · have := congrArg (fun q : St O D => q.rules.map fun r => (r.preds, r.dist, r.last, r.obs, r.det)) he
    simpa [St.erase, Function.comp_def, Rule.erase] using this
  · unfold probaRow
    rw [← votesFor_erase E (s'.fit E l), ← votesFor_erase E (s.fit E l), he]

/-- C245 (partial): when every rule has seen something, `get_model_rules` succeeds and labels each
rule with its majority class. -/
theorem C245_labels_partial (s : St O D) (h : ∀ r ∈ s.rules, r.dist ≠ []) :
    ∃ s', s.modelRules = .ok s' ∧ s'.default = s.default ∧
      List.Forall₂ (fun r r' => ∃ c, IsMajority r.dist c ∧ r' = { r with cls := some c }) s.rules s'.rules := by
  obtain ⟨rs', h1, h2⟩ := labelRules_ok s.rules h
  exact ⟨{ s with rules := rs' }, by simp [St.modelRules, h1, Except.map], rfl, h2⟩

theorem describeRules_ok (rs : List (Rule O D)) (h : ∀ r ∈ rs, r.dist ≠ []) :
    ∃ cs, describeRules rs = .ok cs ∧ List.Forall₂ (fun r c => IsMajority r.dist c) rs cs := by
  induction rs with
  | nil => exact ⟨[], rfl, .nil⟩
  | cons r rs ih =>
    obtain ⟨c, hc, hm⟩ := majorityOf_ok r.dist (h r (by simp))
    obtain ⟨cs, h1, h2⟩ := ih fun q hq => h q (by simp [hq])
    exact ⟨c :: cs, by simp [describeRules, hc, h1, Except.map], .cons hm h2⟩

/-- C245 (partial): when every rule and the default rule have seen something, the description names
the majority class of each. -/
theorem C245_description_partial (s : St O D) (h : ∀ r ∈ s.rules, r.dist ≠ []) (hd : s.default.dist ≠ []) :
    ∃ cs c, s.describe = .ok (cs, c) ∧ List.Forall₂ (fun r c => IsMajority r.dist c) s.rules cs ∧
      IsMajority s.default.dist c := by
  obtain ⟨cs, h1, h2⟩ := describeRules_ok s.rules h
  obtain ⟨c, hc, hm⟩ := majorityOf_ok s.default.dist hd
  exact ⟨cs, c, by simp [St.describe, h1, hc, Except.map], h2, hm⟩

/-- C245 (violated): the description of a new classifier raises `ValueError`. -/
theorem C245_untrained_violated : (St.init : St O D).describe = .error .valueError := rfl

/-- C245 (violated): with `foil_gain`, the description raises `ValueError` directly after the first
rules have been made, because the default rule starts again from nothing. -/
theorem C245_foil_description_violated :
    let E := exEnv .le (fun _ _ => ((1 : ℚ) : WithBot ℚ)) .foil true .firstHit 1 5 2 (1/2) none
    let s := St.init.fit E [inst (-1) 0, inst 1 1]
    s.rules.length = 2 ∧ (match s.describe with | .error .valueError => true | _ => false) = true := by
  decide +kernel

/-- Suggestions are clear for class 1 (attribute 0 first, later attribute 1) and tied for the other
classes. -/
def readEnv : Env (List (ℚ × Nat × ℚ)) Bool Unit :=
  { exEnv .le (fun _ _ => ((1 : ℚ) : WithBot ℚ)) .foil true .firstHit 2 5 3 (1/2) none with
    suggest := fun _ o _ i c =>
      (some ⟨i, 0, .le, countsOf (· ≤ 0) o, countsOf (· > 0) o,
        if c = some 1 ∧ i = (if o.length ≥ 3 then 0 else 1) then ((5 : ℚ) : WithBot ℚ) else ((1 : ℚ) : WithBot ℚ)⟩, ()) }

/-- C245 (violated): with `foil_gain` looking at the rules changes what is learned later: the rule
made for class 1 gets a second condition, unless `get_model_rules` was called before, which
turns it into a rule for class 0. -/
theorem C245_foil_violated :
    let s := St.init.fit readEnv [inst (-1) 0, inst (-1) 1, inst (-1) 0]
    s.rules.map (fun r => (r.preds, r.cls)) = [([⟨0, .le, 0⟩], some 1)] ∧
    (s.fit readEnv [inst (-1) 0]).rules.map (fun r => r.preds) = [[⟨0, .le, 0⟩, ⟨1, .le, 0⟩]] ∧
    s.modelRules.toOption.map (fun s' => s'.rules.map fun r => (r.preds, r.cls)) = some [([⟨0, .le, 0⟩], some 0)] ∧
    s.modelRules.toOption.map (fun s' => (s'.fit readEnv [inst (-1) 0]).rules.map fun r => r.preds) =
      some [[⟨0, .le, 0⟩]] := by
  decide +kernel

/-- A model after training, all of whose rules have seen something. -/
example :
    let E := exEnv .le (fun _ _ => ((1 : ℚ) : WithBot ℚ)) .gain true .firstHit 1 5 4 (1/2) none
    let s := St.init.fit E [inst (-1) 0, inst (-2) 0, inst (-1) 1, inst 3 1]
    (s.rules.all fun r => r.dist ≠ []) = true ∧ s.rules.length = 1 ∧ s.describe.toOption = some ([0], 1) := by
  decide +kernel

end Verif.Rules
