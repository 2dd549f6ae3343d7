import Verif.Dict
import Mathlib.Data.List.Sort
import Mathlib.Order.WithBot

/-!
Model of `VeryFastDecisionRulesClassifier` (rules/very_fast_decision_rules.py) and of
the rules and predicates it is made of (rules/base_rule.py, rules/base_predicate.py).

Simplifications: attribute values and weights are rational numbers; a row is a
function from attribute index to value, defined for every attribute a rule tests;
attribute observers, the split criterion (whose state is threaded through, because one
criterion object serves a whole attempt), naive Bayes votes, the Hoeffding bound and
the drift detector are arbitrary functions; a merit of `-inf` is `⊥`.
-/

namespace Verif.Rules

/-- The operator strings understood by `Predicate.covers_instance`; `other` is any
other string (rules/base_predicate.py 76-88). -/
inductive Op where
  | gt | lt | ge | le | eqeq | eq | ne | other
  deriving DecidableEq

/-- `Predicate` (rules/base_predicate.py 30-34). -/
structure Pred where
  att : Nat
  op : Op
  value : ℚ
  deriving DecidableEq

/-- `Predicate.covers_instance` (rules/base_predicate.py 60-88). -/
def Pred.covers (p : Pred) (x : Nat → ℚ) : Bool :=
  match p.op with
  | .gt => x p.att > p.value
  | .lt => x p.att < p.value
  | .ge => x p.att ≥ p.value
  | .le => x p.att ≤ p.value
  | .eqeq => x p.att = p.value
  | .eq => x p.att = p.value
  | .ne => x p.att ≠ p.value
  | .other => false

/-- `Predicate.__eq__` (rules/base_predicate.py 112-128). -/
def Pred.pyEq (p q : Pred) : Bool := q.att = p.att && q.op = p.op

/-- `Rule` (rules/base_rule.py 26-36; rules/very_fast_decision_rules.py 167-171):
conditions, observed class distribution, weight at the last expansion attempt,
attribute observers by attribute, drift detector, class. -/
structure Rule (O D : Type) where
  preds : List Pred
  dist : SDict Nat ℚ
  last : ℚ
  obs : List (Nat × O)
  det : Option D
  cls : Option Nat

/-- `AttributeExpandSuggestion` (rules/attribute_expand_suggestion.py 1-7);
`left`/`right` are `resulting_stats_from_split(0)`/`(1)`. -/
structure Sugg where
  att : Nat
  value : ℚ
  op : Op
  left : SDict Nat ℚ
  right : SDict Nat ℚ
  merit : WithBot ℚ

/-- Which expand criterion: `gain` for `info_gain` and `hellinger`, `foil`. -/
inductive Crit where
  | gain | foil
  deriving DecidableEq

/-- How votes are retrieved, line 365-370. -/
inductive Mode where
  | firstHit | weightedMax | weightedSum
  deriving DecidableEq

/-- Hyper-parameters and the parts not modelled. -/
structure Env (O D K : Type) where
  nAtt : Nat
  freshObs : Nat → O
  update : O → ℚ → Nat → ℚ → O
  nullObs : O
  crit0 : K
  suggest : K → O → SDict Nat ℚ → Nat → Option Nat → Option Sugg × K
  bound : SDict Nat ℚ → ℚ → ℚ
  nb : (Nat → ℚ) → SDict Nat ℚ → List (Nat × O) → SDict Nat ℚ
  detector : Option D
  detAdd : D → Nat → D
  detChange : D → Bool
  detReset : D → D
  crit : Crit
  ordered : Bool
  mode : Mode
  grace : ℚ
  tie : ℚ
  maxRules : Nat
  minWeight : ℚ
  nbThreshold : ℚ
  nbPrediction : Bool
  removePoor : Bool

variable {O D K : Type}

/-- `Rule.covers_instance` (rules/base_rule.py 62-79). -/
def Rule.covers (r : Rule O D) (x : Nat → ℚ) : Bool := r.preds.all fun p => p.covers x

/-- `Rule.__eq__` (rules/base_rule.py 119-126). -/
def Rule.pyEq (r s : Rule O D) : Bool :=
  r.preds.length = s.preds.length && (r.preds.zip s.preds).all fun pq => pq.1.pyEq pq.2

/-- `get_weight_seen` (rules/very_fast_decision_rules.py 233-242). -/
def Rule.weight (r : Rule O D) : ℚ := (r.dist.map Prod.snd).sum

/-- `new_rule` and `Rule.__init__`, lines 167-171, 332-350. -/
def newRule (det : Option D) (cls : Option Nat) : Rule O D := ⟨[], [], 0, [], det, cls⟩

/-- `Rule.restart` (rules/base_rule.py 81-87; rules/very_fast_decision_rules.py 303-307). -/
def Rule.restart (E : Env O D K) (r : Rule O D) : Rule O D :=
  ⟨[], [], 0, [], r.det.map E.detReset, none⟩

/-- One step of the observer loop, lines 222-231. -/
def updObs (E : Env O D K) (obs : List (Nat × O)) (i : Nat) (v : ℚ) (y : Nat) (w : ℚ) : List (Nat × O) :=
  if obs.any (fun p => p.1 = i) then
    obs.map fun p => if p.1 = i then (i, E.update p.2 v y w) else p
  else obs ++ [(i, E.update (E.freshObs i) v y w)]

/-- `Rule.learn_from_instance`, lines 197-231. -/
def Rule.learn (E : Env O D K) (r : Rule O D) (x : Nat → ℚ) (y : Nat) (w : ℚ) : Rule O D :=
  { r with
    dist := r.dist.alter (fun o => o.getD 0 + w) y
    obs := (List.range E.nAtt).foldl (fun obs i => updObs E obs i (x i) y w) r.obs }

/-- `get_best_expand_suggestion`, lines 244-267, with one criterion object for all
observers. -/
def suggestAll (E : Env O D K) (dist : SDict Nat ℚ) (cls : Option Nat) :
    K → List (Nat × O) → List Sugg × K
  | k, [] => ([], k)
  | k, (i, o) :: obs =>
    let sk := E.suggest k o dist i cls
    let rest := suggestAll E dist cls sk.2 obs
    ((match sk.1 with
      | some s => [s]
      | none => []) ++ rest.1, rest.2)

/-- `sort(key=attrgetter('merit'))`, line 555: stable, ascending. -/
def sortSugg (l : List Sugg) : List Sugg := l.insertionSort fun a b => a.merit ≤ b.merit

/-- `best.merit - second.merit > bound`, where merits may be `-inf`
(`-inf - -inf` is `nan`, and no comparison with it holds). -/
def gapAbove : WithBot ℚ → WithBot ℚ → ℚ → Bool
  | some a, some b, h => a - b > h
  | some _, none, _ => true
  | none, _, _ => false

/-- The decision, lines 557-568 (also 594-604, 644-653), on the sorted suggestions;
`old` is the value `should_expand` has before. -/
def shouldExpand (E : Env O D K) (dist : SDict Nat ℚ) (weight : ℚ) (sugs : List Sugg) (old : Bool) : Bool :=
  match sugs.reverse with
  | best :: second :: _ =>
    if gapAbove best.merit second.merit (E.bound dist weight) || E.bound dist weight < E.tie then true else old
  | l => l.length > 0

/-- The statistics on the side of the new condition, lines 576-585, 610-615, 699-704. -/
def Sugg.kept (s : Sugg) : SDict Nat ℚ := if s.op = .eq ∨ s.op = .le then s.left else s.right

/-- The statistics on the other side, lines 579-580, 584-585. -/
def Sugg.rest (s : Sugg) : SDict Nat ℚ := if s.op = .eq ∨ s.op = .le then s.right else s.left

/-- `Predicate(best.att_idx, best.operator, best.att_val)`, line 572. -/
def Sugg.pred (s : Sugg) : Pred := ⟨s.att, s.op, s.value⟩

/-- A new rule made of the best suggestion, lines 572-578, 607-615. -/
def ruleOf (E : Env O D K) (s : Sugg) (cls : Option Nat) : Rule O D :=
  { newRule E.detector cls with preds := [s.pred], dist := s.kept }

/-- The state of the classifier: rule set and default rule. -/
structure St (O D : Type) where
  rules : List (Rule O D)
  default : Rule O D

/-- `__init__`, lines 968-969. -/
def St.init : St O D := ⟨[], newRule none none⟩

/-- `_create_rule` for `info_gain` and `hellinger`, lines 548-587. -/
def createGain (E : Env O D K) (s : St O D) : St O D :=
  let sugs := sortSugg (suggestAll E s.default.dist none E.crit0 s.default.obs).1
  match shouldExpand E s.default.dist s.default.weight sugs false, sugs.getLast? with
  | true, some best =>
    ⟨s.rules ++ [ruleOf E best none], { s.default.restart E with dist := best.rest }⟩
  | _, _ => { s with default := { s.default with last := s.default.weight } }

/-- The loop over the classes for `foil_gain`, lines 591-615: rules appended,
`should_expand`, criterion. -/
def foilLoop (E : Env O D K) (d : Rule O D) : List Nat → (List (Rule O D) × Bool × K) → List (Rule O D) × Bool × K
  | [], acc => acc
  | c :: cs, (rules, should, k) =>
    let sk := suggestAll E d.dist (some c) k d.obs
    let sugs := sortSugg sk.1
    let should := shouldExpand E d.dist d.weight sugs should
    match should, sugs.getLast? with
    | true, some best => foilLoop E d cs (rules ++ [ruleOf E best (some c)], true, sk.2)
    | _, _ => foilLoop E d cs (rules, should, sk.2)

/-- `_create_rule` for `foil_gain`, lines 588-619. -/
def createFoil (E : Env O D K) (s : St O D) : St O D :=
  let res := foilLoop E s.default (s.default.dist.map Prod.fst) (s.rules, false, E.crit0)
  ⟨res.1, if res.2.1 then s.default.restart E else { s.default with last := s.default.weight }⟩

/-- `_create_rule`, lines 539-621. -/
def createRule (E : Env O D K) (s : St O D) : St O D :=
  if s.default.dist.length ≥ 2 then
    match E.crit with
    | .gain => createGain E s
    | .foil => createFoil E s
  else { s with default := { s.default with last := s.default.weight } }

/-- The loop over the conditions, lines 681-693: the first condition with the same
operator and attribute is tightened; `none` if there is none. -/
def mergePred (new : Pred) : List Pred → Option (List Pred)
  | [] => none
  | p :: ps =>
    if p.op = new.op ∧ p.att = new.att then
      some ((match p.op with
        | .le => { p with value := min p.value new.value }
        | .gt => { p with value := max p.value new.value }
        | _ => p) :: ps)
    else (mergePred new ps).map (p :: ·)

/-- The expansion itself, lines 677-704. -/
def applyBest (r : Rule O D) (s : Sugg) : Rule O D :=
  match mergePred s.pred r.preds with
  | some ps =>
    { r with
      preds := ps
      dist := match s.op with
        | .le => s.left
        | .gt => s.right
        | _ => r.dist
      obs := [] }
  | none => { r with preds := r.preds ++ [s.pred], dist := s.kept, obs := [] }

/-- `m - s > h` and `m - s < h` for merits, lines 662, 669. -/
def gapBelow : WithBot ℚ → WithBot ℚ → ℚ → Bool
  | some a, some b, h => a - b < h
  | some _, none, _ => false
  | none, _, _ => false

/-- `remove_poor_atts`, lines 655-675: the attributes disabled. -/
def poorAtts (best : Sugg) (h : ℚ) (sugs : List Sugg) : List Nat :=
  let poor := (sugs.filter fun s => gapAbove best.merit s.merit h).map Sugg.att
  let good := (sugs.filter fun s => gapBelow best.merit s.merit h).map Sugg.att
  poor.filter fun i => !good.contains i

/-- `disable_attribute`, lines 291-301, for each poor attribute. -/
def disable (E : Env O D K) (atts : List Nat) (obs : List (Nat × O)) : List (Nat × O) :=
  obs.map fun p => if atts.contains p.1 then (p.1, E.nullObs) else p

/-- The part of `_expand_rule` up to the decision, lines 631-675: the rule with poor
attributes disabled, and the suggestion to apply. -/
def considerExpand (E : Env O D K) (r : Rule O D) (cls : Option Nat) : Rule O D × Option Sugg :=
  let sugs := sortSugg (suggestAll E r.dist cls E.crit0 r.obs).1
  let r' := match sugs.reverse with
    | best :: _ :: _ =>
      if E.removePoor then { r with obs := disable E (poorAtts best (E.bound r.dist r.weight) sugs) r.obs } else r
    | _ => r
  (r', if shouldExpand E r.dist r.weight sugs false then sugs.getLast? else none)

/-- The loop 706-782 (`foil_gain`, unordered rules): one expanded copy of the rule for
every other class, if that copy's own suggestions say so. -/
def foilCopies (E : Env O D K) (r : Rule O D) : List Nat → List (Rule O D)
  | [] => []
  | c :: cs =>
    if some c ≠ r.cls then
      let copy := { r with cls := some c }
      match considerExpand E copy (some c) with
      | (copy', some best) => applyBest copy' best :: foilCopies E r cs
      | _ => foilCopies E r cs
    else foilCopies E r cs

/-- `_expand_rule`, lines 623-782: the expanded rule and the rules appended. -/
def expandRule (E : Env O D K) (r : Rule O D) : Rule O D × List (Rule O D) :=
  if r.dist.length ≥ 2 then
    match considerExpand E r (if E.crit = .foil then r.cls else none) with
    | (r', some best) =>
      let r'' := applyBest r' best
      (r'', if mergePred best.pred r'.preds = none ∧ E.crit = .foil ∧ E.ordered = false then
          foilCopies E r'' (r''.dist.map Prod.fst) else [])
    | (r', none) => (r', [])
  else (r, [])

/-- Learning and attempted expansion of a rule that fires, lines 526-529. -/
def ruleStep (E : Env O D K) (r : Rule O D) (x : Nat → ℚ) (y : Nat) (w : ℚ) : Rule O D × List (Rule O D) :=
  let r := r.learn E x y w
  if r.weight - r.last ≥ E.grace then
    let e := expandRule E r
    ({ e.1 with last := e.1.weight }, e.2)
  else (r, [])

/-- `Rule.predict`, lines 309-330: 1 if the majority class is `y`; the first class with
the largest weight, and class 0 without observations. -/
def Rule.correct (r : Rule O D) (y : Nat) : Nat :=
  let m := r.dist.foldl (fun (b : Option (Nat × ℚ)) p =>
    match b with
    | none => some p
    | some q => if p.2 > q.2 then some p else b) none
  if (match m with
    | none => 0
    | some q => q.1) = y then 1 else 0

/-- The check of the drift detector, lines 520-523: the rule with its detector
updated, and whether it is to be removed. -/
def Rule.check (E : Env O D K) (r : Rule O D) (y : Nat) : Rule O D × Bool :=
  match E.detector, r.det with
  | some _, some d =>
    let d := E.detAdd d (r.correct y)
    ({ r with det := some d }, E.detChange d && r.weight > E.minWeight)
  | _, _ => (r, false)

/-- The loop `for i, rule in enumerate(self.rule_set)`, lines 517-531: the rules left,
the rules appended, `rule_fired`. `rule_set.pop(i)` shifts the list under the loop, so
the rule after a removed one is not visited. -/
def scan (E : Env O D K) (x : Nat → ℚ) (y : Nat) (w : ℚ) :
    List (Rule O D) → List (Rule O D) × List (Rule O D) × Bool
  | [] => ([], [], false)
  | r :: rest =>
    if r.covers x then
      let c := r.check E y
      if c.2 then
        match rest with
        | [] => ([], [], true)
        | n :: rest =>
          let t := scan E x y w rest
          (n :: t.1, t.2.1, true)
      else
        let s := ruleStep E c.1 x y w
        if E.ordered then (s.1 :: rest, s.2, true)
        else
          let t := scan E x y w rest
          (s.1 :: t.1, s.2 ++ t.2.1, true)
    else
      let t := scan E x y w rest
      (r :: t.1, t.2.1, t.2.2)

/-- `_partial_fit`, lines 500-537. Rules appended while the loop runs are not visited
by this model; `C109_no_copies` shows none are. -/
def St.learn (E : Env O D K) (s : St O D) (x : Nat → ℚ) (y : Nat) (w : ℚ) : St O D :=
  let t := scan E x y w s.rules
  let s := { s with rules := t.1 ++ t.2.1 }
  if t.2.2 then s
  else
    let s := { s with default := s.default.learn E x y w }
    if E.maxRules > s.rules.length ∧ s.default.weight - s.default.last ≥ E.grace then createRule E s else s

/-- A training instance. -/
structure Inst where
  x : Nat → ℚ
  y : Nat
  w : ℚ

/-- `partial_fit`, lines 451-498, with weights given. -/
def St.fit (E : Env O D K) (s : St O D) (batch : List Inst) : St O D :=
  batch.foldl (fun s i => if i.w ≠ 0 then s.learn E i.x i.y i.w else s) s

/-- `Rule.get_class_votes`, lines 269-289. -/
def Rule.votes (E : Env O D K) (r : Rule O D) (x : Nat → ℚ) : SDict Nat ℚ :=
  if r.weight ≥ E.nbThreshold ∧ E.nbPrediction then E.nb x r.dist r.obs else r.dist

/-- `if sum(votes.values()) != 0: normalize_values_in_dict(votes)` (utils/utils.py 47-64). -/
def normVotes (v : SDict Nat ℚ) : SDict Nat ℚ :=
  let t := (v.map Prod.snd).sum
  if t ≠ 0 then v.map fun p => (p.1, p.2 / t) else v

/-- `first_hit`, lines 372-391. -/
def firstHit (E : Env O D K) (s : St O D) (x : Nat → ℚ) : SDict Nat ℚ :=
  match s.rules.find? fun r => r.covers x with
  | some r => r.votes E x
  | none => s.default.votes E x

/-- `weighted_max`, lines 393-420. -/
def weightedMax (E : Env O D K) (s : St O D) (x : Nat → ℚ) : SDict Nat ℚ :=
  ((s.rules.filter fun r => r.covers x).foldl (fun (a : ℚ × SDict Nat ℚ) r =>
    let v := normVotes (r.votes E x)
    v.foldl (fun (a : ℚ × SDict Nat ℚ) p => if p.2 ≥ a.1 then (p.2, v) else a) a)
    (0, s.default.votes E x)).2

/-- The union of two vote dictionaries, line 445. -/
def addVotes (a b : SDict Nat ℚ) : SDict Nat ℚ :=
  (a.map fun p => (p.1, p.2 + (b.get? p.1).getD 0)) ++ b.filter fun p => (a.get? p.1).isNone

/-- `weighted_sum`, lines 422-449. -/
def weightedSum (E : Env O D K) (s : St O D) (x : Nat → ℚ) : SDict Nat ℚ :=
  match s.rules.filter fun r => r.covers x with
  | [] => s.default.votes E x
  | fired => fired.foldl (fun acc r => normVotes (addVotes acc (normVotes (r.votes E x)))) []

/-- `get_votes_for_instance`, lines 352-370; with ordered rules the retrieval is
always `first_hit`, lines 1049-1056. -/
def votesFor (E : Env O D K) (s : St O D) (x : Nat → ℚ) : SDict Nat ℚ :=
  match if E.ordered then .firstHit else E.mode with
  | .firstHit => firstHit E s x
  | .weightedMax => weightedMax E s x
  | .weightedSum => weightedSum E s x

/-- The loop 834-835; an index beyond the row raises `IndexError`. -/
def fillRow : SDict Nat ℚ → List ℚ → Except PyErr (List ℚ)
  | [], row => .ok row
  | (k, v) :: vs, row => if k < row.length then fillRow vs (row.set k v) else .error .indexError

/-- One row of `predict_proba`, lines 823-836; `classes` as given to `partial_fit`. -/
def probaRow (E : Env O D K) (classes : Option (List Nat)) (s : St O D) (x : Nat → ℚ) : Except PyErr (List ℚ) :=
  let v := votesFor E s x
  if v = [] then .ok [0]
  else
    let v := normVotes v
    match classes with
    | some [] => .error .valueError
    | some cs => fillRow v (List.replicate (cs.foldl max 0 + 1) 0)
    | none => fillRow v (List.replicate ((v.map Prod.fst).foldl max 0 + 1) 0)

end Verif.Rules
