import Verif.Meta.Life
import Verif.Trees.Predict
import Mathlib.Data.Rat.Floor

/-!
Model of `AdaptiveRandomForestClassifier` and `ARFBaseLearner`
(`meta/adaptive_random_forests.py`); C131, C132, C133.

The trees, the detectors and all random draws are parameters. A random draw (`R`) is
handed to every training step and every new tree, because the trees of a forest may share
one generator.
-/

namespace Verif.Meta.Forest

/-- Trees and detectors. `blank` is an untrained tree (constructor, `new_instance` and
`reset` of `ARFHoeffdingTreeClassifier`), `train` learns one sample with its integer
weight, `newDrift`/`newWarn` are the detectors given to the constructor (`None`: not
used), `add` is `add_element` followed by `detected_change`. -/
structure Env (X T D R : Type) where
  blank : R → T
  train : R → X × Int × Nat → T → T
  predict : T → X → Int
  votes : T → X → List (Int × ℚ)
  newDrift : Option D
  newWarn : Option D
  add : D → Bool → D × Bool
  resetD : D → D

/-- A background learner: its tree, `created_on` and its own detectors. -/
structure Bg (T D : Type) where
  tree : T
  created : Nat
  drift : Option D
  warn : Option D

/-- `ARFBaseLearner`, lines 516-553; `evals` are the results (prediction, label, weight)
held by the evaluator. -/
structure Mem (T D : Type) where
  tree : T
  created : Nat
  lastDrift : Nat
  lastWarn : Nat
  nDrift : Nat
  nWarn : Nat
  drift : Option D
  warn : Option D
  bg : Option (Bg T D)
  evals : List (Int × Int × ℚ)

/-- Random draws of one member for one instance: the Poisson weight and the draws for
training the tree, training the background tree and making new trees. -/
structure Draw (R : Type) where
  k : Nat
  r1 : R
  r2 : R
  r3 : R
  r4 : R

variable {X T D R : Type}

/-- `ARFBaseLearner.__init__`, lines 516-553. -/
def newMem (E : Env X T D R) (tree : T) (t : Nat) : Mem T D :=
  ⟨tree, t, 0, 0, 0, 0, E.newDrift, E.newWarn, none, []⟩

/-- `ARFBaseLearner.reset`, lines 555-567. -/
def resetMem (E : Env X T D R) (m : Mem T D) (t : Nat) (r : R) : Mem T D :=
  match m.warn.isSome, m.bg with
  | true, some b =>
    { m with tree := b.tree, warn := b.warn, drift := b.drift, created := b.created, bg := none, evals := [] }
  | _, _ => { m with tree := E.blank r, created := t, drift := m.drift.map E.resetD, evals := [] }

/-- Lines 579-598: the warning detector. -/
def warnStep (E : Env X T D R) (m : Mem T D) (err : Bool) (t : Nat) (r : R) : Mem T D :=
  match m.warn with
  | none => m
  | some w =>
    let (w', c) := E.add w err
    if c then
      { m with lastWarn := t, nWarn := m.nWarn + 1, bg := some ⟨E.blank r, t, E.newDrift, E.newWarn⟩,
               warn := some (E.resetD w') }
    else { m with warn := some w' }

/-- Lines 600-607: the drift detector. -/
def driftStep (E : Env X T D R) (m : Mem T D) (err : Bool) (t : Nat) (r : R) : Mem T D :=
  match m.drift with
  | none => m
  | some d =>
    let (d', c) := E.add d err
    if c then resetMem E { m with drift := some d', lastDrift := t, nDrift := m.nDrift + 1 } t r
    else { m with drift := some d' }

/-- `ARFBaseLearner.partial_fit`, lines 569-607. -/
def fitMem (E : Env X T D R) (m : Mem T D) (x : X) (y : Int) (t : Nat) (q : Draw R) : Mem T D :=
  let bg := m.bg.map fun b => { b with tree := E.train q.r2 (x, y, q.k) b.tree }
  let m := { m with tree := E.train q.r1 (x, y, q.k) m.tree, bg := bg }
  if m.drift.isSome then
    let err := decide (E.predict m.tree x ≠ y)
    driftStep E (warnStep E m err t q.r3) err t q.r4
  else m

/-- The body of the loop in `_partial_fit`, lines 323-331. -/
def feed (E : Env X T D R) (m : Mem T D) (e : X × Int × ℚ) (t : Nat) (q : Draw R) : Mem T D :=
  let m : Mem T D := { m with evals := m.evals ++ [(E.predict m.tree e.1, e.2.1, e.2.2)] }
  if q.k > 0 then fitMem E m e.1 e.2.1 t q else m

/-- The weights argument: a number, a list or an array. -/
inductive WArg
  | num (w : ℚ)
  | list (ws : List ℚ)
  | arr (ws : List ℚ)

/-- `utils/validation.py: check_weights`, lines 46-62. -/
def checkWeights (w : WArg) (n : Nat) : Except PyErr (List ℚ) :=
  match w with
  | .num w => if n ≥ 1 then .ok (List.replicate n w) else .error .valueError
  | .list ws => if n = 1 then .ok ws else .error .valueError
  | .arr ws =>
    if ws.length > 1 then if n = 1 then .ok ws else .error .valueError
    else match ws with
      | [w] => if n = 1 then .ok ws else if n > 1 then .ok (List.replicate n w) else .error .valueError
      | _ => .error .valueError

/-- The forest: `instances_seen`, `_train_weight_seen_by_model`, `ensemble`, `classes`. -/
structure St (T D : Type) where
  n : Nat
  weight : ℚ
  ensemble : Option (List (Mem T D))
  classes : Option (List Int)

/-- Constructor, lines 250-253. -/
def init : St T D := ⟨0, 0, none, none⟩

/-- `_init_ensemble`, lines 435-459 (`r0 i` are the draws of the constructor of tree `i`). -/
def ensure (E : Env X T D R) (N : Nat) (r0 : Nat → R) (s : St T D) : St T D :=
  match s.ensemble with
  | some _ => s
  | none => { s with ensemble := some ((List.range N).map fun i => newMem E (E.blank (r0 i)) s.n) }

/-- `_partial_fit`, lines 317-331; `dr t i` are the draws for member `i` at instance `t`. -/
def fitOne (E : Env X T D R) (N : Nat) (r0 : Nat → R) (dr : Nat → Nat → Draw R) (s : St T D) (e : X × Int × ℚ) : St T D :=
  let s := ensure E N r0 { s with n := s.n + 1 }
  { s with ensemble := s.ensemble.map fun ms => ms.zipIdx.map fun q => feed E q.1 e s.n (dr s.n q.2) }

/-- Lines 310-313: rows with their weights. -/
def fitRows (E : Env X T D R) (N : Nat) (r0 : Nat → R) (dr : Nat → Nat → Draw R) :
    List (X × Int) → List ℚ → St T D → Except PyErr (St T D)
  | [], _, s => .ok s
  | _ :: _, [], _ => .error .indexError
  | (x, y) :: rows, w :: ws, s =>
    fitRows E N r0 dr rows ws
      (if w ≠ 0 then fitOne E N r0 dr { s with weight := s.weight + w } (x, y, w) else s)

/-- A call: `partial_fit` with rows, labels, weights (`None` is 1) and classes, or a call of
`predict` or `predict_proba`, which creates the ensemble if there is none. -/
inductive Call (X : Type)
  | fit (rows : List (X × Int)) (w : Option WArg) (classes : Option (List Int))
  | ask

/-- `partial_fit`, lines 276-315; `predict_proba`, lines 376-377. -/
def call (E : Env X T D R) (N : Nat) (r0 : Nat → R) (dr : Nat → Nat → Draw R) (s : St T D) : Call X → Except PyErr (St T D)
  | .ask => .ok (ensure E N r0 s)
  | .fit rows w classes =>
    let s := if s.classes = none then { s with classes := classes } else s
    match checkWeights (w.getD (.num 1)) rows.length with
    | .error e => .error e
    | .ok ws => fitRows E N r0 dr rows ws s

/-- A sequence of calls. -/
def run (E : Env X T D R) (N : Nat) (r0 : Nat → R) (dr : Nat → Nat → Draw R) : List (Call X) → St T D → Except PyErr (St T D)
  | [], s => .ok s
  | c :: cs, s =>
    match call E N r0 dr s c with
    | .error e => .error e
    | .ok s' => run E N r0 dr cs s'

/-- `reset`, lines 404-409. -/
def reset (s : St T D) : St T D := { s with ensemble := none, n := 0, weight := 0 }

/-! ### Voting -/

/-- `accuracy_score` of the evaluator: the weight of right predictions divided by the
weight of all (0 for none). -/
def accuracy (evals : List (Int × Int × ℚ)) : ℚ :=
  let total := (evals.map fun e => e.2.2).sum
  if total = 0 then 0 else ((evals.filter fun e => e.1 = e.2.1).map fun e => e.2.2).sum / total

/-- `combined_votes[k] += v` with insertion at the end for a new key, lines 428-432. -/
def addVote : List (Int × ℚ) → Int × ℚ → List (Int × ℚ)
  | [], q => [q]
  | (k, v) :: l, q => if k = q.1 then (k, v + q.2) :: l else (k, v) :: addVote l q

/-- Lines 416-427: the votes of one member; `perf` its score. -/
def memVote (weighted : Bool) (perf : ℚ) (v : List (Int × ℚ)) : List (Int × ℚ) :=
  let s := (v.map Prod.snd).sum
  if s > 0 then
    let v := v.map fun q => (q.1, q.2 / s)
    if weighted ∧ perf ≠ 0 then v.map fun q => (q.1, q.2 * perf) else v
  else []

/-- `_get_votes_for_instance`, lines 411-433; `ms` are the members' votes with their scores. -/
def combine (weighted : Bool) (ms : List (ℚ × List (Int × ℚ))) : List (Int × ℚ) :=
  ms.foldl (fun acc m => (memVote weighted m.1 m.2).foldl addVote acc) []

/-- A row of `predict_proba`, lines 382-395, and the class `predict` picks, lines 346-352. -/
def proba (classes : Option (List Int)) (weighted : Bool) (ms : List (ℚ × List (Int × ℚ))) : Except PyErr (List ℚ) :=
  Trees.HL.probaRow classes (combine weighted ms)

/-! ### Number of features -/

/-- The parameter `max_features`; `auto` stands for every other value as well. -/
inductive MaxF
  | auto
  | log2
  | int (k : Int)
  | float (f : ℚ)
  | none

/-- `_set_max_features`, lines 461-488; `rs`, `rl` are the rounded square root and binary
logarithm of `n`; `int(f * n)` truncates towards zero. -/
def maxFeatures (rs rl : Nat → Int) (m : MaxF) (n : Nat) : Int :=
  let k : Int := match m with
    | .auto => rs n
    | .log2 => rl n
    | .int k => k
    | .float f => if 0 ≤ f then ⌊f * n⌋ else -⌊-(f * n)⌋
    | .none => n
  let k := if k < 0 then k + n else k
  let k := if k ≤ 0 then 1 else k
  if k > n then n else k

end Verif.Meta.Forest
