import Verif.Meta.Forest
import Verif.Meta.LifeRun
import Mathlib.Algebra.Order.Field.Basic
import Mathlib.Algebra.Order.Ring.Abs
import Mathlib.Data.List.Sort

/-!
Model of `AdaptiveRandomForestRegressor` and `ARFRegBaseLearner`
(`meta/adaptive_random_forest_regressor.py`); C142-C145.

Trees, detectors, random draws and the square root are parameters, as is the ordered field
`F` of target values (ℝ with its square root, or ℚ for computations).
-/

namespace Verif.Meta.ForestReg

/-- `drift_detection_criteria`. -/
inductive Crit
  | mse
  | mae
  | predictions

/-- Trees and detectors, as in `Forest.Env`; a prediction is a number, and the detectors are
fed with numbers. -/
structure Env (F X T D R : Type) where
  blank : R → T
  train : R → X × F × Nat → T → T
  predict : T → X → F
  newDrift : Option D
  newWarn : Option D
  add : D → F → D × Bool
  resetD : D → D
  crit : Crit
  sqrt : F → F

/-- `_k`, `_pM`, `_pS` of `ARFRegBaseLearner`. -/
structure Norm (F : Type) where
  k : Nat
  mean : F
  s : F

/-- A background learner: tree, `created_on`, its own detectors and evaluator. -/
structure Bg (F T D : Type) where
  tree : T
  created : Nat
  drift : Option D
  warn : Option D
  evals : List (F × F)

/-- `ARFRegBaseLearner`, lines 478-514; `evals` are the results (target, prediction) held by
the evaluator. -/
structure Mem (F T D : Type) where
  tree : T
  created : Nat
  lastDrift : Nat
  lastWarn : Nat
  nDrift : Nat
  nWarn : Nat
  drift : Option D
  warn : Option D
  bg : Option (Bg F T D)
  evals : List (F × F)
  norm : Norm F

variable {F X T D R : Type} [Field F] [LinearOrder F]

/-- `_normalize_drift_input`, lines 516-544. -/
def normStep (sqrt : F → F) (s : Norm F) (x : F) : Norm F × F :=
  let k := s.k + 1
  if k = 1 then (⟨k, x, 0⟩, 0)
  else
    let mean := s.mean + (x - s.mean) / k
    let s' := s.s + (x - s.mean) * (x - mean)
    let sd := sqrt (s' / ((k : F) - 1))
    let z := if sd > 0 then (x - mean) / sd else 0
    (⟨k, mean, s'⟩, (z + 3) / 6)

/-- Lines 580-586: what is monitored. -/
def rawInput (c : Crit) (y p : F) : F :=
  match c with
  | .mse => (y - p) * (y - p)
  | .mae => |y - p|
  | .predictions => p

/-- `ARFRegBaseLearner.__init__`, lines 478-514. -/
def newMem (E : Env F X T D R) (tree : T) (t : Nat) : Mem F T D :=
  ⟨tree, t, 0, 0, 0, 0, E.newDrift, E.newWarn, none, [], ⟨0, 0, 0⟩⟩

/-- `ARFRegBaseLearner.reset`, lines 546-562. -/
def resetMem (E : Env F X T D R) (m : Mem F T D) (t : Nat) (r : R) : Mem F T D :=
  let m : Mem F T D := match m.warn.isSome, m.bg with
    | true, some b =>
      { m with tree := b.tree, evals := b.evals, warn := b.warn, drift := b.drift, created := b.created, bg := none }
    | _, _ => { m with tree := E.blank r, created := t, drift := m.drift.map E.resetD, evals := [] }
  { m with norm := { m.norm with k := 0 } }

/-- Lines 590-614: the warning detector. -/
def warnStep (E : Env F X T D R) (m : Mem F T D) (v : F) (t : Nat) (r : R) : Mem F T D :=
  match m.warn with
  | none => m
  | some w =>
    let (w', c) := E.add w v
    if c then
      { m with lastWarn := t, nWarn := m.nWarn + 1, bg := some ⟨E.blank r, t, E.newDrift, E.newWarn, []⟩,
               warn := some (E.resetD w') }
    else { m with warn := some w' }

/-- Lines 616-624: the drift detector. -/
def driftStep (E : Env F X T D R) (m : Mem F T D) (v : F) (t : Nat) (r : R) : Mem F T D :=
  match m.drift with
  | none => m
  | some d =>
    let (d', c) := E.add d v
    if c then resetMem E { m with drift := some d', lastDrift := t, nDrift := m.nDrift + 1 } t r
    else { m with drift := some d' }

/-- `ARFRegBaseLearner.partial_fit`, lines 564-624. -/
def fitMem (E : Env F X T D R) (m : Mem F T D) (x : X) (y : F) (t : Nat) (q : Forest.Draw R) : Mem F T D :=
  let p := E.predict m.tree x
  let bg := m.bg.map fun b =>
    { b with evals := b.evals ++ [(y, E.predict b.tree x)], tree := E.train q.r2 (x, y, q.k) b.tree }
  let m : Mem F T D := { m with evals := m.evals ++ [(y, p)], tree := E.train q.r1 (x, y, q.k) m.tree, bg := bg }
  if m.drift.isSome then
    let (norm, v) := normStep E.sqrt m.norm (rawInput E.crit y p)
    driftStep E (warnStep E { m with norm := norm } v t q.r3) v t q.r4
  else m

/-- The body of the loop of `partial_fit`, lines 292-298. -/
def feed (E : Env F X T D R) (m : Mem F T D) (e : X × F) (t : Nat) (q : Forest.Draw R) : Mem F T D :=
  if q.k > 0 then fitMem E m e.1 e.2 t q else m

/-- The forest: `instances_seen`, `ensemble`. -/
structure St (F T D : Type) where
  n : Nat
  ensemble : Option (List (Mem F T D))

/-- Constructor of the base class. -/
def init : St F T D := ⟨0, none⟩

/-- `_init_ensemble`, lines 355-388 (`r0 i` are the draws of the constructor of tree `i`). -/
def ensure (E : Env F X T D R) (N : Nat) (r0 : Nat → R) (s : St F T D) : St F T D :=
  match s.ensemble with
  | some _ => s
  | none => { s with ensemble := some ((List.range N).map fun i => newMem E (E.blank (r0 i)) s.n) }

/-- Lines 289-298; `dr t i` are the draws for member `i` at instance `t`. -/
def fitOne (E : Env F X T D R) (dr : Nat → Nat → Forest.Draw R) (s : St F T D) (e : X × F) : St F T D :=
  let n := s.n + 1
  ⟨n, s.ensemble.map fun ms => ms.zipIdx.map fun q => feed E q.1 e n (dr n q.2)⟩

/-- A call: `partial_fit` with rows and targets (the weights given are not used), or
`predict`, which creates the ensemble if there is none. -/
inductive Call (F X : Type)
  | fit (rows : List (X × F))
  | ask

/-- `partial_fit`, lines 284-300; `predict`, lines 317-318. -/
def call (E : Env F X T D R) (N : Nat) (r0 : Nat → R) (dr : Nat → Nat → Forest.Draw R) (s : St F T D) :
    Call F X → St F T D
  | .ask => ensure E N r0 s
  | .fit rows => rows.foldl (fitOne E dr) (ensure E N r0 s)

/-- A sequence of calls. -/
def run (E : Env F X T D R) (N : Nat) (r0 : Nat → R) (dr : Nat → Nat → Forest.Draw R) (calls : List (Call F X))
    (s : St F T D) : St F T D := calls.foldl (call E N r0 dr) s

/-- `reset`, lines 345-353 (`max_features` is in `maxCall`). -/
def reset (_ : St F T D) : St F T D := ⟨0, none⟩

/-! ### Prediction -/

/-- `weighted_vote_strategy`. -/
inductive Vote
  | mse
  | mae
  | none

/-- `get_error`, lines 626-631, with `RegressionMeasurements` (`metrics/measure_collection.py`,
lines 1091-1136). -/
def getError (v : Vote) (evals : List (F × F)) : F :=
  if evals.length = 0 then 0
  else match v with
    | .mae => (evals.map fun e => |e.1 - e.2|).sum / evals.length
    | _ => (evals.map fun e => (e.1 - e.2) * (e.1 - e.2)).sum / evals.length

/-- `predictions.mean()`; `none` is nan. -/
def meanOf (ps : List F) : Option F := if ps.length = 0 then none else some (ps.sum / ps.length)

/-- `np.median`. -/
def medianOf (ps : List F) : Option F :=
  let s := ps.insertionSort (· ≤ ·)
  if s.length = 0 then none
  else if s.length % 2 = 1 then some (s.getD (s.length / 2) 0)
  else some ((s.getD (s.length / 2 - 1) 0 + s.getD (s.length / 2) 0) / 2)

/-- `predict` for one sample, lines 323-337; `ms` are the members' errors and predictions. -/
def aggregate (useMedian : Bool) (v : Vote) (ms : List (F × F)) : Option F :=
  let ps := ms.map Prod.snd
  if useMedian then medianOf ps
  else match v with
    | .none => meanOf ps
    | _ =>
      let total := (ms.map Prod.fst).sum
      if total ≠ 0 then
        let ws := ms.map fun m => total - m.1
        let t := ws.sum
        if t = 0 then none
        else
          let ws := ws.map fun w => w / t
          some (((ws.zip ps).map fun q => q.1 * q.2).sum / ws.sum)
      else meanOf ps

/-! ### Number of features -/

/-- `_set_max_features`, lines 390-421; `rs`, `rl` are the rounded square root and binary
logarithm of `n`; `int(f * n)` truncates towards zero. -/
def setMaxF (rs rl : Int) (p : Forest.MaxF) (n : Nat) : Except PyErr Int :=
  let v : Except PyErr Int := match p with
    | .auto => .ok rs
    | .log2 => .ok rl
    | .int k => .ok k
    | .float f => if f ≤ 0 ∨ f > 1 then .error .valueError else .ok ⌊f * n⌋
    | .none => .ok n
  v.map fun (m : Int) =>
    let m : Int := if m < 0 then m + n else m
    let m : Int := if m ≤ 0 then 1 else m
    if m > n then (n : Int) else m

/-- What concerns `max_features`: data of `n` features reach a forest without ensemble
(`_init_ensemble`, line 356), and `reset`, line 351. -/
inductive MaxCall
  | build (n : Nat)
  | reset

/-- The attribute `max_features` and the value handed to the trees; `rs n`, `rl n` as in
`setMaxF`. -/
def maxCall (rs rl : Nat → Int) (p : Forest.MaxF) : MaxCall → Except PyErr (Forest.MaxF × Option Int)
  | .build n => (setMaxF (rs n) (rl n) p n).map fun (m : Int) => (.int m, some m)
  | .reset => .ok (.int 0, none)

/-- The values handed to the trees in a sequence of calls. -/
def maxRun (rs rl : Nat → Int) : Forest.MaxF → List MaxCall → Except PyErr (List Int)
  | _, [] => .ok []
  | p, c :: cs => do
    let (p', o) ← maxCall rs rl p c
    let vs ← maxRun rs rl p' cs
    pure (o.toList ++ vs)

end Verif.Meta.ForestReg
