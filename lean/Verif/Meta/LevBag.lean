import Verif.Meta.OzaAdwin
import Verif.Meta.Leverage

/-!
Model of `meta/leverage_bagging.py` (LeveragingBaggingClassifier): construction, training,
drift handling, `reset` and the code-matrix voting; C195-C199.

Simplifications: a base learner is an arbitrary state with an arbitrary `partial_fit`,
`predict` (`none` for a Python `None`), `predict_proba` and `reset` on one sample; these do
not raise.  The change detector is a parameter as in `Meta/OzaAdwin.lean`; here it is fed
`true` for an error.  The random generator is an arbitrary state machine.  The
generation of the code matrix (C42, `Meta/Leverage.lean`) is a parameter.  An exception in
the middle of a batch is the result `error`; the half-updated state is not described.
The soft voting without a code matrix (lines 382-406) is the same code as in
`meta/oza_bagging.py` and modelled there (C119).
-/

namespace Verif.Meta.LevBag

open Verif.Meta.Oza (Det checkClasses scanMax normalise)

variable {σ δ ρ X : Type}

/-- What the ensemble uses of its base learner. -/
structure Base (σ X : Type) where
  init : σ
  fit : σ → X → Int → List Int → σ
  predict : σ → X → Option Int
  proba : σ → X → List ℚ
  reset : σ → σ

/-- `_LEVERAGE_ALGORITHMS`, lines 133-137. -/
inductive Alg where
  | bag | me | half | wt | subag
  deriving DecidableEq

/-- The random generator: `poisson(w)`, `rand()`, `randint(2)` and `__init_output_codes`
(lines 306-326) for so many members and classes. -/
structure Rng (ρ : Type) where
  start : ρ
  poisson : ℚ → ρ → Nat × ρ
  rand : ρ → ℚ × ρ
  randint2 : ρ → Nat × ρ
  codes : Nat → Nat → ρ → List (List Bool) × ρ

/-- The constructor parameters. -/
structure Conf where
  n : Nat
  w : ℚ
  alg : Alg
  code : Bool

/-- `ensemble` with `adwin_ensemble`, `classes`, `matrix_codes`, `init_matrix_codes`,
`n_detected_changes`, `_random_state`. -/
structure St (σ δ ρ : Type) where
  members : List (σ × δ)
  classes : Option (List Int)
  codes : Option (List (List Bool))
  initCodes : Bool
  changes : Nat
  gen : ρ
  deriving DecidableEq

/-- `__configure`, lines 170-179; `codes` is what was there before. -/
def configure (b : Base σ X) (d : Det δ) (r : Rng ρ) (cf : Conf) (codes : Option (List (List Bool))) :
    St σ δ ρ :=
  ⟨List.replicate cf.n (b.init, d.new), none, codes, true, 0, r.start⟩

/-- `__init__`, lines 139-168. -/
def fresh (b : Base σ X) (d : Det δ) (r : Rng ρ) (cf : Conf) : St σ δ ρ := configure b d r cf none

/-- `reset`, lines 461-470. -/
def reset (b : Base σ X) (d : Det δ) (r : Rng ρ) (cf : Conf) (s : St σ δ ρ) : St σ δ ρ :=
  configure b d r cf s.codes

/-- Lines 234-267: how often the member is trained. -/
def drawK (r : Rng ρ) (cf : Conf) (est : ℚ) (pred : Option Int) (y : Int) (g : ρ) : Nat × ρ :=
  match cf.alg with
  | .bag => r.poisson cf.w g
  | .me =>
    match pred with
    | none => (1, g)
    | some p =>
      if p ≠ y then (1, g)
      else if est ≠ 1 then
        let u := r.rand g
        (if u.1 < est / (1 - est) then 1 else 0, u.2)
      else (0, g)
  | .half => let u := r.randint2 g; (if u.1 = 1 then 0 else 1, u.2)
  | .wt => let u := r.poisson 1 g; (1 + u.1, u.2)
  | .subag => let u := r.poisson 1 g; (if u.1 > 0 then 1 else 0, u.2)

/-- Python's `row[int(y)]`. -/
def pyGet (row : List Bool) (y : Int) : Option Bool :=
  if 0 ≤ y then row[y.toNat]? else if 0 ≤ y + row.length then row[(y + row.length).toNat]? else none

/-- The number standing for a code bit. -/
def bit (c : Bool) : Int := if c then 1 else 0

/-- Lines 274-279: `y_coded` and `classes`; `row` is the member's code row with a code matrix. -/
def target (row : Option (List Bool)) (classes : List Int) (k : Nat) (y : Int) :
    Except PyErr (Int × List Int) :=
  if k > 0 then
    match row with
    | none => .ok (y, classes)
    | some c =>
      match pyGet c y with
      | none => .error .indexError
      | some v => .ok (bit v, [0, 1])
  else .ok (y, classes)

/-- Lines 280-282. -/
def train (b : Base σ X) (x : X) (y : Int) (classes : List Int) : Nat → σ → σ
  | 0, s => s
  | k + 1, s => train b x y classes k (b.fit s x y classes)

/-- Lines 284-291: the detector afterwards and whether a rise was detected. -/
def score (d : Det δ) (a : δ) (pred : Option Int) (yc : Int) : δ × Bool :=
  match pred with
  | none => (a, false)
  | some p =>
    let before := d.est a
    let q := d.check (d.add a (if p = yc then false else true))
    (q.2, q.1 && decide (before < d.est q.2))

/-- Lines 232-291 for one member. -/
def visit (b : Base σ X) (d : Det δ) (r : Rng ρ) (cf : Conf) (row : Option (List Bool))
    (classes : List Int) (x : X) (y : Int) (m : σ × δ) (g : ρ) : Except PyErr ((σ × δ) × Bool × ρ) :=
  let k := drawK r cf (d.est m.2) (b.predict m.1 x) y g
  match target row classes k.1 y with
  | .error e => .error e
  | .ok t =>
    let s := train b x t.1 t.2 k.1 m.1
    let q := score d m.2 (b.predict s x) t.1
    .ok ((s, q.1), q.2, k.2)

/-- Lines 231-291: all members, from index `i` on. -/
def visitAll (b : Base σ X) (d : Det δ) (r : Rng ρ) (cf : Conf) (codes : Option (List (List Bool)))
    (classes : List Int) (x : X) (y : Int) :
    List (σ × δ) → Nat → Bool → ρ → Except PyErr (List (σ × δ) × Bool × ρ)
  | [], _, change, g => .ok ([], change, g)
  | m :: ms, i, change, g =>
    match visit b d r cf (codes.map fun c => c.getD i []) classes x y m g with
    | .error e => .error e
    | .ok v =>
      match visitAll b d r cf codes classes x y ms (i + 1) (change || v.2.1) v.2.2 with
      | .error e => .error e
      | .ok q => .ok (v.1 :: q.1, q.2)

/-- Lines 295-303. -/
def replaceWorst (b : Base σ X) (d : Det δ) (ms : List (σ × δ)) : List (σ × δ) :=
  match scanMax d ms 0 0 none with
  | none => ms
  | some i => ms.modify i fun m => (b.reset m.1, d.new)

/-- Lines 228-229. -/
def ready (r : Rng ρ) (cf : Conf) (classes : List Int) (s : St σ δ ρ) : St σ δ ρ :=
  if s.initCodes && cf.code then
    let c := r.codes cf.n classes.length s.gen
    { s with codes := some c.1, initCodes := false, gen := c.2 }
  else s

/-- `__partial_fit`, lines 227-304. -/
def step (b : Base σ X) (d : Det δ) (r : Rng ρ) (cf : Conf) (classes : List Int) (s : St σ δ ρ)
    (x : X) (y : Int) : Except PyErr (St σ δ ρ) :=
  let s := ready r cf classes s
  match visitAll b d r cf (if cf.code then s.codes else none) classes x y s.members 0 false s.gen with
  | .error e => .error e
  | .ok v =>
    if v.2.1 then
      .ok { s with members := replaceWorst b d v.1, changes := s.changes + 1, gen := v.2.2 }
    else .ok { s with members := v.1, gen := v.2.2 }

/-- Lines 221-223. -/
def steps (b : Base σ X) (d : Det δ) (r : Rng ρ) (cf : Conf) (classes : List Int) :
    St σ δ ρ → List (X × Int) → Except PyErr (St σ δ ρ)
  | s, [] => .ok s
  | s, q :: rows =>
    match step b d r cf classes s q.1 q.2 with
    | .error e => .error e
    | .ok s => steps b d r cf classes s rows

/-- `partial_fit`, lines 181-225; `sample_weight` is not used by the code. -/
def partialFit (b : Base σ X) (d : Det δ) (r : Rng ρ) (cf : Conf) (s : St σ δ ρ)
    (rows : List (X × Int)) (classes : Option (List Int)) : Except PyErr (St σ δ ρ) :=
  match checkClasses s.classes classes with
  | .error e => .error e
  | .ok known => steps b d r cf known { s with classes := some known } rows

/-- Lines 437-439. -/
def voteOf (p : List ℚ) : Bool :=
  if p.length = 2 then decide (p.getD 0 0 < p.getD 1 0) else false

/-- Lines 441-443: one member's vote added to the counts. -/
def addVote (row : List Bool) (v : Bool) (acc : List ℚ) : List ℚ :=
  acc.mapIdx fun j a => if row.getD j false = v then a + 1 else a

/-- Lines 435-443. -/
def countVotes (b : Base σ X) (codes : List (List Bool)) (x : X) :
    List (σ × δ) → Nat → List ℚ → List ℚ
  | [], _, acc => acc
  | m :: ms, i, acc =>
    countVotes b codes x ms (i + 1) (addVote (codes.getD i []) (voteOf (b.proba m.1 x)) acc)

/-- `predict_binary_proba`, lines 429-445, for one row; the 1-D zeros of line 431 have the
scalar `0` as row. -/
def binaryRow (b : Base σ X) (s : St σ δ ρ) (x : X) : List ℚ :=
  match s.classes with
  | none => [0]
  | some c =>
    let zero := List.replicate c.length (0 : ℚ)
    if s.initCodes then zero else normalise (countVotes b (s.codes.getD []) x s.members 0 zero)

/-- `predict` with a code matrix, lines 341-349, for one row. -/
def predictCode (b : Base σ X) (s : St σ δ ρ) (x : X) : Nat := Lazy.argmax (binaryRow b s x)

end Verif.Meta.LevBag
