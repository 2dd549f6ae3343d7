import Verif.Meta.OzaAdwin
import Verif.Meta.Boosting

/-!
Model of `partial_fit` of the online ensembles for skewed classes:
`meta/online_adac2.py`, `meta/online_csb2.py`, `meta/online_rus_boost.py` and
`meta/online_under_over_bagging.py`.  The four files share everything but the bookkeeping per
member; that part is a `Scheme`.

Simplifications: the base learner is arbitrary (it may raise); the Poisson draws are an arbitrary
function of the number of draws so far and the rate; the change detector is arbitrary.  A division
by zero is an error here (numpy would give `inf` or `nan` and a warning); it is shown not to occur.
The object is modelled from its first `partial_fit` on (`__configure` done).  `predict` of a learner
gives the same answer when called again.
-/

namespace Verif.Meta.Skew

open Verif.Meta.Oza (Det feed checkClasses)
open Verif.Meta.Boosting (pdiv pickMax)

variable {σ δ X τ γ : Type}

/-- The base learner: `partial_fit` gets one sample, `classes` and `sample_weight` as the ensemble
got them. -/
structure Base (σ X : Type) where
  init : σ
  fit : σ → X → Int → Option (List Int) → Option (List ℚ) → Except PyErr σ
  predict : σ → List X → Except PyErr (List (Option Int))
  reset : σ → σ

/-- The bookkeeping: entries per member (`τ`) and shared counters (`γ`). -/
structure Scheme (τ γ : Type) where
  /-- Entries of a member configured by `__configure`. -/
  start : τ
  /-- Entries of a member appended by `__adjust_ensemble_size`. -/
  extra : τ
  /-- What `__adjust_ensemble_size` leaves of the entries of an existing member. -/
  rezero : τ → τ
  shared : γ
  /-- Counting a sample of this class before the draw. -/
  count : Int → ℚ → τ → τ
  bump : Int → γ → γ
  /-- Poisson rate for member `i` of `n`. -/
  rate : Int → Nat → Nat → ℚ → γ → τ → Except PyErr ℚ
  /-- Is the member's prediction consulted after this many trainings? -/
  looks : Nat → Bool
  /-- Update by the prediction: next weight and entries. -/
  after : Option Int → Int → ℚ → τ → Except PyErr (ℚ × τ)

/-- A member: learner, detector, entries. -/
structure M (σ δ τ : Type) where
  learner : σ
  det : δ
  tally : τ

/-- Parameters of the ensemble. -/
structure Env (σ δ X τ γ : Type) where
  sc : Scheme τ γ
  b : Base σ X
  d : Det δ
  drift : Bool
  poisson : Nat → ℚ → Nat

/-- What happened when a member was shown a sample; `seen` is its prediction afterwards, if the code
looked at it. -/
structure Visit (X : Type) where
  i : Nat
  x : X
  y : Int
  lam : ℚ
  rate : ℚ
  k : Nat
  seen : Option (Option Int)

/-- One call of `partial_fit`. -/
structure Call (X : Type) where
  rows : List (X × Int)
  classes : Option (List Int)
  weights : Option (List ℚ)

/-- The loop `for b in range(k)` (online_adac2.py 228-229 and the same lines of the others). -/
def trainN (b : Base σ X) (c : Call X) (x : X) (y : Int) : Nat → σ → Except PyErr σ
  | 0, s => .ok s
  | k + 1, s =>
    match b.fit s x y c.classes c.weights with
    | .error e => .error e
    | .ok s' => trainN b c x y k s'

/-- `predict([X[j]])[0]`. -/
def predict1 (b : Base σ X) (s : σ) (x : X) : Except PyErr (Option Int) :=
  match b.predict s [x] with
  | .error e => .error e
  | .ok [] => .error .indexError
  | .ok (p :: _) => .ok p

/-- Drift part (online_adac2.py 251-263): new detector state, new value of `change_detected`. -/
def watch (E : Env σ δ X τ γ) (c : Call X) (s : σ) (a : δ) (change : Bool) : Except PyErr (δ × Bool) :=
  if E.drift then
    match E.b.predict s (c.rows.map Prod.fst) with
    | .error .valueError => .ok (a, false)
    | .error e => .error e
    | .ok pred =>
      let before := E.d.est a
      let a' := feed E.d a (pred.zip (c.rows.map Prod.snd))
      let r := E.d.check a'
      .ok (r.2, if r.1 && decide (E.d.est r.2 > before) then true else change)
  else .ok (a, change)

/-- Consulting the prediction (if the code does) and updating the entries. -/
def judge (E : Env σ δ X τ γ) (x : X) (y : Int) (lam : ℚ) (k : Nat) (s : σ) (t : τ) :
    Except PyErr (Option (Option Int) × ℚ × τ) :=
  if E.sc.looks k then
    match predict1 E.b s x with
    | .error e => .error e
    | .ok p =>
      match E.sc.after p y lam t with
      | .error e => .error e
      | .ok (lam', t') => .ok (some p, lam', t')
  else .ok (none, lam, t)

/-- The inner loop over the members (online_adac2.py 224-263; the same structure in
online_csb2.py 217-255, online_rus_boost.py 221-284, online_under_over_bagging.py 202-225).
Returns the visits, the members, the shared counters, the number of draws and `change_detected`. -/
def visitAll (E : Env σ δ X τ γ) (c : Call X) (x : X) (y : Int) (n : Nat) :
    List (M σ δ τ) → Nat → ℚ → γ → Nat → Bool →
      Except PyErr (List (Visit X) × List (M σ δ τ) × γ × Nat × Bool)
  | [], _, _, g, pos, change => .ok ([], [], g, pos, change)
  | m :: ms, i, lam, g, pos, change =>
    let t := E.sc.count y lam m.tally
    let g' := E.sc.bump y g
    match E.sc.rate y i n lam g' t with
    | .error e => .error e
    | .ok rate =>
      let k := E.poisson pos rate
      match trainN E.b c x y k m.learner with
      | .error e => .error e
      | .ok s =>
        match judge E x y lam k s t with
        | .error e => .error e
        | .ok (seen, lam', t') =>
          match watch E c s m.det change with
          | .error e => .error e
          | .ok (a, change') =>
            match visitAll E c x y n ms (i + 1) lam' g' (pos + 1) change' with
            | .error e => .error e
            | .ok (vs, ms', r) => .ok (⟨i, x, y, lam, rate, k, seen⟩ :: vs, ⟨s, a, t'⟩ :: ms', r)

/-- Reaction to a change (online_adac2.py 265-274): the member of the largest positive estimation is
reset and gets a new detector. -/
def react (E : Env σ δ X τ γ) (ms : List (M σ δ τ)) : List (M σ δ τ) :=
  match pickMax (ms.map fun m => E.d.est m.det) with
  | none => ms
  | some i => ms.modify i fun m => { m with learner := E.b.reset m.learner, det := E.d.new }

/-- The state of the ensemble. -/
structure St (σ δ τ γ : Type) where
  members : List (M σ δ τ)
  shared : γ
  classes : Option (List Int)
  pos : Nat

/-- One row (online_adac2.py 222-274). -/
def trainRow (E : Env σ δ X τ γ) (c : Call X) (x : X) (y : Int) (s : St σ δ τ γ) :
    Except PyErr (List (Visit X) × St σ δ τ γ) :=
  match visitAll E c x y s.members.length s.members 0 1 s.shared s.pos false with
  | .error e => .error e
  | .ok (vs, ms, g, pos, change) =>
    .ok (vs, { s with members := if change && E.drift then react E ms else ms, shared := g, pos := pos })

/-- All rows (online_adac2.py 221-274). -/
def trainRows (E : Env σ δ X τ γ) (c : Call X) : List (X × Int) → St σ δ τ γ →
    Except PyErr (List (Visit X) × St σ δ τ γ)
  | [], s => .ok ([], s)
  | r :: rows, s =>
    match trainRow E c r.1 r.2 s with
    | .error e => .error e
    | .ok (vs, s') =>
      match trainRows E c rows s' with
      | .error e => .error e
      | .ok (vs', s'') => .ok (vs ++ vs', s'')

/-- `__adjust_ensemble_size` (online_adac2.py 278-289). -/
def adjust (E : Env σ δ X τ γ) (classes : List Int) (ms : List (M σ δ τ)) : List (M σ δ τ) :=
  if classes.length > ms.length then
    (ms.map fun m => { m with tally := E.sc.rezero m.tally }) ++
      List.replicate (classes.length - ms.length) ⟨E.b.init, E.d.new, E.sc.extra⟩
  else ms

/-- `partial_fit` (online_adac2.py 202-276). -/
def partialFit (E : Env σ δ X τ γ) (c : Call X) (s : St σ δ τ γ) : Except PyErr (List (Visit X) × St σ δ τ γ) :=
  match checkClasses s.classes c.classes with
  | .error e => .error e
  | .ok known => trainRows E c c.rows { s with members := adjust E known s.members, classes := some known }

/-- `__configure` (online_adac2.py 142-158). -/
def fresh (E : Env σ δ X τ γ) (n : Nat) : St σ δ τ γ :=
  ⟨List.replicate n ⟨E.b.init, E.d.new, E.sc.start⟩, E.sc.shared, none, 0⟩

/-- Successive calls of `partial_fit`. -/
def run (E : Env σ δ X τ γ) : List (Call X) → St σ δ τ γ → Except PyErr (List (Visit X) × St σ δ τ γ)
  | [], s => .ok ([], s)
  | c :: cs, s =>
    match partialFit E c s with
    | .error e => .error e
    | .ok (vs, s') =>
      match run E cs s' with
      | .error e => .error e
      | .ok (vs', s'') => .ok (vs ++ vs', s'')

/-! ### The four schemes -/

/-- Entries of AdaC2: `lam_tp`, `lam_fn`, `lam_tn`, `lam_fp`, `lam_sum` and the entries of `wacc` and
`werr`; the latter two arrays do not grow in `__adjust_ensemble_size`, `none` is a missing entry. -/
structure Ada where
  tp : ℚ := 0
  fn : ℚ := 0
  tn : ℚ := 0
  fp : ℚ := 0
  sum : ℚ := 0
  acc : Option (ℚ × ℚ) := some (0, 0)

/-- Recomputing `wacc` and `werr` (online_adac2.py 232-233); a missing entry raises. -/
def Ada.refresh (t : Ada) : Except PyErr (ℚ × ℚ × Ada) :=
  match t.acc with
  | none => .error .indexError
  | some _ =>
    match pdiv (t.tp + t.tn) t.sum, pdiv (t.fp + t.fn) t.sum with
    | .ok a, .ok e => .ok (a, e, { t with acc := some (a, e) })
    | .error e, _ => .error e
    | _, .error e => .error e

/-- Lines 230-249 of online_adac2.py. -/
def adaAfter (cp cn : ℚ) (p : Option Int) (y : Int) (lam : ℚ) (t : Ada) : Except PyErr (ℚ × Ada) :=
  if p = some 1 ∧ y = 1 then
    match Ada.refresh { t with tp := t.tp + cp * lam } with
    | .error e => .error e
    | .ok (a, _, t') => (pdiv (cp * lam) (2 * a)).map fun l => (l, t')
  else if p = some 0 ∧ y = 0 then
    match Ada.refresh { t with tn := t.tn + cn * lam } with
    | .error e => .error e
    | .ok (a, _, t') => (pdiv (cn * lam) (2 * a)).map fun l => (l, t')
  else if p = some 0 ∧ y = 1 then
    match Ada.refresh { t with fn := t.fn + cp * lam } with
    | .error e => .error e
    | .ok (_, w, t') => (pdiv (cp * lam) (2 * w)).map fun l => (l, t')
  else if p = some 1 ∧ y = 0 then
    match Ada.refresh { t with fp := t.fp + cn * lam } with
    | .error e => .error e
    | .ok (_, w, t') => (pdiv (cn * lam) (2 * w)).map fun l => (l, t')
  else .ok (lam, t)

/-- OnlineAdaC2Classifier; `cp`, `cn` are `cost_positive` and `cost_negative`. -/
def adaC2 (cp cn : ℚ) : Scheme Ada Unit where
  start := {}
  extra := { acc := none }
  rezero t := { acc := t.acc }
  shared := ()
  count _ lam t := { t with sum := t.sum + lam }
  bump _ g := g
  rate _ _ _ lam _ _ := .ok lam
  looks k := decide (k > 0)
  after := adaAfter cp cn

/-- Entries of CSB2: `lam_fn`, `lam_fp`, `lam_sum`, `lam_sw`, `werr`, `epsilon`. -/
structure Csb where
  fn : ℚ := 0
  fp : ℚ := 0
  sum : ℚ := 0
  sw : ℚ := 0
  werr : ℚ := 0
  eps : ℚ := 0

/-- `epsilon` and `werr` recomputed (online_csb2.py 224-225, 233-234, 239-240). -/
def Csb.refresh (t : Csb) : Except PyErr Csb :=
  match pdiv t.sw t.sum, pdiv (t.fp + t.fn) t.sum with
  | .ok e, .ok w => .ok { t with eps := e, werr := w }
  | .error e, _ => .error e
  | _, .error e => .error e

/-- Lines 223-241 of online_csb2.py. -/
def csbAfter (cp cn : ℚ) (p : Option Int) (y : Int) (lam : ℚ) (t : Csb) : Except PyErr (ℚ × Csb) :=
  if p = some y then
    match Csb.refresh t with
    | .error e => .error e
    | .ok t' =>
      if t'.eps + t'.werr ≠ 0 ∧ t'.eps ≠ 1 then
        (pdiv t'.eps ((1 - t'.eps) * (t'.eps + t'.werr))).map fun l => (l, t')
      else .ok (lam, t')
  else if p = some 0 ∧ y = 1 then
    match Csb.refresh { t with fp := t.fp + cp * lam, sw := t.sw + lam } with
    | .error e => .error e
    | .ok t' => (pdiv (cp * lam) (t'.eps + t'.werr)).map fun l => (l, t')
  else
    match Csb.refresh { t with fn := t.fn + cp * lam, sw := t.sw + lam } with
    | .error e => .error e
    | .ok t' => (pdiv (cn * lam) (t'.eps + t'.werr)).map fun l => (l, t')

/-- OnlineCSB2Classifier. -/
def csb2 (cp cn : ℚ) : Scheme Csb Unit where
  start := {}
  extra := {}
  rezero _ := {}
  shared := ()
  count _ lam t := { t with sum := t.sum + lam }
  bump _ g := g
  rate _ _ _ lam _ _ := .ok lam
  looks k := decide (k > 0)
  after := csbAfter cp cn

/-- Entries of RUSBoost: `lam_sc`, `lam_pos`, `lam_neg`, `lam_sw`, `epsilon`. -/
structure Rus where
  sc : ℚ := 0
  pos : ℚ := 0
  neg : ℚ := 0
  sw : ℚ := 0
  eps : ℚ := 0

/-- The rate `lam_rus`, lines 228-256 of online_rus_boost.py; `g` are `n_pos` and `n_neg`, `sr` the
sampling rate. -/
def rusRate (algorithm : Nat) (sr : ℚ) (y : Int) (lam : ℚ) (g : Nat × Nat) (t : Rus) : Except PyErr ℚ :=
  let np : ℚ := g.1
  let nn : ℚ := g.2
  if algorithm = 1 then
    if y = 1 then
      if g.2 ≠ 0 then do
        let q ← pdiv np nn
        let a ← pdiv (t.pos + t.neg) (t.pos + t.neg * (sr * q))
        let b ← pdiv ((sr + 1) * np) (np + nn)
        pure (lam * (a * b))
      else .ok 1
    else
      if g.1 ≠ 0 then do
        let q ← pdiv nn (np * sr)
        let a ← pdiv (t.pos + t.neg) (t.pos + t.neg * q)
        let b ← pdiv ((sr + 1) * np) (np + nn)
        pure (lam * (a * b))
      else .ok 1
  else if algorithm = 2 then
    if y = 1 then do
      let a ← pdiv (lam * np) (np + nn)
      let b ← pdiv t.pos (t.pos + t.neg)
      pdiv a b
    else do
      let a ← pdiv (lam * sr * np) (np + nn)
      let b ← pdiv t.neg (t.pos + t.neg)
      pdiv a b
  else if algorithm = 3 then
    if y = 1 then .ok lam else pdiv lam sr
  else .ok 1

/-- Lines 261-270 of online_rus_boost.py. -/
def rusAfter (p : Option Int) (y : Int) (lam : ℚ) (t : Rus) : Except PyErr (ℚ × Rus) :=
  if p = some y then
    let sc := t.sc + lam
    match pdiv t.sw (sc + t.sw) with
    | .error e => .error e
    | .ok eps =>
      if eps ≠ 1 then (pdiv lam (2 * (1 - eps))).map fun l => (l, { t with sc := sc, eps := eps })
      else .ok (lam, { t with sc := sc, eps := eps })
  else
    let sw := t.sw + lam
    match pdiv sw (t.sc + sw) with
    | .error e => .error e
    | .ok eps =>
      if eps ≠ 0 then (pdiv lam (2 * eps)).map fun l => (l, { t with sw := sw, eps := eps })
      else .ok (lam, { t with sw := sw, eps := eps })

/-- OnlineRUSBoostClassifier. -/
def rusBoost (algorithm : Nat) (sr : ℚ) : Scheme Rus (Nat × Nat) where
  start := {}
  extra := {}
  rezero _ := {}
  shared := (0, 0)
  count y lam t := if y = 1 then { t with pos := t.pos + lam } else { t with neg := t.neg + lam }
  bump y g := if y = 1 then (g.1 + 1, g.2) else (g.1, g.2 + 1)
  rate y _ _ lam g t := rusRate algorithm sr y lam g t
  looks _ := true
  after := rusAfter

/-- OnlineUnderOverBaggingClassifier (online_under_over_bagging.py 203-207). -/
def underOver (sr : ℚ) : Scheme Unit Unit where
  start := ()
  extra := ()
  rezero t := t
  shared := ()
  count _ _ t := t
  bump _ g := g
  rate y i n _ _ _ := .ok (if y = 1 then (((i : ℚ) + 1) / n) * sr else ((i : ℚ) + 1) / n)
  looks _ := false
  after _ _ lam t := .ok (lam, t)

end Verif.Meta.Skew
