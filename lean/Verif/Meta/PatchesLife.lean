import Verif.Meta.LifeRun
import Verif.Meta.Patches
import Verif.Lazy.KNN

/-!
Model of the members of `StreamingRandomPatchesClassifier`
(`StreamingRandomPatchesBaseLearner`) and of its votes
(`meta/streaming_random_patches.py`); C138 to C141.

Base estimators, detectors and random draws are parameters. The base estimator is assumed
to have the attribute `nominal_attributes`; feature indexes are assumed to be valid (C136).
-/

namespace Verif.Meta.Patches

/-- Base estimators and detectors. `blank` is an untrained estimator (`clone`, `reset`);
`train` learns one sample, given the nominal attributes; `add` is `add_element` followed by
`detected_change`; `newDrift`/`newWarn` are fresh detectors (`clone`). -/
structure Env (T D R : Type) where
  blank : R → T
  train : R → Option (List Nat) → List ℚ × Int × Nat → T → T
  proba : T → List ℚ → List ℚ
  predict : T → List ℚ → Int
  newDrift : D
  newWarn : D
  add : D → Bool → D × Bool

/-- `disable_drift_detection`, `disable_background_learner` (negated),
`nominal_attributes`, and whether the training method is random subspaces. -/
structure Conf where
  useDrift : Bool
  useBg : Bool
  nominal : List Nat
  everySample : Bool

/-- An estimator with its `nominal_attributes`, its feature subset and the flag
`_set_nominal_attributes` of its learner. -/
structure Est (T : Type) where
  tree : T
  noms : Option (List Nat)
  sub : Option (List Nat)
  setNom : Bool

/-- A background learner. -/
structure Bg (T D : Type) where
  est : Est T
  created : Nat
  drift : D
  warn : D

/-- `StreamingRandomPatchesBaseLearner`, lines 430-478; `evals` are the results
(prediction, label, weight) held by the evaluator. -/
structure Mem (T D : Type) where
  est : Est T
  created : Nat
  nDrift : Nat
  nWarn : Nat
  drift : D
  warn : D
  bg : Option (Bg T D)
  evals : List (Int × Int × ℚ)

/-- Random draws of one member for one instance: the Poisson weight, the draws for training
and for new estimators, and the feature subsets of a given size. -/
structure Draw (R : Type) where
  k : Nat
  r1 : R
  r2 : R
  r3 : R
  r4 : R
  subW : Nat → List Nat
  subD : Nat → List Nat

variable {T D R : Type}

/-- `X[0][self.feature_indexes]`, lines 483-492, 530-535. -/
def sel (sub : Option (List Nat)) (x : List ℚ) : List ℚ :=
  match sub with
  | none => x
  | some f => f.filterMap fun i => x[i]?

/-- `_remap_nominal_attributes`, lines 593-598. -/
def remap (f nominal : List Nat) : Option (List Nat) :=
  let r := (f.zipIdx.filter fun q => q.1 ∈ nominal).map Prod.snd
  if r.length > 0 then some r else none

/-- `_can_set_nominal_attributes`, lines 600-602. -/
def canSet (nominal : List Nat) : Bool := decide (nominal.length > 0)

/-- Lines 483-489: the nominal attributes the estimator is trained with. -/
def nomsUsed (nominal : List Nat) (e : Est T) : Option (List Nat) :=
  match e.sub with
  | some f => if e.setNom then remap f nominal else e.noms
  | none => e.noms

/-- Lines 482-496: one training step of a learner. -/
def learn (E : Env T D R) (nominal : List Nat) (e : Est T) (r : R) (x : List ℚ) (y : Int) (k : Nat) : Est T :=
  ⟨E.train r (nomsUsed nominal e) (sel e.sub x, y, k) e.tree, nomsUsed nominal e, e.sub,
    if e.sub.isSome then false else e.setNom⟩

/-- `_reset_subset`, lines 567-572. -/
def newSubset (sub : Option (List Nat)) (choice : Nat → List Nat) : Option (List Nat) :=
  sub.map fun f => choice f.length

/-- `_trigger_warning`, lines 539-565. -/
def trigger (E : Env T D R) (c : Conf) (m : Mem T D) (t : Nat) (q : Draw R) : Mem T D :=
  let b : Bg T D := ⟨⟨E.blank q.r3, m.est.noms, newSubset m.est.sub q.subW, canSet c.nominal⟩, t, E.newDrift, E.newWarn⟩
  { m with bg := some b, warn := E.newWarn }

/-- `StreamingRandomPatchesBaseLearner.reset`, lines 574-590. -/
def resetMem (E : Env T D R) (c : Conf) (m : Mem T D) (t : Nat) (q : Draw R) : Mem T D :=
  match c.useBg, m.bg with
  | true, some b =>
    { m with est := { b.est with setNom := m.est.setNom }, drift := b.drift, warn := b.warn, evals := [],
             created := b.created, bg := none }
  | _, _ =>
    { m with est := ⟨E.blank q.r4, m.est.noms, newSubset m.est.sub q.subD, canSet c.nominal⟩, evals := [], created := t,
             drift := E.newDrift }

/-- Lines 508-517. -/
def warnStep (E : Env T D R) (c : Conf) (m : Mem T D) (err : Bool) (t : Nat) (q : Draw R) : Mem T D :=
  if c.useBg then
    let (w, ch) := E.add m.warn err
    if ch then trigger E c { m with warn := w, nWarn := m.nWarn + 1 } t q else { m with warn := w }
  else m

/-- Lines 519-527. -/
def driftStep (E : Env T D R) (c : Conf) (m : Mem T D) (err : Bool) (t : Nat) (q : Draw R) : Mem T D :=
  let (d, ch) := E.add m.drift err
  if ch then resetMem E c { m with drift := d, nDrift := m.nDrift + 1 } t q else { m with drift := d }

/-- `StreamingRandomPatchesBaseLearner.partial_fit`, lines 480-527 (a background learner
has no detection and no background learner). -/
def fitMem (E : Env T D R) (c : Conf) (m : Mem T D) (x : List ℚ) (y : Int) (k t : Nat) (q : Draw R) : Mem T D :=
  let est := learn E c.nominal m.est q.r1 x y k
  let err := decide (E.predict est.tree (sel est.sub x) ≠ y)
  let bg := m.bg.map fun b => { b with est := learn E c.nominal b.est q.r2 x y k }
  let m := { m with est := est, bg := bg }
  if c.useDrift then driftStep E c (warnStep E c m err t q) err t q else m

/-- The body of the loop in `_partial_fit`, lines 225-247. -/
def feed (E : Env T D R) (c : Conf) (m : Mem T D) (e : List ℚ × Int × ℚ) (t : Nat) (q : Draw R) : Mem T D :=
  let pred : Int := (Lazy.argmax (E.proba m.est.tree (sel m.est.sub e.1)) : Nat)
  let m : Mem T D := { m with evals := m.evals ++ [(pred, e.2.1, e.2.2)] }
  let k := if c.everySample then 1 else q.k
  if k > 0 then fitMem E c m e.1 e.2.1 k t q else m

/-- A new member, lines 404-417 with 430-478: `noms0` are the nominal attributes of the base
estimator handed to the constructor. -/
def newMem (E : Env T D R) (c : Conf) (noms0 sub : Option (List Nat)) (r : R) (t : Nat) : Mem T D :=
  ⟨⟨E.blank r, noms0, sub, canSet c.nominal⟩, t, 0, 0, E.newDrift, E.newWarn, none, []⟩

/-- `_n_samples_seen` and `ensemble`. -/
structure St (T D : Type) where
  n : Nat
  ensemble : Option (List (Mem T D))

/-- The constructor, lines 175-177. -/
def init : St T D := ⟨0, none⟩

/-- `_init_ensemble_members`, lines 385-417; `subs i` are the features of member `i`
(`assign` of `Meta/Patches.lean`). -/
def ensure (E : Env T D R) (c : Conf) (N : Nat) (noms0 : Option (List Nat)) (subs : Nat → Option (List Nat))
    (r0 : Nat → R) (s : St T D) : St T D :=
  match s.ensemble with
  | some _ => s
  | none => { s with ensemble := some ((List.range N).map fun i => newMem E c noms0 (subs i) (r0 i) s.n) }

/-- `_partial_fit`, lines 218-247. -/
def fitOne (E : Env T D R) (c : Conf) (N : Nat) (noms0 : Option (List Nat)) (subs : Nat → Option (List Nat))
    (r0 : Nat → R) (dr : Nat → Nat → Draw R) (s : St T D) (e : List ℚ × Int × ℚ) : St T D :=
  let s := ensure E c N noms0 subs r0 { s with n := s.n + 1 }
  { s with ensemble := s.ensemble.map fun ms => ms.zipIdx.map fun q => feed E c q.1 e s.n (dr s.n q.2) }

/-- A call: `partial_fit` with rows, labels and weights, or a prediction, which creates the
ensemble if there is none (lines 264-266, 292-294). -/
inductive Call
  | fit (rows : List (List ℚ × Int × ℚ))
  | ask

/-- `partial_fit`, lines 207-216, `predict`/`predict_proba`. -/
def call (E : Env T D R) (c : Conf) (N : Nat) (noms0 : Option (List Nat)) (subs : Nat → Option (List Nat))
    (r0 : Nat → R) (dr : Nat → Nat → Draw R) (s : St T D) : Call → St T D
  | .ask => ensure E c N noms0 subs r0 s
  | .fit rows => rows.foldl (fitOne E c N noms0 subs r0 dr) s

/-- A sequence of calls. -/
def run (E : Env T D R) (c : Conf) (N : Nat) (noms0 : Option (List Nat)) (subs : Nat → Option (List Nat))
    (r0 : Nat → R) (dr : Nat → Nat → Draw R) (calls : List Call) (s : St T D) : St T D :=
  calls.foldl (call E c N noms0 subs r0 dr) s

/-- `reset`, lines 419-422. -/
def reset (_ : St T D) : St T D := ⟨0, none⟩

/-! ### Votes -/

/-- `y_proba += y_proba_temp` after the shorter row was filled with zeros, lines 311-317. -/
def addRow : List ℚ → List ℚ → List ℚ
  | [], b => b
  | a, [] => a
  | x :: a, y :: b => (x + y) :: addRow a b

/-- Lines 304-309: the vote of one member with accuracy `acc` (`none`: no vote);
`normalize` divides by the sum of the absolute values. -/
def memVote (weighted : Bool) (acc : ℚ) (row : List ℚ) : Option (List ℚ) :=
  if row.sum > 0 then
    let s := (row.map fun v => |v|).sum
    let row := row.map fun v => v / s
    some (if weighted ∧ acc > 0 then row.map fun v => v * acc else row)
  else none

/-- `_predict_proba`, lines 300-318; `ms` are accuracy and probabilities of the members. -/
def combine (weighted : Bool) (ms : List (ℚ × List ℚ)) : List ℚ :=
  ms.foldl (fun y m => match memVote weighted m.1 m.2 with
    | some v => addRow y v
    | none => y) [0]

/-- `predict_proba` for several samples, lines 296-298: an array has rows of one length.
(With rows of different lengths NumPy raises `ValueError`, or, in versions before 1.24,
gives an array of lists.) -/
def probaRows (rows : List (List ℚ)) : Except PyErr (List (List ℚ)) :=
  match rows with
  | [] => .ok []
  | r :: rest => if rest.all fun q => q.length = r.length then .ok rows else .error .valueError

/-- `predict`, lines 268-270 (`np.argmax(..., axis=1)`). -/
def predictRows (rows : List (List ℚ)) : Except PyErr (List Nat) :=
  match probaRows rows with
  | .ok rows => .ok (rows.map Lazy.argmax)
  | .error e => .error e

end Verif.Meta.Patches
