import Verif.Meta.Windows
import Mathlib.Algebra.Order.Field.Basic

/-!
Model of `LearnPPClassifier` (`meta/learn_pp.py`); C153-C156.

The base learner, the random draws, the logarithm and the ordered field `F` are parameters.
Exceptions raised by the base learner itself are not modelled.
-/

namespace Verif.Meta.LPP

/-- The parameters.  `base` is the base learner, `fit` is `fit` (or `partial_fit`, lines
231-234) on a list of samples, `train n dt` and `test n dt` are the positions drawn with the
distribution `dt` in the attempt number `n` (lines 219-220), `lg` is the logarithm and `eps`
is `1e-50`. -/
structure Env (F X S : Type) where
  base : S
  fit : S → List (X × Int) → S
  pred : S → X → Int
  train : Nat → List F → List Nat
  test : Nat → List F → List Nat
  lg : F → F
  eps : F
  nEst : Nat
  nEns : Nat
  window : Nat
  thr : F

/-- One ensemble: the learners with their normalised errors. -/
abbrev Ens (F S : Type) := List (S × F)

variable {F X S : Type} [Field F] [LinearOrder F]

/-! ### Voting -/

/-- `votes[i] += w` with python indexing. -/
def addAt (votes : List F) (i : Int) (w : F) : Except PyErr (List F) :=
  let n : Int := votes.length
  if 0 ≤ i ∧ i < n then Except.ok (votes.modify i.toNat (· + w))
  else if -n ≤ i ∧ i < 0 then Except.ok (votes.modify (n + i).toNat (· + w))
  else Except.error .indexError

/-- `__vote_proba` for one sample, lines 280-292, added to `votes`. -/
def voteOn (E : Env F X S) (ens : Ens F S) (x : X) (votes : List F) : Except PyErr (List F) :=
  ens.foldlM (fun v m => addAt v (E.pred m.1 x) (E.lg (1 / (m.2 + E.eps)))) votes

/-- `__majority_vote` for one sample, lines 294-296. -/
def majority (E : Env F X S) (classes : List Int) (ens : Ens F S) (x : X) : Except PyErr Nat :=
  (voteOn E ens x (List.replicate classes.length 0)).map Windows.amax

/-- `predict_proba` for one sample, lines 316-321. -/
def probaRow (E : Env F X S) (classes : List Int) (ensembles : List (Ens F S)) (x : X) : Except PyErr (List F) :=
  ensembles.foldlM (fun v ens =>
    (voteOn E ens x (List.replicate classes.length 0)).map fun r => List.zipWith (· + ·) v r)
    (List.replicate classes.length 0)

/-- `predict` for one sample, lines 323-337. -/
def predict (E : Env F X S) (classes : List Int) (ensembles : List (Ens F S)) (x : X) : Except PyErr Nat :=
  (probaRow E classes ensembles x).map Windows.amax

/-! ### Training -/

/-- `__compute_error`, lines 275-278; `none` is nan (0/0). -/
def computeError (dt : List F) (wrong : List Bool) : Option F :=
  if dt.sum = 0 then none
  else some (((dt.zip wrong).map fun p => if p.2 then p.1 else 0).sum / dt.sum)

/-- `A[idx]` for an index array. -/
def pick {A : Type} (l : List A) (idx : List Nat) : List A := idx.filterMap (l[·]?)

/-- The variables of the inner loop: `ensemble[t]`, `normalized_errors[t]`, `Dt`, `patience`,
the number of attempts made so far (random state), and `total_error` (`none` is nan). -/
structure Try (F S : Type) where
  est : S
  ne : F
  dt : List F
  patience : Nat
  tries : Nat
  err : Option F

/-- `total_error < self.error_threshold`. -/
def below (thr : F) (e : Option F) : Bool := match e with | none => false | some e => decide (e < thr)

/-- `total_error >= self.error_threshold`. -/
def atLeast (thr : F) (e : Option F) : Bool := match e with | none => false | some e => decide (thr ≤ e)

/-- `total_error > self.error_threshold`. -/
def above (thr : F) (e : Option F) : Bool := match e with | none => false | some e => decide (thr < e)

/-- Which samples of the batch the vote of `ens` gets wrong. -/
def composite (E : Env F X S) (classes : List Int) (ens : Ens F S) (batch : List (X × Int)) :
    Except PyErr (List Bool) :=
  batch.mapM fun p => (majority E classes ens p.1).map fun i => (i : Int) != p.2

/-- Lines 239-254, after the test error `e` was found below the threshold: `total_error`
becomes the error of the vote of the first `t + 1` learners, and if that is also below the
threshold and this is not the last learner, the weights of the samples the vote gets right
are scaled. -/
def compositeStep (E : Env F X S) (classes : List Int) (batch : List (X × Int)) (ens : Ens F S) (more : Bool)
    (dt : List F) : Except PyErr (Option F × List F) :=
  match composite E classes ens batch with
  | Except.error e => Except.error e
  | Except.ok wr =>
    let e := computeError dt wr
    match e with
    | none => Except.ok (none, dt)
    | some c =>
      if c < E.thr ∧ more then Except.ok (some c, List.zipWith (fun d b => if b then d else d * (c / (1 - c))) dt wr)
      else Except.ok (some c, dt)

/-- Lines 256-261: the patience. -/
def finish (E : Env F X S) (tr : Try F S) (est : S) (ne : F) (err : Option F) (dt : List F) : Except PyErr (Try F S) :=
  let patience := if above E.thr err then tr.patience + 1 else 0
  if 1000 < patience then Except.error .other else Except.ok ⟨est, ne, dt, patience, tr.tries + 1, err⟩

/-- Lines 214-261: one round of the inner loop, when `done` are the learners of the ensemble
already accepted; `more` is `t < n_estimators - 1`. -/
def attempt (E : Env F X S) (classes : List Int) (batch : List (X × Int)) (done : Ens F S) (more : Bool)
    (tr : Try F S) : Except PyErr (Try F S) :=
  let est := E.fit tr.est (pick batch (E.train tr.tries tr.dt))
  let tst := E.test tr.tries tr.dt
  let e := computeError (pick tr.dt tst) ((pick batch tst).map fun p => E.pred est p.1 != p.2)
  match e with
  | none => finish E tr est tr.ne none tr.dt
  | some e =>
    if e < E.thr then
      match compositeStep E classes batch (done ++ [(est, e / (1 - e))]) more tr.dt with
      | Except.error x => Except.error x
      | Except.ok r => finish E tr est (e / (1 - e)) r.1 r.2
    else finish E tr est tr.ne (some e) tr.dt

/-- The inner loop, lines 211-260, at most `fuel` rounds; the error `none` means that more
rounds are needed. -/
def inner (E : Env F X S) (classes : List Int) (batch : List (X × Int)) (done : Ens F S) (more : Bool) :
    Nat → Try F S → Except (Option PyErr) (Try F S)
  | 0, tr => if atLeast E.thr tr.err then Except.error none else Except.ok tr
  | fuel + 1, tr =>
    if atLeast E.thr tr.err then
      match attempt E classes batch done more tr with
      | Except.error e => Except.error (some e)
      | Except.ok tr' => inner E classes batch done more fuel tr'
    else Except.ok tr

/-- The outer loop, lines 202-262, with `k` learners still to train.  With a threshold above
one the inner loop is not entered and no learner is added. -/
def outer (E : Env F X S) (classes : List Int) (batch : List (X × Int)) (fuel : Nat) :
    Nat → Ens F S → List F → Nat → Except (Option PyErr) (Ens F S × Nat)
  | 0, ens, _, n => Except.ok (ens, n)
  | k + 1, ens, dt, n =>
    if dt.sum = 0 then Except.ok (ens, n)
    else
      match inner E classes batch ens (decide (0 < k)) fuel ⟨E.base, 1, dt.map (· / dt.sum), 0, n, some 1⟩ with
      | Except.error e => Except.error e
      | Except.ok tr =>
        outer E classes batch fuel k (if E.thr ≤ 1 then ens ++ [(tr.est, tr.ne)] else ens) tr.dt tr.tries

/-- The ensemble made from one batch, lines 193-262. -/
def build (E : Env F X S) (classes : List Int) (fuel : Nat) (batch : List (X × Int)) (n : Nat) :
    Except (Option PyErr) (Ens F S × Nat) :=
  outer E classes batch fuel E.nEst [] (List.replicate batch.length (1 / (batch.length : F))) n

/-- The state between two batches. -/
structure State (F S : Type) where
  ensembles : List (Ens F S)
  tries : Nat

/-- `__fit_batch`, lines 193-273. -/
def process (E : Env F X S) (classes : List Int) (fuel : Nat) (st : State F S) (batch : List (X × Int)) :
    Except (Option PyErr) (State F S) :=
  match build E classes fuel batch st.tries with
  | Except.error e => Except.error e
  | Except.ok (ens, n) =>
    let es := st.ensembles ++ [ens]
    Except.ok ⟨if E.nEns < es.length then es.eraseIdx 0 else es, n⟩

/-- The classifier: `classes`, the state between batches, and the buffer. -/
structure Cls (F X S : Type) where
  classes : Option (List Int)
  st : State F S
  buf : List (X × Int)

/-- `__init__`, lines 110-128. -/
def blank : Cls F X S := ⟨none, ⟨[], 0⟩, []⟩

/-- `classes` is given and is not the same set as `k`, lines 175-179. -/
def differs (classes : Option (List Int)) (k : List Int) : Bool :=
  match classes with
  | none => false
  | some l => ! (l.all (· ∈ k) && k.all (· ∈ l))

/-- `partial_fit`, lines 137-191: the classifier afterwards, and the exception if one is
raised. -/
def partialFit (E : Env F X S) (fuel : Nat) (c : Cls F X S) (classes : Option (List Int)) (xs : List (X × Int)) :
    Cls F X S × Option (Option PyErr) :=
  match (match c.classes with | none => classes | some k => some k) with
  | none => (c, some (some .other))
  | some k =>
    if differs classes k then ({ c with classes := some k }, some (some .other))
    else
      match Windows.feed E.window (process E k fuel) (c.st, c.buf) xs with
      | ((st, b), e) => (⟨some k, st, b⟩, e)

/-- `reset`, lines 130-135, for an integer `random_state`: `classes` is kept. -/
def reset (c : Cls F X S) : Cls F X S := ⟨c.classes, ⟨[], 0⟩, []⟩

end Verif.Meta.LPP
