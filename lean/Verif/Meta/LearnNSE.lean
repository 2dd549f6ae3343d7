import Verif.Meta.Windows
import Mathlib.Algebra.Order.Field.Basic
import Mathlib.Data.List.Sort

/-!
Model of `LearnPPNSEClassifier` (`meta/learn_nse.py`); C149-C151.

The base learner, the logarithm and the sigmoid are parameters, as is the ordered field `F`
of weights and probabilities.  Samples are `(x, label)` with integer labels.
-/

namespace Verif.Meta.NSE

/-- Parameter `pruning`. -/
inductive Pruning
  | none
  | age
  | error
  deriving DecidableEq

/-- The parameters.  `fit n b` is a deep copy of the base learner trained on the batch `b`
(`_train_model`, lines 114-122); the number `n` of trainings made before stands for the
random state.  `proba` is the row `predict_proba` returns for one sample, after the division
by its sum (lines 272-273); `known` is `classes_` or `classes` (lines 277-280).  `lg` is the
logarithm and `sig a` the sigmoid of the age `a` (line 231).  `eps` is `1e-50`. -/
structure Env (F X S : Type) where
  fit : Nat → List (X × Int) → S
  pred : S → X → Int
  proba : S → X → List F
  known : S → Option (List Int)
  lg : F → F
  sig : Nat → F
  eps : F
  window : Nat
  cap : Nat
  pruning : Pruning

/-- One member: entries of `ensemble`, `bkts`, `wkts` and `ensemble_weights` at the same
position.  `none` in `bkts` is infinity and `none` in `vw` minus infinity. -/
structure Member (F S : Type) where
  model : S
  bkts : List (Option F)
  wkts : List F
  vw : Option F

/-- The state between two batches; `fits` counts the trainings made. -/
structure State (F S : Type) where
  members : List (Member F S)
  fits : Nat

variable {F X S : Type} [Field F] [LinearOrder F]

/-! ### Voting -/

/-- `votes += row`, line 275: rows of the same length are added, a single number is
broadcast over all the columns, anything else is a `ValueError`. -/
def addRow (votes row : List F) : Option (List F) :=
  if row.length = votes.length then some (List.zipWith (· + ·) votes row)
  else match row with
    | [p] => some (votes.map (· + p))
    | _ => none

/-- `sorted_classes[np.searchsorted(all_classes, c, sorter=sorted_classes)]`, lines 300-303:
the position in `classes` of its smallest element not below `c`. -/
def position (classes : List Int) (c : Int) : Option Nat :=
  ((classes.zipIdx.insertionSort fun a b => a.1 ≤ b.1)[classes.countP fun d => d < c]?).map Prod.snd

/-- `_fill_missing_probs`, lines 296-305. -/
def fill (classes obs : List Int) (row : List F) : Except PyErr (List F) :=
  match obs.mapM (position classes) with
  | none => Except.error .indexError
  | some idx =>
    if idx.length = row.length then
      Except.ok ((idx.zip row).foldl (fun acc p => acc.set p.1 p.2) (List.replicate classes.length 0))
    else Except.error .valueError

/-- The vote of one member, lines 268-292. -/
def addVote (E : Env F X S) (classes : List Int) (x : X) (votes : List F) (m : Member F S) :
    Except PyErr (List F) :=
  match m.vw with
  | none => Except.ok votes
  | some w =>
    if 0 < w then
      match addRow votes ((E.proba m.model x).map (w * ·)) with
      | some v => Except.ok v
      | none =>
        match E.known m.model with
        | none => Except.error .attributeError
        | some obs =>
          match fill classes obs (E.proba m.model x) with
          | Except.error e => Except.error e
          | Except.ok r => Except.ok (List.zipWith (· + ·) votes (r.map (w * ·)))
    else Except.ok votes

/-- One row of `predict_proba`, lines 265-294 and 322-326. -/
def probaRow (E : Env F X S) (classes : List Int) (ms : List (Member F S)) (x : X) : Except PyErr (List F) :=
  if ms = [] then Except.ok [0]
  else ms.foldlM (addVote E classes x) (List.replicate classes.length 0)

/-- `predict` for one row, lines 328-345. -/
def predict (E : Env F X S) (classes : List Int) (ms : List (Member F S)) (x : X) : Except PyErr Nat :=
  (probaRow E classes ms x).map Windows.amax

/-! ### Training -/

/-- Lines 174-186 and 193: the instance weights, given which samples the ensemble got wrong. -/
def instWeights (wrong : List Bool) : List F :=
  let m : F := wrong.length
  let et : F := (wrong.count true : F) / m
  let raw := wrong.map fun b => if b then 1 / m else et / m
  if 0 < raw.sum then raw.map (· / raw.sum) else raw

/-- `np.sum(weights[pred != y])`, line 209. -/
def weighted (ws : List F) (wrong : List Bool) : F :=
  ((ws.zip wrong).map fun p => if p.2 then p.1 else 0).sum

/-- `pred != y_batch` for a fitted learner. -/
def wrongs (E : Env F X S) (s : S) (batch : List (X × Int)) : List Bool :=
  batch.map fun p => E.pred s p.1 != p.2

/-- The normalised error, line 225; the division by zero gives infinity. -/
def beta (e : F) : Option F := if e = 1 then none else some (e / (1 - e))

/-- `np.sum(np.array(nbkts) * np.array(weights)) + 1e-50`, line 235. -/
def sbkt (eps : F) (bs : List (Option F)) (ws : List F) : Option F :=
  if none ∈ bs then none
  else some (((bs.zip ws).map fun p => p.1.getD 0 * p.2).sum + eps)

/-- Lines 225-238: a member is scored with the error `e` at age `a`. -/
def score (E : Env F X S) (a : Nat) (e : F) (m : Member F S) : Member F S :=
  let bs := m.bkts ++ [beta e]
  let ws := m.wkts ++ [E.sig a / (m.wkts.sum + E.sig a)]
  { m with bkts := bs, wkts := ws, vw := (sbkt E.eps bs ws).map fun s => E.lg (1 / s) }

/-- Lines 208-218: the error of a member on the batch.  The newest member is replaced when
its error is above one half, and its error is kept; the error of any other member is cut to
one half. -/
def evalMember (E : Env F X S) (fits : Nat) (batch : List (X × Int)) (iw : List F) (a : Nat) (m : Member F S) :
    Member F S × F :=
  let e := weighted iw (wrongs E m.model batch)
  if a = 0 ∧ 1 / 2 < e then (score E a e { m with model := E.fit fits batch }, e)
  else if 1 / 2 < e then (score E a (1 / 2) m, 1 / 2)
  else (score E a e m, e)

/-- Lines 240-256. -/
def prune (E : Env F X S) (ms : List (Member F S × F)) : List (Member F S) :=
  if E.pruning = .age ∧ E.cap < ms.length then (ms.map Prod.fst).eraseIdx 0
  else if E.pruning = .error ∧ E.cap < ms.length then
    (ms.map Prod.fst).eraseIdx (Windows.amax (ms.map Prod.snd))
  else ms.map Prod.fst

/-- Which samples of the batch the ensemble gets wrong, lines 174-176. -/
def ensembleWrongs (E : Env F X S) (classes : List Int) (ms : List (Member F S)) (batch : List (X × Int)) :
    Except PyErr (List Bool) :=
  batch.mapM fun p => (predict E classes ms p.1).map fun i => (i : Int) != p.2

/-- The learner appended for a batch, lines 167-198. -/
def newMem (E : Env F X S) (n : Nat) (batch : List (X × Int)) : Member F S := ⟨E.fit n batch, [], [], none⟩

/-- Lines 167-260: one full window. -/
def process (E : Env F X S) (classes : List Int) (st : State F S) (batch : List (X × Int)) :
    Except PyErr (State F S) :=
  let go (iw : List F) : State F S :=
    let ms := st.members ++ [newMem E st.fits batch]
    let res := ms.mapIdx fun i m => evalMember E (st.fits + 1) batch iw (ms.length - 1 - i) m
    ⟨prune E res, st.fits + 2⟩
  if st.members = [] then
    Except.ok (go (List.replicate batch.length (1 / (batch.length : F))))
  else
    (ensembleWrongs E classes st.members batch).map fun wr => go (instWeights wr)

/-- The classifier: `classes`, the state between batches, and the buffer. -/
structure Cls (F X S : Type) where
  classes : Option (List Int)
  st : State F S
  buf : List (X × Int)

/-- `__init__`, lines 90-112. -/
def blank : Cls F X S := ⟨none, ⟨[], 0⟩, []⟩

/-- `partial_fit`, lines 124-263. -/
def partialFit (E : Env F X S) (c : Cls F X S) (classes : Option (List Int)) (xs : List (X × Int)) :
    Except PyErr (Cls F X S) :=
  match (match c.classes with | none => classes | some k => some k) with
  | none => Except.error .other
  | some k =>
    match Windows.feed E.window (process E k) (c.st, c.buf) xs with
    | (_, some e) => Except.error e
    | ((st, b), none) => Except.ok ⟨some k, st, b⟩

/-- `reset`, lines 347-353: everything but `classes` (and the random state). -/
def reset (c : Cls F X S) : Cls F X S := ⟨c.classes, ⟨[], c.st.fits⟩, []⟩

end Verif.Meta.NSE
