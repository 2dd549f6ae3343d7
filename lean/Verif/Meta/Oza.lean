import Verif.Common
import Verif.Lazy.KNN
import Mathlib.Data.List.Induction
import Mathlib.Data.List.GetD
import Mathlib.Algebra.Order.BigOperators.Group.List
import Mathlib.Algebra.BigOperators.Ring.List

/-!
Model of `meta/oza_bagging.py` (OzaBaggingClassifier); C118, C119, C121.

Simplifications: a base learner is an arbitrary state with an arbitrary
`partial_fit` on one sample (which receives `classes` as passed to the ensemble
and does not raise) and an arbitrary `predict_proba`, which may raise and
otherwise returns one row per sample.  `sample_weight` is handed through
unchanged by the code and is part of the learner here.  The Poisson draws are an
arbitrary sequence of numbers, read in order; `reset` starts it again, which is
what an integer `random_state` does.
-/

namespace Verif.Meta.Oza

variable {σ X Y : Type}

/-- What the ensemble uses of its base learner; `init` is the state of a fresh copy. -/
structure Base (σ X Y : Type) where
  init : σ
  fit : σ → X → Y → Option (List Int) → σ
  proba : σ → List X → Except PyErr (List (List ℚ))

/-- `ensemble`, `classes`, and how many Poisson draws were made. -/
structure St (σ : Type) where
  ensemble : List σ
  classes : Option (List Int)
  pos : Nat

/-- `__init__` and `__configure`, lines 101-118. -/
def fresh (b : Base σ X Y) (n : Nat) : St σ := ⟨List.replicate n b.init, none, 0⟩

/-- `reset`, lines 120-122 with `__configure` 113-118: `classes` is kept. -/
def reset (b : Base σ X Y) (n : Nat) (s : St σ) : St σ := { fresh b n with classes := s.classes }

/-- `set(a) == set(b)`. -/
def sameSet (a b : List Int) : Bool := a.all (fun x => b.contains x) && b.all (fun x => a.contains x)

/-- The checks of `partial_fit`, lines 166-177. -/
def checkClasses (known given : Option (List Int)) : Except PyErr (List Int) :=
  match known, given with
  | none, none => .error .valueError
  | none, some c => .ok c
  | some k, none => .ok k
  | some k, some c => if sameSet k c then .ok k else .error .valueError

/-- `__adjust_ensemble_size`, lines 189-194. -/
def adjust (b : Base σ X Y) (classes : List Int) (ens : List σ) : List σ :=
  if classes.length ≠ ens.length then
    if classes.length > ens.length then
      ens ++ List.replicate (classes.length - ens.length) b.init
    else ens
  else ens

/-- Lines 183-186: a member is trained `k` times on the sample. -/
def trainMember (b : Base σ X Y) (c : Option (List Int)) (x : X) (y : Y) : Nat → σ → σ
  | 0, s => s
  | k + 1, s => trainMember b c x y k (b.fit s x y c)

/-- Lines 182-186: one sample for all members, one draw each. -/
def trainRow (b : Base σ X Y) (poisson : Nat → Nat) (c : Option (List Int)) (x : X) (y : Y) :
    List σ → Nat → List σ × Nat
  | [], pos => ([], pos)
  | s :: ens, pos =>
    let s' := trainMember b c x y (poisson pos) s
    let r := trainRow b poisson c x y ens (pos + 1)
    (s' :: r.1, r.2)

/-- Lines 181-186. -/
def trainRows (b : Base σ X Y) (poisson : Nat → Nat) (c : Option (List Int)) :
    List (X × Y) → List σ → Nat → List σ × Nat
  | [], ens, pos => (ens, pos)
  | r :: rows, ens, pos =>
    let q := trainRow b poisson c r.1 r.2 ens pos
    trainRows b poisson c rows q.1 q.2

/-- `partial_fit`, lines 124-187. -/
def partialFit (b : Base σ X Y) (poisson : Nat → Nat) (s : St σ) (rows : List (X × Y))
    (classes : Option (List Int)) : Except PyErr (St σ) :=
  match checkClasses s.classes classes with
  | .error e => .error e
  | .ok known =>
    let q := trainRows b poisson classes rows (adjust b known s.ensemble) s.pos
    .ok ⟨q.1, some known, q.2⟩

/-- Lines 257-262: add a member's row to the running row, appending what is past its end. -/
def addRow (acc : List ℚ) (p : List ℚ) : List ℚ :=
  (p.zipIdx).foldl (fun a q => if q.2 < a.length then a.modify q.2 (· + q.1) else a ++ [q.1]) acc

/-- Lines 247-262: the members in turn.  `acc = none`: `proba` is still empty. -/
def probaLoop (b : Base σ X Y) (classes : Option (List Int)) (xs : List X) :
    List σ → List (List ℚ) → Except PyErr (List (List ℚ))
  | [], acc => .ok acc
  | s :: ens, acc =>
    match b.proba s xs with
    | .error e => .error e
    | .ok p =>
      match p with
      | [] => .error .indexError
      | p0 :: _ =>
        match classes with
        | none => .error .typeError
        | some c =>
          match c.max? with
          | none => .error .valueError
          | some m =>
            if (p0.length : Int) > m + 1 then .error .valueError
            else
              let acc := if acc.length < 1 then p.map (fun row => row.map fun _ => (0 : ℚ)) else acc
              probaLoop b classes xs ens (List.zipWith addRow acc p)

/-- Lines 268-278. -/
def normalise (row : List ℚ) : List ℚ := if row.sum > 0 then row.map (· / row.sum) else row

/-- `predict_proba`, lines 223-278. -/
def predictProba (b : Base σ X Y) (s : St σ) (xs : List X) : Except PyErr (List (List ℚ)) :=
  match probaLoop b s.classes xs s.ensemble [] with
  | .error .valueError => .ok (List.replicate xs.length [0])
  | .error .typeError => .ok (List.replicate xs.length [0])
  | .error e => .error e
  | .ok acc => .ok (acc.map normalise)

/-- `predict`, lines 196-221. -/
def predict (b : Base σ X Y) (s : St σ) (xs : List X) : Except PyErr (List Nat) :=
  (predictProba b s xs).map fun p => p.map Lazy.argmax

end Verif.Meta.Oza
