import Verif.Common
import Mathlib.Algebra.Order.Field.Rat

/-!
`trees/_attribute_observer/numeric_attribute_class_observer_binary_tree.py`, the numeric
attribute observer that keeps class counts in a binary tree; C242.
-/

namespace Verif.Trees.BinTree

/-- A dictionary from labels to weights. -/
abbrev Dict := List (Int × ℚ)

/-- `d[label] += weight` on a plain dictionary: `KeyError` if the label is missing. -/
def bump (d : Dict) (label : Int) (w : ℚ) : Except PyErr Dict :=
  if d.any (fun q => q.1 = label) then .ok (d.map fun q => if q.1 = label then (q.1, q.2 + w) else q) else .error .keyError

/-- `Node`, lines 14-23: counts left and right, children, cut point. -/
inductive Node where
  | mk' (left right : Dict) (cut : ℚ) (l r : Option Node)

/-- `Node.__init__`, lines 16-23. -/
def Node.new (val : ℚ) (label : Int) (w : ℚ) : Except PyErr Node :=
  match bump [] label w with
  | .error e => .error e
  | .ok left => .ok (.mk' left [] val none none)

/-- `Node.insert_value`, lines 25-41.  An exception leaves changes behind that are not modelled: no node is ever made. -/
def Node.insert (val : ℚ) (label : Int) (w : ℚ) : Node → Except PyErr Node
  | .mk' left right cut l r =>
    if val = cut then
      match bump left label w with
      | .error e => .error e
      | .ok left' => .ok (.mk' left' right cut l r)
    else if val < cut then
      match bump left label w with
      | .error e => .error e
      | .ok left' =>
        match l with
        | none => match Node.new val label w with
          | .error e => .error e
          | .ok n => .ok (.mk' left' right cut (some n) r)
        | some n => match n.insert val label w with
          | .error e => .error e
          | .ok n => .ok (.mk' left' right cut (some n) r)
    else
      match bump right label w with
      | .error e => .error e
      | .ok right' =>
        match r with
        | none => match Node.new val label w with
          | .error e => .error e
          | .ok n => .ok (.mk' left right' cut l (some n))
        | some n => match n.insert val label w with
          | .error e => .error e
          | .ok n => .ok (.mk' left right' cut l (some n))

/-- `update`, lines 52-60; the state is `_root`. -/
def update (root : Option Node) (val : Option ℚ) (label : Int) (w : ℚ) : Except PyErr (Option Node) :=
  match val with
  | none => .ok root
  | some v =>
    match root with
    | none => match Node.new v label w with
      | .error e => .error e
      | .ok n => .ok (some n)
    | some n => match n.insert v label w with
      | .error e => .error e
      | .ok n => .ok (some n)

/-- A caller that catches exceptions: an exception raised while the root is made leaves `_root` alone. -/
def feed (root : Option Node) : List (Option ℚ × Int × ℚ) → Option Node
  | [] => root
  | (v, y, w) :: l => feed ((update root v y w).toOption.getD root) l

/-- `get_best_evaluated_split_suggestion`, lines 65-78, with the first lines of `search_for_best_split_option` (85-86), for an arbitrary
rest of the search. -/
def suggest {S : Type} (search : Node → Option S) : Option Node → Option S
  | none => none
  | some n => search n

/-- **C242, violated**: the first value given to an observer raises `KeyError`. -/
theorem C242_update_violated (v : ℚ) (y : Int) (w : ℚ) : update none (some v) y w = .error .keyError := rfl

/-- **C242, violated**: whatever is tried, the observer stays empty: every later value raises too and there is never a split suggestion. -/
theorem C242_always_empty_violated {S : Type} (search : Node → Option S) (l : List (Option ℚ × Int × ℚ)) (v : ℚ) (y : Int) (w : ℚ) :
    update (feed none l) (some v) y w = .error .keyError ∧ suggest search (feed none l) = none := by
  have h : feed none l = none := by
    induction l with
    | nil => rfl
    | cons q l ih =>
      obtain ⟨x, y', w'⟩ := q
      cases x with
      | none => exact ih
      | some x => exact ih
  rw [h]
  exact ⟨rfl, rfl⟩

/-- **C242, partial**: missing values are ignored without an exception. -/
theorem C242_missing_partial (l : List (Int × ℚ)) (y : Int) (w : ℚ) :
    update (feed none (l.map fun q => (none, q.1, q.2))) none y w = .ok none := by
  have h : feed none (l.map fun q => ((none : Option ℚ), q.1, q.2)) = none := by
    induction l with
    | nil => rfl
    | cons q l ih => exact ih
  rw [h]
  rfl

end Verif.Trees.BinTree
