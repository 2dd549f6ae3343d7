import Mathlib.Data.List.Basic
import Mathlib.Tactic.Linarith
import Mathlib.Tactic.Ring
import Mathlib.Tactic.FieldSimp
import Mathlib.Algebra.Order.Field.Rat

/-!
Definitions shared by the models: Python exceptions as values, and the
"last n elements" specification function.
-/

namespace Verif

/-- Python exceptions that the modelled code can raise. -/
inductive PyErr where
  | valueError
  | indexError
  | keyError
  | zeroDivision
  | attributeError
  | typeError
  | nameError
  | other
  deriving DecidableEq, Repr

/-- Specification: the last `n` elements of a list (all of it if shorter). -/
def lastN {α : Type} (n : Nat) (l : List α) : List α := l.drop (l.length - n)

@[simp] theorem length_lastN {α : Type} (n : Nat) (l : List α) :
    (lastN n l).length = min n l.length := by
  simp only [lastN, List.length_drop]; omega

@[simp] theorem lastN_nil {α : Type} (n : Nat) : lastN n ([] : List α) = [] := by
  simp [lastN]

theorem lastN_of_le {α : Type} {n : Nat} {l : List α} (h : l.length ≤ n) : lastN n l = l := by
  simp [lastN, Nat.sub_eq_zero_of_le h]

theorem lastN_lastN_append {α : Type} (n : Nat) (l m : List α) :
    lastN n (lastN n l ++ m) = lastN n (l ++ m) := by
  unfold lastN
  by_cases h : l.length ≤ n
  · simp [Nat.sub_eq_zero_of_le h]
  · rw [List.drop_append, List.drop_append, List.drop_drop]
    simp only [List.length_append, List.length_drop]
    congr 2 <;> omega

theorem lastN_append_singleton_full {α : Type} (l : List α) (x : α) (h : l ≠ []) :
    lastN l.length (l ++ [x]) = l.tail ++ [x] := by
  cases l with
  | nil => simp at h
  | cons a t => simp [lastN]

theorem lastN_suffix {α : Type} (n : Nat) (l : List α) : lastN n l <:+ l :=
  List.drop_suffix _ _

theorem foldlM_snoc {ε α β : Type} (f : β → α → Except ε β) (s : β) (xs : List α) (x : α) :
    (xs ++ [x]).foldlM f s = xs.foldlM f s >>= fun s' => f s' x := by
  simp [List.foldlM_append]

end Verif
