import Verif.Common
import Mathlib.Data.List.Perm.Basic
import Mathlib.Data.List.Count

/-!
Model of `data/synth.py`, `make_logical`; C259. The shuffle of the rows is an arbitrary permutation.
-/

namespace Verif.Streams.Logical

/-- The table `pat`, synth.py 23-29. -/
def pat : List (List Nat) := [[0, 0, 0, 0, 0], [0, 1, 1, 1, 0], [1, 0, 1, 1, 0], [1, 1, 1, 0, 1]]

/-- `D`, synth.py 32. -/
def D : Nat := 2

/-- `L = E - D`, synth.py 31-33. -/
def L : Nat := 5 - D

/-- `pat2`, synth.py 35-37: labels first. -/
def pat2 : List (List Nat) := pat.map fun r => r.drop D ++ r.take D

/-- `np.tile(pat2, (n_tiles, 1))`, synth.py 38. -/
def tiled (n : Nat) : List (List Nat) := (List.replicate n pat2).flatten

/-- `make_logical`, synth.py 21-44. -/
def makeLogical (shuffle : List (List Nat) → List (List Nat)) (n : Nat) : List (List Nat) × List (List Nat) :=
  let p := shuffle (tiled n)
  (p.map fun r => r.drop L, p.map fun r => r.take L)

/-- The row of a sample: two inputs and the labels OR, XOR, AND. -/
def truth (a b : Bool) : List Nat × List Nat := ([a.toNat, b.toNat], [(a || b).toNat, (xor a b).toNat, (a && b).toNat])

theorem zip_map_map (p : List (List Nat)) : (p.map fun r => r.drop L).zip (p.map fun r => r.take L) = p.map fun r => (r.drop L, r.take L) := by
  induction p with
  | nil => rfl
  | cons a p ih => simp [ih]

/-- C259: features and labels belong together: each sample is a row of the truth table of OR, XOR and AND, and each of the four rows occurs
`n_tiles` times. -/
theorem C259_truth_table (shuffle : List (List Nat) → List (List Nat)) (hs : ∀ l, (shuffle l).Perm l) (n : Nat) :
    (makeLogical shuffle n).1.length = 4 * n ∧ (makeLogical shuffle n).2.length = 4 * n ∧
    (∀ s ∈ (makeLogical shuffle n).1.zip (makeLogical shuffle n).2, ∃ a b, s = truth a b) ∧
    ∀ a b, ((makeLogical shuffle n).1.zip (makeLogical shuffle n).2).count (truth a b) = n := by
  have hlen : (tiled n).length = 4 * n := by
    unfold tiled
    rw [List.length_flatten, List.map_replicate, List.sum_replicate_nat]
    show n * 4 = 4 * n
    omega
  have hmem : ∀ r ∈ shuffle (tiled n), r ∈ pat2 := by
    intro r hr
    have := (hs _).mem_iff.1 hr
    unfold tiled at this
    obtain ⟨l, hl, hr⟩ := List.mem_flatten.1 this
    rw [List.eq_of_mem_replicate hl] at hr
    exact hr
  have hz : (makeLogical shuffle n).1.zip (makeLogical shuffle n).2 = (shuffle (tiled n)).map fun r => (r.drop L, r.take L) :=
    zip_map_map _
  refine ⟨?_, ?_, ?_, ?_⟩
  · simp [makeLogical, (hs _).length_eq, hlen]
  · simp [makeLogical, (hs _).length_eq, hlen]
  · intro s hmem'
    rw [hz] at hmem'
    obtain ⟨r, hr, rfl⟩ := List.mem_map.1 hmem'
    have := hmem r hr
    have key : ∀ r ∈ pat2, ∃ a b, (r.drop L, r.take L) = truth a b := by decide
    exact key r this
  · intro a b
    rw [hz, List.Perm.count_eq ((hs _).map _)]
    have : (tiled n).map (fun r => (r.drop L, r.take L)) = (List.replicate n (pat2.map fun r => (r.drop L, r.take L))).flatten := by
      unfold tiled
      rw [List.map_flatten, List.map_replicate]
    rw [this]
    have hone : (pat2.map fun r => (r.drop L, r.take L)).count (truth a b) = 1 := by
      revert a b; decide
    clear this hz hmem hlen
    induction n with
    | zero => simp
    | succ n ih => rw [List.replicate_succ, List.flatten_cons, List.count_append, ih, hone, Nat.add_comm]

/-- Two tiles, in reversed order. -/
example : (makeLogical List.reverse 2).2.take 2 = [[1, 0, 1], [1, 1, 0]] ∧ (makeLogical List.reverse 2).1.take 2 = [[1, 1], [1, 0]] := by decide

end Verif.Streams.Logical
