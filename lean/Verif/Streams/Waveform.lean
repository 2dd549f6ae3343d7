import Verif.Common
import Mathlib.Algebra.Order.Field.Rat
import Mathlib.Algebra.Order.Ring.Abs
import Mathlib.Tactic.Linarith
import Mathlib.Tactic.IntervalCases
import Mathlib.Tactic.NormNum

/-!
# The waveform generator (C230)

Model of `src/skmultiflow/data/waveform_generator.py` 85-108 and 137-190.  What the random
number generator answers for a row (the group, the multiplier and the normal draws) is
arbitrary; values are rationals, rounding is not modelled.
-/

namespace Verif.Streams.Waveform

open Verif

/-- `_H_FUNCTION`, waveform_generator.py 88-90. -/
def H : List (List ℚ) :=
  [[0, 1, 2, 3, 4, 5, 6, 5, 4, 3, 2, 1, 0, 0, 0, 0, 0, 0, 0, 0, 0],
   [0, 0, 0, 0, 0, 0, 0, 0, 0, 1, 2, 3, 4, 5, 6, 5, 4, 3, 2, 1, 0],
   [0, 0, 0, 0, 0, 1, 2, 3, 4, 5, 6, 5, 4, 3, 2, 1, 0, 0, 0, 0, 0]]

/-- `_H_FUNCTION[c][i]`. -/
def wave (c i : Nat) : ℚ := (H.getD c []).getD i 0

/-- The draws for one row: `randint(0, n_classes)`, `rand()` and the calls of `normal()`
in their order. -/
structure Draw where
  group : Nat
  mult : ℚ
  normal : Nat → ℚ

/-- `n_features`, waveform_generator.py 98-105. -/
def nFeatures (noise : Bool) : Nat := if noise then 40 else 21

/-- One row, waveform_generator.py 172-186, with its label in the last place. -/
def row (noise : Bool) (d : Draw) : List ℚ :=
  let a := if d.group = 2 then 1 else 0
  let b := if d.group = 0 then 1 else 2
  let ma := d.mult
  let mb := 1 - ma
  let base := (List.range 21).map fun i => ma * wave a i + mb * wave b i + d.normal i
  let extra := if noise then (List.range' 21 19).map d.normal else []
  base ++ extra ++ [(d.group : ℚ)]

/-- The state that a call changes: `sample_idx`. -/
structure Gen where
  noise : Bool
  idx : Nat

/-- `next_sample(batch_size)`, waveform_generator.py 168-190, given the draws for its
rows: the features and the labels, and the generator afterwards.  `astype(int)` of a
label is its integer part (labels are not negative). -/
def nextSample (g : Gen) (ds : List Draw) : (List (List ℚ) × List Int) × Gen :=
  let n := nFeatures g.noise
  let data := ds.map (row g.noise)
  ((data.map (·.take n), data.map fun r => ((r.drop n).map Rat.floor).getD 0 0),
    ⟨g.noise, g.idx + ds.length⟩)

/-! ## Specification -/

/-- A triangle of height six with its peak at `p`. -/
def triangle (p i : Nat) : ℚ := max 0 (6 - |((i : ℚ) - p)|)

/-- The peaks of the two base waves that class `c` mixes. -/
def peaks (c : Nat) : Nat × Nat :=
  match c with
  | 0 => (6, 14)
  | 1 => (6, 10)
  | _ => (14, 10)

theorem wave_triangle : ∀ c < 3, ∀ i < 21,
    wave c i = triangle ([6, 14, 10].getD c 0) i := by
  decide +kernel

theorem row_length (noise : Bool) (d : Draw) : (row noise d).length = nFeatures noise + 1 := by
  cases noise <;> simp [row, nFeatures]

theorem row_feature (noise : Bool) (d : Draw) (hg : d.group < 3) (i : Nat)
    (hi : i < nFeatures noise) :
    ((row noise d).take (nFeatures noise))[i]? = some
      (if i < 21 then d.mult * triangle (peaks d.group).1 i +
          (1 - d.mult) * triangle (peaks d.group).2 i + d.normal i
        else d.normal i) := by
  rw [List.getElem?_take, if_pos hi]
  unfold row
  by_cases h21 : i < 21
  · rw [if_pos h21, List.append_assoc, List.getElem?_append_left (by simpa using h21)]
    simp only [List.getElem?_map, List.getElem?_range h21, Option.map_some]
    congr 1
    obtain ⟨g, m, nrm⟩ := d
    simp only at hg ⊢
    have t0 := wave_triangle 0 (by omega) i h21
    have t1 := wave_triangle 1 (by omega) i h21
    have t2 := wave_triangle 2 (by omega) i h21
    have : g = 0 ∨ g = 1 ∨ g = 2 := by omega
    rcases this with rfl | rfl | rfl <;> simp [peaks, t0, t1, t2]
  · rw [if_neg h21]
    cases noise with
    | false => unfold nFeatures at hi; simp at hi; omega
    | true =>
      unfold nFeatures at hi
      rw [List.append_assoc, List.getElem?_append_right (by simpa using h21),
        List.getElem?_append_left (by simp at hi ⊢; omega)]
      simp only [if_true] at hi ⊢
      rw [List.length_map, List.length_range, List.getElem?_map, List.getElem?_range' (by omega)]
      simp only [Option.map_some, Nat.one_mul]
      congr 2; omega

/-- **C230**: every call answers as many rows as asked for, of 21 features (40 with
noise), and their labels, which are the groups drawn: 0, 1 or 2.  The features of a row
of class `c` are a mixture, with the multiplier drawn, of the two triangular base waves
of the class, plus a normal draw each; features 22 to 40 are normal draws only.  The
sample counter rises by the number of rows. -/
theorem C230_waveform (g : Gen) (ds : List Draw) (hd : ∀ d ∈ ds, d.group < 3) :
    let out := nextSample g ds
    out.1.1.length = ds.length ∧ out.1.2 = ds.map (fun d => (d.group : Int)) ∧
    out.2 = ⟨g.noise, g.idx + ds.length⟩ ∧
    ∀ (j : Nat) (d : Draw), ds[j]? = some d → ∃ x, out.1.1[j]? = some x ∧
      x.length = (if g.noise then 40 else 21) ∧
      ∀ i, i < x.length → x[i]? = some
        (if i < 21 then d.mult * triangle (peaks d.group).1 i +
            (1 - d.mult) * triangle (peaks d.group).2 i + d.normal i
          else d.normal i) := by
  intro out
  refine ⟨by simp [out, nextSample], ?_, rfl, ?_⟩
  · simp only [out, nextSample, List.map_map]
    apply List.map_congr_left
    intro d _
    simp only [Function.comp]
    have e : (row g.noise d).drop (nFeatures g.noise) = [(d.group : ℚ)] := by
      unfold row
      apply List.drop_left'
      cases g.noise <;> simp [nFeatures]
    rw [e]
    simp only [List.map_cons, List.map_nil, List.getD_cons_zero]
    have := Rat.floor_intCast (d.group : Int)
    rwa [Int.cast_natCast] at this
  · intro j d hj
    refine ⟨(row g.noise d).take (nFeatures g.noise), ?_, ?_, ?_⟩
    · simp [out, nextSample, hj]
    · rw [List.length_take, row_length]
      unfold nFeatures; split <;> simp
    · intro i hi
      rw [List.length_take, row_length] at hi
      exact row_feature _ d (hd d (List.mem_of_getElem? hj)) i (by omega)

/-- Without the normal draws a feature lies between the two waves of its class, hence
between 0 and 6; the waves of different classes are different pairs. -/
theorem C230_between (d : Draw) (hm : 0 ≤ d.mult ∧ d.mult < 1) (hg : d.group < 3) (i : Nat)
    (hi : i < 21) (noise : Bool) :
    ∃ x, ((row noise d).take (nFeatures noise))[i]? = some x ∧
      min (triangle (peaks d.group).1 i) (triangle (peaks d.group).2 i) ≤ x - d.normal i ∧
      x - d.normal i ≤ max (triangle (peaks d.group).1 i) (triangle (peaks d.group).2 i) ∧
      0 ≤ x - d.normal i ∧ x - d.normal i ≤ 6 := by
  refine ⟨_, row_feature noise d hg i (by unfold nFeatures; split <;> omega), ?_⟩
  rw [if_pos hi]
  have tri : ∀ p, 0 ≤ triangle p i ∧ triangle p i ≤ 6 := by
    intro p
    unfold triangle
    exact ⟨le_max_left _ _, max_le (by norm_num) (by linarith [abs_nonneg ((i : ℚ) - p)])⟩
  obtain ⟨a0, a6⟩ := tri (peaks d.group).1
  obtain ⟨b0, b6⟩ := tri (peaks d.group).2
  generalize triangle (peaks d.group).1 i = a at *
  generalize triangle (peaks d.group).2 i = b at *
  obtain ⟨m0, m1⟩ := hm
  rw [add_sub_cancel_right]
  rcases le_total a b with h | h
  · rw [min_eq_left h, max_eq_right h]
    refine ⟨?_, ?_, ?_, ?_⟩ <;> nlinarith
  · rw [min_eq_right h, max_eq_left h]
    refine ⟨?_, ?_, ?_, ?_⟩ <;> nlinarith

/-- Different classes mix different pairs of waves, and the two waves of a class differ. -/
theorem C230_classes_differ : ∀ c < 3, (peaks c).1 ≠ (peaks c).2 ∧
    ∀ c' < 3, c ≠ c' → ¬ (∀ p, p = (peaks c).1 ∨ p = (peaks c).2 →
      p = (peaks c').1 ∨ p = (peaks c').2) := by
  intro c hc
  refine ⟨by interval_cases c <;> decide, fun c' hc' hne h => ?_⟩
  have h1 := h _ (.inl rfl)
  have h2 := h _ (.inr rfl)
  interval_cases c <;> interval_cases c' <;> simp_all [peaks]

example : (nextSample ⟨false, 3⟩ [⟨1, 1/2, fun _ => 0⟩, ⟨2, 1/4, fun i => i⟩]).1.1.map
      (fun x => (x.length, x.getD 8 0)) = [(21, 4), (21, 11)] ∧
    (nextSample ⟨false, 3⟩ [⟨1, 1/2, fun _ => 0⟩, ⟨2, 1/4, fun i => i⟩]).1.2 = [1, 2] := by
  decide +kernel

end Verif.Streams.Waveform
