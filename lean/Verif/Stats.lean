import Verif.Common
import Mathlib.Tactic.LinearCombination
import Mathlib.Algebra.Order.Field.Basic

/-!
Elementary statistics of lists of rationals, used by several specifications.
-/

namespace Verif

/-- Arithmetic mean (0 for the empty list). -/
def mean (l : List ℚ) : ℚ := l.sum / l.length

/-- Sum of squared deviations from the mean. -/
def sumSqDev (l : List ℚ) : ℚ := (l.map fun x => (x - mean l) ^ 2).sum

/-- Population variance: mean squared deviation (0 for the empty list). -/
def variance (l : List ℚ) : ℚ := sumSqDev l / l.length

theorem mean_append (l : List ℚ) (x : ℚ) :
    mean (l ++ [x]) = (l.sum + x) / (l.length + 1) := by
  simp [mean]

/-- The running-mean update used by the detectors. -/
theorem mean_step (l : List ℚ) (x : ℚ) (n : ℚ) (hn : n = l.length + 1) (m : ℚ)
    (hm : l ≠ [] → m = mean l) : m + (x - m) / n = mean (l ++ [x]) := by
  rw [mean_append, hn]
  by_cases hl : l = []
  · subst hl; simp
  · rw [hm hl, mean]
    have : (l.length : ℚ) ≠ 0 := by simpa using hl
    have h2 : (l.length : ℚ) + 1 ≠ 0 := by positivity
    field_simp
    ring

theorem mean_le (l : List ℚ) (b : ℚ) (hne : l ≠ []) (h : ∀ x ∈ l, x ≤ b) : mean l ≤ b := by
  have hpos : (0 : ℚ) < l.length := by
    have := List.length_pos_iff.2 hne; exact_mod_cast this
  rw [mean, div_le_iff₀ hpos]
  clear hpos hne
  induction l with
  | nil => simp
  | cons a l ih =>
    have h1 := h a (by simp)
    have h2 := ih fun x hx => h x (by simp [hx])
    simp only [List.sum_cons, List.length_cons, Nat.cast_add, Nat.cast_one]
    linarith

theorem le_mean (l : List ℚ) (a : ℚ) (hne : l ≠ []) (h : ∀ x ∈ l, a ≤ x) : a ≤ mean l := by
  have hpos : (0 : ℚ) < l.length := by
    have := List.length_pos_iff.2 hne; exact_mod_cast this
  rw [mean, le_div_iff₀ hpos]
  clear hpos hne
  induction l with
  | nil => simp
  | cons b l ih =>
    have h1 := h b (by simp)
    have h2 := ih fun x hx => h x (by simp [hx])
    simp only [List.sum_cons, List.length_cons, Nat.cast_add, Nat.cast_one]
    linarith

theorem sum_sq_shift (l : List ℚ) (m : ℚ) :
    (l.map fun x => (x - m) ^ 2).sum = (l.map fun x => x ^ 2).sum - 2 * m * l.sum + l.length * m ^ 2 := by
  induction l with
  | nil => simp
  | cons a l ih => simp only [List.map_cons, List.sum_cons, ih, List.length_cons]; push_cast; ring

theorem length_mul_mean (l : List ℚ) : l.length * mean l = l.sum := by
  unfold mean
  by_cases h : l = []
  · subst h; simp
  · have : (l.length : ℚ) ≠ 0 := by simpa using h
    field_simp

/-- `Σ (x - mean)² = Σ x² - n mean²`. -/
theorem sumSqDev_eq (l : List ℚ) :
    sumSqDev l = (l.map fun x => x ^ 2).sum - l.length * mean l ^ 2 := by
  unfold sumSqDev
  rw [sum_sq_shift]
  have := length_mul_mean l
  linear_combination (2 * mean l) * this

/-- Welford's update. -/
theorem sumSqDev_append (l : List ℚ) (x : ℚ) :
    sumSqDev (l ++ [x]) = sumSqDev l + (x - mean (l ++ [x])) * (x - mean l) := by
  rw [sumSqDev_eq, sumSqDev_eq, mean_append]
  have hl := length_mul_mean l
  have h2 : (l.length : ℚ) + 1 ≠ 0 := by positivity
  simp only [List.map_append, List.map_cons, List.map_nil, List.sum_append, List.sum_cons,
    List.sum_nil, List.length_append, List.length_cons, List.length_nil]
  rw [← hl]
  push_cast
  field_simp
  ring

theorem sumSqDev_nonneg (l : List ℚ) : 0 ≤ sumSqDev l := by
  unfold sumSqDev
  generalize mean l = m
  induction l with
  | nil => simp
  | cons a l ih => simp only [List.map_cons, List.sum_cons]; nlinarith [sq_nonneg (a - m)]

end Verif
