import Verif.Drift.DDMProps
import Mathlib.Tactic.Linarith
import Mathlib.Algebra.Order.BigOperators.Group.List

/-!
Property C299, the other direction: when errors become frequent enough, DDM
reports a change.
-/

namespace Verif.Drift.DDM

private theorem exists_best (c : DDMPar) (seg : List ℚ) (m : Nat) (hm : Checked c seg m) :
    ∃ b, Best c seg b := by
  have key : ∀ N, (∃ i, i ≤ N ∧ Checked c seg i) → ∃ b, b ≤ N ∧ Checked c seg b ∧
      ∀ i, i ≤ N → Checked c seg i → rate seg b + dev c seg b ≤ rate seg i + dev c seg i ∧
        (b < i → rate seg b + dev c seg b < rate seg i + dev c seg i) := by
    intro N
    induction N with
    | zero => rintro ⟨i, hi, h, _⟩; omega
    | succ N ih =>
      intro hex
      by_cases hN : Checked c seg (N + 1)
      · by_cases hlow : ∃ i, i ≤ N ∧ Checked c seg i
        · obtain ⟨b, b1, b2, b3⟩ := ih hlow
          by_cases hle : rate seg (N + 1) + dev c seg (N + 1) ≤ rate seg b + dev c seg b
          · refine ⟨N + 1, le_refl _, hN, fun i hi hc => ?_⟩
            rcases Nat.lt_or_ge i (N + 1) with h | h
            · exact ⟨le_trans hle (b3 i (by omega) hc).1, fun h' => by omega⟩
            · have : i = N + 1 := by omega
              subst this
              exact ⟨le_refl _, fun h' => by omega⟩
          · refine ⟨b, by omega, b2, fun i hi hc => ?_⟩
            rcases Nat.lt_or_ge i (N + 1) with h | h
            · exact b3 i (by omega) hc
            · have : i = N + 1 := by omega
              subst this
              exact ⟨(not_le.1 hle).le, fun _ => not_le.1 hle⟩
        · refine ⟨N + 1, le_refl _, hN, fun i hi hc => ?_⟩
          have : i = N + 1 := by
            by_contra hne
            exact hlow ⟨i, by omega, hc⟩
          subst this
          exact ⟨le_refl _, fun h' => by omega⟩
      · have hlow : ∃ i, i ≤ N ∧ Checked c seg i := by
          obtain ⟨i, hi, hc⟩ := hex
          refine ⟨i, ?_, hc⟩
          by_contra hne
          have : i = N + 1 := by omega
          exact hN (this ▸ hc)
        obtain ⟨b, b1, b2, b3⟩ := ih hlow
        refine ⟨b, by omega, b2, fun i hi hc => ?_⟩
        have : i ≠ N + 1 := fun e => hN (e ▸ hc)
        exact b3 i (by omega) hc
  obtain ⟨b, _, b2, b3⟩ := key seg.length ⟨m, hm.2.1, hm⟩
  exact ⟨b, b2, fun i hi => b3 i hi.2.1 hi⟩

/-- **C299, bound.**  Predictions are 0 (right) to 1 (wrong).  As long as no change is
reported, the rate of errors since the last change never exceeds `out_control_level`
times the sum of the rate `r` and its deviation `sqrt (r (1 - r) / m)` at any moment since
that change, at least `min_num_instances - 1` predictions after it. -/
theorem C299_bounded_partial (c : DDMPar) (hs : ∀ q, 0 ≤ c.sqrt q) (ho : 1 ≤ c.outControlLevel)
    (xs : List ℚ) (hx : ∀ x ∈ xs, 0 ≤ x) (hno : (run c xs).change = false)
    (m : Nat) (h1 : 1 ≤ m) (h2 : m ≤ (segment c xs).length)
    (h3 : c.minInstances ≤ m + 1) (r : ℚ) (hr : r = ((segment c xs).take m).sum / m) :
    (segment c xs).sum / (segment c xs).length
      ≤ c.outControlLevel * (r + c.sqrt (r * (1 - r) / m)) := by
  by_contra h
  rw [not_le] at h
  obtain ⟨b, hb⟩ := exists_best c (segment c xs) m ⟨h1, h2, h3⟩
  have hyes : (run c xs).change = true := by
    refine ((C16_decision c xs).1).2 ⟨b, hb, ?_⟩
    have hrm : rate (segment c xs) m = r := by
      unfold rate mean
      rw [hr, List.length_take, min_eq_left h2]
    have hdm : dev c (segment c xs) m = c.sqrt (r * (1 - r) / m) := by
      unfold dev; rw [hrm]
    have hmin := (hb.2 m ⟨h1, h2, h3⟩).1
    rw [hrm, hdm] at hmin
    have hlast : rate (segment c xs) (segment c xs).length
        = (segment c xs).sum / (segment c xs).length := by
      unfold rate mean
      rw [List.take_of_length_le (le_refl _)]
    have hd0 : 0 ≤ dev c (segment c xs) (segment c xs).length := hs _
    have hsub := (sinceChange_suffix (fun h => (run c h).change) xs).subset
    have hr0 : 0 ≤ rate (segment c xs) b := by
      unfold rate mean
      apply div_nonneg _ (by positivity)
      apply List.sum_nonneg
      intro x hx'
      exact hx x (hsub (List.mem_of_mem_take hx'))
    rw [hlast]
    nlinarith
  rw [hno] at hyes
  cases hyes

/-- A third of the first three predictions is wrong, and then every second one: not reported with
this (rough) root. -/
example : let c : DDMPar := ⟨3, 2, 3, fun q => 2 * q⟩
    let xs : List ℚ := [0, 1, 0, 1]
    segment c xs = xs ∧ (run c xs).change = false ∧ c.minInstances ≤ 3 + 1 := by
  decide +kernel

end Verif.Drift.DDM
