import Verif.Drift.EDDMErrors
import Mathlib.Algebra.Order.BigOperators.Group.List
import Mathlib.Tactic.Positivity
import Mathlib.Tactic.FieldSimp
import Mathlib.Algebra.Order.Archimedean.Basic
import Mathlib.Data.Rat.Floor

/-!
Property C309: when errors come faster for good, EDDM reports a change.
-/

namespace Verif.Drift.EDDM

/-! ### Sums -/

/-- The mean is the point with the least squared deviations. -/
private theorem sumSqDev_le_about (l : List ℚ) (c : ℚ) : sumSqDev l ≤ (l.map fun x => (x - c) ^ 2).sum := by
  by_cases hl : l = []
  · subst hl; simp [sumSqDev]
  · have hp : (0 : ℚ) < l.length := by exact_mod_cast List.length_pos_iff.2 hl
    have key : ∀ (l : List ℚ) (c m : ℚ), (l.map fun x => (x - c) ^ 2).sum
        = (l.map fun x => (x - m) ^ 2).sum + 2 * (m - c) * (l.sum - l.length * m) + l.length * (m - c) ^ 2 := by
      intro l c m
      induction l with
      | nil => simp
      | cons x l ih =>
        simp only [List.map_cons, List.sum_cons, List.length_cons, ih]
        push_cast
        ring
    rw [key l c (Verif.mean l)]
    have hm : l.sum - l.length * Verif.mean l = 0 := by
      unfold Verif.mean; field_simp; ring
    rw [hm]
    unfold sumSqDev
    have : 0 ≤ (l.length : ℚ) * (Verif.mean l - c) ^ 2 := by positivity
    linarith

private theorem sum_le (l : List ℚ) (b : ℚ) (h : ∀ x ∈ l, x ≤ b) : l.sum ≤ b * l.length := by
  induction l with
  | nil => simp
  | cons x l ih =>
    have := ih fun y hy => h y (List.mem_cons_of_mem _ hy)
    have := h x (by simp)
    simp only [List.sum_cons, List.length_cons]
    push_cast
    linarith

/-! ### Distances -/

private theorem gaps_append (a b : List Bool) (k : Nat) : gaps k (a ++ [true] ++ b) = gaps k (a ++ [true]) ++ gaps 0 b := by
  induction a generalizing k with
  | nil => rfl
  | cons x a ih =>
    cases x with
    | true => simpa [gaps] using ih 0
    | false => simpa [gaps] using ih (k + 1)

private theorem gaps_length (a : List Bool) (k : Nat) : (gaps k a).length = a.count true := by
  induction a generalizing k with
  | nil => rfl
  | cons x a ih => cases x <;> simp [gaps, ih]

private theorem segment_unreported (sqrt : ℚ → ℚ) (xs : List Bool) (h0 : reported sqrt xs = false) : ∀ post : List Bool,
    (∀ k, 0 < k → k ≤ post.length → reported sqrt (xs ++ post.take k) = false) →
    segment sqrt (xs ++ post) = segment sqrt xs ++ post := by
  intro post
  induction post using List.reverseRecOn with
  | nil => simp
  | append_singleton l x ih =>
    intro h
    have hl : ∀ k, 0 < k → k ≤ l.length → reported sqrt (xs ++ l.take k) = false := by
      intro k hk1 hk2
      have := h k hk1 (by simp; omega)
      rwa [List.take_append_of_le_length hk2] at this
    have hlast : reported sqrt (xs ++ l) = false := by
      by_cases hn : l = []
      · subst hn; simpa using h0
      · have := hl l.length (List.length_pos_iff.2 hn) (le_refl _)
        rwa [List.take_of_length_le (le_refl _)] at this
    have ih' := ih hl
    unfold reported at hlast
    unfold segment at *
    rw [← List.append_assoc, sinceChange_append, if_neg (by rw [hlast]; simp), ih', List.append_assoc]

/-- The level after many distances in a range. -/
private theorem level_tends (sqrt : ℚ → ℚ) (hsq : ∀ q r, 0 ≤ r → q ≤ r ^ 2 → sqrt q ≤ r) (D : List ℚ) (lo hi B : ℚ)
    (hlh : lo ≤ hi) (hB : hi + 2 * (hi - lo) < B) : ∃ N : Nat, ∀ E : List ℚ, N ≤ E.length → (∀ x ∈ E, lo ≤ x ∧ x ≤ hi) →
      level sqrt (D ++ E) (D ++ E).length < B := by
  set η := B - hi - 2 * (hi - lo) with hη
  have hη0 : 0 < η := by rw [hη]; linarith
  obtain ⟨N1, hN1⟩ := exists_nat_ge ((D.sum - hi * D.length) * 3 / η)
  obtain ⟨N2, hN2⟩ := exists_nat_ge ((D.map fun x => (x - lo) ^ 2).sum * 16 / η ^ 2)
  refine ⟨N1 + N2 + 1, ?_⟩
  intro E hE hx
  have hn : (0 : ℚ) < ((D ++ E).length : ℚ) := by
    have : 0 < (D ++ E).length := by rw [List.length_append]; omega
    exact_mod_cast this
  have hlen : ((D ++ E).length : ℚ) = D.length + E.length := by rw [List.length_append]; push_cast; rfl
  have hD0 : (0 : ℚ) ≤ D.length := by positivity
  have hE1 : (N1 : ℚ) ≤ E.length := by exact_mod_cast (by omega : N1 ≤ E.length)
  have hE2 : (N2 : ℚ) ≤ E.length := by exact_mod_cast (by omega : N2 ≤ E.length)
  unfold level
  rw [List.take_of_length_le (le_refl _)]
  have hmean : Verif.mean (D ++ E) ≤ hi + η / 3 := by
    unfold Verif.mean
    rw [div_le_iff₀ hn, List.sum_append, hlen]
    have h1 := sum_le E hi fun x h => (hx x h).2
    rw [div_le_iff₀ hη0] at hN1
    nlinarith
  have hvar : variance (D ++ E) ≤ ((hi - lo) + η / 4) ^ 2 := by
    unfold variance
    rw [div_le_iff₀ hn]
    refine le_trans (sumSqDev_le_about (D ++ E) lo) ?_
    rw [List.map_append, List.sum_append, hlen]
    have h1 := sum_le (E.map fun x => (x - lo) ^ 2) ((hi - lo) ^ 2) (by
      intro y hy
      obtain ⟨x, hxE, rfl⟩ := List.mem_map.1 hy
      obtain ⟨a, b⟩ := hx x hxE
      apply sq_le_sq' <;> linarith)
    rw [List.length_map] at h1
    rw [div_le_iff₀ (by positivity)] at hN2
    have hq : 0 ≤ 2 * (hi - lo) * (η / 4) := by
      apply mul_nonneg
      · linarith
      · linarith
    have e : ((hi - lo) + η / 4) ^ 2 = (hi - lo) ^ 2 + 2 * (hi - lo) * (η / 4) + η ^ 2 / 16 := by ring
    rw [e]
    have h2 : (D.map fun x => (x - lo) ^ 2).sum ≤ η ^ 2 / 16 * E.length := by
      have : (N2 : ℚ) * η ^ 2 ≤ E.length * η ^ 2 := mul_le_mul_of_nonneg_right hE2 (by positivity)
      linarith
    have h3 : 0 ≤ 2 * (hi - lo) * (η / 4) * (D.length + E.length) := by positivity
    have h4 : 0 ≤ (hi - lo) ^ 2 * D.length := by positivity
    have h5 : 0 ≤ η ^ 2 / 16 * D.length := by positivity
    nlinarith
  have hs := hsq _ _ (by linarith) hvar
  linarith

/-! ### The property -/

/-- **C309.**  Let the last prediction be wrong and not reported, and let `M` be mean + 2 deviations of the distances between errors at some error
since the last change (position 29 or later).  If from now on the distances between errors stay between `lo` and `hi`, where
`hi + 2 (hi - lo) < 0.9 M`, then there is a number `N` so that a change is reported on one of the next predictions, as soon as they contain
`N` errors. -/
theorem C309_lasting (sqrt : ℚ → ℚ) (hs : ∀ q, 0 ≤ sqrt q) (hsq : ∀ q r, 0 ≤ r → q ≤ r ^ 2 → sqrt q ≤ r) (xs : List Bool)
    (hno : reported sqrt (xs ++ [true]) = false) (j : Nat) (hj : Checked (distances (segment sqrt (xs ++ [true]))) j)
    (lo hi : ℚ) (hlh : lo ≤ hi) (hM : hi + 2 * (hi - lo) < 9 / 10 * level sqrt (distances (segment sqrt (xs ++ [true]))) j) :
    ∃ N : Nat, ∀ post : List Bool, N ≤ post.count true → (∀ g ∈ distances (post ++ [true]), lo ≤ g ∧ g ≤ hi) →
      ∃ k, 0 < k ∧ k ≤ post.length + 1 ∧ reported sqrt (xs ++ [true] ++ (post ++ [true]).take k) = true := by
  obtain ⟨N, hN⟩ := level_tends sqrt hsq (distances (segment sqrt (xs ++ [true]))) lo hi _ hlh hM
  refine ⟨N + 31, ?_⟩
  intro post hpost hg
  by_contra hcon
  have hall : ∀ k, 0 < k → k ≤ (post ++ [true]).length → reported sqrt (xs ++ [true] ++ (post ++ [true]).take k) = false := by
    intro k hk1 hk2
    cases hr : reported sqrt (xs ++ [true] ++ (post ++ [true]).take k) with
    | false => rfl
    | true => exact absurd ⟨k, hk1, by simpa using hk2, hr⟩ hcon
  have hseg := segment_unreported sqrt (xs ++ [true]) hno (post ++ [true]) hall
  have hlast := hall (post ++ [true]).length (by simp) (le_refl _)
  rw [List.take_of_length_le (le_refl _)] at hlast
  obtain ⟨p, hp⟩ : ∃ p, segment sqrt (xs ++ [true]) = p ++ [true] := by
    unfold segment
    rw [sinceChange_append]
    split
    · exact ⟨[], rfl⟩
    · exact ⟨_, rfl⟩
  have hdist : distances (segment sqrt (xs ++ [true]) ++ (post ++ [true]))
      = distances (segment sqrt (xs ++ [true])) ++ distances (post ++ [true]) := by
    rw [hp]; unfold distances; exact gaps_append p (post ++ [true]) 0
  have hlen : (distances (post ++ [true])).length = post.count true + 1 := by
    unfold distances; rw [gaps_length]; simp
  have hyes : (run sqrt (xs ++ [true] ++ (post ++ [true]))).change = true := by
    refine ((C17_decision sqrt hs _).1).2 ?_
    rw [hseg, hdist]
    refine ⟨by rw [← List.append_assoc]; simp, by rw [List.length_append]; omega, j, ?_, ?_⟩
    · obtain ⟨j1, j2, j3⟩ := hj
      refine ⟨j1, by rw [List.length_append]; omega, ?_⟩
      rw [List.take_append_of_le_length j2]
      exact j3
    · refine lt_of_lt_of_le (hN _ (by omega) hg) (le_of_eq ?_)
      unfold level
      rw [List.take_append_of_le_length hj.2.1]
  unfold reported at hlast
  rw [hyes] at hlast
  cases hlast

/-- Non-vacuity: an error at every tenth prediction, ten times over; then one at every fourth prediction.  (The root is 0 here, the distances
being equal.) -/
example : let xs : List Bool := (List.replicate 9 (List.replicate 9 false ++ [true])).flatten ++ List.replicate 9 false
    reported (fun _ => 0) (xs ++ [true]) = false ∧ distances (segment (fun _ => 0) (xs ++ [true])) = List.replicate 10 10 ∧
      level (fun _ => 0) (distances (segment (fun _ => 0) (xs ++ [true]))) 3 = 10 ∧ (4 : ℚ) + 2 * (4 - 4) < 9 / 10 * 10 := by
  decide +kernel

end Verif.Drift.EDDM
