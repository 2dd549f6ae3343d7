import Verif.Drift.DDMProps
import Mathlib.Tactic.Linarith
import Mathlib.Tactic.FieldSimp

/-!
Property C301: Page-Hinkley reports rises, and a lasting rise is reported.
-/

namespace Verif.Drift.PH

/-! ### Specification -/

/-- Whether the last value of the stream is reported. -/
def reported (c : PHPar) (xs : List ℚ) : Bool := (run c xs).change

/-- `1 + alpha + ... + alpha^(k-1)`. -/
def geo (alpha : ℚ) : Nat → ℚ
  | 0 => 0
  | k + 1 => alpha * geo alpha k + 1

/-! ### Proofs -/

private theorem cum_nonneg (c : PHPar) (seg : List ℚ) (i : Nat) : 0 ≤ cumulative c seg i := by
  cases i with
  | zero => exact le_refl _
  | succ i => exact le_max_left _ _

private theorem cum_prefix (c : PHPar) (a b : List ℚ) (i : Nat) (h : i ≤ a.length) :
    cumulative c (a ++ b) i = cumulative c a i := by
  induction i with
  | zero => rfl
  | succ i ih =>
    unfold cumulative
    rw [ih (by omega), List.take_append_of_le_length h, List.getD_append _ _ _ _ (by omega)]

private theorem whole (flag : List ℚ → Bool) (xs : List ℚ)
    (h : ∀ i, i < xs.length → flag (xs.take i) = false) : sinceChange flag xs = xs := by
  induction xs using List.reverseRecOn with
  | nil => rfl
  | append_singleton xs x ih =>
    rw [sinceChange_append]
    have h0 : flag xs = false := by
      have := h xs.length (by simp)
      rwa [List.take_left'] at this
      rfl
    rw [h0, ih]
    · simp
    · intro i hi
      have := h i (by simp; omega)
      rwa [List.take_append_of_le_length (by omega)] at this

private theorem geo_nonneg (alpha : ℚ) (h : 0 ≤ alpha) (k : Nat) : 0 ≤ geo alpha k := by
  induction k with
  | zero => exact le_refl _
  | succ k ih => simp only [geo]; nlinarith [mul_nonneg h ih]

private theorem cum_step_up (c : PHPar) (ha : 0 ≤ c.alpha) (xs : List ℚ) (hne : xs ≠ []) (v : ℚ) (k : Nat)
    (inc : ℚ) (hinc : inc = xs.length * (v - Verif.mean xs) / (xs.length + k) - c.delta)
    (hv : Verif.mean xs ≤ v) (j : Nat) (hj : j ≤ k) :
    geo c.alpha j * inc ≤ cumulative c (xs ++ List.replicate k v) (xs.length + j) := by
  have hn : (0 : ℚ) < xs.length := by exact_mod_cast List.length_pos_iff.2 hne
  induction j with
  | zero => simp only [geo, zero_mul]; exact cum_nonneg _ _ _
  | succ j ih =>
    have hprev := ih (by omega)
    have hget : (xs ++ List.replicate k v).getD (xs.length + j) 0 = v := by
      rw [List.getD_append_right _ _ _ _ (by omega)]
      simp [List.getD_replicate, show j < k by omega]
    have htake : (xs ++ List.replicate k v).take (xs.length + j + 1) = xs ++ List.replicate (j + 1) v := by
      rw [List.take_append, List.take_of_length_le (by omega), List.take_replicate]
      congr 2
      omega
    have hmean : Verif.mean (xs ++ List.replicate (j + 1) v)
        = v - xs.length * (v - Verif.mean xs) / (xs.length + (j + 1)) := by
      have hd : (0 : ℚ) < xs.length + (j + 1) := by positivity
      unfold Verif.mean
      rw [List.sum_append, List.sum_replicate, List.length_append, List.length_replicate, nsmul_eq_mul]
      push_cast
      field_simp
      ring
    have hle : xs.length * (v - Verif.mean xs) / (xs.length + k)
        ≤ xs.length * (v - Verif.mean xs) / ((xs.length : ℚ) + (j + 1)) := by
      apply div_le_div_of_nonneg_left (mul_nonneg hn.le (by linarith)) (by positivity)
      have : (j : ℚ) + 1 ≤ k := by exact_mod_cast hj
      linarith
    have hcum : cumulative c (xs ++ List.replicate k v) (xs.length + (j + 1))
        = max 0 (c.alpha * cumulative c (xs ++ List.replicate k v) (xs.length + j) +
          (v - Verif.mean (xs ++ List.replicate (j + 1) v) - c.delta)) := by
      rw [← htake, ← Nat.add_assoc]
      conv_lhs => unfold cumulative
      rw [hget]
    rw [hcum, hmean]
    refine le_trans ?_ (le_max_right _ _)
    simp only [geo]
    have := mul_le_mul_of_nonneg_left hprev ha
    have e : (c.alpha * geo c.alpha j + 1) * inc = c.alpha * (geo c.alpha j * inc) + inc := by ring
    rw [e]
    linarith

/-! ### The property -/

/-- **C301, alarms are rises.**  For a forgetting factor between 0 and 1 and
`delta` and `threshold` not negative, a value that is reported exceeds the mean of
all values since the last change (itself included) by more than `delta`, unless
it is the first value at which the detector is allowed to report. -/
theorem C301_above (c : PHPar) (ha : 0 ≤ c.alpha ∧ c.alpha ≤ 1) (hd : 0 ≤ c.delta)
    (ht : 0 ≤ c.threshold) (xs : List ℚ) (x : ℚ) (h : reported c (xs ++ [x]) = true)
    (hmin : c.minInstances ≤ (segment c (xs ++ [x])).length) :
    Verif.mean (segment c (xs ++ [x])) + c.delta < x := by
  obtain ⟨_, hgt⟩ := (C18_decision_partial c (xs ++ [x]) (by simp)).1 h
  have hsingle : ¬ c.threshold < cumulative c [x] [x].length := by
    simp [cumulative, Verif.mean]
    exact ⟨ht, by linarith⟩
  have hseg : segment c (xs ++ [x]) = if (run c xs).change then [x] else segment c xs ++ [x] := by
    unfold segment; rw [sinceChange_append]
  rw [hseg] at hgt hmin ⊢
  cases hch : (run c xs).change with
  | true => rw [hch] at hgt; exact absurd hgt hsingle
  | false =>
    rw [hch] at hgt hmin
    simp only [Bool.false_eq_true, if_false] at hgt hmin ⊢
    by_cases hx : xs = []
    · subst hx
      exact absurd hgt hsingle
    · have hprev : cumulative c (segment c xs) (segment c xs).length ≤ c.threshold := by
        by_contra hc
        have := (C18_decision_partial c xs hx).2 ⟨by simpa using hmin, not_le.1 hc⟩
        rw [hch] at this; cases this
      have hl : (segment c xs ++ [x]).length = (segment c xs).length + 1 := by simp
      rw [hl] at hgt
      unfold cumulative at hgt
      rw [cum_prefix c _ _ _ (le_refl _), List.take_of_length_le (by simp)] at hgt
      have hg : (segment c xs ++ [x]).getD (segment c xs).length 0 = x := by simp
      rw [hg] at hgt
      have h0 := cum_nonneg c (segment c xs) (segment c xs).length
      rcases lt_max_iff.1 hgt with h1 | h1
      · linarith
      · have : c.alpha * cumulative c (segment c xs) (segment c xs).length
            ≤ cumulative c (segment c xs) (segment c xs).length := by nlinarith [ha.2]
        linarith

/-- **C301, lasting rises are reported.**  After `n` values with mean `m`, none
of them reported, let the values jump to `v ≥ m` and stay there for `k` values.
If `(1 + alpha + ... + alpha^(k-1)) * (n (v - m) / (n + k) - delta)` exceeds the
threshold, the rise is reported by the last of them. -/
theorem C301_found (c : PHPar) (ha : 0 ≤ c.alpha) (xs : List ℚ) (hne : xs ≠ [])
    (hno : ∀ i, i ≤ xs.length → reported c (xs.take i) = false) (v : ℚ) (hv : Verif.mean xs ≤ v)
    (k : Nat) (hmin : c.minInstances ≤ xs.length + k + 1)
    (hbig : c.threshold < geo c.alpha k * (xs.length * (v - Verif.mean xs) / (xs.length + k) - c.delta)) :
    ∃ i, i ≤ k ∧ reported c (xs ++ List.replicate i v) = true := by
  by_contra hcon
  have hnone : ∀ i, i ≤ k → reported c (xs ++ List.replicate i v) = false := by
    intro i hi
    by_contra hc
    exact hcon ⟨i, hi, by simpa using hc⟩
  have hall : ∀ i, i < (xs ++ List.replicate k v).length →
      reported c ((xs ++ List.replicate k v).take i) = false := by
    intro i hi
    by_cases h : i ≤ xs.length
    · rw [List.take_append_of_le_length h]; exact hno i h
    · rw [List.take_append, List.take_of_length_le (by omega), List.take_replicate]
      exact hnone _ (min_le_right _ _)
  have hseg : segment c (xs ++ List.replicate k v) = xs ++ List.replicate k v := whole _ _ hall
  have := (C18_decision_partial c (xs ++ List.replicate k v) (by simp [hne])).2 (by
    rw [hseg]
    refine ⟨by simpa using hmin, ?_⟩
    have := cum_step_up c ha xs hne v k _ rfl hv k (le_refl _)
    rw [List.length_append, List.length_replicate]
    linarith)
  have h2 := hnone k (le_refl _)
  unfold reported at h2
  rw [this] at h2
  cases h2

/-! ### Examples -/

private def exPar : PHPar := ⟨3, 1 / 10, 5, 1⟩

/-- Four values around 1, then 5: the theorem promises a report within three values. -/
example : ∃ i, i ≤ 3 ∧ reported exPar ([1, 2, 0, 1] ++ List.replicate i 5) = true := by
  refine C301_found exPar (by norm_num [exPar]) [1, 2, 0, 1] (by simp) ?_ 5 (by decide +kernel) 3
    (by decide +kernel) (by decide +kernel)
  intro i hi
  have : i = 0 ∨ i = 1 ∨ i = 2 ∨ i = 3 ∨ i = 4 := by simp at hi; omega
  rcases this with rfl | rfl | rfl | rfl | rfl <;> decide +kernel

example : reported exPar ([1, 2, 0, 1, 5] ++ [5]) = true ∧
    exPar.minInstances ≤ (segment exPar ([1, 2, 0, 1, 5] ++ [5])).length := by decide +kernel

end Verif.Drift.PH
