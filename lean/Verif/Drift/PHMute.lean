import Verif.Drift.PHRise

/-!
Property C310: how soon Page-Hinkley can report, and when it never does.
-/

namespace Verif.Drift.PH

private theorem geo_mono_nonneg (alpha : ℚ) (h : 0 ≤ alpha) (k : Nat) : 0 ≤ geo alpha k := by
  induction k with
  | zero => exact le_refl _
  | succ k ih => simp only [geo]; nlinarith [mul_nonneg h ih]

private theorem geo_step (alpha : ℚ) (h : 0 ≤ alpha) (k : Nat) : geo alpha k ≤ geo alpha (k + 1) := by
  induction k with
  | zero => simp [geo]
  | succ k ih =>
    have := mul_le_mul_of_nonneg_left ih h
    show alpha * geo alpha k + 1 ≤ alpha * geo alpha (k + 1) + 1
    linarith

private theorem geo_le_geo (alpha : ℚ) (h : 0 ≤ alpha) {i j : Nat} (hij : i ≤ j) : geo alpha i ≤ geo alpha j := by
  induction hij with
  | refl => exact le_refl _
  | step _ ih => exact le_trans ih (geo_step alpha h _)

private theorem geo_le_nat (alpha : ℚ) (h : 0 ≤ alpha) (h1 : alpha ≤ 1) (k : Nat) : geo alpha k ≤ k := by
  induction k with
  | zero => simp [geo]
  | succ k ih =>
    have h0 := geo_mono_nonneg alpha h k
    simp only [geo]
    push_cast
    nlinarith

private theorem geo_limit (alpha : ℚ) (h : 0 ≤ alpha) (h1 : alpha < 1) (k : Nat) : (1 - alpha) * geo alpha k ≤ 1 := by
  induction k with
  | zero => simp [geo]
  | succ k ih =>
    simp only [geo]
    nlinarith [mul_le_mul_of_nonneg_left ih h]

private theorem mean_ge (l : List ℚ) (a : ℚ) (hne : l ≠ []) (h : ∀ x ∈ l, a ≤ x) : a ≤ Verif.mean l := by
  have hs : ∀ l : List ℚ, (∀ x ∈ l, a ≤ x) → a * l.length ≤ l.sum := by
    intro l
    induction l with
    | nil => simp
    | cons x l ih =>
      intro h
      have h1 := ih fun y hy => h y (List.mem_cons_of_mem _ hy)
      have h2 := h x (by simp)
      simp only [List.sum_cons, List.length_cons]
      push_cast
      linarith
  have hp : (0 : ℚ) < l.length := by exact_mod_cast List.length_pos_iff.2 hne
  unfold Verif.mean
  rw [le_div_iff₀ hp]
  exact hs l h

/-- The statistic of a segment with values in a range. -/
private theorem cum_le (c : PHPar) (ha : 0 ≤ c.alpha) (hd : 0 ≤ c.delta) (a b : ℚ) (seg : List ℚ) (hseg : ∀ x ∈ seg, a ≤ x ∧ x ≤ b)
    (i : Nat) (hi : i + 1 ≤ seg.length) : cumulative c seg (i + 1) ≤ max 0 (b - a - c.delta) * geo c.alpha i := by
  induction i with
  | zero =>
    cases seg with
    | nil => simp at hi
    | cons x seg => simp [cumulative, geo, Verif.mean, hd]
  | succ i ih =>
    have h1 := ih (by omega)
    have hm : a ≤ Verif.mean (seg.take (i + 1 + 1)) := by
      refine mean_ge _ a ?_ fun x hx => (hseg x (List.mem_of_mem_take hx)).1
      intro h0
      have := congrArg List.length h0
      simp only [List.length_take, List.length_nil] at this
      omega
    have hx : seg.getD (i + 1) 0 ≤ b := by
      rw [List.getD_eq_getElem _ _ (by omega)]
      exact (hseg _ (List.getElem_mem _)).2
    have hD := le_max_right 0 (b - a - c.delta)
    have h0 := le_max_left 0 (b - a - c.delta)
    rw [cumulative]
    apply max_le
    · exact mul_nonneg h0 (geo_mono_nonneg _ ha _)
    · have h2 := mul_le_mul_of_nonneg_left h1 ha
      have e : max 0 (b - a - c.delta) * geo c.alpha (i + 1)
          = c.alpha * (max 0 (b - a - c.delta) * geo c.alpha i) + max 0 (b - a - c.delta) := by
        simp only [geo]; ring
      rw [e]
      linarith

/-! ### The property -/

/-- **C310.**  When a change is reported, the values `ys` since the beginning or since any earlier report are so many that
`(b - a - delta) (1 + alpha + ... )`, with one term less than values, exceeds the threshold; all values lie between `a` and `b`. -/
theorem C310_gap (c : PHPar) (ha : 0 ≤ c.alpha) (hd : 0 ≤ c.delta) (ht : 0 ≤ c.threshold) (a b : ℚ) (xs ys : List ℚ)
    (hx : xs = [] ∨ reported c xs = true) (hy : ys ≠ []) (hr : ∀ y ∈ ys, a ≤ y ∧ y ≤ b) (hrep : reported c (xs ++ ys) = true) :
    c.threshold < (b - a - c.delta) * geo c.alpha (ys.length - 1) := by
  have hys : reported c ys = true := by
    rcases hx with rfl | hx
    · exact hrep
    · cases ys with
      | nil => exact absurd rfl hy
      | cons y ys => unfold reported at *; rwa [C18_restart c xs hx y ys] at hrep
  obtain ⟨-, hsum⟩ := C18_statistics c ys
  obtain ⟨pre, hpre⟩ : ∃ pre, pre ++ segment c ys = ys := sinceChange_suffix _ ys
  have hlen : (segment c ys).length ≤ ys.length := by
    have := congrArg List.length hpre
    rw [List.length_append] at this
    omega
  have hne := sinceChange_ne_nil (fun h => (run c h).change) ys hy
  obtain ⟨i, hi⟩ : ∃ i, (segment c ys).length = i + 1 := ⟨(segment c ys).length - 1, by
    have : 0 < (segment c ys).length := List.length_pos_iff.2 hne
    omega⟩
  have hle := cum_le c ha hd a b (segment c ys) (fun x hx => hr x (by rw [← hpre]; exact List.mem_append_right _ hx)) i (by omega)
  have hdec : c.threshold < cumulative c (segment c ys) (i + 1) := by
    have := ((C18_decision_partial c ys hy).1 hys).2
    rw [hi] at this
    exact this
  have hg := geo_le_geo c.alpha ha (show i ≤ ys.length - 1 by omega)
  have hm := mul_le_mul_of_nonneg_left hg (le_max_left 0 (b - a - c.delta))
  have h0 : c.threshold < max 0 (b - a - c.delta) * geo c.alpha (ys.length - 1) := by linarith
  rcases max_choice 0 (b - a - c.delta) with h | h
  · rw [h, zero_mul] at h0; linarith
  · rwa [h] at h0

/-- **C310.**  If `b - a - delta` is at most `(1 - alpha) * threshold`, no stream of values between `a` and `b` is ever reported. -/
theorem C310_mute (c : PHPar) (ha : 0 ≤ c.alpha ∧ c.alpha < 1) (hd : 0 ≤ c.delta) (ht : 0 ≤ c.threshold) (a b : ℚ)
    (hm : b - a - c.delta ≤ (1 - c.alpha) * c.threshold) (xs : List ℚ) (hr : ∀ x ∈ xs, a ≤ x ∧ x ≤ b) : reported c xs = false := by
  cases h : reported c xs with
  | false => rfl
  | true =>
    exfalso
    have hne : xs ≠ [] := by
      rintro rfl
      cases h
    have h1 := C310_gap c ha.1 hd ht a b [] xs (.inl rfl) hne hr h
    have h2 := geo_limit c.alpha ha.1 ha.2 (xs.length - 1)
    have h3 := mul_le_mul_of_nonneg_right hm (geo_mono_nonneg c.alpha ha.1 (xs.length - 1))
    have h4 := mul_le_mul_of_nonneg_right h2 ht
    linarith

/-- **C310.**  Default `delta` and `threshold`, errors coded 0 and 1: with the forgetting factor at most 0.98 nothing is ever reported. -/
theorem C310_forgetful (n : Nat) (alpha : ℚ) (ha : 0 ≤ alpha ∧ alpha ≤ 98 / 100) (xs : List ℚ) (hr : ∀ x ∈ xs, x = 0 ∨ x = 1) :
    reported ⟨n, 5 / 1000, 50, alpha⟩ xs = false := by
  refine C310_mute _ ⟨ha.1, ?_⟩ (by norm_num) (by norm_num) 0 1 ?_ xs ?_
  · show alpha < 1
    linarith [ha.2]
  · show (1 : ℚ) - 0 - 5 / 1000 ≤ (1 - alpha) * 50
    linarith [ha.2]
  · intro x hx
    rcases hr x hx with rfl | rfl <;> norm_num

/-- **C310.**  Default `delta` and `threshold`, errors coded 0 and 1: whatever `min_instances` and the forgetting factor, fewer than 52
values after the beginning or after a report there is no report. -/
theorem C310_default (n : Nat) (alpha : ℚ) (ha : 0 ≤ alpha ∧ alpha ≤ 1) (xs ys : List ℚ)
    (hx : xs = [] ∨ reported ⟨n, 5 / 1000, 50, alpha⟩ xs = true) (hy : ys ≠ []) (hr : ∀ y ∈ ys, y = 0 ∨ y = 1)
    (hrep : reported ⟨n, 5 / 1000, 50, alpha⟩ (xs ++ ys) = true) : 52 ≤ ys.length := by
  have h1 := C310_gap ⟨n, 5 / 1000, 50, alpha⟩ ha.1 (by norm_num) (by norm_num) 0 1 xs ys hx hy (by
    intro x hx
    rcases hr x hx with rfl | rfl <;> norm_num) hrep
  have h2 := geo_le_nat alpha ha.1 ha.2 (ys.length - 1)
  have h3 : (50 : ℚ) < ((ys.length - 1 : Nat) : ℚ) := by
    have h4 : (50 : ℚ) < (1 - 0 - 5 / 1000) * geo alpha (ys.length - 1) := h1
    linarith
  have h6 : 50 < ys.length - 1 := by exact_mod_cast h3
  omega

/-- Non-vacuity: with threshold 3, values 0 and 1, a report after four zeros and six ones (the bound of C310 is 5 values), and a second one. -/
example : reported ⟨3, 5 / 1000, 3, 1⟩ ([0, 0, 0, 0] ++ List.replicate 6 1) = true ∧
    reported ⟨3, 5 / 1000, 3, 1⟩ ([0, 0, 0, 0] ++ List.replicate 6 1 ++ ([0, 0, 0, 0] ++ List.replicate 6 1)) = true ∧
    (1 - 0 - 5 / 1000 : ℚ) * geo 1 3 < 3 ∧ (3 : ℚ) < (1 - 0 - 5 / 1000) * geo 1 4 := by
  decide +kernel

/-- The same stream with threshold 2 and a forgetting factor of 1/2, which C310 calls mute, and with 1, which is not. -/
example : (1 : ℚ) - 0 - 5 / 1000 ≤ (1 - 1 / 2) * 2 ∧ reported ⟨3, 5 / 1000, 2, 1 / 2⟩ ([0, 0, 0, 0] ++ List.replicate 4 1) = false ∧
    reported ⟨3, 5 / 1000, 2, 1⟩ ([0, 0, 0, 0] ++ List.replicate 3 1) = true := by
  decide +kernel

end Verif.Drift.PH
