import Verif.Drift.Model
import Verif.Drift.Segments
import Mathlib.Data.List.GetD

/-!
Properties C16 (DDM) and C18 (Page-Hinkley).
-/

namespace Verif.Drift

/-! ### DDM: specification

Everything is stated about the *segment*: the predictions since the last
reported drift. -/

namespace DDM

/-- The segment of DDM: the predictions since the last reported drift. -/
def segment (c : DDMPar) (xs : List ℚ) : List ℚ := sinceChange (fun h => (run c h).change) xs

/-- Error rate and deviation after the first `i` predictions of a segment. -/
def rate (seg : List ℚ) (i : Nat) : ℚ := mean (seg.take i)
def dev (c : DDMPar) (seg : List ℚ) (i : Nat) : ℚ :=
  c.sqrt (rate seg i * (1 - rate seg i) / i)

/-- Positions of the segment at which DDM looks for a drift. -/
def Checked (c : DDMPar) (seg : List ℚ) (i : Nat) : Prop :=
  1 ≤ i ∧ i ≤ seg.length ∧ c.minInstances ≤ i + 1

/-- `m` is the most recent checked position at which rate + deviation is minimal. -/
def Best (c : DDMPar) (seg : List ℚ) (m : Nat) : Prop :=
  Checked c seg m ∧ ∀ i, Checked c seg i →
    rate seg m + dev c seg m ≤ rate seg i + dev c seg i ∧
    (m < i → rate seg m + dev c seg m < rate seg i + dev c seg i)

/-! ### Proofs -/

private theorem reset_step (c : DDMPar) (s : DDM) (x : ℚ) (h : s.change = true) :
    addElement c s x = addElement c init x := by
  unfold addElement
  rw [h]
  rfl

private theorem take_append_le (seg : List ℚ) (x : ℚ) (i : Nat) (h : i ≤ seg.length) :
    (seg ++ [x]).take i = seg.take i := List.take_append_of_le_length h

private theorem rate_append (seg : List ℚ) (x : ℚ) (i : Nat) (h : i ≤ seg.length) :
    rate (seg ++ [x]) i = rate seg i := by simp [rate, take_append_le seg x i h]

private theorem dev_append (c : DDMPar) (seg : List ℚ) (x : ℚ) (i : Nat) (h : i ≤ seg.length) :
    dev c (seg ++ [x]) i = dev c seg i := by simp [dev, rate_append seg x i h]

private def MinsOK (c : DDMPar) (seg : List ℚ) : Option (ℚ × ℚ × ℚ) → Prop
  | none => ∀ i, ¬ Checked c seg i
  | some (a, b, l) => ∃ m, Best c seg m ∧ a = rate seg m ∧ b = dev c seg m ∧ l = a + b

private def Inv (c : DDMPar) (seg : List ℚ) (s : DDM) : Prop :=
  s.sampleCount = seg.length + 1 ∧ (seg ≠ [] → s.missProb = mean seg) ∧
  (seg ≠ [] → s.missStd = dev c seg seg.length) ∧ MinsOK c seg s.mins ∧
  (seg ≠ [] → s.estimation = mean seg) ∧
  (s.change = true ↔ ∃ m, Best c seg m ∧
    rate seg m + c.outControlLevel * dev c seg m < rate seg seg.length + dev c seg seg.length) ∧
  (s.warning = true ↔ s.change = false ∧ ∃ m, Best c seg m ∧
    rate seg m + c.warningLevel * dev c seg m < rate seg seg.length + dev c seg seg.length)

private theorem best_unique (c : DDMPar) (seg : List ℚ) (m k : Nat) (hm : Best c seg m)
    (hk : Best c seg k) : m = k := by
  rcases lt_trichotomy m k with h | h | h
  · have a := (hm.2 k hk.1).2 h
    have b := (hk.2 m hm.1).1
    linarith
  · exact h
  · have a := (hk.2 m hm.1).2 h
    have b := (hm.2 k hk.1).1
    linarith

private theorem best_snoc (c : DDMPar) (seg : List ℚ) (x : ℚ) (mins : Option (ℚ × ℚ × ℚ))
    (hm : MinsOK c seg mins) (hc : c.minInstances ≤ seg.length + 1 + 1) :
    MinsOK c (seg ++ [x])
      (some (updMins (rate (seg ++ [x]) (seg.length + 1)) (dev c (seg ++ [x]) (seg.length + 1))
        mins)) := by
  set seg' := seg ++ [x] with hseg
  have hlen : seg'.length = seg.length + 1 := by simp [hseg]
  have hchk : Checked c seg' (seg.length + 1) := ⟨by omega, by omega, by omega⟩
  have hcases : ∀ i, Checked c seg' i → i = seg.length + 1 ∨ (Checked c seg i ∧ i ≤ seg.length) := by
    rintro i ⟨h1, h2, h3⟩
    by_cases hi : i ≤ seg.length
    · exact Or.inr ⟨⟨h1, hi, h3⟩, hi⟩
    · left; omega
  have hup : ∀ i, Checked c seg i → Checked c seg' i := fun i ⟨h1, h2, h3⟩ => ⟨h1, by omega, h3⟩
  have hr : ∀ i, i ≤ seg.length → rate seg' i = rate seg i ∧ dev c seg' i = dev c seg i :=
    fun i hi => ⟨rate_append seg x i hi, dev_append c seg x i hi⟩
  cases mins with
  | none =>
    refine ⟨seg.length + 1, ⟨hchk, ?_⟩, rfl, rfl, rfl⟩
    intro i hi
    rcases hcases i hi with rfl | ⟨h, _⟩
    · exact ⟨le_refl _, fun h => absurd h (lt_irrefl _)⟩
    · exact absurd h (hm i)
  | some t =>
    obtain ⟨a, b, l⟩ := t
    obtain ⟨m, hbest, rfl, rfl, rfl⟩ := hm
    have hml : m ≤ seg.length := hbest.1.2.1
    obtain ⟨e1, e2⟩ := hr m hml
    simp only [updMins]
    split
    · rename_i hle
      refine ⟨seg.length + 1, ⟨hchk, ?_⟩, rfl, rfl, rfl⟩
      intro i hi
      rcases hcases i hi with rfl | ⟨h, hil⟩
      · exact ⟨le_refl _, fun h => absurd h (lt_irrefl _)⟩
      · obtain ⟨f1, f2⟩ := hr i hil
        refine ⟨?_, fun h => by omega⟩
        rw [f1, f2]
        exact le_trans hle (hbest.2 i h).1
    · rename_i hle
      refine ⟨m, ⟨hup m hbest.1, ?_⟩, e1.symm, e2.symm, rfl⟩
      intro i hi
      rw [e1, e2]
      rcases hcases i hi with rfl | ⟨h, hil⟩
      · have := not_le.1 hle
        exact ⟨this.le, fun _ => this⟩
      · obtain ⟨f1, f2⟩ := hr i hil
        rw [f1, f2]
        exact hbest.2 i h

private theorem inv_step (c : DDMPar) (seg : List ℚ) (s : DDM) (x : ℚ) (hc : s.change = false)
    (hi : Inv c seg s) : Inv c (seg ++ [x]) (addElement c s x) := by
  obtain ⟨h1, h2, _, h4, _, _, _⟩ := hi
  have hlen : (seg ++ [x]).length = seg.length + 1 := by simp
  have hp : s.missProb + (x - s.missProb) / (s.sampleCount : ℚ) = mean (seg ++ [x]) :=
    mean_step seg x _ (by rw [h1]; push_cast; ring) _ h2
  have hrate : rate (seg ++ [x]) (seg.length + 1) = mean (seg ++ [x]) := by
    unfold rate; rw [List.take_of_length_le (by simp)]
  have hs : c.sqrt (mean (seg ++ [x]) * (1 - mean (seg ++ [x])) / (s.sampleCount : ℚ))
      = dev c (seg ++ [x]) (seg.length + 1) := by
    rw [dev, hrate, h1]
  have hnc : ∀ {P : Prop}, ¬ c.minInstances ≤ seg.length + 1 + 1 → (∀ m, ¬ Best c (seg ++ [x]) m) := by
    intro _ hlt m hb
    obtain ⟨⟨_, a, b⟩, _⟩ := hb
    rw [hlen] at a; omega
  unfold addElement
  rw [hc]
  simp only [Bool.false_eq_true, if_false]
  rw [hp, hs]
  by_cases hlt : s.sampleCount + 1 < c.minInstances
  · rw [if_pos hlt]
    have hno : ∀ m, ¬ Best c (seg ++ [x]) m := hnc (P := True) (by omega)
    refine ⟨by simp [h1], fun _ => rfl, fun _ => by rw [hlen], ?_, fun _ => rfl, ?_, ?_⟩
    · cases hm : s.mins with
      | none =>
        rintro i ⟨_, b, d⟩
        rw [hlen] at b; omega
      | some t =>
        rw [hm] at h4
        obtain ⟨a, b, l⟩ := t
        obtain ⟨m, ⟨⟨_, hb1, hb2⟩, _⟩, _⟩ := h4
        omega
    · simp only [Bool.false_eq_true, false_iff]
      rintro ⟨m, hm, _⟩; exact hno m hm
    · simp only [Bool.false_eq_true, false_iff]
      rintro ⟨_, m, hm, _⟩; exact hno m hm
  · rw [if_neg hlt]
    have hM := best_snoc c seg x s.mins h4 (by omega)
    rw [hrate] at hM
    generalize updMins (mean (seg ++ [x])) (dev c (seg ++ [x]) (seg.length + 1)) s.mins = M at *
    obtain ⟨a, b, l⟩ := M
    have hM' := hM
    obtain ⟨m, hbest, rfl, rfl, rfl⟩ := hM
    have hiff : ∀ k : ℚ, (∃ j, Best c (seg ++ [x]) j ∧
        rate (seg ++ [x]) j + k * dev c (seg ++ [x]) j <
          rate (seg ++ [x]) (seg ++ [x]).length + dev c (seg ++ [x]) (seg ++ [x]).length) ↔
        mean (seg ++ [x]) + dev c (seg ++ [x]) (seg.length + 1) >
          rate (seg ++ [x]) m + k * dev c (seg ++ [x]) m := by
      intro k
      rw [hlen, hrate]
      constructor
      · rintro ⟨j, hj, h⟩
        rw [← best_unique c _ _ _ hbest hj] at h; exact h
      · intro h; exact ⟨m, hbest, h⟩
    by_cases ho : mean (seg ++ [x]) + dev c (seg ++ [x]) (seg.length + 1) >
        rate (seg ++ [x]) m + c.outControlLevel * dev c (seg ++ [x]) m
    · rw [if_pos ho]
      refine ⟨by simp [h1], fun _ => rfl, fun _ => by rw [hlen], hM', fun _ => rfl, ?_, ?_⟩
      · rw [hiff]; simpa using ho
      · simp
    · rw [if_neg ho]
      by_cases hw : mean (seg ++ [x]) + dev c (seg ++ [x]) (seg.length + 1) >
        rate (seg ++ [x]) m + c.warningLevel * dev c (seg ++ [x]) m
      · rw [if_pos hw]
        refine ⟨by simp [h1], fun _ => rfl, fun _ => by rw [hlen], hM', fun _ => rfl, ?_, ?_⟩
        · rw [hiff]; simpa using ho
        · rw [hiff]; simpa using hw
      · rw [if_neg hw]
        refine ⟨by simp [h1], fun _ => rfl, fun _ => by rw [hlen], hM', fun _ => rfl, ?_, ?_⟩
        · rw [hiff]; simpa using ho
        · rw [hiff]; simpa using hw

private theorem inv_run (c : DDMPar) (xs : List ℚ) : Inv c (segment c xs) (run c xs) := by
  refine segment_inv (addElement c) init (fun s => s.change) (fun s x h => reset_step c s x h) rfl
    (Inv c) ?_ (fun seg s x h hi => inv_step c seg s x h hi) xs
  refine ⟨rfl, by simp, by simp, ?_, by simp, ?_, ?_⟩
  · rintro i ⟨a, b, _⟩; simp at b; omega
  · simp only [init, Bool.false_eq_true, false_iff]
    rintro ⟨m, ⟨⟨a, b, _⟩, _⟩, _⟩; simp at b; omega
  · simp only [init, Bool.false_eq_true, false_iff]
    rintro ⟨_, m, ⟨⟨a, b, _⟩, _⟩, _⟩; simp at b; omega

/-- **C16 (restart).** A detector that reported a drift behaves on the rest of
the stream exactly like a new one. -/
theorem C16_restart (c : DDMPar) (xs : List ℚ) (h : (run c xs).change = true) (x : ℚ)
    (rest : List ℚ) : run c (xs ++ x :: rest) = run c (x :: rest) := by
  unfold run at *
  rw [List.foldl_append, List.foldl_cons, List.foldl_cons, reset_step c _ x h]

/-- **C16 (error rate).** The reported error rate is the mean of the predictions
since the last drift. -/
theorem C16_error_rate (c : DDMPar) (xs : List ℚ) (hne : xs ≠ []) :
    (run c xs).missProb = mean (segment c xs) ∧ (run c xs).estimation = mean (segment c xs) ∧
    (run c xs).missStd = dev c (segment c xs) (segment c xs).length := by
  have h := inv_run c xs
  have hs := sinceChange_ne_nil (fun h => (run c h).change) xs hne
  exact ⟨h.2.1 hs, h.2.2.2.2.1 hs, h.2.2.1 hs⟩

/-- **C16 (decision).** DDM reports a drift exactly when the current rate plus
deviation exceeds `p_min + out_control_level * s_min`, where `(p_min, s_min)`
are the rate and deviation at the most recent minimum of rate + deviation over
the checked positions of the segment; a warning exactly when there is no drift
and the warning level is exceeded. -/
theorem C16_decision (c : DDMPar) (xs : List ℚ) :
    ((run c xs).change = true ↔ ∃ m, Best c (segment c xs) m ∧
      rate (segment c xs) m + c.outControlLevel * dev c (segment c xs) m <
        rate (segment c xs) (segment c xs).length + dev c (segment c xs) (segment c xs).length) ∧
    ((run c xs).warning = true ↔ (run c xs).change = false ∧ ∃ m, Best c (segment c xs) m ∧
      rate (segment c xs) m + c.warningLevel * dev c (segment c xs) m <
        rate (segment c xs) (segment c xs).length + dev c (segment c xs) (segment c xs).length) :=
  (inv_run c xs).2.2.2.2.2

/-- **C16.** Drift and warning are never reported together. -/
theorem C16_exclusive (c : DDMPar) (xs : List ℚ) :
    ¬ ((run c xs).change = true ∧ (run c xs).warning = true) := by
  rintro ⟨a, b⟩
  have := ((C16_decision c xs).2.1 b).1
  rw [a] at this; simp at this

/-- **C16 (minimum evidence).** With levels at least 1 and a non-negative square
root, nothing is reported before `min_num_instances` predictions since the last
drift. -/
theorem C16_min_instances (c : DDMPar) (hs : ∀ q, 0 ≤ c.sqrt q) (ho : 1 ≤ c.outControlLevel)
    (hw : 1 ≤ c.warningLevel) (xs : List ℚ)
    (h : (run c xs).change = true ∨ (run c xs).warning = true) :
    c.minInstances ≤ (segment c xs).length ∧ 2 ≤ (segment c xs).length := by
  have key : ∀ k : ℚ, 1 ≤ k → (∃ m, Best c (segment c xs) m ∧
      rate (segment c xs) m + k * dev c (segment c xs) m <
        rate (segment c xs) (segment c xs).length + dev c (segment c xs) (segment c xs).length) →
      c.minInstances ≤ (segment c xs).length ∧ 2 ≤ (segment c xs).length := by
    rintro k hk ⟨m, ⟨⟨h1, h2, h3⟩, _⟩, hlt⟩
    have hd : 0 ≤ dev c (segment c xs) m := hs _
    have hne : m ≠ (segment c xs).length := by
      intro he
      rw [he] at hlt hd
      nlinarith
    omega
  rcases h with h | h
  · exact key _ ho ((C16_decision c xs).1.1 h)
  · exact key _ hw ((C16_decision c xs).2.1 h).2

/-- **C16 (arguments of the square root).** On predictions in `[0, 1]` the
argument handed to the square root is never negative. -/
theorem C16_sqrt_arg (c : DDMPar) (xs : List ℚ) (hx : ∀ x ∈ xs, 0 ≤ x ∧ x ≤ 1) (hne : xs ≠ []) :
    0 ≤ (run c xs).missProb * (1 - (run c xs).missProb) / ((segment c xs).length : ℚ) := by
  have hsub := (sinceChange_suffix (fun h => (run c h).change) xs).subset
  have hs := sinceChange_ne_nil (fun h => (run c h).change) xs hne
  rw [(C16_error_rate c xs hne).1]
  have h1 := le_mean (segment c xs) 0 hs fun x hx' => (hx x (hsub hx')).1
  have h2 := mean_le (segment c xs) 1 hs fun x hx' => (hx x (hsub hx')).2
  apply div_nonneg (mul_nonneg h1 (by linarith)) (by positivity)

-- A detector (square root replaced by 0) that reports a drift and restarts.
def demo : DDMPar := ⟨3, 2, 3, fun _ => 0⟩
example : (run demo [0, 0, 0, 1]).change = true ∧ segment demo [0, 0, 0, 1, 1] = [1] ∧
    (run demo [0, 0, 0, 1, 1]).missProb = 1 := by decide +kernel
example : (∀ q, 0 ≤ demo.sqrt q) ∧ 1 ≤ demo.outControlLevel ∧ 1 ≤ demo.warningLevel := by
  refine ⟨fun _ => le_refl _, ?_, ?_⟩ <;> norm_num [demo]

end DDM

/-! ### Page-Hinkley -/

namespace PH

/-- The values since the last reported change. -/
def segment (c : PHPar) (xs : List ℚ) : List ℚ := sinceChange (fun h => (run c h).change) xs

/-- Specification of the cumulative statistic of a segment:
`g₀ = 0`, `gᵢ = max 0 (alpha * gᵢ₋₁ + xᵢ - mean(x₁..xᵢ) - delta)`. -/
def cumulative (c : PHPar) (seg : List ℚ) : Nat → ℚ
  | 0 => 0
  | i + 1 => max 0 (c.alpha * cumulative c seg i +
      (seg.getD i 0 - Verif.mean (seg.take (i + 1)) - c.delta))

private theorem reset_step (c : PHPar) (s : PH) (x : ℚ) (h : s.change = true) :
    addElement c s x = addElement c init x := by
  unfold addElement; rw [h]; rfl

private theorem cumulative_append (c : PHPar) (seg : List ℚ) (x : ℚ) (i : Nat)
    (h : i ≤ seg.length) : cumulative c (seg ++ [x]) i = cumulative c seg i := by
  induction i with
  | zero => rfl
  | succ i ih =>
    unfold cumulative
    rw [ih (by omega), List.take_append_of_le_length h, List.getD_append _ _ _ _ (by omega)]

private def Inv (c : PHPar) (seg : List ℚ) (s : PH) : Prop :=
  s.sampleCount = seg.length + 1 ∧ (seg ≠ [] → s.mean = Verif.mean seg) ∧
  (seg ≠ [] → s.estimation = Verif.mean seg) ∧
  s.sum = cumulative c seg seg.length ∧ s.warning = false ∧
  (s.change = true ↔ seg ≠ [] ∧ c.minInstances ≤ seg.length + 1 ∧
    c.threshold < cumulative c seg seg.length)

private theorem inv_step (c : PHPar) (seg : List ℚ) (s : PH) (x : ℚ) (hc : s.change = false)
    (hi : Inv c seg s) : Inv c (seg ++ [x]) (addElement c s x) := by
  obtain ⟨h1, h2, _, h4, _, _⟩ := hi
  have hp : s.mean + (x - s.mean) / (s.sampleCount : ℚ) = Verif.mean (seg ++ [x]) :=
    mean_step seg x _ (by rw [h1]; push_cast; ring) _ h2
  have hcum : cumulative c (seg ++ [x]) (seg ++ [x]).length =
      max 0 (c.alpha * s.sum + (x - Verif.mean (seg ++ [x]) - c.delta)) := by
    have : (seg ++ [x]).length = seg.length + 1 := by simp
    rw [this]
    unfold cumulative
    rw [cumulative_append c seg x _ (le_refl _), h4, List.take_of_length_le (by simp)]
    simp
  unfold addElement
  rw [hc]
  simp only [Bool.false_eq_true, if_false]
  rw [hp, ← hcum]
  by_cases hlt : s.sampleCount + 1 < c.minInstances
  · rw [if_pos hlt]
    refine ⟨by simp [h1], fun _ => rfl, fun _ => rfl, rfl, rfl, ?_⟩
    simp; intro h; omega
  · rw [if_neg hlt]
    by_cases ht : cumulative c (seg ++ [x]) (seg ++ [x]).length > c.threshold
    · rw [if_pos ht]
      refine ⟨by simp [h1], fun _ => rfl, fun _ => rfl, rfl, rfl, ?_⟩
      simp only [true_iff]
      exact ⟨by simp, by simp; omega, ht⟩
    · rw [if_neg ht]
      refine ⟨by simp [h1], fun _ => rfl, fun _ => rfl, rfl, rfl, ?_⟩
      simp only [Bool.false_eq_true, false_iff]
      exact fun h => ht h.2.2

private theorem inv_run (c : PHPar) (xs : List ℚ) : Inv c (segment c xs) (run c xs) :=
  segment_inv (addElement c) init (fun s => s.change) (fun s x h => reset_step c s x h) rfl
    (Inv c) ⟨rfl, by simp, by simp, rfl, rfl, by simp [init]⟩
    (fun seg s x h hi => inv_step c seg s x h hi) xs

/-- **C18 (restart).** -/
theorem C18_restart (c : PHPar) (xs : List ℚ) (h : (run c xs).change = true) (x : ℚ)
    (rest : List ℚ) : run c (xs ++ x :: rest) = run c (x :: rest) := by
  unfold run at *
  rw [List.foldl_append, List.foldl_cons, List.foldl_cons, reset_step c _ x h]

/-- **C18 (statistics).** The mean is the mean of the values since the last
change, the cumulative statistic follows its defining recurrence over those
values and is never negative, and no warning is ever reported. -/
theorem C18_statistics (c : PHPar) (xs : List ℚ) :
    (xs ≠ [] → (run c xs).mean = Verif.mean (segment c xs) ∧
      (run c xs).estimation = Verif.mean (segment c xs)) ∧
    (run c xs).sum = cumulative c (segment c xs) (segment c xs).length ∧
    0 ≤ (run c xs).sum ∧ (run c xs).warning = false := by
  obtain ⟨h1, h2, h3, h4, h5, h6⟩ := inv_run c xs
  refine ⟨fun hne => ?_, h4, ?_, h5⟩
  · have hs := sinceChange_ne_nil (fun h => (run c h).change) xs hne
    exact ⟨h2 hs, h3 hs⟩
  · rw [h4]
    cases (segment c xs).length with
    | zero => exact le_refl _
    | succ i => exact le_max_left _ _

/-- **C18 (decision).** A change is reported exactly when the statistic exceeds
the threshold and at least `min_instances - 1` values arrived since the last
change.  The intended guard is `min_instances` values; see
`C18_min_instances_violated`. -/
theorem C18_decision_partial (c : PHPar) (xs : List ℚ) (hne : xs ≠ []) :
    (run c xs).change = true ↔ c.minInstances ≤ (segment c xs).length + 1 ∧
      c.threshold < cumulative c (segment c xs) (segment c xs).length := by
  rw [(inv_run c xs).2.2.2.2.2]
  have hs : segment c xs ≠ [] := sinceChange_ne_nil (fun h => (run c h).change) xs hne
  simp [hs]

/-- **C18 (violation).** "No change before `min_instances` values" fails by one:
with `min_instances = 30` and otherwise default parameters a change is reported
after 29 values. -/
theorem C18_min_instances_violated :
    ∃ xs : List ℚ, xs.length = 29 ∧
      (run ⟨30, 5 / 1000, 50, 9999 / 10000⟩ xs).change = true := by
  refine ⟨List.replicate 28 0 ++ [100], rfl, ?_⟩
  decide +kernel

example : (run ⟨2, 0, 1, 1⟩ [0, 0, 4]).change = true ∧
    segment ⟨2, 0, 1, 1⟩ [0, 0, 4, 7] = [7] := by decide +kernel

end PH

end Verif.Drift
