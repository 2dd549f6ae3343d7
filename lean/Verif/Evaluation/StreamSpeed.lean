import Verif.Common
import Mathlib.Data.List.Basic
import Mathlib.Tactic.Linarith
import Mathlib.Tactic.Ring
import Mathlib.Tactic.NormNum

/-!
# Measuring the speed of a stream (C229)

Model of `EvaluateStreamGenerationSpeed._measure_stream_speed`,
`src/skmultiflow/evaluation/evaluate_stream_gen_speed.py` 63-86.  `clock i` says whether
the time limit is still respected when the loop is tested for the `i`-th time.  The
comparison `sample_count + batch_size >= (i + 1) * num_samples / 20` is made exactly.
The stream answers every request (`next_sample` does not fail); the speed in the last
log line is not modelled.
-/

namespace Verif.Evaluation.Speed

open Verif

/-- What the evaluation needs: `num_samples`, `batch_size`, and `n_remaining_samples()`
with `none` for the answer `-1`. -/
structure Cfg where
  n : Nat
  batch : Nat
  remaining : Option Nat
  clock : Nat → Bool

/-- `sample_count`, `true_percentage_index`, the requests made to the stream so far and
the percentages logged so far (both oldest first). -/
structure St where
  count : Nat
  idx : Nat
  calls : List Nat
  logs : List Nat
deriving DecidableEq

/-- The inner loop, evaluate_stream_gen_speed.py 77-80; `c` is `sample_count +
batch_size`.  The guard `0 < n` is met whenever the loop is reached with a batch size
of at least one. -/
def progress (n c idx : Nat) (logs : List Nat) : Nat × List Nat :=
  if h : 0 < n ∧ (idx + 1) * n ≤ 20 * c then progress n c (idx + 1) (logs ++ [(idx + 1) * 5])
  else (idx, logs)
termination_by 20 * c - idx
decreasing_by
  have h1 : idx + 1 ≤ (idx + 1) * n := Nat.le_mul_of_pos_right _ h.1
  omega

/-- The test of the outer loop, evaluate_stream_gen_speed.py 72-74. -/
def goesOn (cfg : Cfg) (i : Nat) (s : St) : Bool :=
  cfg.clock i && decide (s.count + cfg.batch ≤ cfg.n) &&
    (match cfg.remaining with
      | none => true
      | some m => decide (s.count + cfg.batch ≤ m))

/-- The body of the outer loop, evaluate_stream_gen_speed.py 75-80. -/
def body (cfg : Cfg) (s : St) : St :=
  let count := s.count + cfg.batch
  let p := progress cfg.n (count + cfg.batch) s.idx s.logs
  ⟨count, p.1, s.calls ++ [cfg.batch], p.2⟩

/-- The outer loop, for at most `fuel` passes; `none` when it is not over. -/
def loop (cfg : Cfg) : Nat → Nat → St → Option St
  | 0, _, _ => none
  | fuel + 1, i, s => if goesOn cfg i s then loop cfg fuel (i + 1) (body cfg s) else some s

/-- `evaluate(stream)`, evaluate_stream_gen_speed.py 63-86. -/
def evaluate (cfg : Cfg) (fuel : Nat) : Option St := loop cfg fuel 0 ⟨0, 0, [], []⟩

/-! ## Proofs -/

/-- The inner loop logs every multiple of five up to the place reached. -/
theorem progress_spec (n c : Nat) (hn : 0 < n) : ∀ k idx logs, 20 * c - idx ≤ k →
    progress n c idx logs =
      (max idx (20 * c / n), logs ++ (List.range' (idx + 1) (20 * c / n - idx)).map (· * 5)) := by
  intro k
  induction k with
  | zero =>
    intro idx logs hk
    have h1 : ¬ (0 < n ∧ (idx + 1) * n ≤ 20 * c) := by
      rintro ⟨_, h⟩
      have : idx + 1 ≤ (idx + 1) * n := Nat.le_mul_of_pos_right _ hn
      omega
    have h2 : 20 * c / n ≤ idx := by
      have := Nat.div_le_self (20 * c) n; omega
    rw [progress, dif_neg h1, max_eq_left h2, Nat.sub_eq_zero_of_le h2]
    simp
  | succ k ih =>
    intro idx logs hk
    by_cases h : (idx + 1) * n ≤ 20 * c
    · rw [progress, dif_pos ⟨hn, h⟩]
      have hle : idx + 1 ≤ 20 * c / n := (Nat.le_div_iff_mul_le hn).mpr h
      have : idx + 1 ≤ (idx + 1) * n := Nat.le_mul_of_pos_right _ hn
      rw [ih (idx + 1) _ (by omega), max_eq_right hle, max_eq_right (by omega),
        show 20 * c / n - idx = (20 * c / n - (idx + 1)) + 1 by omega, List.range'_succ]
      simp
    · have h1 : ¬ (0 < n ∧ (idx + 1) * n ≤ 20 * c) := fun hh => h hh.2
      have h2 : 20 * c / n ≤ idx := by
        have := (Nat.div_lt_iff_lt_mul hn).mpr (not_le.mp h); omega
      rw [progress, dif_neg h1, max_eq_left h2, Nat.sub_eq_zero_of_le h2]
      simp

/-- The state after `k` batches. -/
def after (cfg : Cfg) (k : Nat) : St :=
  ⟨k * cfg.batch, if k = 0 then 0 else 20 * ((k + 1) * cfg.batch) / cfg.n,
    List.replicate k cfg.batch,
    (List.range' 1 (if k = 0 then 0 else 20 * ((k + 1) * cfg.batch) / cfg.n)).map (· * 5)⟩

theorem body_after (cfg : Cfg) (hn : 0 < cfg.n) (k : Nat) :
    body cfg (after cfg k) = after cfg (k + 1) := by
  unfold body
  simp only [after]
  rw [progress_spec _ _ hn _ _ _ (le_refl _)]
  have e1 : k * cfg.batch + cfg.batch + cfg.batch = (k + 1 + 1) * cfg.batch := by ring
  have e2 : k * cfg.batch + cfg.batch = (k + 1) * cfg.batch := by ring
  rw [e1]
  have hle : (if k = 0 then 0 else 20 * ((k + 1) * cfg.batch) / cfg.n) ≤
      20 * ((k + 1 + 1) * cfg.batch) / cfg.n := by
    split
    · exact Nat.zero_le _
    · exact Nat.div_le_div_right (Nat.mul_le_mul_left _ (Nat.mul_le_mul_right _ (by omega)))
  rw [if_neg (by omega : ¬ k + 1 = 0), max_eq_right hle, e2]
  generalize (if k = 0 then 0 else 20 * ((k + 1) * cfg.batch) / cfg.n) = a at hle ⊢
  generalize 20 * ((k + 1 + 1) * cfg.batch) / cfg.n = b at hle ⊢
  congr 1
  · rw [List.replicate_succ']
  · rw [← List.map_append]
    congr 1
    have := List.range'_append_1 (s := 1) (m := a) (n := b - a)
    rw [show a + 1 = 1 + a by omega, this]
    rw [Nat.add_sub_cancel' hle]

/-- How many batches fit. -/
def fits (cfg : Cfg) : Nat :=
  match cfg.remaining with
  | none => cfg.n / cfg.batch
  | some m => min cfg.n m / cfg.batch

theorem goesOn_iff (cfg : Cfg) (hb : 0 < cfg.batch) (i k : Nat) :
    goesOn cfg i (after cfg k) = true ↔ cfg.clock i = true ∧ k < fits cfg := by
  have e : k * cfg.batch + cfg.batch = (k + 1) * cfg.batch := by ring
  unfold goesOn fits
  simp only [after, e]
  cases cfg.remaining with
  | none =>
    simp only [Bool.and_true, Bool.and_eq_true, decide_eq_true_eq]
    rw [Nat.lt_iff_add_one_le, Nat.le_div_iff_mul_le hb]
  | some m =>
    simp only [Bool.and_eq_true, decide_eq_true_eq]
    rw [Nat.lt_iff_add_one_le, Nat.le_div_iff_mul_le hb, Nat.le_min, and_assoc]

theorem loop_spec (cfg : Cfg) (hb : 0 < cfg.batch) : ∀ d k fuel, fits cfg - k ≤ d → k ≤ fits cfg →
    d < fuel →
    ∃ j, k ≤ j ∧ j ≤ fits cfg ∧ loop cfg fuel k (after cfg k) = some (after cfg j) ∧
      (∀ i, k ≤ i → i < j → cfg.clock i = true) ∧ (j < fits cfg → cfg.clock j = false) := by
  intro d
  induction d with
  | zero =>
    intro k fuel hd hk hf
    obtain ⟨fuel, rfl⟩ : ∃ f, fuel = f + 1 := ⟨fuel - 1, by omega⟩
    refine ⟨k, le_refl _, hk, ?_, by omega, by omega⟩
    rw [loop, if_neg]
    rw [goesOn_iff cfg hb]; omega
  | succ d ih =>
    intro k fuel hd hk hf
    obtain ⟨fuel, rfl⟩ : ∃ f, fuel = f + 1 := ⟨fuel - 1, by omega⟩
    by_cases hg : cfg.clock k = true ∧ k < fits cfg
    · have hn : 0 < cfg.n := by
        by_contra h0
        have h0 : cfg.n = 0 := by omega
        have : fits cfg = 0 := by
          unfold fits; cases cfg.remaining <;> simp [h0]
        omega
      obtain ⟨j, h1, h2, h3, h4, h5⟩ := ih (k + 1) fuel (by omega) hg.2 (by omega)
      refine ⟨j, by omega, h2, ?_, ?_, h5⟩
      · rw [loop, if_pos ((goesOn_iff cfg hb k k).mpr hg), body_after cfg hn, h3]
      · intro i hi hij
        by_cases hik : i = k
        · subst hik; exact hg.1
        · exact h4 i (by omega) hij
    · refine ⟨k, le_refl _, hk, ?_, by omega, ?_⟩
      · rw [loop, if_neg]
        rw [goesOn_iff cfg hb]; exact hg
      · intro hlt
        by_contra hc
        exact hg ⟨by simpa using hc, hlt⟩

/-- **C229**, what holds: with a batch size of at least one the evaluation ends.  It has
asked the stream for `k` batches of `batch_size` samples and nothing else, so for
`k * batch_size` samples, never more than `n_samples` nor more than the stream had left;
`k` is as large as that allows unless the time limit stopped it, and then it stopped at
the first test past the limit.  The percentages logged are the multiples of five in
order, up to the part of `n_samples` that the samples generated so far and one more batch
are; at the end of a measurement of all `n_samples` samples in more than twenty batches
that is exactly 100. -/
theorem C229_measure_partial (cfg : Cfg) (hb : 0 < cfg.batch) :
    ∃ k s, (∀ fuel, cfg.n < fuel → evaluate cfg fuel = some s) ∧
      s.calls = List.replicate k cfg.batch ∧ s.count = k * cfg.batch ∧
      s.count ≤ cfg.n ∧ (∀ m, cfg.remaining = some m → s.count ≤ m) ∧
      (∀ i, i < k → cfg.clock i = true) ∧
      (cfg.clock k = true → cfg.n < s.count + cfg.batch ∨
        ∃ m, cfg.remaining = some m ∧ m < s.count + cfg.batch) ∧
      s.logs = (List.range' 1 s.idx).map (5 * ·) ∧
      (k ≠ 0 → s.idx = 20 * (s.count + cfg.batch) / cfg.n) ∧
      (s.count = cfg.n → 20 * cfg.batch < cfg.n → s.idx = 20) := by
  have hfit : fits cfg ≤ cfg.n := by
    unfold fits
    cases cfg.remaining with
    | none => exact Nat.div_le_self _ _
    | some m => exact (Nat.div_le_self _ _).trans (Nat.min_le_left _ _)
  have h0 : (⟨0, 0, [], []⟩ : St) = after cfg 0 := by simp [after]
  obtain ⟨j, _, h2, h3, h4, h5⟩ := loop_spec cfg hb (fits cfg) 0 (fits cfg + 1) (by omega)
    (by omega) (by omega)
  have hcnt : j * cfg.batch ≤ cfg.n ∧ ∀ m, cfg.remaining = some m → j * cfg.batch ≤ m := by
    unfold fits at h2
    cases hr : cfg.remaining with
    | none =>
      rw [hr] at h2
      exact ⟨(Nat.le_div_iff_mul_le hb).mp h2, by simp⟩
    | some m =>
      rw [hr] at h2
      have := (Nat.le_div_iff_mul_le hb).mp h2
      refine ⟨this.trans (Nat.min_le_left _ _), fun m' hm' => ?_⟩
      cases hm'
      exact this.trans (Nat.min_le_right _ _)
  refine ⟨j, after cfg j, ?_, rfl, rfl, hcnt.1, hcnt.2, fun i hi => h4 i (by omega) hi, ?_,
    ?_, ?_, ?_⟩
  · intro fuel hf
    unfold evaluate
    rw [h0]
    obtain ⟨j', _, _, h3', h4', h5'⟩ := loop_spec cfg hb (fits cfg) 0 fuel (by omega)
      (by omega) (by omega)
    rw [h3']
    have : j' = j := by
      rcases lt_trichotomy j' j with h | h | h
      · have a := h5' (by omega); have b := h4 j' (by omega) h
        rw [a] at b; cases b
      · exact h
      · have a := h5 (by omega); have b := h4' j (by omega) h
        rw [a] at b; cases b
    rw [this]
  · intro hc
    have hj : j = fits cfg := by
      by_contra hne
      have := h5 (by omega)
      rw [this] at hc; cases hc
    have hlt : ¬ (j + 1 ≤ fits cfg) := by omega
    unfold fits at hlt
    have e : (after cfg j).count + cfg.batch = (j + 1) * cfg.batch := by simp only [after]; ring
    rw [e]
    cases hr : cfg.remaining with
    | none =>
      rw [hr] at hlt
      simp only [Nat.le_div_iff_mul_le hb] at hlt
      exact .inl (by omega)
    | some m =>
      rw [hr] at hlt
      simp only [Nat.le_div_iff_mul_le hb, Nat.le_min, not_and, not_le] at hlt
      by_cases h : (j + 1) * cfg.batch ≤ cfg.n
      · exact .inr ⟨m, rfl, hlt h⟩
      · exact .inl (by omega)
  · simp only [after]
    apply List.map_congr_left
    intro a _; ring
  · intro hj
    simp only [after]
    rw [if_neg hj, Nat.add_mul, Nat.one_mul]
  · intro he hlt
    have he' : j * cfg.batch = cfg.n := he
    have hj : j ≠ 0 := by
      rintro rfl; omega
    simp only [after]
    rw [if_neg hj, Nat.add_mul, he', Nat.one_mul, Nat.mul_add, Nat.mul_comm 20 cfg.n,
      Nat.mul_add_div (by omega), Nat.div_eq_of_lt hlt]

/-- **C229 is violated** for the progress: measuring all of at most `20 * batch_size`
samples logs percentages above 100. -/
theorem C229_percent_violated (k batch : Nat) (hb : 0 < batch) (hk : 0 < k) (h20 : k ≤ 20) :
    ∃ s, (∀ fuel, k * batch < fuel →
        evaluate ⟨k * batch, batch, none, fun _ => true⟩ fuel = some s) ∧
      s.count = k * batch ∧ 105 ∈ s.logs := by
  have hn : 0 < k * batch := Nat.mul_pos hk hb
  let cfg : Cfg := ⟨k * batch, batch, none, fun _ => true⟩
  have hf : fits cfg = k := by
    show k * batch / batch = k
    exact Nat.mul_div_cancel _ hb
  have h0 : (⟨0, 0, [], []⟩ : St) = after cfg 0 := by simp [after]
  refine ⟨after cfg k, ?_, rfl, ?_⟩
  · intro fuel hfu
    have hkb : k ≤ k * batch := Nat.le_mul_of_pos_right _ hb
    obtain ⟨j, _, h2, h3, _, h5⟩ := loop_spec cfg hb (fits cfg) 0 fuel (by omega)
      (by omega) (by omega)
    show loop cfg fuel 0 _ = _
    rw [h0, h3]
    have : j = k := by
      rw [hf] at h2 h5
      by_contra hne
      have := h5 (by omega)
      cases this
    rw [this]
  · show 105 ∈ (List.range' 1 (if k = 0 then 0 else
      20 * ((k + 1) * batch) / (k * batch))).map (· * 5)
    rw [if_neg (by omega), List.mem_map]
    refine ⟨21, ?_, rfl⟩
    rw [List.mem_range'_1]
    refine ⟨by omega, ?_⟩
    have : 21 ≤ 20 * ((k + 1) * batch) / (k * batch) := by
      rw [Nat.le_div_iff_mul_le hn]
      nlinarith
    omega

/-- Twelve samples, five at a time, of a stream that has plenty. -/
example : evaluate ⟨12, 5, some 100, fun _ => true⟩ 30 = some ⟨10, 25, [5, 5],
    [5, 10, 15, 20, 25, 30, 35, 40, 45, 50, 55, 60, 65, 70, 75, 80, 85, 90, 95, 100, 105, 110,
      115, 120, 125]⟩ := by
  decide +kernel

/-- Fifty samples one at a time, stopped by the clock at the test after the third. -/
example : evaluate ⟨50, 1, none, fun i => i < 3⟩ 60 = some ⟨3, 1, [1, 1, 1], [5]⟩ := by
  decide +kernel

end Verif.Evaluation.Speed
