import Verif.Drift.Model
import Mathlib.Data.List.Induction

/-!
Property C21 (KSWIN).
-/

namespace Verif.Drift.KS

private theorem run_append (c : KSPar) (xs : List ℚ) (x : ℚ) :
    run c (xs ++ [x]) = run c xs >>= fun s => addElement c s x := by
  unfold run
  cases init c with
  | error e => rfl
  | ok s => exact foldlM_snoc _ _ _ _

private theorem suffix_eq_lastN {w xs : List ℚ} (h : w <:+ xs) (k : Nat) (hk : k ≤ w.length) :
    lastN k w = lastN k xs := by
  obtain ⟨p, rfl⟩ := h
  unfold lastN
  have : (p ++ w).length - k = p.length + (w.length - k) := by simp; omega
  rw [this, List.drop_append, List.drop_eq_nil_of_le (by omega : p.length ≤ _), List.nil_append]
  congr 1; omega

private theorem step_ok (c : KSPar) (h1 : 1 ≤ c.statSize) (h2 : c.statSize + 2 ≤ c.windowSize)
    (xs : List ℚ) (s : KS) (hs : s.window <:+ xs) (hl : s.window.length ≤ c.windowSize) (x : ℚ) :
    ∃ s', addElement c s x = .ok s' ∧ s'.n = s.n + 1 ∧
      (s'.change = true ↔ s.window.length = c.windowSize ∧
        c.reject (c.choice (s.n + 1)
          (s.window.tail.take (c.windowSize - 1 - c.statSize))) (lastN c.statSize xs) = true) ∧
      (s'.change = true → s'.window = lastN c.statSize xs ++ [x]) ∧
      (s'.change = false → s'.window = lastN c.windowSize (s.window ++ [x])) := by
  unfold addElement
  by_cases hfull : s.window.length ≥ c.windowSize
  · rw [if_pos hfull]
    have hlen : s.window.length = c.windowSize := by omega
    cases hw : s.window with
    | nil => rw [hw] at hlen; simp at hlen; omega
    | cons a w =>
      rw [hw] at hlen hs
      simp only [List.length_cons] at hlen
      have hws : w <:+ xs := (List.suffix_cons a w).trans hs
      have htl : takeLastK c.statSize w = lastN c.statSize xs := by
        unfold takeLastK
        rw [if_neg (by omega), suffix_eq_lastN hws _ (by omega)]
      have hpool : dropLastK c.statSize w = w.take (c.windowSize - 1 - c.statSize) := by
        unfold dropLastK; rw [if_neg (by omega)]; congr 1; omega
      have hne : ¬ (dropLastK c.statSize w = [] ∧ c.statSize ≠ 0) := by
        rintro ⟨h, _⟩
        rw [hpool] at h
        have := congrArg List.length h
        simp only [List.length_take, List.length_nil] at this
        omega
      simp only [hne, if_false, show c.statSize ≠ 0 by omega, List.tail_cons]
      rw [htl, hpool]
      cases hr : c.reject (c.choice (s.n + 1) (w.take (c.windowSize - 1 - c.statSize)))
          (lastN c.statSize xs)
      · refine ⟨_, rfl, rfl, by simp, by simp, fun _ => ?_⟩
        have : c.windowSize = (a :: w).length := by simp [hlen]
        rw [this, lastN_append_singleton_full _ _ (by simp)]
        rfl
      · exact ⟨_, rfl, rfl, by simp [hlen], fun _ => rfl, by simp⟩
  · rw [if_neg hfull]
    refine ⟨_, rfl, rfl, by simp; intro h; omega, by simp, fun _ => ?_⟩
    rw [lastN_of_le]
    simp; omega

private theorem inv (c : KSPar) (h1 : 1 ≤ c.statSize) (h2 : c.statSize + 2 ≤ c.windowSize)
    (xs : List ℚ) : ∃ s, run c xs = .ok s ∧ s.window <:+ xs ∧ s.window.length ≤ c.windowSize ∧
      s.n = xs.length := by
  induction xs using List.reverseRecOn with
  | nil =>
    refine ⟨⟨[], false, 0⟩, ?_, by simp, by simp, rfl⟩
    simp [run, init, show ¬ c.windowSize < c.statSize by omega]
  | append_singleton xs x ih =>
    obtain ⟨s, hr, hs, hl, hn⟩ := ih
    obtain ⟨s', ha, hn', _, ht, hf⟩ := step_ok c h1 h2 xs s hs hl x
    refine ⟨s', by rw [run_append, hr]; exact ha, ?_, ?_, by simp [hn', hn]⟩
    · cases hc : s'.change
      · rw [hf hc]
        refine (lastN_suffix _ _).trans ?_
        obtain ⟨p, rfl⟩ := hs
        exact ⟨p, by simp⟩
      · rw [ht hc]
        obtain ⟨p, hp⟩ := lastN_suffix c.statSize xs
        exact ⟨p, by rw [← List.append_assoc, hp]⟩
    · cases hc : s'.change
      · rw [hf hc]; simp
      · rw [ht hc]; simp; omega

/-- **C21 (bounded suffix).** For `1 ≤ stat_size ≤ window_size - 2` no call
raises, and the window is a suffix of the stream of length at most
`window_size`. -/
theorem C21_window (c : KSPar) (h1 : 1 ≤ c.statSize) (h2 : c.statSize + 2 ≤ c.windowSize)
    (xs : List ℚ) : ∃ s, run c xs = .ok s ∧ s.window <:+ xs ∧ s.window.length ≤ c.windowSize := by
  obtain ⟨s, a, b, d, _⟩ := inv c h1 h2 xs
  exact ⟨s, a, b, d⟩

/-- **C21 (decision and truncation).** A change is reported exactly when the
window was full and the test rejected for the random sample drawn from the
window without its oldest and its `stat_size` newest values, against those
newest values; after a change only the `stat_size` newest earlier values and the
current one remain; otherwise the window slides. -/
theorem C21_change (c : KSPar) (h1 : 1 ≤ c.statSize) (h2 : c.statSize + 2 ≤ c.windowSize)
    (xs : List ℚ) (x : ℚ) : ∃ s s', run c xs = .ok s ∧ run c (xs ++ [x]) = .ok s' ∧
      (s'.change = true ↔ s.window.length = c.windowSize ∧
        c.reject (c.choice (xs.length + 1)
          (s.window.tail.take (c.windowSize - 1 - c.statSize))) (lastN c.statSize xs) = true) ∧
      (s'.change = true → s'.window = lastN c.statSize xs ++ [x]) ∧
      (s'.change = false → s'.window = lastN c.windowSize (s.window ++ [x])) := by
  obtain ⟨s, hr, hs, hl, hn⟩ := inv c h1 h2 xs
  obtain ⟨s', ha, _, hd, ht, hf⟩ := step_ok c h1 h2 xs s hs hl x
  rw [hn] at hd
  exact ⟨s, s', hr, by rw [run_append, hr]; exact ha, hd, ht, hf⟩

/-- **C21 (rejected sizes).** The constructor also accepts `stat_size` equal to
`window_size - 1` or `window_size`, but then the first value after the window
has filled raises, on every stream. -/
theorem C21_large_stat_size_raises (c : KSPar) (h1 : 1 ≤ c.statSize)
    (h2 : c.windowSize ≤ c.statSize + 1) (h3 : c.statSize ≤ c.windowSize) (xs : List ℚ)
    (hl : xs.length > c.windowSize) : run c xs = .error .valueError := by
  have fill : ∀ ys : List ℚ, ys.length ≤ c.windowSize → ∃ s, run c ys = .ok s ∧ s.window = ys := by
    intro ys
    induction ys using List.reverseRecOn with
    | nil =>
      intro _
      refine ⟨⟨[], false, 0⟩, ?_, rfl⟩
      simp [run, init, show ¬ c.windowSize < c.statSize by omega]
    | append_singleton ys y ih =>
      intro hle
      simp only [List.length_append, List.length_cons, List.length_nil] at hle
      obtain ⟨s, hr, hw⟩ := ih (by omega)
      refine ⟨⟨s.window ++ [y], false, s.n + 1⟩, ?_, by simp [hw]⟩
      rw [run_append, hr]
      change addElement c s y = _
      unfold addElement
      rw [if_neg (by rw [hw]; omega)]
  induction xs using List.reverseRecOn with
  | nil => simp at hl
  | append_singleton xs x ih =>
    rw [run_append]
    by_cases hx : xs.length > c.windowSize
    · rw [ih hx]; rfl
    · have hlen : xs.length = c.windowSize := by simp at hl; omega
      obtain ⟨s, hr, hw⟩ := fill xs (by omega)
      rw [hr]
      change addElement c s x = _
      unfold addElement
      rw [if_pos (by rw [hw]; omega), hw]
      cases xs with
      | nil => simp at hlen; omega
      | cons a w =>
        have : dropLastK c.statSize w = [] := by
          unfold dropLastK
          rw [if_neg (by omega)]
          simp only [List.length_cons] at hlen
          rw [show w.length - c.statSize = 0 by omega]; rfl
        simp [this, show c.statSize ≠ 0 by omega]

-- A window of four, a test that always rejects.
def demo : KSPar := ⟨4, 2, fun _ l => l, fun _ _ => true⟩
example : (run demo [1, 2, 3, 4, 5]).toOption.map (fun s => (s.window, s.change))
    = some ([3, 4, 5], true) := by decide +kernel

end Verif.Drift.KS
