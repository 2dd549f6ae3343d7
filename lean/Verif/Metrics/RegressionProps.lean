import Verif.Metrics.Regression
import Verif.Buffers.Props
import Mathlib.Algebra.Order.BigOperators.Group.List
import Mathlib.Algebra.BigOperators.Field
import Mathlib.Tactic.Abel

/-!
Property C11 (regression evaluators, cumulative and windowed, one or many targets).
-/

namespace Verif.Regression
open Buffers

/-! ### Specification -/

/-- Mean squared error of a list of (true, predicted) pairs; 0 for no results. -/
def mse (h : List (ℚ × ℚ)) : ℚ := (h.map fun r => (r.1 - r.2) ^ 2).sum / h.length

/-- Mean absolute error; 0 for no results. -/
def mae (h : List (ℚ × ℚ)) : ℚ := (h.map fun r => |r.1 - r.2|).sum / h.length

/-- The single-target history seen by target `j`. -/
def target {d : Nat} (j : Fin d) (h : List (Vec d × Vec d)) : List (ℚ × ℚ) :=
  h.map fun r => (r.1 j, r.2 j)

/-! ### Histories of calls -/

def regRun (h : List (ℚ × ℚ)) : RegEval := h.foldl (fun e r => e.addResult r.1 r.2) RegEval.init

def wregRun (w : Nat) (h : List (ℚ × ℚ)) : Except PyErr WRegEval :=
  h.foldlM (fun e r => e.addResult r.1 r.2) (WRegEval.init w)

def mtRun {d : Nat} (h : List (Vec d × Vec d)) : MTEval d :=
  h.foldl (fun e r => e.addResult r.1 r.2) MTEval.init

def wmtRun {d : Nat} (w : Nat) (h : List (Vec d × Vec d)) : Except PyErr (WMTEval d) :=
  h.foldlM (fun e r => e.addResult r.1 r.2) (WMTEval.init w)

/-! ### Proofs -/

private theorem regRun_inv (h : List (ℚ × ℚ)) :
    (regRun h).totalSquareError = (h.map fun r => (r.1 - r.2) ^ 2).sum ∧
    (regRun h).averageError = (h.map fun r => |r.1 - r.2|).sum ∧
    (regRun h).sampleCount = h.length ∧ (regRun h).last = h.getLast? := by
  induction h using List.reverseRecOn with
  | nil => exact ⟨rfl, rfl, rfl, rfl⟩
  | append_singleton h r ih =>
    obtain ⟨a, b, c, _⟩ := ih
    have e : regRun (h ++ [r]) = (regRun h).addResult r.1 r.2 := by simp [regRun]
    rw [e]
    refine ⟨?_, ?_, ?_, ?_⟩
    · simp [RegEval.addResult, a]; ring
    · simp [RegEval.addResult, b]
    · simp [RegEval.addResult, c]
    · simp [RegEval.addResult]

/-- **C11 (cumulative, one target).** -/
theorem C11_cumulative (h : List (ℚ × ℚ)) :
    (regRun h).meanSquareError = mse h ∧ (regRun h).meanAbsoluteError = mae h ∧
    (regRun h).sampleCount = h.length ∧ (regRun h).last = h.getLast? := by
  obtain ⟨a, b, c, d⟩ := regRun_inv h
  refine ⟨?_, ?_, c, d⟩
  · unfold RegEval.meanSquareError mse
    rw [a, c]
    by_cases hz : h.length = 0
    · simp [hz]
    · rw [if_neg hz]
  · unfold RegEval.meanAbsoluteError mae
    rw [b, c]
    by_cases hz : h.length = 0
    · simp [hz]
    · rw [if_neg hz]

/-- Window sums: adding the new term and subtracting the evicted one. -/
private theorem window_sum {α M : Type} [AddCommGroup M] (w : Nat) (hw : 1 ≤ w) (h : List α) (r : α)
    (f : α → M) :
    ((lastN w (h ++ [r])).map f).sum =
      (if h.length < w then ((lastN w h).map f).sum + f r
       else ((lastN w h).map f).sum + f r - (((lastN w h).head?.map f).getD 0)) := by
  by_cases hl : h.length < w
  · rw [if_pos hl, lastN_of_le hl.le, lastN_of_le (by simp; omega)]
    simp
  · rw [if_neg hl]
    have hlen : (lastN w h).length = w := by simp; omega
    rw [← lastN_lastN_append]
    cases hg : lastN w h with
    | nil => rw [hg] at hlen; simp at hlen; omega
    | cons q rest =>
      have : w = (q :: rest).length := by rw [← hg, hlen]
      conv_lhs => rw [this]
      rw [lastN_append_singleton_full _ _ (by simp)]
      simp only [List.tail_cons, List.map_append, List.map_cons, List.map_nil, List.sum_append,
        List.sum_cons, List.sum_nil, List.head?_cons, Option.map_some, Option.getD_some, add_zero]
      abel

private def buf {α M : Type} (w : Nat) (h : List α) (f : α → M) : FastBuffer M :=
  ⟨w, (lastN w (h.map f)).length, lastN w (h.map f)⟩

private theorem lastN_map {α β : Type} (n : Nat) (f : α → β) (l : List α) :
    lastN n (l.map f) = (lastN n l).map f := by simp [lastN, List.map_drop]

private theorem buf_add {α M : Type} (w : Nat) (hw : 1 ≤ w) (h : List α) (f : α → M) (r : α) :
    (buf w h f).addElement [f r] =
      (if h.length < w then none else some [((lastN w h).head?).map f], buf w (h ++ [r]) f) := by
  unfold buf
  rw [addElement_single w hw]
  simp [lastN_map, List.head?_map]

private theorem head_some {α : Type} (w : Nat) (hw : 1 ≤ w) (h : List α) (hl : ¬ h.length < w) :
    ∃ q, (lastN w h).head? = some q := by
  cases hg : lastN w h with
  | nil =>
    have : (lastN w h).length = w := by simp; omega
    rw [hg] at this; simp at this; omega
  | cons q rest => exact ⟨q, rfl⟩

private abbrev sqf (r : ℚ × ℚ) : ℚ := -1 * ((r.1 - r.2) * (r.1 - r.2))
private abbrev abf (r : ℚ × ℚ) : ℚ := -1 * |r.1 - r.2|

private def wstate (w : Nat) (h : List (ℚ × ℚ)) : WRegEval :=
  ⟨((lastN w h).map fun r => (r.1 - r.2) ^ 2).sum, ((lastN w h).map fun r => |r.1 - r.2|).sum,
    h.getLast?, buf w h sqf, buf w h abf, w⟩

private theorem wregRun_eq (w : Nat) (hw : 1 ≤ w) (h : List (ℚ × ℚ)) :
    wregRun w h = .ok (wstate w h) := by
  induction h using List.reverseRecOn with
  | nil => simp [wregRun, wstate, WRegEval.init, buf, FastBuffer.init]; rfl
  | append_singleton h r ih =>
    have e : wregRun w (h ++ [r]) = (wregRun w h >>= fun s => s.addResult r.1 r.2) := by
      simp [wregRun, List.foldlM_append]
    rw [e, ih]
    have hb1 := buf_add w hw h sqf r
    have hb2 := buf_add w hw h abf r
    change (wstate w h).addResult r.1 r.2 = _
    unfold WRegEval.addResult
    simp only [wstate]
    simp only [hb1, hb2]
    rw [window_sum w hw, window_sum w hw]
    by_cases hl : h.length < w
    · simp only [hl, if_true]
      simp [pure, Except.pure]; ring
    · obtain ⟨q, hq⟩ := head_some w hw h hl
      simp only [hl, if_false, hq]
      simp only [Option.map_some, Option.isSome_some, Bool.and_self, if_true, applyOld,
        Option.getD_some]
      simp [pure, Except.pure, bind, Except.bind]
      constructor <;> ring

/-- **C11 (windowed, one target).** No call raises, and the reported errors are
those of the last `window_size` results. -/
theorem C11_window (w : Nat) (hw : 1 ≤ w) (h : List (ℚ × ℚ)) :
    ∃ e, wregRun w h = .ok e ∧
      e.meanSquareError = mse (lastN w h) ∧ e.meanAbsoluteError = mae (lastN w h) ∧
      e.sampleCount = min w h.length ∧ e.last = h.getLast? := by
  refine ⟨wstate w h, wregRun_eq w hw h, ?_, ?_, ?_, rfl⟩
  · unfold WRegEval.meanSquareError mse
    simp only [wstate, WRegEval.sampleCount, FastBuffer.getCurrentSize, buf, lastN_map,
      List.length_map]
    by_cases hz : (lastN w h).length = 0
    · rw [if_pos hz, hz]; simp
    · rw [if_neg hz]
  · unfold WRegEval.meanAbsoluteError mae
    simp only [wstate, WRegEval.sampleCount, FastBuffer.getCurrentSize, buf, lastN_map,
      List.length_map]
    by_cases hz : (lastN w h).length = 0
    · rw [if_pos hz, hz]; simp
    · rw [if_neg hz]
  · simp [wstate, WRegEval.sampleCount, FastBuffer.getCurrentSize, buf]

/-- **C11 (window_size 0).** With `window_size = 0` the very first result raises
(`None` is added to the total): the guard `1 ≤ w` is exactly the accepted range. -/
theorem C11_window_zero (r : ℚ × ℚ) (h : List (ℚ × ℚ)) : wregRun 0 (r :: h) = .error .typeError := by
  simp [wregRun, WRegEval.init, WRegEval.addResult, FastBuffer.init, FastBuffer.addElement,
    FastBuffer.addOne, FastBuffer.isFull, FastBuffer.getNextElement, applyOld, bind, Except.bind]

private theorem mtRun_inv {d : Nat} (h : List (Vec d × Vec d)) (j : Fin d) :
    (mtRun h).totalSquareError j = ((target j h).map fun r => (r.1 - r.2) ^ 2).sum ∧
    (mtRun h).averageError j = ((target j h).map fun r => |r.1 - r.2|).sum ∧
    (mtRun h).sampleCount = h.length := by
  induction h using List.reverseRecOn with
  | nil => exact ⟨rfl, rfl, rfl⟩
  | append_singleton h r ih =>
    obtain ⟨a, b, c⟩ := ih
    have e : mtRun (h ++ [r]) = (mtRun h).addResult r.1 r.2 := by simp [mtRun]
    rw [e]
    refine ⟨?_, ?_, ?_⟩
    · simp [MTEval.addResult, a, target]; ring
    · simp [MTEval.addResult, b, target]
    · simp [MTEval.addResult, c]

private theorem mse_nonneg (h : List (ℚ × ℚ)) : 0 ≤ mse h := by
  apply div_nonneg _ (by positivity)
  apply List.sum_nonneg
  intro x hx
  obtain ⟨r, _, rfl⟩ := List.mem_map.1 hx
  positivity

private theorem mtRun_count {d : Nat} (h : List (Vec d × Vec d)) :
    (mtRun h).sampleCount = h.length := by
  induction h using List.reverseRecOn with
  | nil => rfl
  | append_singleton h r ih =>
    have e : mtRun (h ++ [r]) = (mtRun h).addResult r.1 r.2 := by simp [mtRun]
    rw [e]; simp [MTEval.addResult, ih]

/-- **C11 (cumulative, many targets).** Each average is the mean over the
targets of the single-target error. -/
theorem C11_multi_cumulative {d : Nat} (sqrt : ℚ → ℚ) (h : List (Vec d × Vec d)) (hne : h ≠ []) :
    (mtRun h).averageMSE = (∑ j, mse (target j h)) / d ∧
    (mtRun h).averageMAE = (∑ j, mae (target j h)) / d ∧
    (mtRun h).averageRMSE sqrt = (∑ j, sqrt (mse (target j h))) / d ∧
    (mtRun h).sampleCount = h.length := by
  have hz : h.length ≠ 0 := by simpa using hne
  have c := mtRun_count h
  have hs : ∀ j, (mtRun h).totalSquareError j / ((mtRun h).sampleCount : ℚ) = mse (target j h) := by
    intro j; rw [(mtRun_inv h j).1, c]; simp [mse, target]
  refine ⟨?_, ?_, ?_, c⟩
  · unfold MTEval.averageMSE
    rw [if_neg (by rw [c]; exact hz)]
    simp only [hs]
  · unfold MTEval.averageMAE
    rw [if_neg (by rw [c]; exact hz)]
    congr 1; apply Finset.sum_congr rfl
    intro j _; rw [(mtRun_inv h j).2.1, c]; simp [mae, target]
  · unfold MTEval.averageRMSE
    rw [if_neg (by rw [c]; exact hz)]
    simp only [hs, ge_iff_le, mse_nonneg, if_true]

private abbrev vsqf {d : Nat} (r : Vec d × Vec d) : Vec d := fun j => -1 * (r.1 j - r.2 j) * (r.1 j - r.2 j)
private abbrev vabf {d : Nat} (r : Vec d × Vec d) : Vec d := fun j => -1 * |r.1 j - r.2 j|

private def vstate {d : Nat} (w : Nat) (h : List (Vec d × Vec d)) : WMTEval d :=
  ⟨((lastN w h).map fun r => (fun j => (r.1 j - r.2 j) ^ 2 : Vec d)).sum,
   ((lastN w h).map fun r => (fun j => |r.1 j - r.2 j| : Vec d)).sum, buf w h vsqf, buf w h vabf, w⟩

private theorem wmtRun_eq {d : Nat} (w : Nat) (hw : 1 ≤ w) (h : List (Vec d × Vec d)) :
    wmtRun w h = .ok (vstate w h) := by
  induction h using List.reverseRecOn with
  | nil => simp [wmtRun, vstate, WMTEval.init, buf, FastBuffer.init]; rfl
  | append_singleton h r ih =>
    have e : wmtRun w (h ++ [r]) = (wmtRun w h >>= fun s => s.addResult r.1 r.2) := by
      simp [wmtRun, List.foldlM_append]
    rw [e, ih]
    have hb1 := buf_add w hw h vsqf r
    have hb2 := buf_add w hw h vabf r
    change (vstate w h).addResult r.1 r.2 = _
    unfold WMTEval.addResult
    simp only [vstate]
    simp only [hb1, hb2]
    rw [window_sum w hw, window_sum w hw]
    by_cases hl : h.length < w
    · simp only [hl, if_true]
      simp [pure, Except.pure]
      constructor <;> (funext j; simp [Pi.add_apply]; try ring)
    · obtain ⟨q, hq⟩ := head_some w hw h hl
      simp only [hl, if_false, hq]
      simp only [Option.map_some, Option.isSome_some, Bool.and_self, if_true, applyOld,
        Option.getD_some]
      simp [pure, Except.pure, bind, Except.bind]
      constructor <;> (funext j; simp [Pi.add_apply]; ring)

private theorem sum_apply {α : Type} {d : Nat} (l : List α) (f : α → Vec d) (j : Fin d) :
    (l.map f).sum j = (l.map fun r => f r j).sum := by
  induction l with
  | nil => rfl
  | cons a l ih => simp [ih]

/-- **C11 (windowed, many targets).** -/
theorem C11_multi_window {d : Nat} (sqrt : ℚ → ℚ) (w : Nat) (hw : 1 ≤ w) (h : List (Vec d × Vec d))
    (hne : h ≠ []) :
    ∃ e, wmtRun w h = .ok e ∧
      e.averageMSE = (∑ j, mse (target j (lastN w h))) / d ∧
      e.averageMAE = (∑ j, mae (target j (lastN w h))) / d ∧
      e.averageRMSE sqrt = (∑ j, sqrt (mse (target j (lastN w h)))) / d ∧
      e.sampleCount = min w h.length := by
  have hl : h.length ≠ 0 := by simpa using hne
  have c : (vstate w h).sampleCount = min w h.length := by
    simp [vstate, WMTEval.sampleCount, FastBuffer.getCurrentSize, buf]
  have hz : (vstate w h).sampleCount ≠ 0 := by rw [c]; omega
  have hs : ∀ j, (vstate w h).totalSquareError j / ((vstate w h).sampleCount : ℚ) =
      mse (target j (lastN w h)) := by
    intro j
    rw [c]
    simp only [vstate, sum_apply, mse, target, List.map_map, List.length_map, length_lastN,
      Function.comp_def]
  refine ⟨vstate w h, wmtRun_eq w hw h, ?_, ?_, ?_, c⟩
  · unfold WMTEval.averageMSE
    rw [if_neg hz]
    simp only [hs]
  · unfold WMTEval.averageMAE
    rw [if_neg hz]
    congr 1; apply Finset.sum_congr rfl
    intro j _; rw [c]
    simp only [vstate, sum_apply, mae, target, List.map_map, List.length_map, length_lastN,
      Function.comp_def]
  · unfold WMTEval.averageRMSE
    rw [if_neg hz]
    simp only [hs, ge_iff_le, mse_nonneg, if_true]

/-- C11: with no results every multi-target error is 0, also with a window. -/
theorem C11_multi_empty {d : Nat} (sqrt : ℚ → ℚ) (w : Nat) (hw : 1 ≤ w) :
    (mtRun (d := d) []).averageMSE = 0 ∧ (mtRun (d := d) []).averageMAE = 0 ∧
    (mtRun (d := d) []).averageRMSE sqrt = 0 ∧
    ∃ e, wmtRun (d := d) w [] = .ok e ∧ e.averageMSE = 0 ∧ e.averageMAE = 0 ∧ e.averageRMSE sqrt = 0 := by
  have hz : (mtRun (d := d) []).sampleCount = 0 := mtRun_count []
  have c : (vstate (d := d) w []).sampleCount = 0 := by
    simp [vstate, WMTEval.sampleCount, FastBuffer.getCurrentSize, buf]
  refine ⟨?_, ?_, ?_, vstate w [], wmtRun_eq w hw [], ?_, ?_, ?_⟩
  · unfold MTEval.averageMSE; rw [if_pos hz]
  · unfold MTEval.averageMAE; rw [if_pos hz]
  · unfold MTEval.averageRMSE; rw [if_pos hz]
  · unfold WMTEval.averageMSE; rw [if_pos c]
  · unfold WMTEval.averageMAE; rw [if_pos c]
  · unfold WMTEval.averageRMSE; rw [if_pos c]

-- Window of two over three results: only the last two count.
example : mse (lastN 2 [(0, 5), (1, 2), (4, 1)]) = 5 ∧ mae (lastN 2 [(0, 5), (1, 2), (4, 1)]) = 2 := by
  norm_num [mse, mae, lastN]

end Verif.Regression
