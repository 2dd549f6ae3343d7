import Verif.Stats
import Mathlib.Data.List.Induction

/-!
Specification helper shared by the drift-detector properties: the inputs seen
since the detector last reported a change, and the generic induction principle
for detectors that restart on the input following a change.
-/

namespace Verif.Drift

/-- The inputs since the last reported change: walking through the stream, an
input that follows a reported change starts a new segment; any other input is
appended to the current one.  `flag h` is what the detector reports after `h`. -/
def sinceChange {α : Type} (flag : List α → Bool) (xs : List α) : List α :=
  (xs.foldl (fun (acc : List α × List α) x =>
    (acc.1 ++ [x], if flag acc.1 then [x] else acc.2 ++ [x])) ([], [])).2

variable {α σ : Type}

private theorem since_fst (flag : List α → Bool) (xs : List α) :
    (xs.foldl (fun (acc : List α × List α) x =>
      (acc.1 ++ [x], if flag acc.1 then [x] else acc.2 ++ [x])) ([], [])).1 = xs := by
  induction xs using List.reverseRecOn with
  | nil => rfl
  | append_singleton xs x ih => rw [List.foldl_append]; simp [ih]

theorem sinceChange_append (flag : List α → Bool) (xs : List α) (x : α) :
    sinceChange flag (xs ++ [x]) =
      if flag xs then [x] else sinceChange flag xs ++ [x] := by
  unfold sinceChange
  rw [List.foldl_append]
  simp only [List.foldl_cons, List.foldl_nil]
  rw [since_fst]

@[simp] theorem sinceChange_nil (flag : List α → Bool) : sinceChange flag [] = [] := rfl

/-- The segment is a suffix of the stream, empty only for the empty stream. -/
theorem sinceChange_suffix (flag : List α → Bool) (xs : List α) : sinceChange flag xs <:+ xs := by
  induction xs using List.reverseRecOn with
  | nil => simp
  | append_singleton xs x ih =>
    rw [sinceChange_append]
    split
    · exact ⟨xs, rfl⟩
    · obtain ⟨p, hp⟩ := ih
      exact ⟨p, by rw [← List.append_assoc, hp]⟩

theorem sinceChange_ne_nil (flag : List α → Bool) (xs : List α) (h : xs ≠ []) :
    sinceChange flag xs ≠ [] := by
  induction xs using List.reverseRecOn with
  | nil => simp at h
  | append_singleton xs x _ => rw [sinceChange_append]; split <;> simp

/-- Induction principle: an invariant relating the segment and the state. -/
theorem segment_inv (step : σ → α → σ) (init : σ) (chg : σ → Bool)
    (hreset : ∀ s x, chg s = true → step s x = step init x) (hinit : chg init = false)
    (I : List α → σ → Prop) (h0 : I [] init)
    (hstep : ∀ seg s x, chg s = false → I seg s → I (seg ++ [x]) (step s x)) (xs : List α) :
    I (sinceChange (fun h => chg (h.foldl step init)) xs) (xs.foldl step init) := by
  induction xs using List.reverseRecOn with
  | nil => exact h0
  | append_singleton xs x ih =>
    rw [sinceChange_append, List.foldl_append]
    simp only [List.foldl_cons, List.foldl_nil]
    split
    · rename_i hc
      rw [hreset _ _ hc]
      exact hstep [] init x hinit h0
    · rename_i hc
      exact hstep _ _ _ (by simpa using hc) ih

/-- After any stream the detector is in the state of a fresh detector fed with
the current segment only. -/
theorem segment_restart (step : σ → α → σ) (init : σ) (chg : σ → Bool)
    (hreset : ∀ s x, chg s = true → step s x = step init x) (hinit : chg init = false)
    (xs : List α) :
    xs.foldl step init =
      (sinceChange (fun h => chg (h.foldl step init)) xs).foldl step init :=
  segment_inv step init chg hreset hinit (fun seg s => s = seg.foldl step init) rfl
    (fun seg s x _ hs => by rw [List.foldl_append, ← hs]; rfl) xs

end Verif.Drift
