import Verif.Meta.PatchesLife
import Mathlib.Algebra.BigOperators.Ring.List
import Mathlib.Algebra.Order.BigOperators.Group.List
import Mathlib.Algebra.Order.Field.Basic

/-!
Theorems about the votes of `StreamingRandomPatchesClassifier`; C140.
-/

namespace Verif.Meta.Patches

/-- Share of class `c` in a member's row; 0 for a row without positive sum. -/
def share (row : List ℚ) (c : Nat) : ℚ := if 0 < row.sum then row.getD c 0 / row.sum else 0

/-- Score of class `c`: the members' shares, weighted by accuracy if `weighted`. -/
def score (weighted : Bool) (ms : List (ℚ × List ℚ)) (c : Nat) : ℚ :=
  (ms.map fun m => (if weighted then m.1 else 1) * share m.2 c).sum

/-- Total weight of the members with a vote. -/
def voters (weighted : Bool) (ms : List (ℚ × List ℚ)) : ℚ :=
  ((ms.filter fun m => 0 < m.2.sum).map fun m => if weighted then m.1 else 1).sum

theorem getD_addRow (a b : List ℚ) (c : Nat) : (addRow a b).getD c 0 = a.getD c 0 + b.getD c 0 := by
  induction a generalizing b c with
  | nil => simp [addRow]
  | cons x a ih =>
    cases b with
    | nil => simp [addRow]
    | cons y b =>
      cases c with
      | zero => simp [addRow]
      | succ c => simp only [addRow, List.getD_cons_succ]; exact ih b c

theorem length_addRow (a b : List ℚ) : (addRow a b).length = max a.length b.length := by
  induction a generalizing b with
  | nil => simp [addRow]
  | cons x a ih =>
    cases b with
    | nil => simp [addRow]
    | cons y b => simp only [addRow, List.length_cons, ih]; omega

theorem sum_addRow (a b : List ℚ) : (addRow a b).sum = a.sum + b.sum := by
  induction a generalizing b with
  | nil => simp [addRow]
  | cons x a ih =>
    cases b with
    | nil => simp [addRow]
    | cons y b => simp only [addRow, List.sum_cons, ih]; ring

theorem abs_row (row : List ℚ) (h : ∀ v ∈ row, 0 ≤ v) : (row.map fun v => |v|) = row := by
  conv_rhs => rw [← List.map_id row]
  apply List.map_congr_left
  intro v hv
  rw [abs_of_nonneg (h v hv)]; rfl

/-- A member's vote for class `c`. -/
theorem memVote_some (weighted : Bool) (acc : ℚ) (row v : List ℚ) (hr : ∀ v ∈ row, 0 ≤ v)
    (h : memVote weighted acc row = some v) : 0 < row.sum ∧ v.length = row.length ∧
      v = row.map fun u => u * ((if weighted ∧ 0 < acc then acc else 1) / row.sum) := by
  unfold memVote at h
  by_cases hs : row.sum > 0
  · rw [if_pos hs, Option.some.injEq] at h
    simp only [abs_row row hr] at h
    refine ⟨hs, ?_, ?_⟩
    · rw [← h]; split <;> simp
    · rw [← h]
      by_cases hw : (weighted : Prop) ∧ acc > 0
      · rw [if_pos hw, if_pos hw, List.map_map]
        apply List.map_congr_left
        intro u _
        simp only [Function.comp]; ring
      · rw [if_neg hw, if_neg hw]
        apply List.map_congr_left
        intro u _
        ring
  · rw [if_neg hs] at h; cases h

theorem memVote_none (weighted : Bool) (acc : ℚ) (row : List ℚ) : memVote weighted acc row = none ↔ ¬ 0 < row.sum := by
  unfold memVote
  by_cases hs : row.sum > 0
  · simp [hs]
  · simp [hs]

theorem combine_append (weighted : Bool) (ms : List (ℚ × List ℚ)) (m : ℚ × List ℚ) :
    combine weighted (ms ++ [m]) = match memVote weighted m.1 m.2 with
      | some v => addRow (combine weighted ms) v
      | none => combine weighted ms := by
  unfold combine
  rw [List.foldl_append]
  rfl

/-- The weight a member really has: an accuracy of 0 counts as 1. -/
def realWeight (weighted : Bool) (acc : ℚ) : ℚ := if weighted ∧ 0 < acc then acc else 1

theorem combine_get (weighted : Bool) (ms : List (ℚ × List ℚ)) (hr : ∀ m ∈ ms, ∀ v ∈ m.2, 0 ≤ v) (c : Nat) :
    (combine weighted ms).getD c 0 = (ms.map fun m => realWeight weighted m.1 * share m.2 c).sum := by
  induction ms using List.reverseRecOn with
  | nil =>
    cases c with
    | zero => rfl
    | succ c => simp [combine]
  | append_singleton ms m ih =>
    have ih := ih fun m hm => hr m (by simp [hm])
    rw [combine_append, List.map_append, List.sum_append, ← ih, List.map_singleton, List.sum_singleton]
    cases hv : memVote weighted m.1 m.2 with
    | none =>
      rw [memVote_none] at hv
      simp [share, hv]
    | some v =>
      obtain ⟨h1, h2, h3⟩ := memVote_some weighted m.1 m.2 v (hr m (by simp)) hv
      simp only [getD_addRow]
      congr 1
      rw [h3, share, if_pos h1]
      by_cases hc : c < m.2.length
      · rw [List.getD_eq_getElem _ _ (by simpa using hc), List.getD_eq_getElem _ _ hc, List.getElem_map, realWeight]
        ring
      · rw [List.getD_eq_default _ _ (by simpa using hc), List.getD_eq_default _ _ (by simpa using hc)]
        simp

/-- C140, partial: with non-negative probabilities of the members and positive accuracies,
`predict_proba` of a sample holds for every class the accuracy-weighted sum of the members'
normalised probabilities. -/
theorem C140_votes_partial (weighted : Bool) (ms : List (ℚ × List ℚ)) (hr : ∀ m ∈ ms, ∀ v ∈ m.2, 0 ≤ v)
    (ha : weighted = true → ∀ m ∈ ms, 0 < m.1) (c : Nat) : (combine weighted ms).getD c 0 = score weighted ms c := by
  rw [combine_get weighted ms hr, score]
  congr 1
  apply List.map_congr_left
  intro m hm
  cases weighted with
  | false => simp [realWeight]
  | true => simp [realWeight, ha rfl m hm]

theorem combine_ne_nil (weighted : Bool) (ms : List (ℚ × List ℚ)) : combine weighted ms ≠ [] := by
  induction ms using List.reverseRecOn with
  | nil => simp [combine]
  | append_singleton ms m ih =>
    rw [combine_append]
    cases memVote weighted m.1 m.2 with
    | none => exact ih
    | some v =>
      intro h
      have := length_addRow (combine weighted ms) v
      simp only at h
      rw [h] at this
      have : 0 < (combine weighted ms).length := List.length_pos_of_ne_nil ih
      simp only [List.length_nil] at *
      omega

/-- C140, partial: `predict` for one sample answers with the class of the highest score, the
smallest such class. -/
theorem C140_predict_partial (weighted : Bool) (ms : List (ℚ × List ℚ)) (hr : ∀ m ∈ ms, ∀ v ∈ m.2, 0 ≤ v)
    (ha : weighted = true → ∀ m ∈ ms, 0 < m.1) :
    ∃ c, predictRows [combine weighted ms] = .ok [c] ∧ (∀ d, score weighted ms d ≤ score weighted ms c) ∧
      ∀ d, d < c → score weighted ms d < score weighted ms c := by
  refine ⟨Lazy.argmax (combine weighted ms), rfl, ?_⟩
  obtain ⟨v, h1, h2, h3⟩ := Lazy.argmax_spec (combine weighted ms) (combine_ne_nil weighted ms)
  have hv : score weighted ms (Lazy.argmax (combine weighted ms)) = v := by
    rw [← C140_votes_partial weighted ms hr ha, List.getD_eq_getElem?_getD, h1]; rfl
  have hnn : ∀ d, 0 ≤ score weighted ms d := by
    intro d
    unfold score
    apply List.sum_nonneg
    intro x hx
    rw [List.mem_map] at hx
    obtain ⟨m, hm, rfl⟩ := hx
    apply mul_nonneg
    · cases weighted with
      | false => simp
      | true => simpa using (ha rfl m hm).le
    · unfold share
      split
      · apply div_nonneg _ (le_of_lt ‹_›)
        by_cases hd : d < m.2.length
        · rw [List.getD_eq_getElem _ _ hd]; exact hr m hm _ (List.getElem_mem hd)
        · rw [List.getD_eq_default _ _ (by omega)]
      · exact le_refl _
  refine ⟨fun d => ?_, fun d hd => ?_⟩
  · rw [hv]
    by_cases hdl : d < (combine weighted ms).length
    · rw [← C140_votes_partial weighted ms hr ha, List.getD_eq_getElem _ _ hdl]
      exact h2 _ (List.getElem_mem hdl)
    · have : score weighted ms d = 0 := by
        rw [← C140_votes_partial weighted ms hr ha, List.getD_eq_default _ _ (by omega)]
      rw [this, ← hv]
      exact hnn _
  · rw [hv]
    obtain ⟨hal, -⟩ := List.getElem?_eq_some_iff.1 h1
    have hdl : d < (combine weighted ms).length := by omega
    rw [← C140_votes_partial weighted ms hr ha, List.getD_eq_getElem _ _ hdl]
    exact h3 d _ hd (List.getElem?_eq_getElem hdl)

/-- C140 fails: a row of `predict_proba` sums up to the total weight of the members, not to
1. -/
theorem C140_not_normalised_violated (weighted : Bool) (ms : List (ℚ × List ℚ)) (hr : ∀ m ∈ ms, ∀ v ∈ m.2, 0 ≤ v)
    (ha : weighted = true → ∀ m ∈ ms, 0 < m.1) : (combine weighted ms).sum = voters weighted ms := by
  induction ms using List.reverseRecOn with
  | nil => simp [combine, voters]
  | append_singleton ms m ih =>
    have ih := ih (fun m hm => hr m (by simp [hm])) (fun hw m hm => ha hw m (by simp [hm]))
    rw [combine_append]
    have hvo : voters weighted (ms ++ [m]) = voters weighted ms +
        if 0 < m.2.sum then (if weighted then m.1 else 1) else 0 := by
      unfold voters
      rw [List.filter_append, List.map_append, List.sum_append]
      by_cases h : 0 < m.2.sum
      · rw [List.filter_cons_of_pos (by simpa using h)]; simp [h]
      · rw [List.filter_cons_of_neg (by simpa using h)]; simp [h]
    rw [hvo]
    cases hv : memVote weighted m.1 m.2 with
    | none =>
      rw [memVote_none] at hv
      simp [hv, ih]
    | some v =>
      obtain ⟨h1, h2, h3⟩ := memVote_some weighted m.1 m.2 v (hr m (by simp)) hv
      simp only [sum_addRow, ih, if_pos h1]
      congr 1
      rw [h3, List.sum_map_mul_right, List.map_id']
      have h1' : m.2.sum ≠ 0 := ne_of_gt h1
      cases weighted with
      | false => simp; field_simp
      | true =>
        have := ha rfl m (by simp)
        simp [this]; field_simp

example : combine true [(9 / 10, [3, 1]), (8 / 10, [0, 1])] = [27 / 40, 41 / 40] ∧
    (combine true [(9 / 10, [3, 1]), (8 / 10, [0, 1])]).sum = 17 / 10 := by decide +kernel

/-- C140 fails: a member that was always wrong outvotes one that is right half of the time. -/
theorem C140_zero_accuracy_violated :
    (predictRows [combine true [(0, [1, 0]), (1 / 2, [0, 1])]]).toOption = some [0] ∧
    score true [(0, [1, 0]), (1 / 2, [0, 1])] 0 < score true [(0, [1, 0]), (1 / 2, [0, 1])] 1 := by decide +kernel

/-- C140 fails: two samples can be predicted one by one but not together, because the rows of
one call may differ in length. -/
theorem C140_batch_raises_violated :
    (predictRows [combine true [(1, [1])], combine true [(1, [1, 3])]]).toOption = none ∧
    (predictRows [combine true [(1, [1])]]).toOption = some [0] ∧
    (predictRows [combine true [(1, [1, 3])]]).toOption = some [1] := by decide +kernel

/-- C140, partial: if the members' rows have one length and every sample has a vote, a batch is
predicted like its samples one by one. -/
theorem C140_batch_partial (weighted : Bool) (n : Nat) (samples : List (List (ℚ × List ℚ))) (hn : 0 < n)
    (h : ∀ ms ∈ samples, ∀ m ∈ ms, m.2.length = n) (hv : ∀ ms ∈ samples, ∃ m ∈ ms, 0 < m.2.sum) :
    ∃ ps, predictRows (samples.map (combine weighted)) = .ok ps ∧ ps.length = samples.length ∧
      ∀ (i : Nat) ms p, samples[i]? = some ms → ps[i]? = some p → predictRows [combine weighted ms] = .ok [p] := by
  have hlen : ∀ ms : List (ℚ × List ℚ), (∀ m ∈ ms, m.2.length = n) →
      (combine weighted ms).length = if ms.any (fun m => 0 < m.2.sum) then n else 1 := by
    intro ms hms
    induction ms using List.reverseRecOn with
    | nil => simp [combine]
    | append_singleton ms m ih =>
      have ih := ih fun m hm => hms m (by simp [hm])
      rw [combine_append, List.any_append]
      cases hm : memVote weighted m.1 m.2 with
      | none =>
        rw [memVote_none] at hm
        have hd : ([m].any fun m => decide (0 < m.2.sum)) = false := by
          simpa using hm
        simp only [hd, Bool.or_false, ih]
      | some v =>
        have h1 : 0 < m.2.sum := by
          by_contra hc
          rw [(memVote_none weighted m.1 m.2).2 hc] at hm
          cases hm
        have h2 : v.length = m.2.length := by
          unfold memVote at hm
          rw [if_pos h1, Option.some.injEq] at hm
          rw [← hm]; split <;> simp
        simp only [length_addRow, ih, h2, hms m (by simp)]
        have : ([m].any fun m => decide (0 < m.2.sum)) = true := by simp [h1]
        rw [this, Bool.or_true]
        simp only [if_true]
        split <;> omega
  have hall : ∀ ms ∈ samples, (combine weighted ms).length = n := by
    intro ms hms
    rw [hlen ms (h ms hms), if_pos]
    obtain ⟨m, hm, hp⟩ := hv ms hms
    rw [List.any_eq_true]
    exact ⟨m, hm, by simpa using hp⟩
  refine ⟨samples.map fun ms => Lazy.argmax (combine weighted ms), ?_, by simp, ?_⟩
  · unfold predictRows probaRows
    cases samples with
    | nil => rfl
    | cons s0 rest =>
      simp only [List.map_cons]
      rw [if_pos]
      · simp
      · simp only [List.all_map, List.all_eq_true, Function.comp, decide_eq_true_eq]
        intro s hs
        rw [hall s (by simp [hs]), hall s0 (by simp)]
  · intro i ms p h1 h2
    rw [List.getElem?_map, h1] at h2
    simp only [Option.map_some, Option.some.injEq] at h2
    rw [← h2]
    rfl

end Verif.Meta.Patches
