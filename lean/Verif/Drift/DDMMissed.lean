import Verif.Drift.DDMLasting
import Mathlib.Tactic.NormNum
import Mathlib.Tactic.IntervalCases

/-!
Property C307, the other side: a lasting rise of the error rate that the default
DDM never reports.
-/

namespace Verif.Drift.DDM

/-- 26 right predictions and then six wrong ones. -/
def start : List Bool := List.replicate 26 false ++ List.replicate 6 true

/-- Every sixth prediction is wrong. -/
def sixth : List Bool := [false, false, false, false, false, true]

/-- Every fourth prediction is wrong. -/
def fourth : List Bool := [false, false, false, true]

/-- The minimum recorded at the first check. -/
private noncomputable def sd : ℝ := Real.sqrt (3 / 29 * (1 - 3 / 29) / 29)

private theorem sd_bounds : 0.0565 ≤ sd ∧ sd ≤ 0.0566 := by
  unfold sd
  constructor
  · apply Real.le_sqrt_of_sq_le; norm_num
  · rw [Real.sqrt_le_left (by norm_num)]; norm_num

/-- Nothing was reported in `es`, of which `k` of `n` were wrong, and the minimum is the one of the first check. -/
private def At (k n : Nat) (es : List Bool) : Prop :=
  since standard es = es ∧ reports standard es = false ∧ (run standard (es.map told)).sampleCount = n + 1 ∧
    (run standard (es.map told)).missProb = (k : ℝ) / n ∧
    (run standard (es.map told)).mins = some (3 / 29, sd, 3 / 29 + sd)

private theorem run_snoc (es : List Bool) (x : Bool) :
    run standard ((es ++ [x]).map told) = addElement standard (run standard (es.map told)) (told x) := by
  unfold run; rw [List.map_append, List.foldl_append]; rfl

private theorem since_snoc (es : List Bool) (x : Bool) (h1 : since standard es = es) (h2 : reports standard es = false) :
    since standard (es ++ [x]) = es ++ [x] := by
  unfold since at *
  rw [sinceChange_append, if_neg (by rw [h2]; simp), h1]

/-- One more prediction keeps quiet if rate plus deviation lie between the minimum and the limit. -/
private theorem at_step {k n : Nat} {es : List Bool} (x : Bool) (h : At k n es) (hn : 29 ≤ n) (k' : Nat)
    (hk : k' = if x then k + 1 else k) (a b p : ℝ) (hp : p = (k' : ℝ) / (n + 1 : Nat)) (ha : 0 ≤ a) (hb : 0 ≤ b)
    (h1 : a ^ 2 ≤ p * (1 - p) / (n + 1 : Nat)) (h2 : p * (1 - p) / (n + 1 : Nat) ≤ b ^ 2)
    (h3 : 0.1601 < p + a) (h4 : p + b ≤ 0.2729) : At k' (n + 1) (es ++ [x]) := by
  obtain ⟨q1, q2, q3, q4, q5⟩ := h
  have hpp : (k : ℝ) / n + (told x - (k : ℝ) / n) / ((n + 1 : Nat) : ℝ) = p := by
    have hn0 : (0 : ℝ) < n := by exact_mod_cast (by omega : 0 < n)
    rw [hp, hk]
    cases x <;> simp only [told, Bool.false_eq_true, if_false, if_true] <;> push_cast <;> field_simp <;> ring
  have hlo : a ≤ Real.sqrt (p * (1 - p) / ((n + 1 : Nat) : ℝ)) := Real.le_sqrt_of_sq_le h1
  have hhi : Real.sqrt (p * (1 - p) / ((n + 1 : Nat) : ℝ)) ≤ b := by
    rw [Real.sqrt_le_left hb]; exact h2
  obtain ⟨s1, s2⟩ := sd_bounds
  have hA : ¬ (p + Real.sqrt (p * (1 - p) / ((n + 1 : Nat) : ℝ)) ≤ 3 / 29 + sd) := by
    generalize Real.sqrt (p * (1 - p) / ((n + 1 : Nat) : ℝ)) = S at *
    rw [not_le]
    norm_num at h3 s2 ⊢
    linarith
  have hB : ¬ (p + Real.sqrt (p * (1 - p) / ((n + 1 : Nat) : ℝ)) > 3 / 29 + 3 * sd) := by
    generalize Real.sqrt (p * (1 - p) / ((n + 1 : Nat) : ℝ)) = S at *
    rw [gt_iff_lt, not_lt]
    norm_num at h4 s1 ⊢
    linarith
  have hst : addElement standard (run standard (es.map told)) (told x) =
      ⟨n + 2, p, Real.sqrt (p * (1 - p) / ((n + 1 : Nat) : ℝ)), some (3 / 29, sd, 3 / 29 + sd), false,
        (addElement standard (run standard (es.map told)) (told x)).warning, p⟩ := by
    unfold reports at q2
    generalize run standard (es.map told) = s at *
    unfold addElement
    simp only [q2, Bool.false_eq_true, if_false, q3, q4, q5, hpp, standard, updMins]
    rw [if_neg (by omega), if_neg hA, if_neg hB]
    split <;> rfl
  refine ⟨since_snoc es x q1 q2, ?_, ?_, ?_, ?_⟩
  · unfold reports; rw [run_snoc, hst]
  · rw [run_snoc, hst]
  · rw [run_snoc, hst, ← hp]
  · rw [run_snoc, hst]

/-- Before the first check. -/
private theorem early (es : List Bool) (hl : es.length ≤ 28) : since standard es = es ∧ reports standard es = false ∧
    (run standard (es.map told)).sampleCount = es.length + 1 ∧ (run standard (es.map told)).mins = none := by
  induction es using List.reverseRecOn with
  | nil => exact ⟨rfl, rfl, rfl, rfl⟩
  | append_singleton es x ih =>
    rw [List.length_append, List.length_singleton] at hl
    obtain ⟨q1, q2, q3, q4⟩ := ih (by omega)
    have hst : (addElement standard (run standard (es.map told)) (told x)).change = false ∧
        (addElement standard (run standard (es.map told)) (told x)).sampleCount = es.length + 2 ∧
        (addElement standard (run standard (es.map told)) (told x)).mins = none := by
      unfold reports at q2
      generalize run standard (es.map told) = s at *
      unfold addElement
      simp only [q2, Bool.false_eq_true, if_false, q3, q4, standard]
      rw [if_pos (by omega)]
      exact ⟨rfl, rfl, rfl⟩
    rw [← run_snoc] at hst
    refine ⟨since_snoc es x q1 q2, hst.1, ?_, hst.2.2⟩
    rw [hst.2.1]
    simp

private theorem first_check : At 3 29 (List.replicate 26 false ++ List.replicate 3 true) := by
  have e : List.replicate 26 false ++ List.replicate 3 true = (List.replicate 26 false ++ List.replicate 2 true) ++ [true] := rfl
  rw [e]
  obtain ⟨q1, q2, q3, q4⟩ := early (List.replicate 26 false ++ List.replicate 2 true) (by simp)
  have q5 : (run standard ((List.replicate 26 false ++ List.replicate 2 true).map told)).missProb = 2 / 28 := by
    have := (missProb_rate standard rfl (List.replicate 26 false ++ List.replicate 2 true)).2 (by rw [q1]; simp)
    rw [this, q1]
    unfold wrongRate
    norm_num [List.count_append, List.count_replicate]
  simp only [List.length_append, List.length_replicate] at q3
  have hp : (2 / 28 : ℝ) + (1 - 2 / 28) / ((26 + 2 + 1 : Nat) : ℝ) = 3 / 29 := by norm_num
  have hst : addElement standard (run standard ((List.replicate 26 false ++ List.replicate 2 true).map told)) (told true) =
      ⟨30, 3 / 29, sd, some (3 / 29, sd, 3 / 29 + sd), false,
        (addElement standard (run standard ((List.replicate 26 false ++ List.replicate 2 true).map told)) (told true)).warning, 3 / 29⟩ := by
    unfold reports at q2
    obtain ⟨s1, _⟩ := sd_bounds
    generalize run standard ((List.replicate 26 false ++ List.replicate 2 true).map told) = s at *
    unfold addElement
    simp only [q2, Bool.false_eq_true, if_false, q3, q4, q5, hp, standard, updMins, told, if_true]
    have hsd : Real.sqrt (3 / 29 * (1 - 3 / 29) / ((26 + 2 + 1 : Nat) : ℝ)) = sd := by
      unfold sd; norm_num
    rw [hsd, if_neg (by omega), if_neg (by norm_num at *; linarith)]
    split <;> rfl
  refine ⟨since_snoc _ true q1 q2, ?_, ?_, ?_, ?_⟩
  · unfold reports; rw [run_snoc, hst]
  · rw [run_snoc, hst]
  · rw [run_snoc, hst]; norm_num
  · rw [run_snoc, hst]

private theorem at_start : At 6 32 start := by
  have h0 := first_check
  have h1 := at_step true h0 (by norm_num) 4 rfl 0.06 0.07 (4 / 30) (by norm_num) (by norm_num) (by norm_num) (by norm_num)
    (by norm_num) (by norm_num) (by norm_num)
  have h2 := at_step true h1 (by norm_num) 5 rfl 0.06 0.07 (5 / 31) (by norm_num) (by norm_num) (by norm_num) (by norm_num)
    (by norm_num) (by norm_num) (by norm_num)
  have h3 := at_step true h2 (by norm_num) 6 rfl 0.06 0.07 (6 / 32) (by norm_num) (by norm_num) (by norm_num) (by norm_num)
    (by norm_num) (by norm_num) (by norm_num)
  exact h3

/-- Steps while at most 0.19 of the predictions are wrong. -/
private theorem low_step {k n : Nat} {es : List Bool} (x : Bool) (h : At k n es) (hn : 31 ≤ n) (k' : Nat)
    (hk : k' = if x then k + 1 else k) (hlo : 162 * (n + 1) ≤ 1000 * k') (hhi : 100 * k' ≤ 19 * (n + 1)) : At k' (n + 1) (es ++ [x]) := by
  have hn0 : (32 : ℝ) ≤ ((n + 1 : Nat) : ℝ) := by exact_mod_cast (by omega : 32 ≤ n + 1)
  have h1 : (162 : ℝ) * ((n + 1 : Nat) : ℝ) ≤ 1000 * k' := by exact_mod_cast hlo
  have h2 : (100 : ℝ) * k' ≤ 19 * ((n + 1 : Nat) : ℝ) := by exact_mod_cast hhi
  have p1 : 0.162 ≤ (k' : ℝ) / ((n + 1 : Nat) : ℝ) := by rw [le_div_iff₀ (by linarith)]; linarith
  have p2 : (k' : ℝ) / ((n + 1 : Nat) : ℝ) ≤ 0.19 := by rw [div_le_iff₀ (by linarith)]; linarith
  refine at_step x h (by omega) k' hk 0 0.07 _ rfl (le_refl _) (by norm_num) ?_ ?_ (by norm_num at *; linarith) (by norm_num at *; linarith)
  · have : 0 ≤ (k' : ℝ) / ((n + 1 : Nat) : ℝ) * (1 - (k' : ℝ) / ((n + 1 : Nat) : ℝ)) := by
      apply mul_nonneg <;> norm_num at * <;> linarith
    have := div_nonneg this (by linarith : (0 : ℝ) ≤ ((n + 1 : Nat) : ℝ))
    simpa using this
  · rw [div_le_iff₀ (by linarith)]
    generalize (k' : ℝ) / ((n + 1 : Nat) : ℝ) = p at *
    have : p * (1 - p) ≤ 0.19 * (1 - 0.162) := by
      apply mul_le_mul p2 (by linarith) (by norm_num at *; linarith) (by norm_num)
    norm_num at *
    nlinarith

/-- Steps while at most a quarter of the predictions are wrong, after at least 391. -/
private theorem high_step {k n : Nat} {es : List Bool} (x : Bool) (h : At k n es) (hn : 391 ≤ n) (k' : Nat)
    (hk : k' = if x then k + 1 else k) (hlo : 162 * (n + 1) ≤ 1000 * k') (hhi : 4 * k' ≤ n + 1) : At k' (n + 1) (es ++ [x]) := by
  have hn0 : (392 : ℝ) ≤ ((n + 1 : Nat) : ℝ) := by exact_mod_cast (by omega : 392 ≤ n + 1)
  have h1 : (162 : ℝ) * ((n + 1 : Nat) : ℝ) ≤ 1000 * k' := by exact_mod_cast hlo
  have h2 : (4 : ℝ) * k' ≤ ((n + 1 : Nat) : ℝ) := by exact_mod_cast hhi
  have p1 : 0.162 ≤ (k' : ℝ) / ((n + 1 : Nat) : ℝ) := by rw [le_div_iff₀ (by linarith)]; linarith
  have p2 : (k' : ℝ) / ((n + 1 : Nat) : ℝ) ≤ 0.25 := by rw [div_le_iff₀ (by linarith)]; linarith
  refine at_step x h (by omega) k' hk 0 0.0225 _ rfl (le_refl _) (by norm_num) ?_ ?_ (by norm_num at *; linarith) (by norm_num at *; linarith)
  · have : 0 ≤ (k' : ℝ) / ((n + 1 : Nat) : ℝ) * (1 - (k' : ℝ) / ((n + 1 : Nat) : ℝ)) := by
      apply mul_nonneg <;> norm_num at * <;> linarith
    have := div_nonneg this (by linarith : (0 : ℝ) ≤ ((n + 1 : Nat) : ℝ))
    simpa using this
  · rw [div_le_iff₀ (by linarith)]
    generalize (k' : ℝ) / ((n + 1 : Nat) : ℝ) = p at *
    have : p * (1 - p) ≤ 0.1875 := by
      have hq : 0 ≤ 0.25 - p := by linarith
      have hq2 : 0 ≤ 0.75 - p := by norm_num at *; linarith
      have := mul_nonneg hq hq2
      norm_num at *
      nlinarith
    norm_num at *
    nlinarith

private theorem at_sixths (j : Nat) : At (6 + j) (32 + 6 * j) (start ++ (List.replicate j sixth).flatten) := by
  induction j with
  | zero => simpa using at_start
  | succ j ih =>
    rw [List.replicate_succ', List.flatten_append]
    have e : start ++ ((List.replicate j sixth).flatten ++ [sixth].flatten) =
        start ++ (List.replicate j sixth).flatten ++ [false] ++ [false] ++ [false] ++ [false] ++ [false] ++ [true] := by
      simp [sixth]
    rw [e]
    have h1 := low_step false ih (by omega) (6 + j) rfl (by omega) (by omega)
    have h2 := low_step false h1 (by omega) (6 + j) rfl (by omega) (by omega)
    have h3 := low_step false h2 (by omega) (6 + j) rfl (by omega) (by omega)
    have h4 := low_step false h3 (by omega) (6 + j) rfl (by omega) (by omega)
    have h5 := low_step false h4 (by omega) (6 + j) rfl (by omega) (by omega)
    have h6 := low_step true h5 (by omega) (6 + j + 1) rfl (by omega) (by omega)
    exact h6

private theorem at_fourths (j i : Nat) (hj : 60 ≤ j) : At (6 + j + i) (32 + 6 * j + 4 * i)
    (start ++ (List.replicate j sixth).flatten ++ (List.replicate i fourth).flatten) := by
  induction i with
  | zero => simpa using at_sixths j
  | succ i ih =>
    rw [List.replicate_succ', List.flatten_append]
    have e : start ++ (List.replicate j sixth).flatten ++ ((List.replicate i fourth).flatten ++ [fourth].flatten) =
        start ++ (List.replicate j sixth).flatten ++ (List.replicate i fourth).flatten ++ [false] ++ [false] ++ [false] ++ [true] := by
      simp [fourth]
    rw [e]
    have h1 := high_step false ih (by omega) (6 + j + i) rfl (by omega) (by omega)
    have h2 := high_step false h1 (by omega) (6 + j + i) rfl (by omega) (by omega)
    have h3 := high_step false h2 (by omega) (6 + j + i) rfl (by omega) (by omega)
    have h4 := high_step true h3 (by omega) (6 + j + i + 1) rfl (by omega) (by omega)
    exact h4

/-- **C307, missed.**  Below the limit a lasting rise can go unreported for ever.  With the default parameters, after 26 right
and six wrong predictions, let every sixth prediction be wrong `j` times (60 or more) and from then on every fourth one, as long as one
likes: no change is ever reported. -/
theorem C307_missed (j i : Nat) (hj : 60 ≤ j) :
    since standard (start ++ (List.replicate j sixth).flatten ++ (List.replicate i fourth).flatten) =
        start ++ (List.replicate j sixth).flatten ++ (List.replicate i fourth).flatten ∧
      reports standard (start ++ (List.replicate j sixth).flatten ++ (List.replicate i fourth).flatten) = false :=
  ⟨(at_fourths j i hj).1, (at_fourths j i hj).2.1⟩

end Verif.Drift.DDM
