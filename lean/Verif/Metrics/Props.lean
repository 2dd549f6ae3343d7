import Verif.Metrics.Model
import Mathlib.Algebra.BigOperators.Group.Finset.Basic
import Mathlib.Algebra.Order.BigOperators.Group.Finset
import Mathlib.Algebra.BigOperators.Ring.Finset
import Mathlib.Tactic.Positivity

/-!
Properties C04-C09 (and C47, C48): confusion matrix and single-output
classification performance evaluators.
-/

namespace Verif.Metrics

/-! ### Specification -/

/-- One reported result: true label, predicted label, sample weight. -/
structure Res where
  t : Int
  p : Int
  w : ℚ

/-- Total weight of the results that satisfy a condition. -/
def weightOf (h : List Res) (P : Res → Bool) : ℚ := ((h.filter P).map Res.w).sum

/-- Results with a positive weight (the others are documented to be ignored by
the matrix). -/
def positive (h : List Res) : List Res := h.filter fun r => decide (0 < r.w)

/-- Number of results, as a number. -/
def count (h : List Res) : ℚ := h.length

/-! ### Running the models -/

/-- The matrix after a sequence of `cm[(t, p)] = w` operations. -/
def cmRun (n : Nat) (h : List Res) : CM := h.foldl (fun m r => m.setItem r.t r.p r.w) (CM.init n)

/-- The evaluator after a history of `add_result` calls. -/
def evalRun (n : Nat) (h : List Res) : Eval :=
  h.foldl (fun e r => e.addResult r.t r.p r.w) (Eval.init n)

/-- The windowed evaluator after a history. -/
def wevalRun (n w : Nat) (h : List Res) : WEval :=
  h.foldl (fun e r => e.addResult r.t r.p r.w) (WEval.init n w)

/-! ### Lemmas on `weightOf` -/

theorem weightOf_nil (P : Res → Bool) : weightOf [] P = 0 := rfl

theorem weightOf_append (h g : List Res) (P : Res → Bool) :
    weightOf (h ++ g) P = weightOf h P + weightOf g P := by
  simp [weightOf]

theorem weightOf_cons (r : Res) (h : List Res) (P : Res → Bool) :
    weightOf (r :: h) P = (if P r then r.w else 0) + weightOf h P := by
  unfold weightOf
  by_cases hp : P r <;> simp [hp]

theorem weightOf_single (r : Res) (P : Res → Bool) :
    weightOf [r] P = if P r then r.w else 0 := by
  rw [weightOf_cons, weightOf_nil, add_zero]

theorem weightOf_nonneg (h : List Res) (hw : ∀ r ∈ h, 0 ≤ r.w) (P : Res → Bool) :
    0 ≤ weightOf h P := by
  unfold weightOf
  apply List.sum_nonneg
  intro x hx
  simp only [List.mem_map, List.mem_filter] at hx
  obtain ⟨r, ⟨hr, _⟩, rfl⟩ := hx
  exact hw r hr

theorem weightOf_mono (h : List Res) (hw : ∀ r ∈ h, 0 ≤ r.w) (P Q : Res → Bool)
    (hPQ : ∀ r, P r → Q r) : weightOf h P ≤ weightOf h Q := by
  induction h with
  | nil => simp [weightOf_nil]
  | cons r h ih =>
    rw [weightOf_cons, weightOf_cons]
    have h1 := ih (fun r hr => hw r (by simp [hr]))
    have h2 : 0 ≤ r.w := hw r (by simp)
    by_cases hp : P r
    · have := hPQ r hp
      simp only [hp, this, if_true]; linarith
    · by_cases hq : Q r
      · simp only [hp, hq, if_true]; simp; linarith
      · simp only [hp, hq]; simpa using h1

/-! ### Classes -/

theorem mem_insertClass (c x : Int) (l : List Int) : x ∈ insertClass c l ↔ x = c ∨ x ∈ l := by
  unfold insertClass
  by_cases h : c ∈ l
  · simp only [h, if_true]
    constructor
    · exact Or.inr
    · rintro (rfl | h') <;> assumption
  · simp [h, List.mem_orderedInsert]

theorem sorted_insertClass (c : Int) (l : List Int) (hl : l.Pairwise (· < ·)) :
    (insertClass c l).Pairwise (· < ·) := by
  unfold insertClass
  by_cases h : c ∈ l
  · simpa [h] using hl
  · simp only [h, if_false]
    have h1 : (l.orderedInsert (· ≤ ·) c).Pairwise (· ≤ ·) :=
      List.Pairwise.orderedInsert c l (hl.imp le_of_lt)
    have h2 : (l.orderedInsert (· ≤ ·) c).Nodup := by
      refine (List.perm_orderedInsert (· ≤ ·) c l).nodup_iff.2 ?_
      exact List.nodup_cons.2 ⟨h, hl.imp (fun h => ne_of_lt h)⟩
    exact (h1.and h2).imp (fun ⟨a, b⟩ => lt_of_le_of_ne a b)

/-! ### C04 -/

theorem cmRun_append (n : Nat) (h : List Res) (r : Res) :
    cmRun n (h ++ [r]) = (cmRun n h).setItem r.t r.p r.w := by
  simp [cmRun]

/-- **C04.** Every entry of the matrix is the total weight recorded for that
(true, predicted) pair, and the incrementally kept row, column and diagonal sums
are the corresponding totals. -/
theorem C04_entries (n : Nat) (h : List Res) (i j : Int) :
    (cmRun n h).data i j = weightOf h (fun r => r.t = i ∧ r.p = j) ∧
    (cmRun n h).sumRow i = weightOf h (fun r => r.t = i) ∧
    (cmRun n h).sumCol j = weightOf h (fun r => r.p = j) ∧
    (cmRun n h).sumDiag = weightOf h (fun r => r.t = r.p) := by
  induction h using List.reverseRecOn with
  | nil => simp [cmRun, CM.init, weightOf]
  | append_singleton h r ih =>
    obtain ⟨h1, h2, h3, h4⟩ := ih
    rw [cmRun_append]
    simp only [CM.setItem, weightOf_append, weightOf_single, h1, h2, h3, h4]
    refine ⟨?_, ?_, ?_, ?_⟩
    · by_cases hc : r.t = i ∧ r.p = j
      · simp [hc]
      · have : ¬ (i = r.t ∧ j = r.p) := fun ⟨a, b⟩ => hc ⟨a.symm, b.symm⟩
        simp [hc, this]
    · by_cases hc : r.t = i
      · simp [hc]
      · have : ¬ i = r.t := fun a => hc a.symm
        simp [hc, this]
    · by_cases hc : r.p = j
      · simp [hc]
      · have : ¬ j = r.p := fun a => hc a.symm
        simp [hc, this]
    · by_cases hc : r.t = r.p <;> simp [hc]

/-- **C04.** The class list of the matrix is duplicate-free and sorted, and
contains exactly the declared classes `0, ..., n-1` (`n` at least 2) and every
label that occurred as true or predicted label. -/
theorem C04_classes (n : Nat) (h : List Res) :
    (cmRun n h).classes.Pairwise (· < ·) ∧
    ∀ c, c ∈ (cmRun n h).classes ↔
      ((0 ≤ c ∧ c < (max n 2 : Nat)) ∨ ∃ r ∈ h, c = r.t ∨ c = r.p) := by
  induction h using List.reverseRecOn with
  | nil =>
    have hn : initClasses n = max n 2 := by unfold initClasses; split <;> omega
    constructor
    · simp only [cmRun, List.foldl_nil, CM.init, List.pairwise_map]
      exact List.pairwise_lt_range.imp (fun h => by simpa using h)
    · intro c
      simp only [cmRun, List.foldl_nil, CM.init, hn, List.mem_map, List.mem_range]
      constructor
      · rintro ⟨a, ha, rfl⟩; left; simp; omega
      · rintro (⟨h1, h2⟩ | ⟨r, hr, _⟩)
        · exact ⟨c.toNat, by omega, by simp; omega⟩
        · simp at hr
  | append_singleton h r ih =>
    rw [cmRun_append]
    refine ⟨sorted_insertClass _ _ (sorted_insertClass _ _ ih.1), fun c => ?_⟩
    simp only [CM.setItem, mem_insertClass, ih.2, List.mem_append, List.mem_singleton]
    constructor
    · rintro (rfl | rfl | h' | ⟨q, hq, h'⟩)
      · exact Or.inr ⟨r, Or.inr rfl, Or.inr rfl⟩
      · exact Or.inr ⟨r, Or.inr rfl, Or.inl rfl⟩
      · exact Or.inl h'
      · exact Or.inr ⟨q, Or.inl hq, h'⟩
    · rintro (h' | ⟨q, hq | rfl, h'⟩)
      · exact Or.inr (Or.inr (Or.inl h'))
      · exact Or.inr (Or.inr (Or.inr ⟨q, hq, h'⟩))
      · rcases h' with h' | h' <;> simp [h']

theorem sum_over_classes (n : Nat) (h : List Res) (f : Int → ℚ) :
    ((cmRun n h).classes.map f).sum = ∑ c ∈ (cmRun n h).classes.toFinset, f c := by
  rw [List.sum_toFinset]
  exact (C04_classes n h).1.imp (fun h => ne_of_lt h)

theorem weightOf_split (S : Finset Int) (h : List Res) (P : Res → Bool) (key : Res → Int)
    (hS : ∀ r ∈ h, key r ∈ S) :
    ∑ c ∈ S, weightOf h (fun r => P r && decide (key r = c)) = weightOf h P := by
  induction h with
  | nil => simp [weightOf_nil]
  | cons r h ih =>
    have ih' := ih (fun r hr => hS r (by simp [hr]))
    simp only [weightOf_cons]
    rw [Finset.sum_add_distrib, ih']
    congr 1
    by_cases hp : P r
    · simp only [hp, Bool.true_and, decide_eq_true_eq, if_true]
      rw [Finset.sum_ite_eq S (key r) (fun _ => r.w)]
      simp [hS r (by simp)]
    · simp [hp]

/-- **C04.** Consistency of the margins with the entries: each row (column) sum
is the sum of the entries of that row (column) over the classes of the matrix,
the diagonal sum is the sum of the diagonal entries, and the row sums, like the
column sums, add up to the total weight recorded. -/
theorem C04_margins (n : Nat) (h : List Res) (i j : Int) :
    (cmRun n h).sumRow i = ((cmRun n h).classes.map fun c => (cmRun n h).data i c).sum ∧
    (cmRun n h).sumCol j = ((cmRun n h).classes.map fun c => (cmRun n h).data c j).sum ∧
    (cmRun n h).sumDiag = ((cmRun n h).classes.map fun c => (cmRun n h).data c c).sum ∧
    ((cmRun n h).classes.map (cmRun n h).sumRow).sum = (h.map Res.w).sum ∧
    ((cmRun n h).classes.map (cmRun n h).sumCol).sum = (h.map Res.w).sum := by
  have hmem := (C04_classes n h).2
  have hT : ∀ r ∈ h, r.t ∈ (cmRun n h).classes.toFinset := fun r hr => by
    rw [List.mem_toFinset, hmem]; exact Or.inr ⟨r, hr, Or.inl rfl⟩
  have hP : ∀ r ∈ h, r.p ∈ (cmRun n h).classes.toFinset := fun r hr => by
    rw [List.mem_toFinset, hmem]; exact Or.inr ⟨r, hr, Or.inr rfl⟩
  have hall : (h.map Res.w).sum = weightOf h (fun _ => true) := by simp [weightOf]
  refine ⟨?_, ?_, ?_, ?_, ?_⟩
  · rw [sum_over_classes, (C04_entries n h i j).2.1,
      ← weightOf_split _ h (fun r => r.t = i) Res.p hP]
    refine Finset.sum_congr rfl fun c _ => ?_
    rw [(C04_entries n h i c).1]; congr 1; funext r; simp
  · rw [sum_over_classes, (C04_entries n h i j).2.2.1,
      ← weightOf_split _ h (fun r => r.p = j) Res.t hT]
    refine Finset.sum_congr rfl fun c _ => ?_
    rw [(C04_entries n h c j).1]; congr 1; funext r; simp [Bool.and_comm]
  · rw [sum_over_classes, (C04_entries n h i j).2.2.2,
      ← weightOf_split _ h (fun r => r.t = r.p) Res.t hT]
    refine Finset.sum_congr rfl fun c _ => ?_
    rw [(C04_entries n h c c).1]; congr 1; funext r
    simp only [Bool.decide_and, Bool.and_comm]
    by_cases h1 : r.t = c
    · simp [h1, eq_comm]
    · simp [h1]
  · rw [sum_over_classes, hall, ← weightOf_split _ h (fun _ => true) Res.t hT]
    refine Finset.sum_congr rfl fun c _ => ?_
    rw [(C04_entries n h c c).2.1]; simp
  · rw [sum_over_classes, hall, ← weightOf_split _ h (fun _ => true) Res.p hP]
    refine Finset.sum_congr rfl fun c _ => ?_
    rw [(C04_entries n h c c).2.2.1]; simp

-- A concrete history with a removal (negative weight).
example : (cmRun 2 [⟨0, 1, 1⟩, ⟨3, 1, 2⟩, ⟨0, 1, -1⟩]).sumCol 1 = 2 := by
  norm_num [cmRun, CM.setItem, CM.init]
example : (cmRun 2 [⟨0, 1, 1⟩, ⟨3, 1, 2⟩]).classes = [0, 1, 3] := by decide

/-! ### The evaluator's matrix -/

theorem initClasses_idem (n : Nat) : initClasses (initClasses n) = initClasses n := by
  unfold initClasses; split <;> simp_all

theorem cm_addResult (e : Eval) (t p : Int) (w : ℚ) :
    (e.addResult t p w).cm = if w > 0 then e.cm.setItem t p w else e.cm := by
  unfold Eval.addResult
  simp only
  split_ifs <;> rfl

theorem evalRun_append (n : Nat) (h : List Res) (r : Res) :
    evalRun n (h ++ [r]) = (evalRun n h).addResult r.t r.p r.w := by
  simp [evalRun]

theorem evalRun_cm (n : Nat) (h : List Res) :
    (evalRun n h).cm = cmRun n (positive h) := by
  induction h using List.reverseRecOn with
  | nil => simp [evalRun, cmRun, positive, Eval.init, CM.init, initClasses_idem]
  | append_singleton h r ih =>
    rw [evalRun_append, cm_addResult, ih]
    by_cases hw : 0 < r.w
    · have : positive (h ++ [r]) = positive h ++ [r] := by simp [positive, hw]
      rw [if_pos hw, this, cmRun_append]
    · have : positive (h ++ [r]) = positive h := by simp [positive, hw]
      rw [if_neg hw, this]

theorem addResult_nSamples (e : Eval) (t p : Int) (w : ℚ) :
    (e.addResult t p w).nSamples = e.nSamples + 1 := by
  unfold Eval.addResult
  simp only
  split_ifs <;> rfl

theorem addResult_totalWeight (e : Eval) (t p : Int) (w : ℚ) :
    (e.addResult t p w).totalWeight = if w > 0 then e.totalWeight + w else e.totalWeight := by
  unfold Eval.addResult
  simp only
  split_ifs <;> rfl

theorem evalRun_nSamples (n : Nat) (h : List Res) : (evalRun n h).nSamples = h.length := by
  induction h using List.reverseRecOn with
  | nil => rfl
  | append_singleton h r ih => rw [evalRun_append, addResult_nSamples, ih]; simp

theorem evalRun_totalWeight (n : Nat) (h : List Res) :
    (evalRun n h).totalWeight = ((positive h).map Res.w).sum := by
  induction h using List.reverseRecOn with
  | nil => rfl
  | append_singleton h r ih =>
    rw [evalRun_append, addResult_totalWeight, ih]
    by_cases hw : 0 < r.w
    · have : positive (h ++ [r]) = positive h ++ [r] := by simp [positive, hw]
      rw [if_pos hw, this]; simp
    · have : positive (h ++ [r]) = positive h := by simp [positive, hw]
      rw [if_neg hw, this]

theorem positive_of_pos {h : List Res} (hw : ∀ r ∈ h, 0 < r.w) : positive h = h := by
  simpa [positive] using hw

theorem positive_w (h : List Res) : ∀ r ∈ positive h, 0 < r.w := by
  intro r hr
  simpa using (List.mem_filter.1 hr).2

theorem weight_pos_of_ne_nil {h : List Res} (hw : ∀ r ∈ h, 0 < r.w) (hne : h ≠ []) :
    0 < (h.map Res.w).sum := by
  cases h with
  | nil => simp at hne
  | cons r h =>
    simp only [List.map_cons, List.sum_cons]
    have h1 : 0 < r.w := hw r (by simp)
    have h2 : 0 ≤ (h.map Res.w).sum := List.sum_nonneg (by
      intro x hx
      obtain ⟨q, hq, rfl⟩ := List.mem_map.1 hx
      exact le_of_lt (hw q (by simp [hq])))
    linarith

/-- The divisions by `n_samples` in `majority_class` and `kappa_score` are
guarded: whenever the total weight is non-zero some result was recorded. -/
theorem C05_no_division_by_zero (n : Nat) (h : List Res)
    (hw : (evalRun n h).totalWeight ≠ 0) : (evalRun n h).nSamples > 0 := by
  rw [evalRun_nSamples]
  rcases h with _ | ⟨r, h⟩
  · exact absurd rfl hw
  · simp

/-! ### C05: accuracy -/

/-- **C05.** With unit weights the accuracy is the fraction of correct results. -/
theorem C05_accuracy_partial (n : Nat) (h : List Res) (hw : ∀ r ∈ h, r.w = 1) :
    (evalRun n h).accuracyScore =
      (if h = [] then 0 else (h.countP (fun r => r.t = r.p) : ℚ) / count h) ∧
    0 ≤ (evalRun n h).accuracyScore ∧ (evalRun n h).accuracyScore ≤ 1 := by
  have hpos : positive h = h := positive_of_pos (fun r hr => by rw [hw r hr]; norm_num)
  have hcnt : weightOf h (fun r => r.t = r.p) = (h.countP (fun r => r.t = r.p) : ℚ) := by
    clear hpos
    induction h with
    | nil => simp [weightOf]
    | cons r h ih =>
      rw [weightOf_cons, ih (fun r hr => hw r (by simp [hr])), List.countP_cons,
        hw r (by simp)]
      by_cases hc : r.t = r.p <;> simp [hc, add_comm]
  have hacc : (evalRun n h).accuracyScore =
      (if h = [] then 0 else (h.countP (fun r => r.t = r.p) : ℚ) / count h) := by
    unfold Eval.accuracyScore
    rw [evalRun_cm, hpos, (C04_entries n h 0 0).2.2.2, hcnt, evalRun_nSamples]
    by_cases hne : h = []
    · simp [hne]
    · have : 0 < h.length := List.length_pos_of_ne_nil hne
      simp [hne, this, count]
  refine ⟨hacc, ?_, ?_⟩
  · rw [hacc]; split_ifs
    · exact le_refl 0
    · unfold count; positivity
  · rw [hacc]; split_ifs with hne
    · norm_num
    · unfold count
      rw [div_le_one (by exact_mod_cast List.length_pos_of_ne_nil hne)]
      exact_mod_cast List.countP_le_length

/-- **C05.** In general the accuracy is the weight of the correct results
divided by the *number* of results. -/
theorem C05_accuracy_weighted (n : Nat) (h : List Res) (hw : ∀ r ∈ h, 0 < r.w) (hne : h ≠ []) :
    (evalRun n h).accuracyScore = weightOf h (fun r => r.t = r.p) / count h := by
  unfold Eval.accuracyScore
  rw [evalRun_cm, positive_of_pos hw, (C04_entries n h 0 0).2.2.2, evalRun_nSamples]
  simp [count, List.length_pos_of_ne_nil hne]

/-- **C05 violated** for weights other than 1: the "ratio of correctly
classified samples" can be 2. -/
theorem C05_weighted_violated :
    (evalRun 2 [⟨0, 0, 2⟩]).accuracyScore = 2 := by
  rw [C05_accuracy_weighted 2 _ (by simp) (by simp)]; norm_num [weightOf, count]

example : ∀ r ∈ [Res.mk 0 1 1, ⟨1, 1, 1⟩, ⟨4, 4, 1⟩], r.w = 1 := by simp
example : (evalRun 2 [⟨0, 1, 1⟩, ⟨1, 1, 1⟩, ⟨4, 4, 1⟩]).accuracyScore = 2 / 3 := by
  rw [(C05_accuracy_partial 2 _ (by simp)).1, if_neg (by simp)]; norm_num [count, List.countP_cons]

/-! ### C07: majority class -/

theorem argmax_fold (f : Int → ℚ) (l : List Int) (hl : l.Pairwise (· < ·)) :
    ∀ (m : Int) (v : ℚ), 0 ≤ v → (0 < v → f m = v) → (∀ c ∈ l, 0 < v → m < c) →
      let r := l.foldl (fun (acc : Int × ℚ) i => if f i > acc.2 then (i, f i) else acc) (m, v)
      v ≤ r.2 ∧ (0 < r.2 → f r.1 = r.2) ∧ (∀ c ∈ l, f c ≤ r.2) ∧
      (∀ c ∈ l, c < r.1 → 0 < r.2 → f c < r.2) ∧ (r.2 = v → r.1 = m) ∧
      (0 < v → v < r.2 → m < r.1) ∧ (v < r.2 → r.1 ∈ l) := by
  induction l with
  | nil => intro m v hv hm _; simp; exact hm
  | cons a l ih =>
    intro m v hv hm hlt
    obtain ⟨ha, hl'⟩ := List.pairwise_cons.1 hl
    rw [List.foldl_cons]
    by_cases hfa : f a > v
    · simp only [hfa, if_true]
      obtain ⟨g1, g2, g3, g4, g5, g6, g7⟩ := ih hl' a (f a) (by linarith) (fun _ => rfl)
        (fun c hc _ => ha c hc)
      refine ⟨by linarith, g2, ?_, ?_, ?_, ?_, ?_⟩
      · intro c hc
        rcases List.mem_cons.1 hc with rfl | hc
        · exact g1
        · exact g3 c hc
      · intro c hc hcr hr
        rcases List.mem_cons.1 hc with rfl | hc
        · rcases lt_or_eq_of_le g1 with h | h
          · exact h
          · rw [g5 h.symm] at hcr; exact absurd hcr (lt_irrefl _)
        · exact g4 c hc hcr hr
      · intro h; linarith
      · intro hv' _
        rcases lt_or_eq_of_le g1 with h | h
        · exact lt_trans (hlt a (by simp) hv') (g6 (by linarith) h)
        · rw [g5 h.symm]; exact hlt a (by simp) hv'
      · intro _
        rcases lt_or_eq_of_le g1 with h | h
        · exact List.mem_cons_of_mem _ (g7 h)
        · rw [g5 h.symm]; simp
    · simp only [hfa, if_false]
      obtain ⟨g1, g2, g3, g4, g5, g6, g7⟩ := ih hl' m v hv hm
        (fun c hc => hlt c (by simp [hc]))
      push Not at hfa
      refine ⟨g1, g2, ?_, ?_, g5, g6, fun h => List.mem_cons_of_mem _ (g7 h)⟩
      · intro c hc
        rcases List.mem_cons.1 hc with rfl | hc
        · exact le_trans hfa g1
        · exact g3 c hc
      · intro c hc hcr hr
        rcases List.mem_cons.1 hc with rfl | hc
        · rcases lt_or_eq_of_le g1 with h | h
          · linarith
          · have hv' : 0 < v := by rw [h]; exact hr
            rw [g5 h.symm] at hcr
            exact absurd (hlt c (by simp) hv') (not_lt.2 (le_of_lt hcr))
        · exact g4 c hc hcr hr

/-- The smallest class of maximal row sum, for any evaluator state whose row
sums are non-negative, vanish outside the class list and are not all zero. -/
theorem majority_spec (e : Eval) (hs : e.cm.classes.Pairwise (· < ·))
    (h0 : ∀ c, 0 ≤ e.cm.sumRow c) (hN : 0 < e.nSamples) (htw : e.totalWeight ≠ 0)
    (hpos : ∃ c ∈ e.cm.classes, 0 < e.cm.sumRow c)
    (hz : ∀ c, c ∉ e.cm.classes → e.cm.sumRow c = 0) (c : Int) :
    e.cm.sumRow c ≤ e.cm.sumRow e.majorityClass ∧
      (c < e.majorityClass → e.cm.sumRow c < e.cm.sumRow e.majorityClass) := by
  set N : ℚ := (e.nSamples : ℚ) with hNdef
  have hN : (0 : ℚ) < N := by rw [hNdef]; exact_mod_cast hN
  set W : Int → ℚ := e.cm.sumRow with hW
  have hmaj : e.majorityClass = (e.cm.classes.foldl
      (fun acc i => if W i / N > acc.2 then (i, W i / N) else acc) (0, 0)).1 := by
    unfold Eval.majorityClass
    rw [if_neg htw]
    rfl
  obtain ⟨_, g2, g3, g4, _, _, _⟩ := argmax_fold (fun i => W i / N) e.cm.classes
    hs 0 0 (le_refl 0) (fun h => absurd h (lt_irrefl _))
    (fun _ _ h => absurd h (lt_irrefl _))
  rw [← hmaj] at g2 g4
  generalize hr : (e.cm.classes.foldl
      (fun acc i => if W i / N > acc.2 then (i, W i / N) else acc) ((0 : Int), (0 : ℚ))).2 = v
    at g2 g3 g4
  obtain ⟨c0, hmem0, hW1⟩ := hpos
  have hv : 0 < v := lt_of_lt_of_le (div_pos hW1 hN) (g3 _ hmem0)
  have hWm : W e.majorityClass / N = v := g2 hv
  by_cases hc : c ∈ e.cm.classes
  · constructor
    · have := g3 c hc
      rw [← hWm] at this
      exact (div_le_div_iff_of_pos_right hN).1 this
    · intro hlt
      have := g4 c hc hlt hv
      rw [← hWm] at this
      exact (div_lt_div_iff_of_pos_right hN).1 this
  · rw [hz c hc]
    have : 0 < W e.majorityClass := by
      have h1 : 0 < W e.majorityClass / N := by rw [hWm]; exact hv
      by_contra hcon
      push Not at hcon
      have : W e.majorityClass / N ≤ 0 := div_nonpos_of_nonpos_of_nonneg hcon hN.le
      linarith
    exact ⟨this.le, fun _ => this⟩

theorem weightOf_pos_of_mem {l : List Res} (hl : ∀ r ∈ l, 0 < r.w) (r0 : Res) (hr0 : r0 ∈ l)
    (P : Res → Bool) (hP : P r0) : 0 < weightOf l P := by
  induction l with
  | nil => simp at hr0
  | cons q l ih =>
    rw [weightOf_cons]
    have hnn := weightOf_nonneg l (fun r hr => le_of_lt (hl r (by simp [hr]))) P
    have hq := hl q (by simp)
    rcases List.mem_cons.1 hr0 with rfl | hm
    · simp only [hP, if_true]; linarith
    · have := ih (fun r hr => hl r (by simp [hr])) hm
      split_ifs <;> linarith

theorem weightOf_eq_zero {l : List Res} (P : Res → Bool) (h : ∀ r ∈ l, ¬ P r) :
    weightOf l P = 0 := by
  unfold weightOf
  rw [List.filter_eq_nil_iff.2 h]
  rfl

/-- **C07.** Once a result of positive weight was recorded, `majority_class()`
is the smallest class whose total true weight is maximal. -/
theorem C07_majority_class (n : Nat) (h : List Res) (hne : positive h ≠ []) (c : Int) :
    weightOf (positive h) (fun r => r.t = c) ≤
      weightOf (positive h) (fun r => r.t = (evalRun n h).majorityClass) ∧
    (c < (evalRun n h).majorityClass →
      weightOf (positive h) (fun r => r.t = c) <
        weightOf (positive h) (fun r => r.t = (evalRun n h).majorityClass)) := by
  set g := positive h with hg
  have hgw : ∀ r ∈ g, 0 < r.w := positive_w h
  have htw : (evalRun n h).totalWeight ≠ 0 := by
    rw [evalRun_totalWeight]; exact ne_of_gt (weight_pos_of_ne_nil hgw hne)
  have hcm : (evalRun n h).cm = cmRun n g := evalRun_cm n h
  have hrow : ∀ c, (evalRun n h).cm.sumRow c = weightOf g (fun r => r.t = c) := by
    intro c; rw [hcm, (C04_entries n g c c).2.1]
  obtain ⟨r0, hr0⟩ := List.exists_mem_of_ne_nil g hne
  have := majority_spec (evalRun n h) (by rw [hcm]; exact (C04_classes n g).1)
    (fun c => by rw [hrow]; exact weightOf_nonneg g (fun r hr => (hgw r hr).le) _)
    (C05_no_division_by_zero n h htw) htw
    ⟨r0.t, by rw [hcm, (C04_classes n g).2]; exact Or.inr ⟨r0, hr0, Or.inl rfl⟩, by
      rw [hrow]; exact weightOf_pos_of_mem hgw r0 hr0 _ (by simp)⟩
    (fun c hc => by
      rw [hrow]
      apply weightOf_eq_zero
      intro r hr hrc
      rw [hcm, (C04_classes n g).2] at hc
      exact hc (Or.inr ⟨r, hr, Or.inl (of_decide_eq_true hrc).symm⟩)) c
  simpa only [hrow] using this

/-- **C07.** Before anything of positive weight was recorded the majority class
is reported as 0. -/
theorem C07_majority_class_empty (n : Nat) (h : List Res) (hne : positive h = []) :
    (evalRun n h).majorityClass = 0 := by
  unfold Eval.majorityClass
  rw [if_pos]
  rw [evalRun_totalWeight, hne]; rfl

example : positive [Res.mk 3 1 1, ⟨2, 1, 1⟩, ⟨3, 3, 2⟩] ≠ [] := by simp [positive]

end Verif.Metrics
