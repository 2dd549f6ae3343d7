import Verif.Metrics.Scores

/-!
Property C48: the baselines of Kappa-T and Kappa-M.
-/

namespace Verif.Metrics

/-! ### Specification -/

/-- Weight of the results whose true label equals the previous true label
(`prev` before the first one): the success weight of the no-change classifier. -/
def noChangeWeight (prev : Int) : List Res → ℚ
  | [] => 0
  | r :: h => (if r.t = prev then r.w else 0) + noChangeWeight r.t h

/-- `m` is the smallest label of maximal total true weight. -/
def IsMajority (h : List Res) (m : Int) : Prop :=
  ∀ c, weightOf h (fun r => r.t = c) ≤ weightOf h (fun r => r.t = m) ∧
    (c < m → weightOf h (fun r => r.t = c) < weightOf h (fun r => r.t = m))

/-- Kappa-style comparison of an accuracy with a baseline accuracy. -/
def kappaAgainst (p0 pe : ℚ) : ℚ := if pe ≠ 1 then (p0 - pe) / (1 - pe) else 0

/-! ### Proofs -/

theorem IsMajority.unique {h : List Res} {a b : Int} (ha : IsMajority h a) (hb : IsMajority h b) :
    a = b := by
  rcases lt_trichotomy a b with hlt | heq | hlt
  · have := (hb a).2 hlt; have := (ha b).1; linarith
  · exact heq
  · have := (ha b).2 hlt; have := (hb a).1; linarith

private theorem addResult_lastTrue (e : Eval) (t p : Int) (w : ℚ) :
    (e.addResult t p w).lastTrue = t := by
  unfold Eval.addResult; rfl

private theorem addResult_noChange (e : Eval) (t p : Int) (w : ℚ) :
    (e.addResult t p w).wNoChange = e.wNoChange + if t = e.lastTrue then w else 0 := by
  unfold Eval.addResult
  simp only
  split_ifs <;> simp_all

private theorem noChangeWeight_append (prev : Int) (h : List Res) (r : Res) :
    noChangeWeight prev (h ++ [r]) =
      noChangeWeight prev h + if r.t = (h.getLast?.map Res.t).getD prev then r.w else 0 := by
  induction h generalizing prev with
  | nil => simp only [noChangeWeight, List.nil_append, List.getLast?_nil, Option.map_none,
      Option.getD_none, add_zero, zero_add]
           congr 1
  | cons q h ih =>
    rw [List.cons_append, noChangeWeight, noChangeWeight, ih]
    cases h with
    | nil => simp [noChangeWeight]; congr 1
    | cons a b => rw [add_assoc]; simp [List.getLast?_cons]

private theorem run_noChange (n : Nat) (h : List Res) :
    (evalRun n h).wNoChange = noChangeWeight 0 h ∧
    (evalRun n h).lastTrue = (h.getLast?.map Res.t).getD 0 := by
  induction h using List.reverseRecOn with
  | nil => exact ⟨rfl, rfl⟩
  | append_singleton h r ih =>
    rw [evalRun_append, addResult_noChange, addResult_lastTrue, noChangeWeight_append, ih.1, ih.2]
    simp

/-- **C48.** Kappa-T compares the accuracy with the success rate of the
classifier that repeats the previous true label (label 0 before the first
result). -/
theorem C48_kappa_t (n : Nat) (h : List Res) (hw : ∀ r ∈ h, 0 < r.w) (hne : h ≠ []) :
    (evalRun n h).kappaTScore =
      kappaAgainst (weightOf h (fun r => r.t = r.p) / count h) (noChangeWeight 0 h / count h) := by
  have htw : (evalRun n h).totalWeight > 0 := by
    rw [evalRun_totalWeight, positive_of_pos hw]; exact weight_pos_of_ne_nil hw hne
  have hN : (evalRun n h).nSamples > 0 := C05_no_division_by_zero n h htw.ne'
  unfold Eval.kappaTScore kappaAgainst
  rw [if_pos htw, C05_accuracy_weighted n h hw hne]
  simp only [hN, if_true, (run_noChange n h).1]
  rw [evalRun_nSamples]; rfl

/-- **C48.** Kappa-M is computed in the same way from the success weight recorded for the
majority classifier (characterised below). -/
theorem C48_kappa_m (n : Nat) (h : List Res) (hw : ∀ r ∈ h, 0 < r.w) (hne : h ≠ []) :
    (evalRun n h).kappaMScore =
      kappaAgainst (weightOf h (fun r => r.t = r.p) / count h) ((evalRun n h).wMajority / count h) := by
  have htw : (evalRun n h).totalWeight > 0 := by
    rw [evalRun_totalWeight, positive_of_pos hw]; exact weight_pos_of_ne_nil hw hne
  have hN : (evalRun n h).nSamples > 0 := C05_no_division_by_zero n h htw.ne'
  unfold Eval.kappaMScore kappaAgainst
  rw [if_pos htw, C05_accuracy_weighted n h hw hne]
  simp only [hN, if_true]
  rw [evalRun_nSamples]; rfl

/-- **C48.** Without results both scores are 0. -/
theorem C48_kappa_empty (n : Nat) : (evalRun n []).kappaTScore = 0 ∧ (evalRun n []).kappaMScore = 0 := by
  constructor <;> simp [Eval.kappaTScore, Eval.kappaMScore, evalRun, Eval.init]

/-- **C48.** With unit weights Kappa-T never exceeds 1. -/
theorem C48_kappa_t_le_one (n : Nat) (h : List Res) (hw : ∀ r ∈ h, r.w = 1) :
    (evalRun n h).kappaTScore ≤ 1 := by
  by_cases hne : h = []
  · subst hne; simp [Eval.kappaTScore, evalRun, Eval.init]
  have hpos : ∀ r ∈ h, 0 < r.w := fun r hr => by rw [hw r hr]; norm_num
  have hN : (0 : ℚ) < count h := by
    unfold count; exact_mod_cast List.length_pos_of_ne_nil hne
  have hacc : weightOf h (fun r => r.t = r.p) / count h ≤ 1 := by
    rw [← C05_accuracy_weighted n h hpos hne]; exact (C05_accuracy_partial n h hw).2.2
  have hnc : noChangeWeight 0 h / count h ≤ 1 := by
    rw [div_le_one hN]
    have : ∀ (l : List Res) (p : Int), (∀ r ∈ l, r.w = 1) → noChangeWeight p l ≤ count l := by
      intro l
      induction l with
      | nil => intro p _; simp [noChangeWeight, count]
      | cons q l ih =>
        intro p hl
        have h1 := ih q.t (fun r hr => hl r (by simp [hr]))
        have h2 := hl q (by simp)
        simp only [noChangeWeight, count, List.length_cons, Nat.cast_add, Nat.cast_one] at *
        rw [h2]; split_ifs <;> linarith
    exact this h 0 hw
  rw [C48_kappa_t n h hpos hne]
  unfold kappaAgainst
  split_ifs with hpe
  · rw [div_le_one (sub_pos.2 (lt_of_le_of_ne hnc hpe))]; linarith
  · norm_num

/-- **C48.** The Kappa-M baseline after one more result: the result counts as a
success of the majority classifier exactly when its label is the majority label
of the history *including* that result.  (Partial: a majority-class classifier
would have to predict before seeing the label, see the violation below.) -/
theorem C48_majority_baseline_partial (n : Nat) (h : List Res) (r : Res)
    (hw : ∀ q ∈ h ++ [r], 0 < q.w) :
    (evalRun n (h ++ [r])).wMajority = (evalRun n h).wMajority + r.w ∧
        IsMajority (h ++ [r]) r.t ∨
    (evalRun n (h ++ [r])).wMajority = (evalRun n h).wMajority ∧
        ¬ IsMajority (h ++ [r]) r.t := by
  have hr : 0 < r.w := hw r (by simp)
  have hne : h ++ [r] ≠ [] := by simp
  have hmaj : IsMajority (h ++ [r]) (evalRun n (h ++ [r])).majorityClass := by
    intro c
    have := C07_majority_class n (h ++ [r]) (by rw [positive_of_pos hw]; exact hne) c
    rwa [positive_of_pos hw] at this
  set e := evalRun n h with he
  have hrun : evalRun n (h ++ [r]) = e.addResult r.t r.p r.w := evalRun_append n h r
  -- the majority class only depends on matrix, count and total weight
  set e1 : Eval := { e with nSamples := e.nSamples + 1, cm := e.cm.setItem r.t r.p r.w,
                            totalWeight := e.totalWeight + r.w } with he1
  have hsame : (e.addResult r.t r.p r.w).majorityClass = e1.majorityClass := by
    unfold Eval.majorityClass Eval.majorityStep
    rw [addResult_totalWeight, cm_addResult, addResult_nSamples, if_pos hr, if_pos hr]
  have hwm : (e.addResult r.t r.p r.w).wMajority =
      if e1.majorityClass = r.t then e.wMajority + r.w else e.wMajority := by
    unfold Eval.addResult
    simp only [gt_iff_lt, hr, if_true]
    rw [← he1]
    by_cases hc : e1.majorityClass = r.t
    · rw [if_pos hc, if_pos hc]; split_ifs <;> rfl
    · rw [if_neg hc, if_neg hc]; split_ifs <;> rfl
  rw [hrun, hsame] at hmaj
  rw [hrun, hwm]
  by_cases hc : e1.majorityClass = r.t
  · left
    rw [if_pos hc]
    exact ⟨rfl, by rw [← hc]; exact hmaj⟩
  · right
    rw [if_neg hc]
    exact ⟨rfl, fun hm => hc (hmaj.unique hm)⟩

/-- Success weight of a genuine majority classifier that predicts from the
preceding results only; `pred` maps the past to the predicted label. -/
def pastPredictorWeight (pred : List Res → Int) (past : List Res) : List Res → ℚ
  | [] => 0
  | r :: h => (if pred past = r.t then r.w else 0) + pastPredictorWeight pred (past ++ [r]) h

/-- **C48 violated** for Kappa-M: on the two results with labels 1, 0 the
recorded majority-classifier weight is 2, although every predictor that outputs
the majority label of the past (and label 0 when there is no past) is right on
neither. -/
theorem C48_majority_baseline_violated :
    let h := [Res.mk 1 1 1, ⟨0, 0, 1⟩]
    (evalRun 2 h).wMajority = 2 ∧
    ∀ pred : List Res → Int, pred [] = 0 → (∀ g, g ≠ [] → IsMajority g (pred g)) →
      pastPredictorWeight pred [] h = 0 := by
  refine ⟨by decide +kernel, fun pred h0 hm => ?_⟩
  have h1 : IsMajority [Res.mk 1 1 1] 1 := by
    intro c
    simp only [weightOf_single]
    by_cases hc : 1 = c
    · subst hc; simp
    · simp [hc]
  have h2 : pred [Res.mk 1 1 1] = 1 := (hm _ (by simp)).unique h1
  simp [pastPredictorWeight, h0, h2]

end Verif.Metrics
