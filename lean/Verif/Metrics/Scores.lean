import Verif.Metrics.Props
import Mathlib.Algebra.BigOperators.Field

/-!
Properties C08 (kappa), C09 (precision, recall, F1), C06 (windowed evaluator),
C47 (windowed default scores) and C48 (kappa baselines).
-/

namespace Verif.Metrics

/-! ### C08: Cohen's kappa -/

/-- The numbers behind kappa: row shares, column shares and diagonal shares. -/
private theorem kappa_core (S : Finset Int) (r c d : Int → ℚ)
    (hr : ∑ i ∈ S, r i = 1) (hc : ∑ i ∈ S, c i = 1)
    (hd0 : ∀ i ∈ S, 0 ≤ d i) (hdr : ∀ i ∈ S, d i ≤ r i) (hdc : ∀ i ∈ S, d i ≤ c i)
    (hu : ∀ i ∈ S, r i + c i ≤ 1 + d i) :
    ∑ i ∈ S, r i * c i ≤ 1 ∧ ∑ i ∈ S, d i ≤ 1 ∧
      2 * ∑ i ∈ S, r i * c i ≤ 1 + ∑ i ∈ S, d i := by
  have hr1 : ∀ i ∈ S, r i ≤ 1 := fun i hi => by
    rw [← hr]
    exact Finset.single_le_sum (fun j hj => (hd0 j hj).trans (hdr j hj)) hi
  have hc1 : ∀ i ∈ S, c i ≤ 1 := fun i hi => by
    rw [← hc]
    exact Finset.single_le_sum (fun j hj => (hd0 j hj).trans (hdc j hj)) hi
  refine ⟨?_, ?_, ?_⟩
  · rw [← hr]
    refine Finset.sum_le_sum fun i hi => ?_
    have h1 := hc1 i hi
    have h2 := (hd0 i hi).trans (hdr i hi)
    nlinarith
  · rw [← hr]; exact Finset.sum_le_sum hdr
  · have h2 : ∑ i ∈ S, 2 * (r i * c i) ≤ ∑ i ∈ S, ((r i + c i) / 2 + d i) := by
      refine Finset.sum_le_sum fun i hi => ?_
      have e1 := hu i hi
      have e2 := hr1 i hi
      have e3 := hc1 i hi
      have e4 := (hd0 i hi).trans (hdr i hi)
      have e5 := (hd0 i hi).trans (hdc i hi)
      have e6 := hd0 i hi
      have e7 : 2 * (r i * c i) ≤ (r i + c i) * (r i + c i) / 2 := by
        nlinarith [sq_nonneg (r i - c i)]
      have e8 : (r i + c i) * (r i + c i) ≤ (r i + c i) * (1 + d i) :=
        mul_le_mul_of_nonneg_left e1 (by linarith)
      have e9 : (r i + c i) * d i ≤ 2 * d i := mul_le_mul_of_nonneg_right (by linarith) e6
      nlinarith
    rw [← Finset.mul_sum, Finset.sum_add_distrib, ← Finset.sum_div,
      Finset.sum_add_distrib, hr, hc] at h2
    linarith

/-- Shares of a history with unit weights. -/
private theorem shares (n : Nat) (h : List Res) (hw : ∀ r ∈ h, r.w = 1) (hne : h ≠ []) :
    let S := (cmRun n h).classes.toFinset
    let N : ℚ := count h
    0 < N ∧
    (∑ i ∈ S, weightOf h (fun r => r.t = i) / N = 1) ∧
    (∑ i ∈ S, weightOf h (fun r => r.p = i) / N = 1) ∧
    (∑ i ∈ S, weightOf h (fun r => r.t = i ∧ r.p = i) / N =
      weightOf h (fun r => r.t = r.p) / N) ∧
    (∀ i, 0 ≤ weightOf h (fun r => r.t = i ∧ r.p = i) / N) ∧
    (∀ i, weightOf h (fun r => r.t = i ∧ r.p = i) / N ≤ weightOf h (fun r => r.t = i) / N) ∧
    (∀ i, weightOf h (fun r => r.t = i ∧ r.p = i) / N ≤ weightOf h (fun r => r.p = i) / N) ∧
    (∀ i, weightOf h (fun r => r.t = i) / N + weightOf h (fun r => r.p = i) / N
      ≤ 1 + weightOf h (fun r => r.t = i ∧ r.p = i) / N) := by
  intro S N
  have hw0 : ∀ r ∈ h, 0 ≤ r.w := fun r hr => by rw [hw r hr]; norm_num
  have hN : 0 < N := by
    have := List.length_pos_of_ne_nil hne
    simp only [N, count]; exact_mod_cast this
  have hsum : (h.map Res.w).sum = N := by
    have : h.map Res.w = h.map (fun _ => (1 : ℚ)) := List.map_congr_left hw
    rw [this]; simp [N, count]
  obtain ⟨_, _, m3, m4, m5⟩ := C04_margins n h 0 0
  rw [sum_over_classes] at m3 m4 m5
  refine ⟨hN, ?_, ?_, ?_, ?_, ?_, ?_, ?_⟩
  · rw [← Finset.sum_div]
    rw [hsum] at m4
    have : ∑ i ∈ S, weightOf h (fun r => r.t = i) = N := by
      rw [← m4]; exact Finset.sum_congr rfl fun i _ => ((C04_entries n h i i).2.1).symm
    rw [this]; exact div_self hN.ne'
  · rw [← Finset.sum_div]
    rw [hsum] at m5
    have : ∑ i ∈ S, weightOf h (fun r => r.p = i) = N := by
      rw [← m5]; exact Finset.sum_congr rfl fun i _ => ((C04_entries n h i i).2.2.1).symm
    rw [this]; exact div_self hN.ne'
  · rw [← Finset.sum_div, ← (C04_entries n h 0 0).2.2.2, m3]
    congr 1
    exact Finset.sum_congr rfl fun i _ => ((C04_entries n h i i).1).symm
  · intro i; exact div_nonneg (weightOf_nonneg h hw0 _) hN.le
  · intro i
    exact div_le_div_of_nonneg_right (weightOf_mono h hw0 _ _ (by simp; tauto)) hN.le
  · intro i
    exact div_le_div_of_nonneg_right (weightOf_mono h hw0 _ _ (by simp)) hN.le
  · intro i
    rw [← add_div, ← sub_le_iff_le_add, ← sub_div, div_le_one hN, ← hsum]
    clear hsum m3 m4 m5 hN hne
    have : ∀ l : List Res, (∀ r ∈ l, 0 ≤ r.w) →
        weightOf l (fun r => r.t = i) + weightOf l (fun r => r.p = i)
          - weightOf l (fun r => r.t = i ∧ r.p = i) ≤ (l.map Res.w).sum := by
      intro l
      induction l with
      | nil => simp [weightOf]
      | cons q l ih =>
        intro hl
        have h1 := ih (fun r hr => hl r (by simp [hr]))
        have h2 := hl q (by simp)
        simp only [weightOf_cons, List.map_cons, List.sum_cons]
        by_cases ha : q.t = i <;> by_cases hb : q.p = i <;>
          simp only [ha, hb, decide_true, decide_false, if_true, and_self, and_false, false_and,
            Bool.false_eq_true, if_false, zero_add] <;> linarith
    exact this h hw0

/-- Kappa in terms of the history. -/
private theorem kappa_eq (n : Nat) (h : List Res) (hw : ∀ r ∈ h, r.w = 1) (hne : h ≠ []) :
    let pe := ∑ i ∈ (cmRun n h).classes.toFinset,
      (weightOf h (fun r => r.t = i) / count h) * (weightOf h (fun r => r.p = i) / count h)
    let po := weightOf h (fun r => r.t = r.p) / count h
    (evalRun n h).kappaScore = if pe ≠ 1 then (po - pe) / (1 - pe) else 0 := by
  intro pe po
  have hpos : ∀ r ∈ h, 0 < r.w := fun r hr => by rw [hw r hr]; norm_num
  have htw : (evalRun n h).totalWeight > 0 := by
    rw [evalRun_totalWeight, positive_of_pos hpos]; exact weight_pos_of_ne_nil hpos hne
  have hpe : (evalRun n h).kappaPe = pe := by
    unfold Eval.kappaPe
    rw [evalRun_cm, positive_of_pos hpos, evalRun_nSamples, sum_over_classes]
    refine Finset.sum_congr rfl fun i _ => ?_
    rw [(C04_entries n h i i).2.1, (C04_entries n h i i).2.2.1]; rfl
  unfold Eval.kappaScore
  rw [if_pos htw, hpe, C05_accuracy_weighted n h hpos hne]

/-- **C08.** With unit weights kappa lies in `[-1, 1]`. -/
theorem C08_kappa_bounds (n : Nat) (h : List Res) (hw : ∀ r ∈ h, r.w = 1) :
    -1 ≤ (evalRun n h).kappaScore ∧ (evalRun n h).kappaScore ≤ 1 := by
  by_cases hne : h = []
  · subst hne
    have : (evalRun n []).kappaScore = 0 := by simp [Eval.kappaScore, evalRun, Eval.init]
    rw [this]; norm_num
  have hk := kappa_eq n h hw hne
  obtain ⟨hN, s1, s2, s3, s4, s5, s6, s7⟩ := shares n h hw hne
  obtain ⟨k1, k2, k3⟩ := kappa_core _ _ _ _ s1 s2 (fun i _ => s4 i) (fun i _ => s5 i)
    (fun i _ => s6 i) (fun i _ => s7 i)
  rw [s3] at k2 k3
  simp only at hk
  rw [hk]
  split_ifs with hpe
  · have hlt : 0 < 1 - ∑ i ∈ (cmRun n h).classes.toFinset,
        (weightOf h (fun r => r.t = i) / count h) * (weightOf h (fun r => r.p = i) / count h) :=
      sub_pos.2 (lt_of_le_of_ne k1 hpe)
    rw [div_le_one hlt, le_div_iff₀ hlt]
    constructor <;> linarith
  · norm_num

/-- **C08.** Kappa is 1 exactly when every prediction was correct and at least
two different true labels occurred. -/
theorem C08_kappa_one_iff (n : Nat) (h : List Res) (hw : ∀ r ∈ h, r.w = 1) :
    (evalRun n h).kappaScore = 1 ↔
      (∀ r ∈ h, r.t = r.p) ∧ ∃ r ∈ h, ∃ q ∈ h, r.t ≠ q.t := by
  by_cases hne : h = []
  · subst hne
    have : (evalRun n []).kappaScore = 0 := by simp [Eval.kappaScore, evalRun, Eval.init]
    rw [this]; simp
  have hpos : ∀ r ∈ h, 0 < r.w := fun r hr => by rw [hw r hr]; norm_num
  have hw0 : ∀ r ∈ h, 0 ≤ r.w := fun r hr => (hpos r hr).le
  have hk := kappa_eq n h hw hne
  obtain ⟨hN, s1, s2, s3, s4, s5, s6, s7⟩ := shares n h hw hne
  obtain ⟨k1, k2, k3⟩ := kappa_core _ _ _ _ s1 s2 (fun i _ => s4 i) (fun i _ => s5 i)
    (fun i _ => s6 i) (fun i _ => s7 i)
  set S := (cmRun n h).classes.toFinset with hS
  simp only at hk
  set pe := ∑ i ∈ S,
      (weightOf h (fun r => r.t = i) / count h) * (weightOf h (fun r => r.p = i) / count h)
    with hpedef
  have hmem : ∀ r ∈ h, r.t ∈ S := fun r hr => by
    rw [hS, List.mem_toFinset, (C04_classes n h).2]; exact Or.inr ⟨r, hr, Or.inl rfl⟩
  have hsum : (h.map Res.w).sum = count h := by
    have : h.map Res.w = h.map (fun _ => (1 : ℚ)) := List.map_congr_left hw
    rw [this]; simp [count]
  have hpo : weightOf h (fun r => r.t = r.p) / count h = 1 ↔ ∀ r ∈ h, r.t = r.p := by
    rw [div_eq_one_iff_eq hN.ne', ← hsum]
    clear hk k1 k2 k3 s1 s2 s3 s4 s5 s6 s7 hN hsum hpedef pe hS S hmem hne
    have hle : ∀ l : List Res, (∀ r ∈ l, 0 ≤ r.w) →
        weightOf l (fun r => r.t = r.p) ≤ (l.map Res.w).sum := by
      intro l hl
      have h1 := weightOf_mono l hl (fun r => decide (r.t = r.p)) (fun _ => true) (by simp)
      have h2 : weightOf l (fun _ => true) = (l.map Res.w).sum := by simp [weightOf]
      linarith
    have : ∀ l : List Res, (∀ r ∈ l, 0 < r.w) →
        (weightOf l (fun r => r.t = r.p) = (l.map Res.w).sum ↔ ∀ r ∈ l, r.t = r.p) := by
      intro l
      induction l with
      | nil => simp [weightOf]
      | cons q l ih =>
        intro hl
        have h1 := ih (fun r hr => hl r (by simp [hr]))
        have h2 := hl q (by simp)
        have h3 := hle l (fun r hr => (hl r (by simp [hr])).le)
        simp only [weightOf_cons, List.map_cons, List.sum_cons, List.mem_cons, forall_eq_or_imp]
        by_cases hq : q.t = q.p
        · simp only [hq, decide_true, if_true, add_right_inj, h1, true_and]
        · simp only [hq, decide_false, false_and, iff_false]
          simp only [Bool.false_eq_true, if_false, zero_add]
          intro hcon; linarith
    exact this h hpos
  have hpe_iff : (∀ r ∈ h, r.t = r.p) → (pe ≠ 1 ↔ ∃ r ∈ h, ∃ q ∈ h, r.t ≠ q.t) := by
    intro hall
    have hcol : ∀ i, weightOf h (fun r => r.p = i) = weightOf h (fun r => r.t = i) := by
      intro i
      unfold weightOf
      congr 2
      apply List.filter_congr
      intro r hr
      simp [hall r hr]
    constructor
    · intro hne1
      by_contra hcon
      push Not at hcon
      apply hne1
      obtain ⟨r0, hr0⟩ := List.exists_mem_of_ne_nil h hne
      have hz : ∀ i ∈ S, i ≠ r0.t →
          weightOf h (fun r => r.t = i) / count h * (weightOf h (fun r => r.p = i) / count h)
            = 0 := by
        intro i _ hi
        have : weightOf h (fun r => r.t = i) = 0 := by
          apply weightOf_eq_zero
          intro r hr hri
          have e1 : r.t = i := of_decide_eq_true hri
          exact hi (by rw [← e1]; exact hcon r hr r0 hr0)
        rw [this]; simp
      have hone : weightOf h (fun r => r.t = r0.t) = count h := by
        rw [← hsum]
        unfold weightOf
        rw [List.filter_eq_self.2]
        intro r hr
        simpa using hcon r hr r0 hr0
      rw [hpedef, Finset.sum_eq_single r0.t hz (fun h' => absurd (hmem r0 hr0) h'), hcol, hone,
        div_self hN.ne', one_mul]
    · rintro ⟨a, ha, b, hb, hab⟩ hpe1
      have hra : 0 < weightOf h (fun r => r.t = a.t) / count h :=
        div_pos (weightOf_pos_of_mem hpos a ha _ (by simp)) hN
      have hrb : 0 < weightOf h (fun r => r.t = b.t) / count h :=
        div_pos (weightOf_pos_of_mem hpos b hb _ (by simp)) hN
      have hrnn : ∀ i ∈ S, 0 ≤ weightOf h (fun r => r.t = i) / count h :=
        fun i _ => (s4 i).trans (s5 i)
      have hr1 : ∀ i ∈ S, weightOf h (fun r => r.t = i) / count h ≤ 1 := fun i hi => by
        rw [← s1]; exact Finset.single_le_sum (f := fun i => weightOf h (fun r => r.t = i) / count h)
          hrnn hi
      have hlt : weightOf h (fun r => r.t = a.t) / count h < 1 := by
        have h2 : ∑ i ∈ ({a.t, b.t} : Finset Int), weightOf h (fun r => r.t = i) / count h ≤ 1 := by
          rw [← s1]
          apply Finset.sum_le_sum_of_subset_of_nonneg
          · intro i hi
            rcases Finset.mem_insert.1 hi with rfl | hi
            · exact hmem a ha
            · rw [Finset.mem_singleton.1 hi]; exact hmem b hb
          · intro i hi _; exact hrnn i hi
        rw [Finset.sum_pair hab] at h2
        linarith
      have : pe < ∑ i ∈ S, weightOf h (fun r => r.t = i) / count h := by
        rw [hpedef]
        apply Finset.sum_lt_sum
        · intro i hi
          rw [hcol]
          have h1 := hrnn i hi
          have h2 := hr1 i hi
          nlinarith
        · refine ⟨a.t, hmem a ha, ?_⟩
          rw [hcol]; nlinarith
      rw [s1] at this
      linarith
  rw [hk]
  constructor
  · intro h1
    split_ifs at h1 with hpe
    · rw [div_eq_one_iff_eq (sub_ne_zero.2 (Ne.symm hpe))] at h1
      have hall := hpo.1 (by linarith)
      exact ⟨hall, (hpe_iff hall).1 hpe⟩
    · norm_num at h1
  · rintro ⟨hall, h2⟩
    have hpe := (hpe_iff hall).2 h2
    rw [if_pos hpe, hpo.2 hall, div_self (sub_ne_zero.2 (Ne.symm hpe))]

example : (evalRun 2 [⟨0, 0, 1⟩, ⟨1, 1, 1⟩, ⟨0, 0, 1⟩]).kappaScore = 1 :=
  (C08_kappa_one_iff 2 _ (by simp)).2 ⟨by simp, ⟨0, 0, 1⟩, by simp, ⟨1, 1, 1⟩, by simp, by simp⟩

/-! ### C09: precision, recall, F1 -/

/-- Specification of precision for class `c`: weight of correct predictions of
`c` over the weight of all predictions of `c`; 0 when `c` was never predicted. -/
def precisionOf (h : List Res) (c : Int) : ℚ :=
  if weightOf h (fun r => r.p = c) > 0 then
    weightOf h (fun r => r.t = c ∧ r.p = c) / weightOf h (fun r => r.p = c) else 0

/-- Specification of recall for class `c`. -/
def recallOf (h : List Res) (c : Int) : ℚ :=
  if weightOf h (fun r => r.t = c) > 0 then
    weightOf h (fun r => r.t = c ∧ r.p = c) / weightOf h (fun r => r.t = c) else 0

/-- Specification of F1 for class `c`: harmonic mean, 0 when both are 0. -/
def f1Of (h : List Res) (c : Int) : ℚ :=
  if precisionOf h c + recallOf h c > 0 then
    2 * (precisionOf h c * recallOf h c) / (precisionOf h c + recallOf h c) else 0

private theorem nClasses_pos (n : Nat) (h : List Res) : 0 < (cmRun n h).nClasses := by
  unfold CM.nClasses
  apply List.length_pos_of_mem (a := 0)
  rw [(C04_classes n h).2]; left; omega

private theorem prec_class (n : Nat) (h : List Res) (hw : ∀ r ∈ h, 0 < r.w) (c : Int)
    (hc : 0 ≤ c) : (evalRun n h).precisionPerClass c = precisionOf h c := by
  unfold Eval.precisionPerClass precisionOf
  rw [evalRun_cm, positive_of_pos hw, if_pos ⟨nClasses_pos n h, hc⟩, (C04_entries n h c c).1,
    (C04_entries n h c c).2.2.1]

private theorem rec_class (n : Nat) (h : List Res) (hw : ∀ r ∈ h, 0 < r.w) (c : Int)
    (hc : 0 ≤ c) : (evalRun n h).recallPerClass c = recallOf h c := by
  unfold Eval.recallPerClass recallOf
  rw [evalRun_cm, positive_of_pos hw, if_pos ⟨nClasses_pos n h, hc⟩, (C04_entries n h c c).1,
    (C04_entries n h c c).2.1]

/-- **C09.** `precision_score(c)` and `recall_score(c)` are the precision and
recall of class `c`, for every class value `c ≥ 0`, seen or unseen. -/
theorem C09_precision_recall (n : Nat) (h : List Res) (hw : ∀ r ∈ h, 0 < r.w) (c : Int)
    (hc : 0 ≤ c) :
    (evalRun n h).precisionScore c = precisionOf h c ∧
    (evalRun n h).recallScore c = recallOf h c := by
  have h1 : c ≠ -1 := by omega
  simp [Eval.precisionScore, Eval.recallScore, h1, prec_class n h hw c hc, rec_class n h hw c hc]

/-- **C09.** Both lie in `[0, 1]`, and so does F1. -/
theorem C09_bounds (h : List Res) (hw : ∀ r ∈ h, 0 < r.w) (c : Int) :
    (0 ≤ precisionOf h c ∧ precisionOf h c ≤ 1) ∧ (0 ≤ recallOf h c ∧ recallOf h c ≤ 1) ∧
    (0 ≤ f1Of h c ∧ f1Of h c ≤ 1) := by
  have hw0 : ∀ r ∈ h, 0 ≤ r.w := fun r hr => (hw r hr).le
  have d0 := weightOf_nonneg h hw0 (fun r => r.t = c ∧ r.p = c)
  have d1 := weightOf_mono h hw0 (fun r => r.t = c ∧ r.p = c) (fun r => r.p = c) (by simp)
  have d2 := weightOf_mono h hw0 (fun r => r.t = c ∧ r.p = c) (fun r => r.t = c)
    (by simp; tauto)
  have hp : 0 ≤ precisionOf h c ∧ precisionOf h c ≤ 1 := by
    unfold precisionOf; split_ifs with hh
    · exact ⟨div_nonneg d0 hh.le, (div_le_one hh).2 d1⟩
    · norm_num
  have hr : 0 ≤ recallOf h c ∧ recallOf h c ≤ 1 := by
    unfold recallOf; split_ifs with hh
    · exact ⟨div_nonneg d0 hh.le, (div_le_one hh).2 d2⟩
    · norm_num
  refine ⟨hp, hr, ?_⟩
  unfold f1Of
  generalize precisionOf h c = x at *
  generalize recallOf h c = y at *
  obtain ⟨x0, x1⟩ := hp
  obtain ⟨y0, y1⟩ := hr
  split_ifs with hh
  · refine ⟨div_nonneg (by positivity) hh.le, (div_le_one hh).2 ?_⟩
    nlinarith [mul_nonneg x0 (sub_nonneg.2 y1), mul_nonneg y0 (sub_nonneg.2 x1)]
  · norm_num

/-- **C09.** With a class list that is not of size two, `f1_score(c)` is the F1
of class `c` for every `c ≥ 0`; with two classes it is always the F1 of class 1.
(Partial: the documented meaning needs class `c` in the two-class case as well,
see `C09_f1_violated`.) -/
theorem C09_f1_partial (n : Nat) (h : List Res) (hw : ∀ r ∈ h, 0 < r.w) (c : Int)
    (hc : 0 ≤ c) :
    ((evalRun n h).cm.nClasses ≠ 2 → (evalRun n h).f1Score c = f1Of h c) ∧
    ((evalRun n h).cm.nClasses = 2 → (evalRun n h).f1Score c = f1Of h 1) := by
  have h1 : c ≠ -1 := by omega
  have hk : 0 < (evalRun n h).cm.nClasses := by
    rw [evalRun_cm]; exact nClasses_pos n _
  have e : ∀ c, 0 ≤ c → (evalRun n h).f1PerClass c = f1Of h c := by
    intro c hc
    unfold Eval.f1PerClass f1Of
    rw [(C09_precision_recall n h hw c hc).1, (C09_precision_recall n h hw c hc).2]
    simp [hk]
  constructor
  · intro h2; simp [Eval.f1Score, h1, h2, e c hc]
  · intro h2; simp [Eval.f1Score, h2, e 1 (by norm_num)]

/-- **C09 violated**: in a two-class history `f1_score(0)` is not the F1 of
class 0 (which is 1/2 lower here). -/
theorem C09_f1_violated :
    let h := [Res.mk 0 0 1, ⟨0, 0, 1⟩, ⟨0, 0, 1⟩, ⟨1, 0, 1⟩]
    (evalRun 2 h).f1Score 0 = 0 ∧ f1Of h 0 = 6 / 7 := by
  intro h
  have hw : ∀ r ∈ h, 0 < r.w := by simp [h]
  have hk : (evalRun 2 h).cm.nClasses = 2 := by
    rw [evalRun_cm, positive_of_pos hw]; decide
  constructor
  · rw [(C09_f1_partial 2 h hw 0 (le_refl 0)).2 hk]
    norm_num [f1Of, precisionOf, recallOf, weightOf, h]
  · norm_num [f1Of, precisionOf, recallOf, weightOf, h]

/-- **C09.** The default calls: class 1 for two classes, otherwise the
unweighted mean over the classes of the matrix (non-negative labels). -/
theorem C09_defaults (n : Nat) (h : List Res) (hw : ∀ r ∈ h, 0 < r.w)
    (hl : ∀ r ∈ h, 0 ≤ r.t ∧ 0 ≤ r.p) :
    let K := (evalRun n h).cm.classes
    (K.length = 2 → (evalRun n h).precisionScore = precisionOf h 1 ∧
      (evalRun n h).recallScore = recallOf h 1 ∧ (evalRun n h).f1Score = f1Of h 1) ∧
    (K.length ≠ 2 → (evalRun n h).precisionScore = (K.map (precisionOf h)).sum / K.length ∧
      (evalRun n h).recallScore = (K.map (recallOf h)).sum / K.length ∧
      (evalRun n h).f1Score = (K.map (f1Of h)).sum / K.length) := by
  intro K
  have hK : ∀ c ∈ K, 0 ≤ c := by
    intro c hc
    simp only [K, evalRun_cm, positive_of_pos hw] at hc
    rcases ((C04_classes n h).2 c).1 hc with ⟨h1, _⟩ | ⟨r, hr, rfl | rfl⟩
    · exact h1
    · exact (hl r hr).1
    · exact (hl r hr).2
  have hk : 0 < (evalRun n h).cm.nClasses := by
    rw [evalRun_cm]; exact nClasses_pos n _
  have e : ∀ c, 0 ≤ c → (evalRun n h).f1PerClass c = f1Of h c := by
    intro c hc
    unfold Eval.f1PerClass f1Of
    rw [(C09_precision_recall n h hw c hc).1, (C09_precision_recall n h hw c hc).2]
    simp [hk]
  constructor
  · intro h2
    have h2' : (evalRun n h).cm.nClasses = 2 := h2
    simp [Eval.precisionScore, Eval.recallScore, Eval.f1Score, h2',
      prec_class n h hw 1 (by norm_num), rec_class n h hw 1 (by norm_num), e 1 (by norm_num)]
  · intro h2
    have h2' : (evalRun n h).cm.nClasses ≠ 2 := h2
    simp only [Eval.precisionScore, Eval.recallScore, Eval.f1Score, h2', false_and, if_false]
    refine ⟨?_, ?_, ?_⟩
    · rw [if_pos trivial, List.map_congr_left (fun c hc => prec_class n h hw c (hK c hc))]; rfl
    · rw [if_pos trivial, List.map_congr_left (fun c hc => rec_class n h hw c (hK c hc))]; rfl
    · rw [if_pos trivial, List.map_congr_left (fun c hc => e c (hK c hc))]; rfl

example : precisionOf [⟨0, 1, 1⟩, ⟨1, 1, 1⟩, ⟨1, 0, 1⟩] 1 = 1 / 2 := by
  norm_num [precisionOf, weightOf]

/-- **C09.** A negative class value (other than the default marker -1) is not
scored: precision and recall are 0 whatever the history, and so is f1 unless
the evaluator has exactly two classes. -/
theorem C09_negative_class (n : Nat) (h : List Res) (c : Int) (hc : c < -1) :
    (evalRun n h).precisionScore c = 0 ∧ (evalRun n h).recallScore c = 0 ∧
    ((evalRun n h).cm.classes.length ≠ 2 → (evalRun n h).f1Score c = 0) := by
  have h1 : c ≠ -1 := by omega
  have h2 : ¬ (0 : Int) ≤ c := by omega
  have p : (evalRun n h).precisionScore c = 0 := by
    simp [Eval.precisionScore, Eval.precisionPerClass, h1, h2]
  have r : (evalRun n h).recallScore c = 0 := by
    simp [Eval.recallScore, Eval.recallPerClass, h1, h2]
  refine ⟨p, r, fun hk => ?_⟩
  have hk' : (evalRun n h).cm.nClasses ≠ 2 := hk
  simp [Eval.f1Score, Eval.f1PerClass, h1, hk', p, r]

/-- Even a label -2 that is predicted correctly every time scores 0, although
its precision is 1. -/
example : (evalRun 0 [⟨-2, -2, 1⟩, ⟨0, 0, 1⟩]).precisionScore (-2) = 0 ∧
    precisionOf [⟨-2, -2, 1⟩, ⟨0, 0, 1⟩] (-2) = 1 :=
  ⟨(C09_negative_class 0 _ (-2) (by norm_num)).1, by norm_num [precisionOf, weightOf]⟩

/-! ### C06: the windowed evaluator -/

private def entryRes (q : QEntry) : Res := ⟨q.t, q.p, q.w⟩

/-- Invariant of the windowed evaluator: its matrix is that of a log of
operations whose net weights are those of the window. -/
private def WInv (n w : Nat) (h : List Res) (s : WEval) : Prop :=
  s.windowSize = w ∧ s.queue.map entryRes = lastN w h ∧
  s.base.nSamples = (lastN w h).length ∧
  s.base.totalWeight = (h.map Res.w).sum ∧
  ∃ g : List Res, s.base.cm = cmRun n g ∧
    (∀ P : Int → Int → Bool,
      weightOf g (fun r => P r.t r.p) = weightOf (lastN w h) (fun r => P r.t r.p)) ∧
    (∀ t p, (∃ q ∈ g, q.t = t ∧ q.p = p) ↔ ∃ q ∈ h, q.t = t ∧ q.p = p)

private theorem wadd_fields (s : WEval) (t p : Int) (w : ℚ) :
    (s.addResult t p w).windowSize = s.removeOldest.windowSize ∧
    (s.addResult t p w).queue.map entryRes = s.removeOldest.queue.map entryRes ++ [⟨t, p, w⟩] ∧
    (s.addResult t p w).base.nSamples = s.removeOldest.base.nSamples + 1 ∧
    (s.addResult t p w).base.totalWeight =
      (if w > 0 then s.removeOldest.base.totalWeight + w else s.removeOldest.base.totalWeight) ∧
    (s.addResult t p w).base.cm =
      (if w > 0 then s.removeOldest.base.cm.setItem t p w else s.removeOldest.base.cm) := by
  unfold WEval.addResult
  simp only
  refine ⟨trivial, ?_, ?_, ?_, ?_⟩
  · simp [entryRes]
  all_goals (split_ifs <;> rfl)

private theorem winv_run (n w : Nat) (hw1 : 1 ≤ w) (h : List Res) (hw : ∀ r ∈ h, 0 < r.w) :
    WInv n w h (wevalRun n w h) := by
  induction h using List.reverseRecOn with
  | nil =>
    refine ⟨rfl, by rw [lastN_nil]; rfl, by rw [lastN_nil]; rfl, rfl, [], ?_,
      fun P => by rw [lastN_nil], by simp⟩
    simp [wevalRun, WEval.init, Eval.init, cmRun, CM.init, initClasses_idem]
  | append_singleton h r ih =>
    obtain ⟨i1, i2, i3, i4, g, i5, i6, i7⟩ := ih (fun q hq => hw q (by simp [hq]))
    have hr : 0 < r.w := hw r (by simp)
    have hrun : wevalRun n w (h ++ [r]) = (wevalRun n w h).addResult r.t r.p r.w := by
      simp [wevalRun]
    rw [hrun]
    generalize wevalRun n w h = s at *
    obtain ⟨f1, f2, f3, f4, f5⟩ := wadd_fields s r.t r.p r.w
    rw [if_pos hr] at f4 f5
    by_cases hfull : s.queue.length = w
    · cases hq : s.queue with
      | nil => rw [hq] at hfull; simp at hfull; omega
      | cons q rest =>
        have hlen : (lastN w h).length = w := by rw [← i2]; simpa using hfull
        have hrem : s.removeOldest =
            { s with
              queue := rest
              base := { s.base with
                cm := s.base.cm.setItem q.t q.p (-q.w)
                wMajority := s.base.wMajority - (if q.majority then q.w else 0)
                wNoChange := s.base.wNoChange - (if q.noChange then q.w else 0)
                nSamples := s.base.nSamples - 1 } } := by
          unfold WEval.removeOldest
          rw [if_pos (by rw [hfull, i1])]
          rw [hq]
        have hl : lastN w h = entryRes q :: rest.map entryRes := by rw [← i2, hq]; rfl
        have hl2 : lastN w (h ++ [r]) = rest.map entryRes ++ [r] := by
          rw [← lastN_lastN_append, hl]
          have : w = (entryRes q :: rest.map entryRes).length := by rw [← hl, hlen]
          conv_lhs => rw [this]
          rw [lastN_append_singleton_full _ _ (by simp)]
          rfl
        rw [hrem] at f1 f2 f3 f4 f5
        simp only at f1 f2 f3 f4 f5
        refine ⟨f1.trans i1, ?_, ?_, ?_, g ++ [⟨q.t, q.p, -q.w⟩, r], ?_, ?_, ?_⟩
        · rw [f2, hl2]
        · rw [f3, i3, hl2, hl]; simp
        · rw [f4, i4]; simp
        · rw [f5, i5]
          have : g ++ [⟨q.t, q.p, -q.w⟩, r] = (g ++ [⟨q.t, q.p, -q.w⟩]) ++ [r] := by simp
          rw [this, cmRun_append, cmRun_append]
        · intro P
          have e0 := i6 P
          rw [hl, weightOf_cons] at e0
          rw [hl2, weightOf_append, weightOf_append, e0, weightOf_cons, weightOf_single]
          simp only [entryRes]
          by_cases hP : P q.t q.p <;>
            simp only [hP, if_true, Bool.false_eq_true, if_false] <;> ring
        · intro t p
          have hqh : entryRes q ∈ h := (lastN_suffix w h).subset (by rw [hl]; simp)
          constructor
          · rintro ⟨x, hx, hx1, hx2⟩
            simp only [List.mem_append, List.mem_cons, List.not_mem_nil, or_false] at hx
            rcases hx with hx | rfl | rfl
            · obtain ⟨y, hy, hy'⟩ := (i7 t p).1 ⟨x, hx, hx1, hx2⟩
              exact ⟨y, by simp [hy], hy'⟩
            · exact ⟨entryRes q, by simp [hqh], hx1, hx2⟩
            · exact ⟨x, by simp, hx1, hx2⟩
          · rintro ⟨x, hx, hx'⟩
            rcases List.mem_append.1 hx with hx | hx
            · obtain ⟨y, hy, hy'⟩ := (i7 t p).2 ⟨x, hx, hx'⟩
              exact ⟨y, by simp [hy], hy'⟩
            · exact ⟨x, by simp [List.mem_singleton.1 hx], hx'⟩
    · have hrem : s.removeOldest = s := by
        unfold WEval.removeOldest; rw [if_neg (by rw [i1]; exact hfull)]
      rw [hrem] at f1 f2 f3 f4 f5
      have hlen : (lastN w h).length < w := by
        have h1 : s.queue.length = (lastN w h).length := by rw [← i2]; simp
        have h2 : (lastN w h).length ≤ w := by simp
        omega
      have hlen' : h.length < w := by simp at hlen; omega
      have hl : lastN w h = h := lastN_of_le hlen'.le
      have hl2 : lastN w (h ++ [r]) = h ++ [r] := lastN_of_le (by simp; omega)
      refine ⟨f1.trans i1, ?_, ?_, ?_, g ++ [r], ?_, ?_, ?_⟩
      · rw [f2, i2, hl, hl2]
      · rw [f3, i3, hl, hl2]; simp
      · rw [f4, i4]; simp
      · rw [f5, i5, cmRun_append]
      · intro P
        rw [hl2, weightOf_append, weightOf_append, i6 P, hl]
      · intro t p
        simp only [List.mem_append, List.mem_singleton, or_and_right, exists_or, i7 t p]

/-- The single-output scores that depend only on the matrix entries, the number
of results and whether something was recorded. -/
theorem C06_window_matrix (n w : Nat) (hw1 : 1 ≤ w) (h : List Res) (hw : ∀ r ∈ h, 0 < r.w)
    (i j : Int) :
    let win := (wevalRun n w h).base
    let fresh := evalRun n (lastN w h)
    win.cm.data i j = fresh.cm.data i j ∧ win.cm.sumRow i = fresh.cm.sumRow i ∧
    win.cm.sumCol j = fresh.cm.sumCol j ∧ win.cm.sumDiag = fresh.cm.sumDiag ∧
    win.nSamples = fresh.nSamples := by
  intro win fresh
  obtain ⟨_, _, i3, _, g, i5, i6, _⟩ := winv_run n w hw1 h hw
  have hw' : ∀ r ∈ lastN w h, 0 < r.w := fun r hr => hw r ((lastN_suffix w h).subset hr)
  have hf : fresh.cm = cmRun n (lastN w h) := by
    simp only [fresh]; rw [evalRun_cm, positive_of_pos hw']
  have hg : win.cm = cmRun n g := i5
  rw [hf, hg]
  obtain ⟨a1, a2, a3, a4⟩ := C04_entries n g i j
  obtain ⟨b1, b2, b3, b4⟩ := C04_entries n (lastN w h) i j
  rw [a1, a2, a3, a4, b1, b2, b3, b4]
  refine ⟨i6 (fun t p => t = i ∧ p = j), i6 (fun t _ => t = i), i6 (fun _ p => p = j),
    i6 (fun t p => t = p), ?_⟩
  simp only [win, fresh, evalRun_nSamples]; exact i3

/-- **C06.** The windowed evaluator reports the accuracy, kappa, majority class
and per-class precision and recall of a fresh evaluator fed with the last
`window_size` results. -/
theorem C06_window_scores (n w : Nat) (hw1 : 1 ≤ w) (h : List Res) (hw : ∀ r ∈ h, 0 < r.w) :
    let win := (wevalRun n w h).base
    let fresh := evalRun n (lastN w h)
    win.accuracyScore = fresh.accuracyScore ∧ win.kappaScore = fresh.kappaScore ∧
    win.majorityClass = fresh.majorityClass ∧
    ∀ c, 0 ≤ c → win.precisionScore c = fresh.precisionScore c ∧
      win.recallScore c = fresh.recallScore c := by
  by_cases hnil : h = []
  · subst hnil
    rw [lastN_nil]
    exact ⟨rfl, rfl, rfl, fun _ _ => ⟨rfl, rfl⟩⟩
  intro win fresh
  have hM : ∀ i j, _ := C06_window_matrix n w hw1 h hw
  obtain ⟨_, _, i3, i4, g, i5, i6, i7⟩ := winv_run n w hw1 h hw
  have hw' : ∀ r ∈ lastN w h, 0 < r.w := fun r hr => hw r ((lastN_suffix w h).subset hr)
  have hf : fresh.cm = cmRun n (lastN w h) := by
    simp only [fresh]; rw [evalRun_cm, positive_of_pos hw']
  have hg : win.cm = cmRun n g := i5
  have hNs : win.nSamples = fresh.nSamples := (hM 0 0).2.2.2.2
  have hacc : win.accuracyScore = fresh.accuracyScore := by
    unfold Eval.accuracyScore
    rw [show win.cm.sumDiag = fresh.cm.sumDiag from (hM 0 0).2.2.2.1, hNs]
  have hsub : ∀ c, c ∈ fresh.cm.classes → c ∈ win.cm.classes := by
    intro c hc
    rw [hf, (C04_classes n _).2] at hc
    rw [hg, (C04_classes n _).2]
    rcases hc with hc | ⟨r, hr, hrc⟩
    · exact Or.inl hc
    · obtain ⟨q, hq, hq1, hq2⟩ := (i7 r.t r.p).2 ⟨r, (lastN_suffix w h).subset hr, rfl, rfl⟩
      exact Or.inr ⟨q, hq, by rw [hq1, hq2]; exact hrc⟩
  have hzero : ∀ c, c ∉ fresh.cm.classes → fresh.cm.sumRow c = 0 := by
    intro c hc
    rw [hf, (C04_entries n _ c c).2.1]
    apply weightOf_eq_zero
    intro r hr hrc
    rw [hf, (C04_classes n _).2] at hc
    exact hc (Or.inr ⟨r, hr, Or.inl (of_decide_eq_true hrc).symm⟩)
  have hpe : win.kappaPe = fresh.kappaPe := by
    unfold Eval.kappaPe
    rw [hg, hf, sum_over_classes, sum_over_classes, ← hg, ← hf]
    symm
    have : ∀ i, (win.cm.sumRow i / win.nSamples) * (win.cm.sumCol i / win.nSamples) =
        (fresh.cm.sumRow i / fresh.nSamples) * (fresh.cm.sumCol i / fresh.nSamples) := by
      intro i
      rw [hNs, show win.cm.sumRow i = fresh.cm.sumRow i from (hM i i).2.1,
        show win.cm.sumCol i = fresh.cm.sumCol i from (hM i i).2.2.1]
    rw [Finset.sum_congr rfl (fun i _ => this i)]
    apply Finset.sum_subset
    · intro c hc
      rw [List.mem_toFinset] at hc ⊢; exact hsub c hc
    · intro c _ hc
      rw [List.mem_toFinset] at hc
      rw [hzero c hc]; simp
  have hempty : lastN w h = [] ↔ h = [] := by
    constructor
    · intro h0
      have : (lastN w h).length = 0 := by rw [h0]; rfl
      rw [length_lastN] at this
      exact List.eq_nil_of_length_eq_zero (by omega)
    · rintro rfl; exact lastN_nil w
  have hftw : fresh.totalWeight = ((lastN w h).map Res.w).sum := by
    simp only [fresh]; rw [evalRun_totalWeight, positive_of_pos hw']
  refine ⟨hacc, ?_, ?_, ?_⟩
  · unfold Eval.kappaScore
    rw [hpe, hacc]
    have h1 : win.totalWeight > 0 := by
      rw [show win.totalWeight = _ from i4]; exact weight_pos_of_ne_nil hw hnil
    have h2 : fresh.totalWeight > 0 := by
      rw [hftw]; exact weight_pos_of_ne_nil hw' (fun h0 => hnil (hempty.1 h0))
    rw [if_pos h1, if_pos h2]
  · have hne' : lastN w h ≠ [] := fun h0 => hnil (hempty.1 h0)
    have h1 : win.totalWeight ≠ 0 := by
      rw [show win.totalWeight = _ from i4]; exact (weight_pos_of_ne_nil hw hnil).ne'
    have h2 : fresh.totalWeight ≠ 0 := by
      rw [hftw]; exact (weight_pos_of_ne_nil hw' hne').ne'
    have hn : 0 < fresh.nSamples := C05_no_division_by_zero n _ h2
    obtain ⟨r0, hr0⟩ := List.exists_mem_of_ne_nil _ hne'
    have hrow0 : ∀ c, 0 ≤ fresh.cm.sumRow c := fun c => by
      rw [hf, (C04_entries n _ c c).2.1]
      exact weightOf_nonneg _ (fun r hr => (hw' r hr).le) _
    have hr0c : r0.t ∈ fresh.cm.classes := by
      rw [hf, (C04_classes n _).2]; exact Or.inr ⟨r0, hr0, Or.inl rfl⟩
    have hr0p : 0 < fresh.cm.sumRow r0.t := by
      rw [hf, (C04_entries n _ r0.t r0.t).2.1]
      exact weightOf_pos_of_mem hw' r0 hr0 _ (by simp)
    have hrow : ∀ c, win.cm.sumRow c = fresh.cm.sumRow c := fun c => (hM c c).2.1
    have A := majority_spec win (by rw [hg]; exact (C04_classes n g).1)
      (fun c => by rw [hrow]; exact hrow0 c) (by rw [hNs]; exact hn) h1
      ⟨r0.t, hsub _ hr0c, by rw [hrow]; exact hr0p⟩
      (fun c hc => by rw [hrow]; exact hzero c (fun hc' => hc (hsub c hc')))
    have B := majority_spec fresh (by rw [hf]; exact (C04_classes n _).1)
      hrow0 hn h2 ⟨r0.t, hr0c, hr0p⟩ hzero
    rcases lt_trichotomy win.majorityClass fresh.majorityClass with hlt | heq | hlt
    · have a := (A fresh.majorityClass).1
      have b := (B win.majorityClass).2 hlt
      rw [hrow, hrow] at a
      linarith
    · exact heq
    · have a := (A fresh.majorityClass).2 hlt
      have b := (B win.majorityClass).1
      rw [hrow, hrow] at a
      linarith
  · intro c hc
    have hc1 : c ≠ -1 := by omega
    have k1 : 0 < win.cm.nClasses := by rw [hg]; exact nClasses_pos n g
    have k2 : 0 < fresh.cm.nClasses := by rw [hf]; exact nClasses_pos n _
    have e1 : win.cm.data c c = fresh.cm.data c c := (hM c c).1
    have e2 : win.cm.sumRow c = fresh.cm.sumRow c := (hM c c).2.1
    have e3 : win.cm.sumCol c = fresh.cm.sumCol c := (hM c c).2.2.1
    simp only [Eval.precisionScore, Eval.recallScore, Eval.precisionPerClass,
      Eval.recallPerClass, hc1, and_false, if_false, e1, e2, e3, k1, k2, and_self]

example : ∀ r ∈ [Res.mk 0 1 1, ⟨2, 2, 3⟩, ⟨1, 1, 1⟩], 0 < r.w := by simp

private theorem sorted_ext (l m : List Int) (hl : l.Pairwise (· < ·)) (hm : m.Pairwise (· < ·))
    (h : ∀ c, c ∈ l ↔ c ∈ m) : l = m := by
  have hp : l.Perm m := (List.perm_ext_iff_of_nodup (hl.imp fun h => ne_of_lt h)
    (hm.imp fun h => ne_of_lt h)).2 h
  exact hp.eq_of_pairwise (fun a b _ _ h1 h2 => absurd h1 (not_lt.2 h2.le)) hl hm

/-- **C47.** When every label is one of the declared classes `0, ..., n-1`
(`n ≥ 2`), the default precision, recall and F1 of the windowed evaluator are
those of a fresh evaluator fed with the last `window_size` results.  (Partial:
the full claim has no condition on the labels; see the violation below.) -/
theorem C47_window_defaults_partial (n w : Nat) (hw1 : 1 ≤ w) (h : List Res)
    (hw : ∀ r ∈ h, 0 < r.w)
    (hl : ∀ r ∈ h, (0 ≤ r.t ∧ r.t < (max n 2 : Nat)) ∧ (0 ≤ r.p ∧ r.p < (max n 2 : Nat))) :
    let win := (wevalRun n w h).base
    let fresh := evalRun n (lastN w h)
    win.precisionScore = fresh.precisionScore ∧ win.recallScore = fresh.recallScore ∧
    win.f1Score = fresh.f1Score := by
  intro win fresh
  have hM : ∀ i j, _ := C06_window_matrix n w hw1 h hw
  obtain ⟨_, _, _, _, g, i5, _, i7⟩ := winv_run n w hw1 h hw
  have hw' : ∀ r ∈ lastN w h, 0 < r.w := fun r hr => hw r ((lastN_suffix w h).subset hr)
  have hf : fresh.cm = cmRun n (lastN w h) := by
    simp only [fresh]; rw [evalRun_cm, positive_of_pos hw']
  have hg : win.cm = cmRun n g := i5
  have hcl : win.cm.classes = fresh.cm.classes := by
    rw [hf, hg]
    refine sorted_ext _ _ (C04_classes n g).1 (C04_classes n _).1 fun c => ?_
    rw [(C04_classes n g).2, (C04_classes n _).2]
    constructor
    · rintro (h1 | ⟨q, hq, h1⟩)
      · exact Or.inl h1
      · obtain ⟨r, hr, e1, e2⟩ := (i7 q.t q.p).1 ⟨q, hq, rfl, rfl⟩
        obtain ⟨a, b⟩ := hl r hr
        left
        rcases h1 with rfl | rfl
        · rw [← e1]; exact a
        · rw [← e2]; exact b
    · rintro (h1 | ⟨q, hq, h1⟩)
      · exact Or.inl h1
      · obtain ⟨a, b⟩ := hl q ((lastN_suffix w h).subset hq)
        left
        rcases h1 with rfl | rfl
        · exact a
        · exact b
  have hn : win.cm.nClasses = fresh.cm.nClasses := by unfold CM.nClasses; rw [hcl]
  have e1 : ∀ c, win.cm.data c c = fresh.cm.data c c := fun c => (hM c c).1
  have e2 : ∀ c, win.cm.sumRow c = fresh.cm.sumRow c := fun c => (hM c c).2.1
  have e3 : ∀ c, win.cm.sumCol c = fresh.cm.sumCol c := fun c => (hM c c).2.2.1
  have hp : win.precisionPerClass = fresh.precisionPerClass := by
    funext c; simp only [Eval.precisionPerClass, hn, e1, e3]
  have hr : win.recallPerClass = fresh.recallPerClass := by
    funext c; simp only [Eval.recallPerClass, hn, e1, e2]
  have hps : ∀ c, win.precisionScore c = fresh.precisionScore c := by
    intro c; simp only [Eval.precisionScore, hn, hp, hcl]
  have hrs : ∀ c, win.recallScore c = fresh.recallScore c := by
    intro c; simp only [Eval.recallScore, hn, hr, hcl]
  have hfs : win.f1PerClass = fresh.f1PerClass := by
    funext c; simp only [Eval.f1PerClass, hn, hps, hrs]
  refine ⟨by rw [hps], by rw [hrs], ?_⟩
  simp only [Eval.f1Score, hn, hfs, hcl]

/-- **C47 violated.** The default (binary or macro-averaged) precision of the
windowed evaluator is *not* that of the last `window_size` results: classes that
left the window long ago still count.  Here the last two results are perfect
two-class predictions, yet the windowed precision is 2/3 instead of 1. -/
theorem C47_window_macro_violated :
    let h := [Res.mk 2 2 1, ⟨0, 0, 1⟩, ⟨1, 1, 1⟩]
    (wevalRun 2 2 h).base.precisionScore = 2 / 3 ∧
    (evalRun 2 (lastN 2 h)).precisionScore = 1 := by
  decide +kernel

end Verif.Metrics
