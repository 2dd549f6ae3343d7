import Verif.Common
import Mathlib.Algebra.Order.Field.Basic
import Mathlib.Data.List.Induction
import Mathlib.Algebra.BigOperators.Group.List.Basic
import Mathlib.Tactic.LinearCombination
import Mathlib.Algebra.Order.BigOperators.Group.List

/-!
Model of `trees/gaussian_estimator.py` and
`trees/_attribute_observer/numeric_attribute_class_observer_gaussian.py`; C33, C63.

Simplifications: exact rational arithmetic; a value that is `None` or infinite is
`none`; the normal density and distribution function (which need `exp`, `erf` and
a square root) are arbitrary functions of the estimator state and the value.
-/

namespace Verif.Trees

/-- State of `GaussianEstimator`, lines 12-15. -/
structure Est where
  weightSum : ℚ := 0
  mean : ℚ := 0
  varSum : ℚ := 0

/-- `add_observation`, lines 33-42. -/
def Est.add (e : Est) (value : Option ℚ) (weight : ℚ) : Est :=
  match value with
  | none => e
  | some v =>
    if e.weightSum > 0 then
      let ws := e.weightSum + weight
      let m := e.mean + weight * (v - e.mean) / ws
      ⟨ws, m, e.varSum + weight * (v - e.mean) * (v - m)⟩
    else ⟨weight, v, e.varSum⟩

/-- `get_variance`, line 54. -/
def Est.variance (e : Est) : ℚ := if e.weightSum > 1 then e.varSum / (e.weightSum - 1) else 0

/-! ### Specification -/

/-- The usable observations (value, weight) of a history. -/
def usable (h : List (Option ℚ × ℚ)) : List (ℚ × ℚ) :=
  h.filterMap fun o => o.1.map fun v => (v, o.2)

/-- Total weight. -/
def totW (l : List (ℚ × ℚ)) : ℚ := (l.map fun o => o.2).sum
/-- Weighted mean. -/
def wMean (l : List (ℚ × ℚ)) : ℚ := (l.map fun o => o.2 * o.1).sum / totW l
/-- Weighted sum of squared deviations from the weighted mean. -/
def wDev (l : List (ℚ × ℚ)) : ℚ := (l.map fun o => o.2 * (o.1 - wMean l) ^ 2).sum

/-! ### Proofs -/

theorem wDev_shift (l : List (ℚ × ℚ)) (m : ℚ) :
    (l.map fun o => o.2 * (o.1 - m) ^ 2).sum =
      (l.map fun o => o.2 * o.1 ^ 2).sum - 2 * m * (l.map fun o => o.2 * o.1).sum + m ^ 2 * totW l := by
  induction l with
  | nil => simp [totW]
  | cons a l ih => simp only [List.map_cons, List.sum_cons, ih, totW]; ring

theorem wDev_eq (l : List (ℚ × ℚ)) (h : totW l ≠ 0) :
    wDev l = (l.map fun o => o.2 * o.1 ^ 2).sum - (l.map fun o => o.2 * o.1).sum ^ 2 / totW l := by
  unfold wDev
  rw [wDev_shift]
  unfold wMean
  field_simp
  ring

theorem totW_pos (l : List (ℚ × ℚ)) (hne : l ≠ []) (h : ∀ o ∈ l, 0 < o.2) : 0 < totW l := by
  induction l with
  | nil => simp at hne
  | cons a l ih =>
    have ha := h a (by simp)
    by_cases hl : l = []
    · subst hl; simpa [totW] using ha
    · have := ih hl (fun o ho => h o (by simp [ho]))
      simp only [totW, List.map_cons, List.sum_cons] at this ⊢
      linarith

/-- The estimator after a history. -/
def Est.run (h : List (Option ℚ × ℚ)) : Est := h.foldl (fun e o => e.add o.1 o.2) {}

theorem Est.run_spec (h : List (Option ℚ × ℚ)) (hw : ∀ o ∈ h, 0 < o.2) :
    (usable h = [] → Est.run h = {}) ∧
    (usable h ≠ [] → (Est.run h).weightSum = totW (usable h) ∧ (Est.run h).mean = wMean (usable h) ∧
      (Est.run h).varSum = wDev (usable h)) := by
  induction h using List.reverseRecOn with
  | nil => simp [usable, Est.run]
  | append_singleton h o ih =>
    obtain ⟨ih1, ih2⟩ := ih (fun o ho => hw o (by simp [ho]))
    have how := hw o (by simp)
    have hrun : Est.run (h ++ [o]) = (Est.run h).add o.1 o.2 := by simp [Est.run]
    rw [hrun]
    obtain ⟨v, w⟩ := o
    simp only at how
    cases v with
    | none =>
      have hu : usable (h ++ [(none, w)]) = usable h := by simp [usable]
      rw [hu]
      exact ⟨ih1, ih2⟩
    | some v =>
      have hu : usable (h ++ [(some v, w)]) = usable h ++ [(v, w)] := by simp [usable]
      rw [hu]
      refine ⟨by simp, fun _ => ?_⟩
      have hpos' : ∀ o ∈ usable h, 0 < o.2 := by
        intro o ho
        obtain ⟨p, hp, hpo⟩ := List.mem_filterMap.mp ho
        have := hw p (by simp [hp])
        cases hp1 : p.1 with
        | none => rw [hp1] at hpo; cases hpo
        | some u =>
          rw [hp1] at hpo
          simp only [Option.map_some, Option.some.injEq] at hpo
          rw [← hpo]; exact this
      by_cases hne : usable h = []
      · rw [ih1 hne, hne]
        simp only [Est.add, gt_iff_lt, lt_self_iff_false, if_false, List.nil_append, totW, wMean,
          wDev, List.map_cons, List.map_nil, List.sum_cons, List.sum_nil]
        have hw0 : w ≠ 0 := ne_of_gt how
        refine ⟨by ring, ?_, ?_⟩
        · field_simp; ring
        · have : v - (w * v + 0) / (w + 0) = 0 := by field_simp; ring
          rw [this]; ring
      · obtain ⟨e1, e2, e3⟩ := ih2 hne
        have hp := totW_pos _ hne hpos'
        have hp' : 0 < totW (usable h ++ [(v, w)]) := by
          simp only [totW, List.map_append, List.sum_append, List.map_cons, List.map_nil,
            List.sum_cons, List.sum_nil] at hp ⊢
          linarith
        rw [wDev_eq _ (ne_of_gt hp)] at e3
        rw [wDev_eq _ (ne_of_gt hp')]
        unfold wMean at e2 ⊢
        have ht : totW (usable h ++ [(v, w)]) = totW (usable h) + w := by
          simp [totW]
        rw [ht] at hp' ⊢
        simp only [Est.add]
        rw [if_pos (by rw [e1]; exact hp), e1, e2, e3]
        simp only [List.map_append, List.sum_append, List.map_cons, List.map_nil,
            List.sum_cons, List.sum_nil]
        have n1 := ne_of_gt hp
        have n2 := ne_of_gt hp'
        refine ⟨trivial, ?_, ?_⟩
        · field_simp; ring
        · field_simp; ring

/-- C33: after any history of positively weighted observations (missing and
infinite values are ignored) with at least one usable one, weight, mean and
variance are the weighted ones. -/
theorem C33_weighted_moments (h : List (Option ℚ × ℚ)) (hw : ∀ o ∈ h, 0 < o.2)
    (hne : usable h ≠ []) :
    (Est.run h).weightSum = totW (usable h) ∧ (Est.run h).mean = wMean (usable h) ∧
    (Est.run h).variance =
      if totW (usable h) > 1 then wDev (usable h) / (totW (usable h) - 1) else 0 := by
  obtain ⟨h1, h2, h3⟩ := (Est.run_spec h hw).2 hne
  exact ⟨h1, h2, by simp only [Est.variance, h1, h3]⟩

/-- C33: the order of the observations does not matter. -/
theorem C33_order_independent (h h' : List (Option ℚ × ℚ)) (hp : h.Perm h')
    (hw : ∀ o ∈ h, 0 < o.2) :
    (Est.run h).weightSum = (Est.run h').weightSum ∧ (Est.run h).mean = (Est.run h').mean ∧
    (Est.run h).variance = (Est.run h').variance := by
  have hw' : ∀ o ∈ h', 0 < o.2 := fun o ho => hw o (hp.mem_iff.mpr ho)
  have hu : (usable h).Perm (usable h') := hp.filterMap _
  have ht : totW (usable h) = totW (usable h') := (hu.map _).sum_eq
  have hm : wMean (usable h) = wMean (usable h') := by
    unfold wMean; rw [ht, (hu.map _).sum_eq]
  have hd : wDev (usable h) = wDev (usable h') := by
    unfold wDev; rw [hm, (hu.map _).sum_eq]
  by_cases hne : usable h = []
  · have hne' : usable h' = [] := by rw [hne] at hu; exact hu.symm.eq_nil
    rw [(Est.run_spec h hw).1 hne, (Est.run_spec h' hw').1 hne']
    exact ⟨rfl, rfl, rfl⟩
  · have hne' : usable h' ≠ [] := by
      intro e; rw [e] at hu; exact hne hu.eq_nil
    obtain ⟨a1, a2, a3⟩ := C33_weighted_moments h hw hne
    obtain ⟨b1, b2, b3⟩ := C33_weighted_moments h' hw' hne'
    exact ⟨by rw [a1, b1, ht], by rw [a2, b2, hm], by rw [a3, b3, ht, hd]⟩

/-- C33: the variance is never negative, so its square root is defined. -/
theorem C33_variance_nonneg (h : List (Option ℚ × ℚ)) (hw : ∀ o ∈ h, 0 < o.2) :
    0 ≤ (Est.run h).variance := by
  by_cases hne : usable h = []
  · rw [(Est.run_spec h hw).1 hne]; simp [Est.variance]
  · rw [(C33_weighted_moments h hw hne).2.2]
    split_ifs with h1
    · apply div_nonneg
      · unfold wDev
        apply List.sum_nonneg
        intro x hx
        obtain ⟨o, ho, rfl⟩ := List.mem_map.mp hx
        obtain ⟨p, hp, hpo⟩ := List.mem_filterMap.mp ho
        have := hw p hp
        cases hp1 : p.1 with
        | none => rw [hp1] at hpo; cases hpo
        | some u =>
          rw [hp1] at hpo
          simp only [Option.map_some, Option.some.injEq] at hpo
          subst hpo
          positivity
      · linarith
    · exact le_refl _

/-- Non-vacuity of C33. -/
example : (Est.run [(some 1, 1), (none, 5), (some 3, 2), (some 5, 1)]).mean = 3 ∧
    (Est.run [(some 1, 1), (none, 5), (some 3, 2), (some 5, 1)]).variance = 8/3 := by
  decide +kernel

/-! ### Gaussian attribute observer -/

/-- Per-class record: estimator, smallest and largest value. -/
structure ClsRec where
  est : Est
  lo : ℚ
  hi : ℚ

/-- The observer's three dictionaries, keyed by class, kept sorted by key. -/
abbrev GObs := List (Nat × ClsRec)

/-- Entry for a class seen before, lines 28-32 and 44. -/
def ClsRec.update (r : ClsRec) (v w : ℚ) : ClsRec :=
  ⟨r.est.add (some v) w, if v < r.lo then v else r.lo, if v > r.hi then v else r.hi⟩

/-- `update`, lines 23-44 (the value `none` is ignored, new classes are inserted in
key order). -/
def gUpdate : GObs → Nat → ℚ → ℚ → GObs
  | [], c, v, w => [(c, ⟨({} : Est).add (some v) w, v, v⟩)]
  | (d, r) :: rest, c, v, w =>
    if c = d then (d, r.update v w) :: rest
    else if c < d then (c, ⟨({} : Est).add (some v) w, v, v⟩) :: (d, r) :: rest
    else (d, r) :: gUpdate rest c v w

/-- `get_split_point_suggestions`, lines 66-82, for `n` bins: the overall minimum
and maximum are folded over the classes, then the interior grid points are kept. -/
def splitPoints (n : Nat) (o : GObs) : List ℚ :=
  match o with
  | [] => []
  | (_, r) :: rest =>
    let lo := rest.foldl (fun m p => if p.2.lo < m then p.2.lo else m) r.lo
    let hi := rest.foldl (fun m p => if p.2.hi > m then p.2.hi else m) r.hi
    let bin := (hi - lo) / (n + 1)
    ((List.range n).map fun i : Nat => lo + bin * ((i : ℚ) + 1)).filter fun s => lo < s ∧ s < hi

/-- `estimated_weight_lessthan_equalto_greaterthan_value`, gaussian_estimator.py
81-97.  `pdf` is the density, `cdf` is `normal_probability((v-mean)/std)`, used
when the variance is positive. -/
def Est.weights (pdf cdf : Est → ℚ → ℚ) (e : Est) (v : ℚ) : ℚ × ℚ × ℚ :=
  let eq := pdf e v * e.weightSum
  let less :=
    if e.variance > 0 then cdf e v * e.weightSum - eq
    else if v < e.mean then e.weightSum - eq else 0
  let greater := e.weightSum - eq - less
  (less, eq, if greater < 0 then 0 else greater)

/-- `probability_density` when the variance is zero, lines 77-79. -/
def degeneratePdf (e : Est) (v : ℚ) : ℚ := if e.weightSum > 0 ∧ v = e.mean then 1 else 0

/-- `get_class_dists_from_binary_split`, lines 84-101: per class the left and right
weights; an absent dictionary entry is `none`. -/
def gSplit (pdf cdf : Est → ℚ → ℚ) (o : GObs) (s : ℚ) : List (Nat × Option ℚ × Option ℚ) :=
  o.map fun p =>
    if s < p.2.lo then (p.1, none, some p.2.est.weightSum)
    else if s ≥ p.2.hi then (p.1, some p.2.est.weightSum, none)
    else
      let t := p.2.est.weights pdf cdf s
      (p.1, some (t.1 + t.2.1), some t.2.2)

/-- Observations (class, value, weight) of one class. -/
def ofClass (h : List (Nat × ℚ × ℚ)) (c : Nat) : List (ℚ × ℚ) :=
  (h.filter fun o => o.1 = c).map Prod.snd

/-- The observer after a history of (class, value, weight). -/
def gRun (h : List (Nat × ℚ × ℚ)) : GObs := h.foldl (fun o p => gUpdate o p.1 p.2.1 p.2.2) []

/-- What is known of one class record. -/
def RecOk (l : List (ℚ × ℚ)) (r : ClsRec) : Prop :=
  r.est = Est.run (l.map fun o => (some o.1, o.2)) ∧
  (∀ o ∈ l, r.lo ≤ o.1) ∧ (∃ o ∈ l, o.1 = r.lo) ∧ (∀ o ∈ l, o.1 ≤ r.hi) ∧ (∃ o ∈ l, o.1 = r.hi)

theorem RecOk.first (v w : ℚ) : RecOk [(v, w)] ⟨({} : Est).add (some v) w, v, v⟩ := by
  refine ⟨rfl, by simp, by simp, by simp, by simp⟩

theorem RecOk.update {l : List (ℚ × ℚ)} {r : ClsRec} (h : RecOk l r) (v w : ℚ) :
    RecOk (l ++ [(v, w)]) (r.update v w) := by
  obtain ⟨h1, h2, h3, h4, h5⟩ := h
  have e1 : ∀ o ∈ l ++ [(v, w)], (r.update v w).lo ≤ o.1 := by
    intro o ho
    simp only [ClsRec.update]
    rcases List.mem_append.mp ho with ho | ho
    · have := h2 o ho; split_ifs <;> linarith
    · simp only [List.mem_singleton] at ho; subst ho; simp only; split_ifs <;> linarith
  have e2 : ∀ o ∈ l ++ [(v, w)], o.1 ≤ (r.update v w).hi := by
    intro o ho
    simp only [ClsRec.update]
    rcases List.mem_append.mp ho with ho | ho
    · have := h4 o ho; split_ifs <;> linarith
    · simp only [List.mem_singleton] at ho; subst ho; simp only; split_ifs <;> linarith
  refine ⟨?_, e1, ?_, e2, ?_⟩
  · simp [ClsRec.update, h1, Est.run]
  · simp only [ClsRec.update]
    split_ifs
    · exact ⟨(v, w), by simp, rfl⟩
    · obtain ⟨o, ho, e⟩ := h3; exact ⟨o, by simp [ho], e⟩
  · simp only [ClsRec.update]
    split_ifs
    · exact ⟨(v, w), by simp, rfl⟩
    · obtain ⟨o, ho, e⟩ := h5; exact ⟨o, by simp [ho], e⟩

/-- The keys are increasing. -/
def SortedKeys (o : GObs) : Prop := o.Pairwise fun a b => a.1 < b.1

theorem gUpdate_keys (o : GObs) (c : Nat) (v w : ℚ) :
    ∀ p ∈ gUpdate o c v w, p.1 = c ∨ ∃ q ∈ o, q.1 = p.1 := by
  induction o with
  | nil => intro p hp; simp [gUpdate] at hp; subst hp; simp
  | cons a o ih =>
    obtain ⟨d, r⟩ := a
    intro p hp
    rw [gUpdate] at hp
    split_ifs at hp with h1 h2
    · rcases List.mem_cons.mp hp with rfl | hp
      · exact .inl h1.symm
      · exact .inr ⟨p, by simp [hp], rfl⟩
    · rcases List.mem_cons.mp hp with rfl | hp
      · exact .inl rfl
      · exact .inr ⟨p, hp, rfl⟩
    · rcases List.mem_cons.mp hp with rfl | hp
      · exact .inr ⟨_, by simp, rfl⟩
      · rcases ih p hp with h | ⟨q, hq, e⟩
        · exact .inl h
        · exact .inr ⟨q, by simp [hq], e⟩

theorem gUpdate_sorted (o : GObs) (c : Nat) (v w : ℚ) (h : SortedKeys o) :
    SortedKeys (gUpdate o c v w) := by
  induction o with
  | nil => simp [gUpdate, SortedKeys]
  | cons a o ih =>
    obtain ⟨d, r⟩ := a
    obtain ⟨h1, h2⟩ := List.pairwise_cons.mp h
    rw [gUpdate]
    split_ifs with e1 e2
    · exact List.pairwise_cons.mpr ⟨h1, h2⟩
    · refine List.pairwise_cons.mpr ⟨?_, h⟩
      intro q hq
      rcases List.mem_cons.mp hq with rfl | hq
      · exact e2
      · exact lt_trans e2 (h1 q hq)
    · refine List.pairwise_cons.mpr ⟨?_, ih h2⟩
      intro q hq
      rcases gUpdate_keys o c v w q hq with e | ⟨q', hq', e⟩
      · show d < q.1
        omega
      · rw [← e]; exact h1 q' hq'

/-- A list of observations keyed by class is represented by the observer. -/
def Represents (f : Nat → List (ℚ × ℚ)) (o : GObs) : Prop :=
  SortedKeys o ∧ (∀ p ∈ o, RecOk (f p.1) p.2) ∧ ∀ c, f c ≠ [] → ∃ p ∈ o, p.1 = c

theorem gUpdate_rec (o : GObs) (c : Nat) (v w : ℚ) (f g : Nat → List (ℚ × ℚ)) (hs : SortedKeys o)
    (hf : ∀ p ∈ o, RecOk (f p.1) p.2) (hfc : (∃ p ∈ o, p.1 = c) ∨ f c = [])
    (hg : ∀ d, g d = if d = c then f c ++ [(v, w)] else f d) :
    (∀ p ∈ gUpdate o c v w, RecOk (g p.1) p.2) ∧ (∃ p ∈ gUpdate o c v w, p.1 = c) ∧
    ∀ p ∈ o, ∃ q ∈ gUpdate o c v w, q.1 = p.1 := by
  induction o with
  | nil =>
    have hc : f c = [] := by
      rcases hfc with ⟨p, hp, _⟩ | h
      · cases hp
      · exact h
    refine ⟨?_, ⟨_, by simp [gUpdate]; rfl, rfl⟩, by simp⟩
    intro p hp
    simp only [gUpdate, List.mem_singleton] at hp
    subst hp
    rw [hg, if_pos rfl, hc]
    exact RecOk.first v w
  | cons a o ih =>
    obtain ⟨d, r⟩ := a
    obtain ⟨h1, h2⟩ := List.pairwise_cons.mp hs
    have hr := hf (d, r) (by simp)
    rw [gUpdate]
    split_ifs with e1 e2
    · subst e1
      refine ⟨?_, ⟨_, by simp; exact .inl rfl, rfl⟩, ?_⟩
      · intro p hp
        rcases List.mem_cons.mp hp with rfl | hp
        · rw [hg, if_pos rfl]; exact hr.update v w
        · have hlt := h1 p hp
          rw [hg, if_neg (by simp only at hlt; omega)]
          exact hf p (by simp [hp])
      · intro p hp
        rcases List.mem_cons.mp hp with rfl | hp
        · exact ⟨_, List.mem_cons_self, rfl⟩
        · exact ⟨p, by simp [hp], rfl⟩
    · have hnot : ∀ p ∈ (d, r) :: o, c < p.1 := by
        intro p hp
        rcases List.mem_cons.mp hp with rfl | hp
        · exact e2
        · exact lt_trans e2 (h1 p hp)
      have hc : f c = [] := by
        rcases hfc with ⟨p, hp, e⟩ | h
        · have := hnot p hp; omega
        · exact h
      refine ⟨?_, ⟨_, by simp; exact .inl rfl, rfl⟩, ?_⟩
      · intro p hp
        rcases List.mem_cons.mp hp with rfl | hp
        · rw [hg, if_pos rfl, hc]; exact RecOk.first v w
        · have hlt := hnot p hp
          rw [hg, if_neg (by omega)]
          exact hf p hp
      · intro p hp; exact ⟨p, by simp only [List.mem_cons] at hp ⊢; exact .inr hp, rfl⟩
    · have hfc' : (∃ p ∈ o, p.1 = c) ∨ f c = [] := by
        rcases hfc with ⟨p, hp, e⟩ | h
        · rcases List.mem_cons.mp hp with rfl | hp
          · exact absurd e.symm e1
          · exact .inl ⟨p, hp, e⟩
        · exact .inr h
      obtain ⟨i1, ⟨q, hq, e⟩, i3⟩ := ih h2 (fun p hp => hf p (by simp [hp])) hfc'
      refine ⟨?_, ⟨q, by simp [hq], e⟩, ?_⟩
      · intro p hp
        rcases List.mem_cons.mp hp with rfl | hp
        · rw [hg, if_neg (fun e => e1 e.symm)]; exact hr
        · exact i1 p hp
      · intro p hp
        rcases List.mem_cons.mp hp with rfl | hp
        · exact ⟨_, List.mem_cons_self, rfl⟩
        · obtain ⟨q, hq, e⟩ := i3 p hp
          exact ⟨q, by simp [hq], e⟩

theorem gRun_represents (h : List (Nat × ℚ × ℚ)) :
    SortedKeys (gRun h) ∧ (∀ p ∈ gRun h, RecOk (ofClass h p.1) p.2) ∧
    (∀ c, (∃ p ∈ gRun h, p.1 = c) ↔ ofClass h c ≠ []) := by
  induction h using List.reverseRecOn with
  | nil => simp [gRun, SortedKeys, ofClass]
  | append_singleton h o ih =>
    obtain ⟨i1, i2, i3⟩ := ih
    obtain ⟨c, v, w⟩ := o
    have hrun : gRun (h ++ [(c, v, w)]) = gUpdate (gRun h) c v w := by simp [gRun]
    have hg : ∀ d, ofClass (h ++ [(c, v, w)]) d =
        if d = c then ofClass h c ++ [(v, w)] else ofClass h d := by
      intro d
      by_cases hd : d = c
      · subst hd; simp [ofClass]
      · have : ¬ c = d := fun e => hd e.symm
        simp [ofClass, hd, this]
    have hfc : (∃ p ∈ gRun h, p.1 = c) ∨ ofClass h c = [] := by
      by_cases he : ofClass h c = []
      · exact .inr he
      · exact .inl ((i3 c).mpr he)
    obtain ⟨j1, j2, j3⟩ := gUpdate_rec (gRun h) c v w (ofClass h) _ i1 i2 hfc hg
    rw [hrun]
    refine ⟨gUpdate_sorted _ _ _ _ i1, j1, ?_⟩
    intro d
    rw [hg]
    constructor
    · rintro ⟨p, hp, rfl⟩
      by_cases hd : p.1 = c
      · rw [if_pos hd]; simp
      · rw [if_neg hd]
        rcases gUpdate_keys (gRun h) c v w p hp with e | ⟨q, hq, e⟩
        · exact absurd e hd
        · exact (i3 p.1).mp ⟨q, hq, e⟩
    · intro hne
      by_cases hd : d = c
      · subst hd; exact j2
      · rw [if_neg hd] at hne
        obtain ⟨p, hp, e⟩ := (i3 d).mpr hne
        obtain ⟨q, hq, e'⟩ := j3 p hp
        exact ⟨q, hq, by rw [e', e]⟩

/-- Entries of a split, with an absent entry counting as 0. -/
def leftOf (t : Nat × Option ℚ × Option ℚ) : ℚ := t.2.1.getD 0
/-- See `leftOf`. -/
def rightOf (t : Nat × Option ℚ × Option ℚ) : ℚ := t.2.2.getD 0

/-- C63: for every history of positively weighted observations, every split value
and every distribution function with values in [0,1], the two branch
distributions have one entry per observed class, are non-negative, and sum class
by class to the observed weight of the class. -/
theorem C63_split_conserves_weight (pdf cdf : Est → ℚ → ℚ)
    (hpdf : ∀ e v, e.variance = 0 → pdf e v = degeneratePdf e v)
    (hcdf : ∀ e v, 0 ≤ cdf e v ∧ cdf e v ≤ 1)
    (h : List (Nat × ℚ × ℚ)) (hw : ∀ o ∈ h, 0 < o.2.2) (s : ℚ) :
    (∀ c, (∃ t ∈ gSplit pdf cdf (gRun h) s, t.1 = c) ↔ ∃ o ∈ h, o.1 = c) ∧
    (∀ t ∈ gSplit pdf cdf (gRun h) s, 0 ≤ leftOf t ∧ 0 ≤ rightOf t ∧
      leftOf t + rightOf t = ((h.filter fun o => o.1 = t.1).map fun o => o.2.2).sum) := by
  obtain ⟨h1, h2, h3⟩ := gRun_represents h
  have hkey : ∀ (p : Nat × ClsRec), (if s < p.2.lo then (p.1, none, some p.2.est.weightSum)
      else if s ≥ p.2.hi then (p.1, some p.2.est.weightSum, none)
      else (p.1, some ((p.2.est.weights pdf cdf s).1 + (p.2.est.weights pdf cdf s).2.1),
        some (p.2.est.weights pdf cdf s).2.2) : Nat × Option ℚ × Option ℚ).1 = p.1 := by
    intro p; split_ifs <;> rfl
  constructor
  · intro c
    have : ofClass h c ≠ [] ↔ ∃ o ∈ h, o.1 = c := by
      unfold ofClass
      rw [ne_eq, List.map_eq_nil_iff, List.filter_eq_nil_iff]
      push_neg
      simp
    rw [← this, ← h3 c]
    unfold gSplit
    constructor
    · rintro ⟨t, ht, e⟩
      obtain ⟨p, hp, rfl⟩ := List.mem_map.mp ht
      exact ⟨p, hp, by rw [← e]; exact (hkey p).symm⟩
    · rintro ⟨p, hp, e⟩
      exact ⟨_, List.mem_map.mpr ⟨p, hp, rfl⟩, by rw [← e]; exact hkey p⟩
  · intro t ht
    obtain ⟨p, hp, rfl⟩ := List.mem_map.mp ht
    obtain ⟨r1, _, r3, _⟩ := h2 p hp
    have hpos : ∀ o ∈ (ofClass h p.1).map (fun o => ((some o.1 : Option ℚ), o.2)), 0 < o.2 := by
      intro o ho
      obtain ⟨q, hq, rfl⟩ := List.mem_map.mp ho
      obtain ⟨q', hq', rfl⟩ := List.mem_map.mp hq
      exact hw q' (List.mem_filter.mp hq').1
    have hus : usable ((ofClass h p.1).map fun o => ((some o.1 : Option ℚ), o.2)) = ofClass h p.1 := by
      unfold usable
      induction ofClass h p.1 with
      | nil => rfl
      | cons a l ih => simpa using ih
    have hne : ofClass h p.1 ≠ [] := (h3 p.1).mp ⟨p, hp, rfl⟩
    obtain ⟨m1, m2, m3⟩ := C33_weighted_moments _ hpos (by rw [hus]; exact hne)
    have hvn := C33_variance_nonneg _ hpos
    rw [hus] at m1
    rw [← r1] at m1 hvn
    have hW : p.2.est.weightSum = ((h.filter fun o => o.1 = p.1).map fun o => o.2.2).sum := by
      rw [m1, totW, ofClass, List.map_map]; rfl
    have hWpos : 0 < p.2.est.weightSum := by
      rw [m1]
      apply totW_pos _ hne
      intro o ho
      obtain ⟨q', hq', rfl⟩ := List.mem_map.mp ho
      exact hw q' (List.mem_filter.mp hq').1
    simp only
    rw [hkey p, ← hW]
    clear r1 m2 m3 r3
    generalize p.2.est = e at *
    split_ifs with c1 c2
    · simp only [leftOf, rightOf, Option.getD_none, Option.getD_some]
      exact ⟨le_refl _, le_of_lt hWpos, by ring⟩
    · simp only [leftOf, rightOf, Option.getD_none, Option.getD_some]
      exact ⟨le_of_lt hWpos, le_refl _, by ring⟩
    · simp only [leftOf, rightOf, Option.getD_some, Est.weights]
      by_cases hv : e.variance > 0
      · simp only [if_pos hv]
        obtain ⟨d1, d2⟩ := hcdf e s
        have b1 : 0 ≤ cdf e s * e.weightSum := mul_nonneg d1 (le_of_lt hWpos)
        have b2 : cdf e s * e.weightSum ≤ e.weightSum := by
          nlinarith
        rw [if_neg (by linarith)]
        refine ⟨by linarith, by linarith, by ring⟩
      · simp only [if_neg hv]
        have hv0 : e.variance = 0 := le_antisymm (not_lt.mp hv) hvn
        rw [hpdf e s hv0, degeneratePdf]
        by_cases hs : s = e.mean
        · simp only [hs, hWpos, gt_iff_lt, and_self, if_true, lt_self_iff_false, if_false]
          rw [if_neg (by linarith)]
          refine ⟨by linarith, by linarith, by ring⟩
        · simp only [hs, and_false, if_false]
          by_cases hlt : s < e.mean
          · rw [if_pos hlt, if_neg (by linarith)]
            refine ⟨by linarith, by linarith, by ring⟩
          · rw [if_neg hlt, if_neg (by linarith)]
            refine ⟨by linarith, by linarith, by ring⟩

theorem foldl_min_spec (l : GObs) (a : ℚ) :
    let m := l.foldl (fun m p => if p.2.lo < m then p.2.lo else m) a
    m ≤ a ∧ (∀ p ∈ l, m ≤ p.2.lo) ∧ (m = a ∨ ∃ p ∈ l, m = p.2.lo) := by
  induction l generalizing a with
  | nil => simp
  | cons x l ih =>
    intro m
    have := ih (if x.2.lo < a then x.2.lo else a)
    simp only at this
    obtain ⟨i1, i2, i3⟩ := this
    change m ≤ _ at i1
    change ∀ p ∈ l, m ≤ _ at i2
    change m = _ ∨ ∃ p ∈ l, m = _ at i3
    by_cases hx : x.2.lo < a
    · rw [if_pos hx] at i1 i3
      refine ⟨by linarith, ?_, ?_⟩
      · intro p hp
        rcases List.mem_cons.mp hp with rfl | hp
        · exact i1
        · exact i2 p hp
      · rcases i3 with e | ⟨p, hp, e⟩
        · exact .inr ⟨x, by simp, e⟩
        · exact .inr ⟨p, by simp [hp], e⟩
    · rw [if_neg hx] at i1 i3
      refine ⟨i1, ?_, ?_⟩
      · intro p hp
        rcases List.mem_cons.mp hp with rfl | hp
        · linarith
        · exact i2 p hp
      · rcases i3 with e | ⟨p, hp, e⟩
        · exact .inl e
        · exact .inr ⟨p, by simp [hp], e⟩

theorem foldl_max_spec (l : GObs) (a : ℚ) :
    let m := l.foldl (fun m p => if p.2.hi > m then p.2.hi else m) a
    a ≤ m ∧ (∀ p ∈ l, p.2.hi ≤ m) ∧ (m = a ∨ ∃ p ∈ l, m = p.2.hi) := by
  induction l generalizing a with
  | nil => simp
  | cons x l ih =>
    intro m
    have := ih (if x.2.hi > a then x.2.hi else a)
    simp only at this
    obtain ⟨i1, i2, i3⟩ := this
    change _ ≤ m at i1
    change ∀ p ∈ l, _ ≤ m at i2
    change m = _ ∨ ∃ p ∈ l, m = _ at i3
    by_cases hx : x.2.hi > a
    · rw [if_pos hx] at i1 i3
      refine ⟨by linarith, ?_, ?_⟩
      · intro p hp
        rcases List.mem_cons.mp hp with rfl | hp
        · exact i1
        · exact i2 p hp
      · rcases i3 with e | ⟨p, hp, e⟩
        · exact .inr ⟨x, by simp, e⟩
        · exact .inr ⟨p, by simp [hp], e⟩
    · rw [if_neg hx] at i1 i3
      refine ⟨i1, ?_, ?_⟩
      · intro p hp
        rcases List.mem_cons.mp hp with rfl | hp
        · linarith
        · exact i2 p hp
      · rcases i3 with e | ⟨p, hp, e⟩
        · exact .inl e
        · exact .inr ⟨p, by simp [hp], e⟩

/-- C63: the suggested thresholds are the `n` equally spaced points strictly
between the smallest and the largest value observed over all classes; there are
none if all values coincide. -/
theorem C63_split_points (n : Nat) (h : List (Nat × ℚ × ℚ)) (hne : h ≠ []) :
    ∃ lo hi, (∃ o ∈ h, o.2.1 = lo) ∧ (∀ o ∈ h, lo ≤ o.2.1) ∧
      (∃ o ∈ h, o.2.1 = hi) ∧ (∀ o ∈ h, o.2.1 ≤ hi) ∧
      splitPoints n (gRun h) = (if lo < hi then
        (List.range n).map fun i : Nat => lo + (hi - lo) / (n + 1) * ((i : ℚ) + 1) else []) := by
  obtain ⟨h1, h2, h3⟩ := gRun_represents h
  have hgne : gRun h ≠ [] := by
    intro e
    obtain ⟨o, ho⟩ := List.exists_mem_of_ne_nil h hne
    have : ofClass h o.1 ≠ [] := by
      intro e'
      have hm : o.2 ∈ ofClass h o.1 := List.mem_map.mpr ⟨o, by simp [ho], rfl⟩
      rw [e'] at hm; cases hm
    obtain ⟨p, hp, _⟩ := (h3 o.1).mpr this
    rw [e] at hp; cases hp
  cases hg : gRun h with
  | nil => exact absurd hg hgne
  | cons a rest =>
    obtain ⟨c, r⟩ := a
    rw [hg] at h2 h3
    obtain ⟨m1, m2, m3⟩ := foldl_min_spec rest r.lo
    obtain ⟨M1, M2, M3⟩ := foldl_max_spec rest r.hi
    simp only [splitPoints]
    set lo := rest.foldl (fun m p => if p.2.lo < m then p.2.lo else m) r.lo
    set hi := rest.foldl (fun m p => if p.2.hi > m then p.2.hi else m) r.hi
    have hmem : ∀ c (q : ℚ × ℚ), q ∈ ofClass h c → ∃ o ∈ h, o.2.1 = q.1 := by
      intro c q hq
      obtain ⟨o, ho, rfl⟩ := List.mem_map.mp hq
      exact ⟨o, (List.mem_filter.mp ho).1, rfl⟩
    have hlo : ∀ p ∈ (c, r) :: rest, lo ≤ p.2.lo := by
      intro p hp
      rcases List.mem_cons.mp hp with rfl | hp
      · exact m1
      · exact m2 p hp
    have hhi : ∀ p ∈ (c, r) :: rest, p.2.hi ≤ hi := by
      intro p hp
      rcases List.mem_cons.mp hp with rfl | hp
      · exact M1
      · exact M2 p hp
    have hrec : ∀ o ∈ h, ∃ p ∈ (c, r) :: rest, p.2.lo ≤ o.2.1 ∧ o.2.1 ≤ p.2.hi := by
      intro o ho
      have hm : o.2 ∈ ofClass h o.1 := List.mem_map.mpr ⟨o, by simp [ho], rfl⟩
      obtain ⟨p, hp, e⟩ := (h3 o.1).mpr (by intro e'; rw [e'] at hm; cases hm)
      obtain ⟨_, q2, _, q4, _⟩ := h2 p hp
      rw [e] at q2 q4
      exact ⟨p, hp, q2 _ hm, q4 _ hm⟩
    have elo : ∃ o ∈ h, o.2.1 = lo := by
      have : ∃ p ∈ (c, r) :: rest, lo = p.2.lo := by
        rcases m3 with e | ⟨p, hp, e⟩
        · exact ⟨(c, r), by simp, e⟩
        · exact ⟨p, by simp [hp], e⟩
      obtain ⟨p, hp, e⟩ := this
      obtain ⟨_, _, ⟨q, hq, e'⟩, _⟩ := h2 p hp
      obtain ⟨o, ho, e''⟩ := hmem _ _ hq
      exact ⟨o, ho, by rw [e'', e', e]⟩
    have ehi : ∃ o ∈ h, o.2.1 = hi := by
      have : ∃ p ∈ (c, r) :: rest, hi = p.2.hi := by
        rcases M3 with e | ⟨p, hp, e⟩
        · exact ⟨(c, r), by simp, e⟩
        · exact ⟨p, by simp [hp], e⟩
      obtain ⟨p, hp, e⟩ := this
      obtain ⟨_, _, _, _, ⟨q, hq, e'⟩⟩ := h2 p hp
      obtain ⟨o, ho, e''⟩ := hmem _ _ hq
      exact ⟨o, ho, by rw [e'', e', e]⟩
    refine ⟨lo, hi, elo, ?_, ehi, ?_, ?_⟩
    · intro o ho
      obtain ⟨p, hp, a1, a2⟩ := hrec o ho
      exact le_trans (hlo p hp) a1
    · intro o ho
      obtain ⟨p, hp, a1, a2⟩ := hrec o ho
      exact le_trans a2 (hhi p hp)
    · have hn : (0 : ℚ) < (n : ℚ) + 1 := by positivity
      by_cases hlt : lo < hi
      · rw [if_pos hlt]
        apply List.filter_eq_self.mpr
        intro s hs
        obtain ⟨i, hi', rfl⟩ := List.mem_map.mp hs
        have hin : (i : ℚ) + 1 < n + 1 := by
          have := List.mem_range.mp hi'
          have : i + 1 < n + 1 := by omega
          exact_mod_cast this
        have hb : 0 < (hi - lo) / ((n : ℚ) + 1) := div_pos (by linarith) hn
        have hi0 : (0 : ℚ) < (i : ℚ) + 1 := by positivity
        have hfull : (hi - lo) / ((n : ℚ) + 1) * (n + 1) = hi - lo := by field_simp
        have : (hi - lo) / ((n : ℚ) + 1) * (i + 1) < hi - lo := by
          calc _ < (hi - lo) / ((n : ℚ) + 1) * (n + 1) := mul_lt_mul_of_pos_left hin hb
            _ = hi - lo := hfull
        have : 0 < (hi - lo) / ((n : ℚ) + 1) * (i + 1) := mul_pos hb hi0
        simp only [decide_eq_true_eq]
        constructor <;> linarith
      · rw [if_neg hlt]
        apply List.filter_eq_nil_iff.mpr
        intro s _
        simp only [decide_eq_true_eq]
        rintro ⟨a, b⟩
        exact hlt (lt_trans a b)

/-- C63, a defect: with a total class weight of at most 1 the variance counts as
zero, and then a class lying almost entirely to the right of the threshold is
assigned to the left branch (`value < mean` gives the whole weight to "less"). -/
theorem C63_light_class_on_wrong_side (pdf cdf : Est → ℚ → ℚ)
    (hpdf : ∀ e v, e.variance = 0 → pdf e v = degeneratePdf e v) :
    gSplit pdf cdf (gRun [(0, 0, 1/10), (0, 10, 1/10), (0, 10, 1/10)]) 1 =
      [(0, some (3/10), some 0)] := by
  have h : gRun [(0, 0, 1/10), (0, 10, 1/10), (0, 10, 1/10)] =
      [(0, ⟨⟨3/10, 20/3, 20/3⟩, 0, 10⟩)] := by
    simp [gRun, gUpdate, ClsRec.update, Est.add]
    norm_num
  rw [h]
  have hv : (⟨3/10, 20/3, 20/3⟩ : Est).variance = 0 := by simp [Est.variance]; norm_num
  simp only [gSplit, List.map_cons, List.map_nil, Est.weights, hv, hpdf _ _ hv, degeneratePdf]
  norm_num

/-- Non-vacuity of C63. -/
example : gSplit (fun _ _ => 0) (fun _ _ => 1/4) (gRun [(0, 0, 1), (0, 4, 1), (1, 3, 2), (2, 1, 1)]) 2 =
    [(0, some (1/2), some (3/2)), (1, none, some 2), (2, some 1, none)] ∧
    splitPoints 3 (gRun [(0, 0, 1), (0, 4, 1), (1, 3, 2), (2, 1, 1)]) = [1, 2, 3] := by
  decide +kernel

end Verif.Trees
