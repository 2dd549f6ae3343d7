import Verif.Trees.Gaussian

/-!
Which split the observer of a numeric attribute proposes
(trees/_attribute_observer/numeric_attribute_class_observer_gaussian.py, and word for word the
same in rules/numeric_attribute_class_observer.py).  C278.

Simplifications: the merit is an arbitrary function of the two branch distributions, `⊥` for
`-inf`; the criterion object's own memory (rules) is in `Rules/Criterion.lean`.
-/

namespace Verif.Trees

/-! ### Model -/

/-- The loop of `get_best_evaluated_split_suggestion`, lines 54-64 (rules: 51-64): the best
suggestion so far, that is the threshold, the branch distributions and the merit. -/
def bestPoint {D : Type} (dist : ℚ → D) (merit : D → WithBot ℚ) :
    List ℚ → Option (ℚ × D × WithBot ℚ) → Option (ℚ × D × WithBot ℚ)
  | [], b => b
  | s :: l, none => bestPoint dist merit l (some (s, dist s, merit (dist s)))
  | s :: l, some b => bestPoint dist merit l (if merit (dist s) > b.2.2 then some (s, dist s, merit (dist s)) else some b)

/-- `get_best_evaluated_split_suggestion`: the candidates of `get_split_point_suggestions`
(lines 66-82; rules: 66-83), the distributions of `get_class_dists_from_binary_split` (lines
84-101; rules: 85-102). -/
def gBest (pdf cdf : Est → ℚ → ℚ) (merit : List (Nat × Option ℚ × Option ℚ) → WithBot ℚ) (bins : Nat) (o : GObs) :
    Option (ℚ × List (Nat × Option ℚ × Option ℚ) × WithBot ℚ) :=
  bestPoint (gSplit pdf cdf o) merit (splitPoints bins o) none

/-! ### Proofs -/

section
variable {D : Type} (dist : ℚ → D) (merit : D → WithBot ℚ)

/-- The loop from a best point so far: the first of the best. -/
theorem bestPoint_some (l : List ℚ) (b : ℚ × D × WithBot ℚ) :
    ∃ r, bestPoint dist merit l (some b) = some r ∧ b.2.2 ≤ r.2.2 ∧ (∀ s ∈ l, merit (dist s) ≤ r.2.2) ∧
      (r = b ∨ ∃ l1 s l2, l = l1 ++ s :: l2 ∧ r = (s, dist s, merit (dist s)) ∧ b.2.2 < r.2.2 ∧
        ∀ t ∈ l1, merit (dist t) < r.2.2) := by
  induction l generalizing b with
  | nil => exact ⟨b, rfl, le_refl _, by simp, .inl rfl⟩
  | cons s l ih =>
    simp only [bestPoint]
    by_cases h : merit (dist s) > b.2.2
    · rw [if_pos h]
      obtain ⟨r, e, h1, h2, h3⟩ := ih (s, dist s, merit (dist s))
      refine ⟨r, e, le_trans (le_of_lt h) h1, ?_, .inr ?_⟩
      · intro t ht
        rcases List.mem_cons.mp ht with rfl | ht
        · exact h1
        · exact h2 t ht
      · rcases h3 with rfl | ⟨l1, t, l2, e1, e2, e3, e4⟩
        · exact ⟨[], s, l, rfl, rfl, h, by simp⟩
        · refine ⟨s :: l1, t, l2, by rw [e1]; rfl, e2, lt_trans h e3, ?_⟩
          intro t ht
          rcases List.mem_cons.mp ht with rfl | ht
          · exact e3
          · exact e4 t ht
    · rw [if_neg h]
      obtain ⟨r, e, h1, h2, h3⟩ := ih b
      have hs : merit (dist s) ≤ b.2.2 := not_lt.mp h
      refine ⟨r, e, h1, ?_, ?_⟩
      · intro t ht
        rcases List.mem_cons.mp ht with rfl | ht
        · exact le_trans hs h1
        · exact h2 t ht
      · rcases h3 with rfl | ⟨l1, t, l2, e1, e2, e3, e4⟩
        · exact .inl rfl
        · refine .inr ⟨s :: l1, t, l2, by rw [e1]; rfl, e2, e3, ?_⟩
          intro t ht
          rcases List.mem_cons.mp ht with rfl | ht
          · exact lt_of_le_of_lt hs e3
          · exact e4 t ht

theorem bestPoint_none (l : List ℚ) (hne : l ≠ []) :
    ∃ l1 s l2, l = l1 ++ s :: l2 ∧ bestPoint dist merit l none = some (s, dist s, merit (dist s)) ∧
      (∀ t ∈ l, merit (dist t) ≤ merit (dist s)) ∧ ∀ t ∈ l1, merit (dist t) < merit (dist s) := by
  cases l with
  | nil => exact absurd rfl hne
  | cons s l =>
    simp only [bestPoint]
    obtain ⟨r, e, h1, h2, h3⟩ := bestPoint_some dist merit l (s, dist s, merit (dist s))
    rcases h3 with rfl | ⟨l1, u, l2, e1, rfl, e3, e4⟩
    · refine ⟨[], s, l, rfl, e, ?_, by simp⟩
      intro t ht
      rcases List.mem_cons.mp ht with rfl | ht
      · exact le_refl _
      · exact h2 t ht
    · refine ⟨s :: l1, u, l2, by rw [e1]; rfl, e, ?_, ?_⟩
      · intro t ht
        rcases List.mem_cons.mp ht with rfl | ht
        · exact h1
        · exact h2 t ht
      · intro t ht
        rcases List.mem_cons.mp ht with rfl | ht
        · exact e3
        · exact e4 t ht
end

/-! ### C278 -/

/-- **C278.** If two different values were observed, the threshold proposed is one of the `bins`
points that divide the range of the values observed into equal parts, no other has a larger
merit, and the smaller ones have a smaller merit; the distributions and the merit are those of the
split there. -/
theorem C278_best (pdf cdf : Est → ℚ → ℚ) (merit : List (Nat × Option ℚ × Option ℚ) → WithBot ℚ) (bins : Nat)
    (hb : 0 < bins) (h : List (Nat × ℚ × ℚ)) (lo hi : ℚ) (hlo : ∃ o ∈ h, o.2.1 = lo) (hlo' : ∀ o ∈ h, lo ≤ o.2.1)
    (hhi : ∃ o ∈ h, o.2.1 = hi) (hhi' : ∀ o ∈ h, o.2.1 ≤ hi) (hlt : lo < hi) :
    let point : Nat → ℚ := fun k => lo + (k + 1) * ((hi - lo) / (bins + 1))
    let m : Nat → WithBot ℚ := fun k => merit (gSplit pdf cdf (gRun h) (point k))
    ∃ k < bins, gBest pdf cdf merit bins (gRun h) = some (point k, gSplit pdf cdf (gRun h) (point k), m k) ∧
      (∀ j < bins, m j ≤ m k) ∧ ∀ j < k, m j < m k := by
  intro point m
  have hne : h ≠ [] := by
    rintro rfl; obtain ⟨o, ho, -⟩ := hlo; cases ho
  obtain ⟨lo', hi', a1, a2, a3, a4, hp⟩ := C63_split_points bins h hne
  have e1 : lo' = lo := by
    obtain ⟨o, ho, rfl⟩ := a1
    obtain ⟨o', ho', rfl⟩ := hlo
    exact le_antisymm (a2 o' ho') (hlo' o ho)
  have e2 : hi' = hi := by
    obtain ⟨o, ho, rfl⟩ := a3
    obtain ⟨o', ho', rfl⟩ := hhi
    exact le_antisymm (hhi' o ho) (a4 o' ho')
  subst e1 e2
  rw [if_pos hlt] at hp
  have hpm : splitPoints bins (gRun h) = (List.range bins).map point := by
    rw [hp]
    apply List.map_congr_left
    intro i _
    simp only [point]; ring
  unfold gBest
  rw [hpm]
  obtain ⟨l1, s, l2, q1, q2, q3, q4⟩ := bestPoint_none (gSplit pdf cdf (gRun h)) merit
    ((List.range bins).map point) (by simp; omega)
  have hk : l1.length < bins := by
    have := congrArg List.length q1
    simp at this
    omega
  have hget : ∀ (j : Nat) (hj : j < bins), ((List.range bins).map point)[j]? = some (point j) := by
    intro j hj; simp [hj]
  have hs : s = point l1.length := by
    have := hget l1.length hk
    rw [q1] at this
    simpa using this
  refine ⟨l1.length, hk, ?_, ?_, ?_⟩
  · rw [q2, hs]
  · intro j hj
    have := q3 (point j) (List.mem_map.mpr ⟨j, List.mem_range.mpr hj, rfl⟩)
    rw [hs] at this
    exact this
  · intro j hj
    have hj1 : l1[j]? = some (point j) := by
      have := hget j (by omega)
      rw [q1, List.getElem?_append_left hj] at this
      exact this
    have := q4 (point j) (List.mem_of_getElem? hj1)
    rw [hs] at this
    exact this

/-- **C278.** Without two different values nothing is proposed. -/
theorem C278_none (pdf cdf : Est → ℚ → ℚ) (merit : List (Nat × Option ℚ × Option ℚ) → WithBot ℚ) (bins : Nat)
    (h : List (Nat × ℚ × ℚ)) (hc : ∀ o ∈ h, ∀ o' ∈ h, o.2.1 = o'.2.1) :
    gBest pdf cdf merit bins (gRun h) = none := by
  cases h with
  | nil => rfl
  | cons o h =>
    obtain ⟨lo, hi, ⟨o1, a1, rfl⟩, -, ⟨o2, a2, rfl⟩, -, hp⟩ := C63_split_points bins (o :: h) (by simp)
    rw [if_neg (by rw [hc o1 a1 o2 a2]; exact lt_irrefl _)] at hp
    unfold gBest
    rw [hp]
    rfl

/-- Left weight of class `c` in the split at `s`. -/
def leftWeight (pdf cdf : Est → ℚ → ℚ) (o : GObs) (s : ℚ) (c : Nat) : ℚ :=
  ((gSplit pdf cdf o s).filter fun t => t.1 = c).foldl (fun a t => a + leftOf t) 0

/-- What one class contributes to the left side. -/
def recLeft (pdf cdf : Est → ℚ → ℚ) (r : ClsRec) (s : ℚ) : ℚ :=
  if s < r.lo then 0 else if s ≥ r.hi then r.est.weightSum
  else (r.est.weights pdf cdf s).1 + (r.est.weights pdf cdf s).2.1

theorem leftWeight_eq (pdf cdf : Est → ℚ → ℚ) (o : GObs) (s : ℚ) (c : Nat) :
    leftWeight pdf cdf o s c = ((o.filter fun p => p.1 = c).map fun p => recLeft pdf cdf p.2 s).sum := by
  unfold leftWeight
  have key : ∀ (o : GObs) (a : ℚ), ((gSplit pdf cdf o s).filter fun t => t.1 = c).foldl (fun a t => a + leftOf t) a =
      a + ((o.filter fun p => p.1 = c).map fun p => recLeft pdf cdf p.2 s).sum := by
    intro o
    induction o with
    | nil => intro a; simp [gSplit]
    | cons p o ih =>
      intro a
      have hcons : gSplit pdf cdf (p :: o) s = (if s < p.2.lo then (p.1, none, some p.2.est.weightSum)
          else if s ≥ p.2.hi then (p.1, some p.2.est.weightSum, none)
          else (p.1, some ((p.2.est.weights pdf cdf s).1 + (p.2.est.weights pdf cdf s).2.1),
            some (p.2.est.weights pdf cdf s).2.2)) :: gSplit pdf cdf o s := rfl
      rw [hcons]
      by_cases hp : p.1 = c
      · have h1 : (p :: o).filter (fun p => decide (p.1 = c)) = p :: o.filter (fun p => decide (p.1 = c)) := by
          simp [hp]
        rw [h1, List.map_cons, List.sum_cons]
        have hrl : recLeft pdf cdf p.2 s = if s < p.2.lo then 0 else if s ≥ p.2.hi then p.2.est.weightSum
            else (p.2.est.weights pdf cdf s).1 + (p.2.est.weights pdf cdf s).2.1 := rfl
        rw [hrl]
        split_ifs with c1 c2
        · simp only [List.filter_cons, hp, decide_true, if_true, List.foldl_cons, ih]
          simp only [leftOf, Option.getD_none]; ring
        · simp only [List.filter_cons, hp, decide_true, if_true, List.foldl_cons, ih]
          simp only [leftOf, Option.getD_some]; ring
        · simp only [List.filter_cons, hp, decide_true, if_true, List.foldl_cons, ih]
          simp only [leftOf, Option.getD_some]; ring
      · have h1 : (p :: o).filter (fun p => decide (p.1 = c)) = o.filter (fun p => decide (p.1 = c)) := by
          simp [hp]
        rw [h1]
        split_ifs with c1 c2 <;> simp only [List.filter_cons, hp, decide_false, Bool.false_eq_true, if_false, ih]
  rw [key]; simp

/-- With a total weight above 1 the left weight grows with the threshold. -/
theorem recLeft_mono (pdf cdf : Est → ℚ → ℚ) (hcdf : ∀ e v, 0 ≤ cdf e v ∧ cdf e v ≤ 1)
    (hmono : ∀ e v v', v ≤ v' → cdf e v ≤ cdf e v') (l : List (ℚ × ℚ)) (hw : ∀ o ∈ l, 0 < o.2) (r : ClsRec)
    (hr : RecOk l r) (h1 : 1 < totW l) (s s' : ℚ) (hs : s ≤ s') : recLeft pdf cdf r s ≤ recLeft pdf cdf r s' := by
  obtain ⟨r1, r2, ⟨o1, ho1, e1⟩, r4, ⟨o2, ho2, e2⟩⟩ := hr
  have hpos : ∀ o ∈ l.map (fun o => ((some o.1 : Option ℚ), o.2)), 0 < o.2 := by
    intro o ho
    obtain ⟨q, hq, rfl⟩ := List.mem_map.mp ho
    exact hw q hq
  have hus : usable (l.map fun o => ((some o.1 : Option ℚ), o.2)) = l := by
    unfold usable
    clear * -
    induction l with
    | nil => rfl
    | cons a l ih => simpa using ih
  have hne : l ≠ [] := List.ne_nil_of_mem ho1
  obtain ⟨m1, m2, m3⟩ := C33_weighted_moments _ hpos (by rw [hus]; exact hne)
  rw [hus, ← r1] at m1 m2 m3
  rw [if_pos h1] at m3
  have hW : 0 < r.est.weightSum := by rw [m1]; linarith
  -- between the bounds the variance is positive
  have hvar : r.lo < r.hi → r.est.variance > 0 := by
    intro hlt
    rw [m3]
    apply div_pos _ (by linarith)
    have hnn : ∀ q ∈ l.map (fun o => o.2 * (o.1 - wMean l) ^ 2), (0 : ℚ) ≤ q := by
      intro q hq
      obtain ⟨o, ho, rfl⟩ := List.mem_map.mp hq
      exact mul_nonneg (le_of_lt (hw o ho)) (sq_nonneg _)
    have hle : ∀ o ∈ l, o.2 * (o.1 - wMean l) ^ 2 ≤ wDev l := fun o ho =>
      List.single_le_sum hnn _ (List.mem_map.mpr ⟨o, ho, rfl⟩)
    by_cases hm : o1.1 = wMean l
    · have h2 := hle o2 ho2
      have : 0 < o2.2 * (o2.1 - wMean l) ^ 2 := by
        apply mul_pos (hw o2 ho2)
        apply sq_pos_of_pos
        rw [← hm, e1, e2]; linarith
      linarith
    · have h2 := hle o1 ho1
      have : 0 < o1.2 * (o1.1 - wMean l) ^ 2 := by
        apply mul_pos (hw o1 ho1)
        exact pow_pos_of_ne (sub_ne_zero.mpr hm)
      linarith
  have hmid : ∀ t, r.lo < r.hi →
      (r.est.weights pdf cdf t).1 + (r.est.weights pdf cdf t).2.1 = cdf r.est t * r.est.weightSum := by
    intro t ht
    simp only [Est.weights]
    rw [if_pos (hvar ht)]; ring
  unfold recLeft
  by_cases c1 : s < r.lo
  · rw [if_pos c1]
    split_ifs with d1 d2
    · exact le_refl _
    · exact le_of_lt hW
    · rw [hmid s' (by linarith)]
      exact mul_nonneg (hcdf _ _).1 (le_of_lt hW)
  · rw [if_neg c1]
    have d1 : ¬ s' < r.lo := by linarith
    rw [if_neg d1]
    by_cases c2 : s ≥ r.hi
    · rw [if_pos c2, if_pos (by linarith)]
    · rw [if_neg c2, hmid s (by linarith)]
      by_cases d2 : s' ≥ r.hi
      · rw [if_pos d2]
        have := (hcdf r.est s).2
        nlinarith
      · rw [if_neg d2, hmid s' (by linarith)]
        exact mul_le_mul_of_nonneg_right (hmono _ _ _ hs) (le_of_lt hW)
where
  pow_pos_of_ne {a : ℚ} (h : a ≠ 0) : 0 < a ^ 2 := by positivity

/-- **C278 (partial).** For a class with a total weight above 1 the weight expected at or below a
threshold grows with the threshold, is 0 below and the whole weight from the largest value of the
class on.  Missing: lighter classes (see `C278_light_class_violated`). -/
theorem C278_left_weight_partial (pdf cdf : Est → ℚ → ℚ) (hcdf : ∀ e v, 0 ≤ cdf e v ∧ cdf e v ≤ 1)
    (hmono : ∀ e v v', v ≤ v' → cdf e v ≤ cdf e v') (h : List (Nat × ℚ × ℚ)) (hw : ∀ o ∈ h, 0 < o.2.2) (c : Nat)
    (h1 : 1 < ((h.filter fun o => o.1 = c).map fun o => o.2.2).sum) :
    (∀ s s', s ≤ s' → leftWeight pdf cdf (gRun h) s c ≤ leftWeight pdf cdf (gRun h) s' c) ∧
    (∀ s, (∀ o ∈ h, o.1 = c → s < o.2.1) → leftWeight pdf cdf (gRun h) s c = 0) ∧
    (∀ s, (∀ o ∈ h, o.1 = c → o.2.1 ≤ s) →
      leftWeight pdf cdf (gRun h) s c = ((h.filter fun o => o.1 = c).map fun o => o.2.2).sum) := by
  obtain ⟨g1, g2, g3⟩ := gRun_represents h
  have htot : totW (ofClass h c) = ((h.filter fun o => o.1 = c).map fun o => o.2.2).sum := by
    rw [totW, ofClass, List.map_map]; rfl
  have hne : ofClass h c ≠ [] := by
    intro e; rw [← htot, e] at h1; simp [totW] at h1; linarith
  obtain ⟨p, hp, hpc⟩ := (g3 c).mpr hne
  -- one record for the class
  have huniq : (gRun h).filter (fun q => decide (q.1 = c)) = [p] := by
    have : ∀ o : GObs, SortedKeys o → p ∈ o → o.filter (fun q => decide (q.1 = c)) = [p] := by
      intro o
      induction o with
      | nil => intro _ hm; cases hm
      | cons a o ih =>
        intro hs hm
        obtain ⟨k1, k2⟩ := List.pairwise_cons.mp hs
        rcases List.mem_cons.mp hm with rfl | hm
        · have : o.filter (fun q => decide (q.1 = c)) = [] := by
            rw [List.filter_eq_nil_iff]
            intro q hq
            have := k1 q hq
            simp only [decide_eq_true_eq]; omega
          simp [hpc, this]
        · have := k1 p hm
          have hne : ¬ a.1 = c := by omega
          simp only [List.filter_cons, hne, decide_false, Bool.false_eq_true, if_false]
          exact ih k2 hm
    exact this _ g1 hp
  have hlw : ∀ s, leftWeight pdf cdf (gRun h) s c = recLeft pdf cdf p.2 s := by
    intro s; rw [leftWeight_eq, huniq]; simp
  have hrec := g2 p hp
  rw [hpc] at hrec
  have hwc : ∀ o ∈ ofClass h c, 0 < o.2 := by
    intro o ho
    obtain ⟨q, hq, rfl⟩ := List.mem_map.mp ho
    exact hw q (List.mem_filter.mp hq).1
  have hmemc : ∀ o ∈ ofClass h c, ∃ q ∈ h, q.1 = c ∧ q.2 = o := by
    intro o ho
    obtain ⟨q, hq, rfl⟩ := List.mem_map.mp ho
    obtain ⟨m1, m2⟩ := List.mem_filter.mp hq
    exact ⟨q, m1, by simpa using m2, rfl⟩
  refine ⟨fun s s' hs => ?_, fun s hs => ?_, fun s hs => ?_⟩
  · rw [hlw, hlw]
    exact recLeft_mono pdf cdf hcdf hmono _ hwc _ hrec (by rw [htot]; exact h1) s s' hs
  · rw [hlw]
    obtain ⟨-, -, ⟨o, ho, e⟩, -, -⟩ := hrec
    obtain ⟨q, hq, hqc, rfl⟩ := hmemc o ho
    unfold recLeft
    rw [if_pos (by rw [← e]; exact hs q hq hqc)]
  · rw [hlw]
    obtain ⟨r1, r2, ⟨o', ho', e'⟩, -, ⟨o, ho, e⟩⟩ := hrec
    obtain ⟨q, hq, hqc, rfl⟩ := hmemc o ho
    have hhi : p.2.hi ≤ s := by rw [← e]; exact hs q hq hqc
    have hlo : p.2.lo ≤ p.2.hi := by rw [← e]; exact r2 _ ho
    unfold recLeft
    rw [if_neg (by linarith), if_pos hhi, ← htot, r1]
    have hpos : ∀ o ∈ (ofClass h c).map (fun o => ((some o.1 : Option ℚ), o.2)), 0 < o.2 := by
      intro o ho
      obtain ⟨q, hq, rfl⟩ := List.mem_map.mp ho
      exact hwc q hq
    have hus : usable ((ofClass h c).map fun o => ((some o.1 : Option ℚ), o.2)) = ofClass h c := by
      unfold usable
      induction ofClass h c with
      | nil => rfl
      | cons a l ih => simpa using ih
    have := (C33_weighted_moments _ hpos (by rw [hus]; exact hne)).1
    rw [hus] at this
    exact this

/-- **C278 violated** for a class with a total weight of at most 1: with the values 0 and 10 at
weight 1/2 each, the threshold 2 has all the weight at or below it and the threshold 6 none. -/
theorem C278_light_class_violated (pdf cdf : Est → ℚ → ℚ)
    (hpdf : ∀ e v, e.variance = 0 → pdf e v = degeneratePdf e v) :
    leftWeight pdf cdf (gRun [(0, 0, 1/2), (0, 10, 1/2)]) 2 0 = 1 ∧
    leftWeight pdf cdf (gRun [(0, 0, 1/2), (0, 10, 1/2)]) 6 0 = 0 := by
  have h : gRun [(0, 0, 1/2), (0, 10, 1/2)] = [(0, ⟨⟨1, 5, 25⟩, 0, 10⟩)] := by
    simp [gRun, gUpdate, ClsRec.update, Est.add]
    norm_num
  have hv : (⟨1, 5, 25⟩ : Est).variance = 0 := by simp [Est.variance]
  rw [h]
  simp only [leftWeight_eq]
  simp only [recLeft, Est.weights, hv, hpdf _ _ hv, degeneratePdf, List.filter_cons, decide_true, if_true,
    List.filter_nil, List.map_cons, List.map_nil]
  norm_num

/-- Classes 0 and 1, the merit counts the weight of class 0 on the left. -/
example : (gBest (fun _ _ => 0) (fun _ v => v / 11) (fun d => ((d.headD (0, none, none)).2.1.getD 0 : ℚ)) 10
    (gRun [(0, 0, 1), (0, 11, 1), (1, 5, 1)])).map (fun r => (r.1, r.2.1)) =
      some (10, [(0, some (20 / 11), some (2 / 11)), (1, some 1, none)]) := by decide +kernel

example : (1 : ℚ) < (([(0, 0, 1), (0, 11, 1), (1, 5, 1)].filter fun o : Nat × ℚ × ℚ => o.1 = 0).map
    fun o => o.2.2).sum := by decide +kernel

end Verif.Trees
