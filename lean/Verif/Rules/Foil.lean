import Verif.Trees.Criteria

/-!
Model of the FOIL gain criterion of `VeryFastDecisionRulesClassifier`
(rules/foil_gain_rule_criterion.py; C244, C115) and of the Hellinger criterion of the rules
(rules/hellinger_distance_criterion.py; C115).

Numbers are real; the weights listed in a distribution are assumed positive in the theorems
(`np.log2(0)` is minus infinity in Python, not so in the model).  A split is binary, as both
observers of the rules make it.
-/

namespace Verif.Rules.Foil

open Verif.Trees.Criteria

/-- `compute_entropy`, lines 44-48: the logarithm of the proportion of the class, 0 if the class
is not listed. -/
noncomputable def entropy (c : Nat) (d : Dist) : ℝ :=
  match d.lookup c with
  | some v => Real.logb 2 (v / weight d)
  | none => 0

open Classical in
/-- `get_merit_of_split`, lines 21-35: the merit and `best_idx`, which was `best` before (0: `<=`
or `=`, 1: `>` or `!=`).  Branch counts as in the other criteria (lines 50-61). -/
noncomputable def merit (c : Nat) (frac : ℝ) (pre left right : Dist) (best : Nat) : Except PyErr (WithBot ℝ × Nat) :=
  match numGreaterH [left, right] frac with
  | .error e => .error e
  | .ok n =>
    if n < 2 then .ok (⊥, best)
    else
      let i := if entropy c left ≥ entropy c right then 0 else 1
      let gain := min (entropy c left) (entropy c right) - entropy c pre
      .ok (match (if i = 0 then left else right).lookup c with
        | some v => ((v * gain : ℝ) : WithBot ℝ)
        | none => ((0 : ℝ) : WithBot ℝ), i)

open Classical in
/-- `HellingerDistanceCriterion.compute_hellinger`, rules/hellinger_distance_criterion.py 33-55, for a
split with enough weight on both sides: the merit and `best_idx`.  A class that is not listed on
some side gives 0 and leaves `best_idx` (lines 40-41). -/
noncomputable def hellinger (left right : Dist) (best : Nat) : Except PyErr (ℝ × Nat) :=
  match left.lookup 1, left.lookup 0, right.lookup 1, right.lookup 0 with
  | some lp, some ln, some rp, some rn =>
    if ln + rn = 0 ∨ lp + rp = 0 then .error .zeroDivision
    else
      let dl := (Real.sqrt (lp / (lp + rp)) - Real.sqrt (ln / (ln + rn))) ^ 2
      let dr := (Real.sqrt (rp / (lp + rp)) - Real.sqrt (rn / (ln + rn))) ^ 2
      .ok (Real.sqrt (dl + dr), if dl ≥ dr then 0 else 1)
  | _, _, _, _ => .ok (0, best)

/-! ### Specification -/

/-- Weight of the class in a distribution. -/
noncomputable def count (c : Nat) (d : Dist) : ℝ := (d.lookup c).getD 0

/-- FOIL gain of keeping the part `d` of `pre`: the weight of the class in it times the growth of
the logarithm of the proportion of the class. -/
noncomputable def foilGain (c : Nat) (pre d : Dist) : ℝ :=
  count c d * (Real.logb 2 (count c d / weight d) - Real.logb 2 (count c pre / weight pre))

/-- `left` and `right` are the two sides of `pre` as far as class `c` goes, with enough weight on
both; listed weights of the class are positive. -/
structure Sides (c : Nat) (frac : ℝ) (pre left right : Dist) : Prop where
  enough : numGreaterH [left, right] frac = .ok 2
  wl : 0 < weight left
  wr : 0 < weight right
  w : weight pre = weight left + weight right
  cnt : pre.lookup c = some (count c left + count c right)
  pos : 0 < count c left + count c right
  posl : ∀ v, left.lookup c = some v → 0 < v ∧ v ≤ weight left
  posr : ∀ v, right.lookup c = some v → 0 < v ∧ v ≤ weight right

/-! ### Proofs -/

theorem count_some {c : Nat} {d : Dist} {v : ℝ} (h : d.lookup c = some v) : count c d = v := by simp [count, h]
theorem count_none {c : Nat} {d : Dist} (h : d.lookup c = none) : count c d = 0 := by simp [count, h]

theorem entropy_count {c : Nat} {d : Dist} {v : ℝ} (h : d.lookup c = some v) :
    entropy c d = Real.logb 2 (count c d / weight d) := by simp [entropy, h, count]

theorem merit_eq {c : Nat} {frac : ℝ} {pre left right : Dist} (h : Sides c frac pre left right) (best : Nat) :
    merit c frac pre left right best =
      .ok (match (if entropy c left ≥ entropy c right then left else right).lookup c with
        | some v => ((v * (min (entropy c left) (entropy c right) - entropy c pre) : ℝ) : WithBot ℝ)
        | none => ((0 : ℝ) : WithBot ℝ), if entropy c left ≥ entropy c right then 0 else 1) := by
  unfold merit
  rw [h.enough]
  by_cases hh : entropy c left ≥ entropy c right <;> simp [hh]

theorem mix_lt {a b u v : ℝ} (hu : 0 < u) (hv : 0 < v) (h : a / u < b / v) :
    a / u < (a + b) / (u + v) ∧ (a + b) / (u + v) < b / v := by
  rw [div_lt_div_iff₀ hu hv] at h
  constructor
  · rw [div_lt_div_iff₀ hu (by linarith)]; nlinarith
  · rw [div_lt_div_iff₀ (by linarith) hv]; nlinarith

/-- C244 (violated): a class that occurs on both sides, in different proportions.  The side with
the larger proportion is kept, which has a positive FOIL gain; but the merit is computed with
the logarithm of the smaller proportion and is negative. -/
theorem C244_both_sides_violated (c : Nat) (frac : ℝ) (pre left right : Dist) (best : Nat)
    (h : Sides c frac pre left right) (hl : 0 < count c left) (hr : 0 < count c right)
    (hne : count c left / weight left ≠ count c right / weight right) :
    ∃ (m : ℝ) (i : Nat), merit c frac pre left right best = .ok (m, i) ∧
      (i = 0 ↔ count c right / weight right < count c left / weight left) ∧ (i = 0 ∨ i = 1) ∧
      m < 0 ∧ 0 < foilGain c pre (if i = 0 then left else right) := by
  obtain ⟨a, ea⟩ : ∃ a, left.lookup c = some a := by
    cases e : left.lookup c with
    | none => rw [count_none e] at hl; exact absurd hl (lt_irrefl _)
    | some a => exact ⟨a, rfl⟩
  obtain ⟨b, eb⟩ : ∃ b, right.lookup c = some b := by
    cases e : right.lookup c with
    | none => rw [count_none e] at hr; exact absurd hr (lt_irrefl _)
    | some a => exact ⟨a, rfl⟩
  have hA := count_some ea
  have hB := count_some eb
  have hP := count_some h.cnt
  have pl : 0 < count c left / weight left := div_pos hl h.wl
  have pr : 0 < count c right / weight right := div_pos hr h.wr
  have pp : 0 < count c pre / weight pre := by rw [hP, h.w]; exact div_pos h.pos (by linarith [h.wl, h.wr])
  rw [merit_eq h, entropy_count ea, entropy_count eb, entropy_count h.cnt]
  have key : ∀ x y : ℝ, 0 < x → x < y → Real.logb 2 x < Real.logb 2 y := fun x y hx hxy =>
    Real.logb_lt_logb (by norm_num) hx hxy
  rcases lt_or_gt_of_ne hne with hlt | hgt
  · obtain ⟨m1, m2⟩ := mix_lt h.wl h.wr hlt
    rw [← hP, ← h.w] at m1 m2
    have k := key _ _ pl hlt
    have k1 := key _ _ pl m1
    have k2 := key _ _ pp m2
    refine ⟨b * (Real.logb 2 (count c left / weight left) - Real.logb 2 (count c pre / weight pre)), 1, ?_, ?_,
      .inr rfl, ?_, ?_⟩
    · rw [if_neg (not_le.mpr k), eb, min_eq_left k.le, if_neg (not_le.mpr k)]
    · constructor
      · intro h'; cases h'
      · intro h'; exact absurd h' (not_lt.mpr hlt.le)
    · rw [← hB]; exact mul_neg_of_pos_of_neg hr (by linarith)
    · simp only [foilGain, one_ne_zero, if_false]
      exact mul_pos hr (by linarith)
  · obtain ⟨m1, m2⟩ := mix_lt h.wr h.wl hgt
    rw [add_comm (count c right), add_comm (weight right), ← hP, ← h.w] at m1 m2
    have k := key _ _ pr hgt
    have k1 := key _ _ pr m1
    have k2 := key _ _ pp m2
    refine ⟨a * (Real.logb 2 (count c right / weight right) - Real.logb 2 (count c pre / weight pre)), 0, ?_, ?_,
      .inl rfl, ?_, ?_⟩
    · rw [if_pos k.le, ea, min_eq_right k.le, if_pos k.le]
    · exact ⟨fun _ => hgt, fun _ => rfl⟩
    · rw [← hA]; exact mul_neg_of_pos_of_neg hl (by linarith)
    · simp only [foilGain, if_true]
      exact mul_pos hl (by linarith)

/-- C244 (violated): a class that occurs on one side only, but not alone there, or alone on the
right.  The suggestion keeps the side without the class, with merit 0, although the FOIL gain
of the side with the class is positive. -/
theorem C244_one_side_violated (c : Nat) (frac : ℝ) (pre left right : Dist) (best : Nat)
    (h : Sides c frac pre left right)
    (hone : (right.lookup c = none ∧ count c left < weight left) ∨ left.lookup c = none) :
    ∃ i, (i = 0 ∨ i = 1) ∧ merit c frac pre left right best = .ok (((0 : ℝ) : WithBot ℝ), i) ∧
      count c (if i = 0 then left else right) = 0 ∧ 0 < foilGain c pre (if i = 0 then right else left) := by
  have hP := count_some h.cnt
  rcases hone with ⟨hr, hlt⟩ | hl
  · have hz := count_none hr
    have hpos := h.pos
    rw [hz, add_zero] at hpos
    obtain ⟨a, ea⟩ : ∃ a, left.lookup c = some a := by
      cases e : left.lookup c with
      | none => rw [count_none e] at hpos; exact absurd hpos (lt_irrefl _)
      | some a => exact ⟨a, rfl⟩
    have pl : 0 < count c left / weight left := div_pos hpos h.wl
    have k : Real.logb 2 (count c left / weight left) < 0 :=
      Real.logb_neg (by norm_num) pl ((div_lt_one h.wl).mpr hlt)
    refine ⟨1, .inr rfl, ?_, ?_, ?_⟩
    · rw [merit_eq h, entropy_count ea]
      have e0 : entropy c right = 0 := by simp [entropy, hr]
      rw [e0, if_neg (not_le.mpr k), hr, if_neg (not_le.mpr k)]
    · simpa using hz
    · simp only [foilGain, one_ne_zero, if_false]
      refine mul_pos hpos (sub_pos.mpr (Real.logb_lt_logb (by norm_num) ?_ ?_))
      · rw [hP, h.w]; exact div_pos h.pos (by linarith [h.wl, h.wr])
      · rw [hP, h.w, hz, add_zero]
        exact div_lt_div_of_pos_left hpos h.wl (by linarith [h.wr])
  · have hz := count_none hl
    have hpos := h.pos
    rw [hz, zero_add] at hpos
    obtain ⟨b, eb⟩ : ∃ b, right.lookup c = some b := by
      cases e : right.lookup c with
      | none => rw [count_none e] at hpos; exact absurd hpos (lt_irrefl _)
      | some a => exact ⟨a, rfl⟩
    have hb := h.posr b eb
    have pr : 0 < count c right / weight right := div_pos hpos h.wr
    have k : Real.logb 2 (count c right / weight right) ≤ 0 :=
      Real.logb_nonpos (by norm_num) pr.le ((div_le_one h.wr).mpr (by rw [count_some eb]; exact hb.2))
    refine ⟨0, .inl rfl, ?_, ?_, ?_⟩
    · rw [merit_eq h, entropy_count eb]
      have e0 : entropy c left = 0 := by simp [entropy, hl]
      rw [e0, if_pos k, hl, if_pos k]
    · simpa using hz
    · simp only [foilGain, if_true]
      refine mul_pos hpos (sub_pos.mpr (Real.logb_lt_logb (by norm_num) ?_ ?_))
      · rw [hP, h.w]; exact div_pos h.pos (by linarith [h.wl, h.wr])
      · rw [hP, h.w, hz, zero_add]
        exact div_lt_div_of_pos_left hpos h.wr (by linarith [h.wl])

/-- C115 (violated): with `foil_gain`, when a class occurs on one side only (and not alone on the
left), the suggestion points to the side without the class. -/
theorem C115_foil_missing_violated (c : Nat) (frac : ℝ) (pre left right : Dist) (best : Nat)
    (h : Sides c frac pre left right)
    (hone : (right.lookup c = none ∧ count c left < weight left) ∨ left.lookup c = none) :
    ∃ m i, merit c frac pre left right best = .ok (m, i) ∧
      count c (if i = 0 then left else right) = 0 ∧ 0 < count c (if i = 0 then right else left) := by
  obtain ⟨i, hi, hm, hz, _⟩ := C244_one_side_violated c frac pre left right best h hone
  refine ⟨_, i, hm, hz, ?_⟩
  have := h.pos
  rcases hi with rfl | rfl
  · simp only [if_true] at hz ⊢; linarith
  · simp only [one_ne_zero, if_false] at hz ⊢; linarith

/-- C244 (partial): the merit is the FOIL gain of the side that is kept if the class is alone on
the left and does not occur on the right, or if it has the same proportion on both sides.
Missing (and false): all other splits. -/
theorem C244_gain_partial (c : Nat) (frac : ℝ) (pre left right : Dist) (best : Nat) (h : Sides c frac pre left right)
    (hc : (right.lookup c = none ∧ count c left = weight left) ∨
      (0 < count c right ∧ count c left / weight left = count c right / weight right)) :
    merit c frac pre left right best = .ok (((foilGain c pre left : ℝ) : WithBot ℝ), 0) := by
  have hP := count_some h.cnt
  rcases hc with ⟨hr, he⟩ | ⟨hr, he⟩
  · have hpos : 0 < count c left := by rw [he]; exact h.wl
    obtain ⟨a, ea⟩ : ∃ a, left.lookup c = some a := by
      cases e : left.lookup c with
      | none => rw [count_none e] at hpos; exact absurd hpos (lt_irrefl _)
      | some a => exact ⟨a, rfl⟩
    have e0 : entropy c right = 0 := by simp [entropy, hr]
    have e1 : entropy c left = 0 := by rw [entropy_count ea, he, div_self h.wl.ne', Real.logb_one]
    rw [merit_eq h, e0, e1, if_pos (le_refl _), ea, if_pos (le_refl _), entropy_count h.cnt, min_self]
    simp only [foilGain, he, div_self h.wl.ne', Real.logb_one]
    rw [← he, count_some ea]
  · obtain ⟨b, eb⟩ : ∃ b, right.lookup c = some b := by
      cases e : right.lookup c with
      | none => rw [count_none e] at hr; exact absurd hr (lt_irrefl _)
      | some a => exact ⟨a, rfl⟩
    have hl : 0 < count c left := by
      have : 0 < count c left / weight left := he ▸ div_pos hr h.wr
      have := mul_pos this h.wl
      rwa [div_mul_cancel₀ _ h.wl.ne'] at this
    obtain ⟨a, ea⟩ : ∃ a, left.lookup c = some a := by
      cases e : left.lookup c with
      | none => rw [count_none e] at hl; exact absurd hl (lt_irrefl _)
      | some a => exact ⟨a, rfl⟩
    have ee : entropy c left = entropy c right := by rw [entropy_count ea, entropy_count eb, he]
    rw [merit_eq h, ← ee, if_pos (le_refl _), ea, if_pos (le_refl _), min_self, entropy_count ea, entropy_count h.cnt]
    simp only [foilGain]
    rw [count_some ea]

/-! ### Hellinger distance -/

/-- C115: with `hellinger`, when classes 0 and 1 are listed on both sides, the merit is the one of
the tree criterion and the suggestion points to the side where the shares of the two classes
differ more. -/
theorem C115_hellinger_side (left right : Dist) (best : Nat) (lp ln rp rn : ℝ)
    (h1 : left.lookup 1 = some lp) (h2 : left.lookup 0 = some ln) (h3 : right.lookup 1 = some rp)
    (h4 : right.lookup 0 = some rn) (hn : ln + rn ≠ 0) (hp : lp + rp ≠ 0) :
    ∃ m i, hellinger left right best = .ok (m, i) ∧ hellingerOf left right = .ok m ∧ (i = 0 ∨ i = 1) ∧
      (i = 0 ↔ (Real.sqrt (rp / (lp + rp)) - Real.sqrt (rn / (ln + rn))) ^ 2 ≤
        (Real.sqrt (lp / (lp + rp)) - Real.sqrt (ln / (ln + rn))) ^ 2) := by
  unfold hellinger hellingerOf
  rw [h1, h2, h3, h4]
  simp only [hn, hp, or_self, if_false]
  refine ⟨_, _, rfl, ?_, ?_, ?_⟩
  · congr 2
    ring
  · split
    · exact .inl rfl
    · exact .inr rfl
  · constructor
    · intro h
      by_contra hc
      rw [if_neg hc] at h
      cases h
    · intro h; rw [if_pos h]

/-- C115 (violated): with `hellinger`, a split that separates the two classes has merit 0, and its
suggestion points to the side that happened to be chosen for the previous candidate. -/
theorem C115_hellinger_pure_violated (a b : ℝ) (best : Nat) :
    hellinger [(0, a)] [(1, b)] best = .ok (0, best) ∧ hellinger [(1, a)] [(0, b)] best = .ok (0, best) := by
  constructor <;> simp [hellinger, List.lookup]

example : ∃ m, hellinger [(0, 1), (1, 3)] [(0, 3), (1, 1)] 1 = .ok (m, 0) := by
  obtain ⟨m, i, h, _, _, hi⟩ := C115_hellinger_side [(0, 1), (1, 3)] [(0, 3), (1, 1)] 1 3 1 1 3 rfl rfl rfl rfl
    (by norm_num) (by norm_num)
  have : i = 0 := hi.mpr (by
    have e1 : (3 : ℝ) + 1 = 4 := by norm_num
    have e2 : (1 : ℝ) + 3 = 4 := by norm_num
    rw [e1, e2]
    nlinarith)
  exact ⟨m, this ▸ h⟩

theorem enough_of {l r : Dist} {frac u v : ℝ} (hl : weight l = u) (hr : weight r = v) (h : u + v ≠ 0)
    (h1 : frac < u / (u + v)) (h2 : frac < v / (u + v)) : numGreaterH [l, r] frac = .ok 2 := by
  unfold numGreaterH
  simp [hl, hr, h, h1, h2]

/-- 6 of class 0 and 2 of class 1 on the left, 2 and 6 on the right. -/
example : Sides 0 (1 / 100) [(0, 8), (1, 8)] [(0, 6), (1, 2)] [(0, 2), (1, 6)] where
  enough := enough_of (u := 8) (v := 8) (by norm_num [weight]) (by norm_num [weight]) (by norm_num) (by norm_num)
    (by norm_num)
  wl := by norm_num [weight]
  wr := by norm_num [weight]
  w := by norm_num [weight]
  cnt := by norm_num [count, List.lookup]
  pos := by norm_num [count, List.lookup]
  posl := by intro v hv; simp [List.lookup] at hv; subst hv; norm_num [weight]
  posr := by intro v hv; simp [List.lookup] at hv; subst hv; norm_num [weight]

/-- 4 of class 0 on the left, 4 of class 1 on the right: a perfect split. -/
example : Sides 1 (1 / 100) [(0, 4), (1, 4)] [(0, 4)] [(1, 4)] where
  enough := enough_of (u := 4) (v := 4) (by norm_num [weight]) (by norm_num [weight]) (by norm_num) (by norm_num)
    (by norm_num)
  wl := by norm_num [weight]
  wr := by norm_num [weight]
  w := by norm_num [weight]
  cnt := by simp [count, List.lookup]
  pos := by simp [count, List.lookup]
  posl := by intro v hv; simp [List.lookup] at hv
  posr := by intro v hv; simp [List.lookup] at hv; subst hv; norm_num [weight]

end Verif.Rules.Foil
