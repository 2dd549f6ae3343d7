import Verif.Common
import Mathlib.Data.List.Induction
import Mathlib.Order.WithBot
import Mathlib.Tactic.NormNum

/-!
Model of how a rule's expand criterion picks the side of a split
(rules/info_gain_rule_criterion.py, rules/hellinger_distance_criterion.py,
rules/foil_gain_rule_criterion.py, and `get_best_evaluated_split_suggestion` in
rules/numeric_attribute_class_observer.py and rules/nominal_attribute_class_observer.py);
C115.

Simplifications: a binary split is given by the weights and entropies of its two sides
(Hellinger: the two distances; FOIL: the two log-proportions of the class) and whether
both sides hold enough weight; the numbers are rational.
-/

namespace Verif.Rules.Criterion

/-- A binary split as the criterion sees it. `enough` is
`num_subsets_greater_than_frac(...) >= 2`. -/
structure Split where
  w0 : ℚ
  w1 : ℚ
  e0 : ℚ
  e1 : ℚ
  enough : Bool
  deriving DecidableEq

/-- State of `InfoGainExpandCriterion`: `lowest_entropy`, `best_idx` (lines 19-20). -/
structure IG where
  lowest : Option ℚ
  best : Nat
  deriving DecidableEq

/-- `InfoGainExpandCriterion.__init__`, lines 15-20. -/
def IG.init : IG := ⟨none, 0⟩

/-- One turn of the loop in `_compute_entropy_list`, lines 57-60. -/
def IG.see (c : IG) (e : ℚ) (i : Nat) : IG :=
  match c.lowest with
  | none => ⟨some e, i⟩
  | some l => if e < l then ⟨some e, i⟩ else c

/-- `get_merit_of_split`, lines 22-25 (with `_compute_entropy_list`, lines 49-62). -/
def IG.merit (c : IG) (pre : ℚ) (s : Split) : WithBot ℚ × IG :=
  if s.enough then
    (((pre - (s.w0 * s.e0 + s.w1 * s.e1) / (s.w0 + s.w1) : ℚ) : WithBot ℚ), (c.see s.e0 0).see s.e1 1)
  else (⊥, c)

/-- `HellingerDistanceCriterion.get_merit_of_split`, lines 28-55, and
`FoilGainExpandCriterion.get_merit_of_split`, lines 21-35, as far as `best_idx` goes:
the side with the larger value, on a tie the first; the merit is an arbitrary
function. -/
def ownMerit (f : Split → ℚ) (best : Nat) (s : Split) : WithBot ℚ × Nat :=
  if s.enough then ((f s : WithBot ℚ), if s.e0 ≥ s.e1 then 0 else 1) else (⊥, best)

/-- The loop of `get_best_evaluated_split_suggestion`
(numeric_attribute_class_observer.py 50-64, nominal_attribute_class_observer.py 43-57):
the best split so far with its merit and the side its condition points to
(0: `<=` or `=`, 1: `>` or `!=`), and the criterion. -/
def bestOf {C : Type} (merit : C → Split → WithBot ℚ × C) (side : C → Nat) :
    List Split → (Option (Split × WithBot ℚ × Nat) × C) → Option (Split × WithBot ℚ × Nat) × C
  | [], acc => acc
  | s :: l, (b, c) =>
    let mc := merit c s
    let b' := match b with
      | none => some (s, mc.1, side mc.2)
      | some (s', m, i) => if mc.1 > m then some (s, mc.1, side mc.2) else some (s', m, i)
    bestOf merit side l (b', mc.2)

/-- `get_best_expand_suggestion` (very_fast_decision_rules.py 244-267): the attributes in
order with one criterion object; per attribute its best split. -/
def suggestions {C : Type} (merit : C → Split → WithBot ℚ × C) (side : C → Nat) :
    List (List Split) → C → List (Split × WithBot ℚ × Nat) × C
  | [], c => ([], c)
  | a :: as, c =>
    let r := bestOf merit side a (none, c)
    let t := suggestions merit side as r.2
    ((match r.1 with
      | some b => [b]
      | none => []) ++ t.1, t.2)

/-! ### Specification -/

/-- The value of side `i` of a split. -/
def Split.value (s : Split) (i : Nat) : ℚ := if i = 0 then s.e0 else s.e1

/-- Every suggestion points to the purer side of its own split: entropy not larger than
that of the other side. -/
def PointsToPurer (out : List (Split × WithBot ℚ × Nat)) : Prop :=
  ∀ b ∈ out, b.2.2 ≤ 1 ∧ b.1.value b.2.2 ≤ b.1.value (1 - b.2.2)

/-! ### Information gain -/

/-- What the criterion remembers after the splits `l`: the side with the smallest entropy
of all splits it has seen. -/
def Inv (c : IG) (l : List Split) : Prop :=
  (c.lowest = none ∧ c.best = 0 ∧ ∀ s ∈ l, s.enough = false) ∨
  (∃ s ∈ l, s.enough = true ∧ c.best ≤ 1 ∧ c.lowest = some (s.value c.best) ∧
    ∀ t ∈ l, t.enough = true → ∀ i, s.value c.best ≤ t.value i)

theorem inv_merit (c : IG) (l : List Split) (h : Inv c l) (pre : ℚ) (s : Split) :
    Inv (c.merit pre s).2 (l ++ [s]) := by
  unfold IG.merit
  by_cases he : s.enough = true
  · rw [if_pos he]
    simp only
    right
    rcases h with ⟨h1, _, h3⟩ | ⟨t, ht, hte, hb, hl, hmin⟩
    · have hsee : c.see s.e0 0 = ⟨some s.e0, 0⟩ := by unfold IG.see; rw [h1]
      rw [hsee]
      have hold : ∀ t ∈ l ++ [s], t.enough = true → t = s := by
        intro t ht hte
        rcases List.mem_append.mp ht with h | h
        · rw [h3 t h] at hte; cases hte
        · exact List.mem_singleton.mp h
      by_cases hlt : s.e1 < s.e0
      · refine ⟨s, by simp, he, ?_, ?_, ?_⟩
        · simp [IG.see, hlt]
        · simp [IG.see, hlt, Split.value]
        · intro t ht hte i
          rw [hold t ht hte]
          simp only [IG.see, hlt, if_true, Split.value]
          by_cases hi : i = 0 <;> norm_num [hi] <;> linarith
      · refine ⟨s, by simp, he, ?_, ?_, ?_⟩
        · simp [IG.see, hlt]
        · simp [IG.see, hlt, Split.value]
        · intro t ht hte i
          rw [hold t ht hte]
          simp only [IG.see, hlt, if_false, Split.value]
          by_cases hi : i = 0 <;> norm_num [hi] <;> linarith
    · -- the remembered side, or a side of the new split
      have hcase : ∀ (c' : IG) (u : Split), u ∈ l ++ [s] → u.enough = true → c'.best ≤ 1 →
          c'.lowest = some (u.value c'.best) → ∀ (e : ℚ) (i : Nat), i ≤ 1 → s.value i = e →
          ∃ u' ∈ l ++ [s], u'.enough = true ∧ (c'.see e i).best ≤ 1 ∧
            (c'.see e i).lowest = some (u'.value (c'.see e i).best) ∧
            u'.value (c'.see e i).best ≤ u.value c'.best ∧ u'.value (c'.see e i).best ≤ e := by
        intro c' u hu hue hcb hcl e i hi hse
        unfold IG.see
        rw [hcl]
        by_cases hlt : e < u.value c'.best
        · simp only [hlt, if_true]
          exact ⟨s, by simp, he, hi, by rw [hse], by rw [hse]; linarith, by rw [hse]⟩
        · simp only [hlt, if_false]
          exact ⟨u, hu, hue, hcb, hcl, le_refl _, not_lt.mp hlt⟩
      obtain ⟨u1, m1, n1, b1, l1, le1, le1'⟩ := hcase c t (by simp [ht]) hte hb hl s.e0 0 (by omega) rfl
      obtain ⟨u2, m2, n2, b2, l2, le2, le2'⟩ := hcase _ u1 m1 n1 b1 l1 s.e1 1 (by omega) rfl
      refine ⟨u2, m2, n2, b2, l2, ?_⟩
      intro v hv hve i
      rcases List.mem_append.mp hv with h | h
      · exact le_trans le2 (le_trans le1 (hmin v h hve i))
      · rw [List.mem_singleton.mp h]
        unfold Split.value
        by_cases hi : i = 0
        · rw [if_pos hi]; exact le_trans le2 le1'
        · rw [if_neg hi]; exact le2'
  · rw [if_neg he]
    simp only
    rcases h with ⟨h1, h2, h3⟩ | ⟨t, ht, hte, hb, hl, hmin⟩
    · left
      refine ⟨h1, h2, ?_⟩
      intro t ht
      rcases List.mem_append.mp ht with h | h
      · exact h3 t h
      · rw [List.mem_singleton.mp h]; simpa using he
    · right
      refine ⟨t, by simp [ht], hte, hb, hl, ?_⟩
      intro v hv hve i
      rcases List.mem_append.mp hv with h | h
      · exact hmin v h hve i
      · rw [List.mem_singleton.mp h] at hve; exact absurd hve he

/-- What is known of a suggestion made with information gain: its side is the side with
the smallest entropy among the splits evaluated up to it, in this and earlier attributes. -/
def SideOfLowest (seen : List Split) (i : Nat) : Prop :=
  (∀ s ∈ seen, s.enough = false) ∧ i = 0 ∨
  ∃ s ∈ seen, s.enough = true ∧ i ≤ 1 ∧ ∀ t ∈ seen, t.enough = true → ∀ j, s.value i ≤ t.value j

theorem side_of_inv (c : IG) (l : List Split) (h : Inv c l) : SideOfLowest l c.best := by
  rcases h with ⟨_, h2, h3⟩ | ⟨t, ht, hte, hb, _, hmin⟩
  · exact .inl ⟨h3, h2⟩
  · exact .inr ⟨t, ht, hte, hb, hmin⟩

theorem bestOf_side (pre : ℚ) (l : List Split) (c : IG) (seen : List Split) (b : Option (Split × WithBot ℚ × Nat))
    (hc : Inv c seen) :
    Inv (bestOf (fun c s => c.merit pre s) IG.best l (b, c)).2 (seen ++ l) ∧
    ∀ r, (bestOf (fun c s => c.merit pre s) IG.best l (b, c)).1 = some r →
      b = some r ∨ ∃ l1 l2, l = l1 ++ r.1 :: l2 ∧ SideOfLowest (seen ++ l1 ++ [r.1]) r.2.2 := by
  induction l generalizing c seen b with
  | nil => exact ⟨by simpa [bestOf] using hc, fun r hr => .inl hr⟩
  | cons s l ih =>
    have hm := inv_merit c seen hc pre s
    unfold bestOf
    simp only
    set b' := (match b with
      | none => some (s, (c.merit pre s).1, (c.merit pre s).2.best)
      | some (s', m, i) => if (c.merit pre s).1 > m then some (s, (c.merit pre s).1, (c.merit pre s).2.best)
        else some (s', m, i)) with hb'
    obtain ⟨i1, i2⟩ := ih (c.merit pre s).2 (seen ++ [s]) b' hm
    refine ⟨by simpa using i1, fun r hr => ?_⟩
    rcases i2 r hr with h | ⟨l1, l2, e, hs⟩
    · have hb : b' = b ∨ b' = some (s, (c.merit pre s).1, (c.merit pre s).2.best) := by
        rw [hb']
        cases b with
        | none => exact .inr rfl
        | some q =>
          simp only
          split
          · exact .inr rfl
          · exact .inl rfl
      rcases hb with hb | hb
      · exact .inl (hb ▸ h)
      · right
        rw [hb] at h
        have := Option.some.inj h
        subst this
        exact ⟨[], l, rfl, by simpa using side_of_inv _ _ hm⟩
    · exact .inr ⟨s :: l1, l2, by rw [e]; rfl, by simpa using hs⟩

/-- C115 (what the code does): with `info_gain` a suggestion points to the side (left or
right) that had the lowest entropy among all splits evaluated up to it in the attempt,
including those of other values and other attributes. -/
theorem C115_side_of_lowest_so_far_partial (pre : ℚ) (atts : List (List Split)) :
    ∀ b ∈ (suggestions (fun c s => c.merit pre s) IG.best atts IG.init).1,
      ∃ seen rest, atts.flatten = seen ++ b.1 :: rest ∧ SideOfLowest (seen ++ [b.1]) b.2.2 := by
  have key : ∀ (atts : List (List Split)) (c : IG) (seen : List Split), Inv c seen →
      ∀ b ∈ (suggestions (fun c s => c.merit pre s) IG.best atts c).1,
        ∃ l1 l2, atts.flatten = l1 ++ b.1 :: l2 ∧ SideOfLowest (seen ++ l1 ++ [b.1]) b.2.2 := by
    intro atts
    induction atts with
    | nil => intro c seen _ b hb; simp [suggestions] at hb
    | cons a as ih =>
      intro c seen hc b hb
      unfold suggestions at hb
      simp only [List.mem_append] at hb
      obtain ⟨i1, i2⟩ := bestOf_side pre a c seen none hc
      rcases hb with hb | hb
      · cases hr : (bestOf (fun c s => c.merit pre s) IG.best a (none, c)).1 with
        | none => rw [hr] at hb; cases hb
        | some r =>
          rw [hr] at hb
          have := List.mem_singleton.mp hb
          subst this
          rcases i2 b hr with h | ⟨l1, l2, e, hs⟩
          · cases h
          · exact ⟨l1, l2 ++ as.flatten, by rw [List.flatten_cons, e]; simp, hs⟩
      · obtain ⟨l1, l2, e, hs⟩ := ih _ (seen ++ a) i1 b hb
        exact ⟨a ++ l1, l2, by rw [List.flatten_cons, e]; simp, by simpa using hs⟩
  intro b hb
  obtain ⟨l1, l2, e, hs⟩ := key atts IG.init [] (.inl ⟨rfl, rfl, by simp⟩) b hb
  exact ⟨l1, l2, e, by simpa using hs⟩

/-- C115 (partial): with `info_gain` and a single split evaluated, the suggestion points
to the purer side. -/
theorem C115_single_split_partial (pre : ℚ) (s : Split) (he : s.enough = true) :
    PointsToPurer (suggestions (fun c s => c.merit pre s) IG.best [[s]] IG.init).1 := by
  intro b hb
  obtain ⟨seen, rest, e, h⟩ := C115_side_of_lowest_so_far_partial pre [[s]] b hb
  have hs : seen = [] ∧ b.1 = s := by
    have e : [s] = seen ++ b.1 :: rest := by simpa using e
    cases seen with
    | nil => simp at e; exact ⟨rfl, e.1.symm⟩
    | cons a seen => simp at e
  obtain ⟨rfl, hb1⟩ := hs
  rcases h with ⟨h, _⟩ | ⟨t, ht, _, hi, hmin⟩
  · have := h b.1 (by simp)
    rw [hb1, he] at this; cases this
  · simp only [List.nil_append, List.mem_singleton] at ht
    rw [ht] at hmin
    exact ⟨hi, hmin b.1 (by simp) (by rw [hb1]; exact he) _⟩

/-- C115 (violated): with `info_gain`, one attribute and two split points: the better
split points to its less pure side, because an earlier and worse split had one purer
side there. -/
theorem C115_wrong_side_violated :
    ∃ (pre : ℚ) (s t : Split), s.enough = true ∧ t.enough = true ∧
      0 ≤ s.e0 ∧ s.e0 ≤ 1 ∧ 0 ≤ s.e1 ∧ s.e1 ≤ 1 ∧ 0 ≤ t.e0 ∧ t.e0 ≤ 1 ∧ 0 ≤ t.e1 ∧ t.e1 ≤ 1 ∧
      ∃ m, (suggestions (fun c s => c.merit pre s) IG.best [[s, t]] IG.init).1 = [(t, m, 0)] ∧
        t.value 1 < t.value 0 := by
  refine ⟨1, ⟨10, 90, 1/10, 9/10, true⟩, ⟨50, 50, 1/2, 3/10, true⟩, rfl, rfl, ?_⟩
  refine ⟨by norm_num, by norm_num, by norm_num, by norm_num, by norm_num, by norm_num, by norm_num,
    by norm_num, ((3/5 : ℚ) : WithBot ℚ), ?_, by norm_num [Split.value]⟩
  decide +kernel

/-! ### Hellinger distance and FOIL gain -/

/-- C115: with `hellinger` and `foil_gain`, when every split has enough weight on both
sides, a suggestion points to the side of its own split with the larger value. -/
theorem C115_own_side (f : Split → ℚ) (atts : List (List Split)) (c : Nat)
    (he : ∀ a ∈ atts, ∀ s ∈ a, s.enough = true) :
    ∀ b ∈ (suggestions (ownMerit f) id atts c).1,
      b.2.2 ≤ 1 ∧ b.1.value (1 - b.2.2) ≤ b.1.value b.2.2 := by
  have hown : ∀ (s : Split) (c : Nat), s.enough = true →
      (ownMerit f c s).2 ≤ 1 ∧ s.value (1 - (ownMerit f c s).2) ≤ s.value (ownMerit f c s).2 := by
    intro s c hs
    unfold ownMerit
    rw [if_pos hs]
    by_cases h : s.e0 ≥ s.e1
    · simp only [h, if_true]; exact ⟨by omega, by simpa [Split.value] using h⟩
    · simp only [h, if_false]; exact ⟨by omega, by simpa [Split.value] using le_of_lt (not_le.mp h)⟩
  have hbest : ∀ (l : List Split) (c : Nat) (b : Option (Split × WithBot ℚ × Nat)),
      (∀ s ∈ l, s.enough = true) →
      (∀ r, b = some r → r.2.2 ≤ 1 ∧ r.1.value (1 - r.2.2) ≤ r.1.value r.2.2) →
      ∀ r, (bestOf (ownMerit f) id l (b, c)).1 = some r →
        r.2.2 ≤ 1 ∧ r.1.value (1 - r.2.2) ≤ r.1.value r.2.2 := by
    intro l
    induction l with
    | nil => intro c b _ hb r hr; exact hb r hr
    | cons s l ih =>
      intro c b hl hb r hr
      unfold bestOf at hr
      refine ih _ _ (fun t ht => hl t (by simp [ht])) ?_ r hr
      intro q hq
      cases b with
      | none =>
        have := Option.some.inj hq
        subst this
        exact hown s c (hl s (by simp))
      | some p =>
        simp only at hq
        split at hq
        · have := Option.some.inj hq
          subst this
          exact hown s c (hl s (by simp))
        · exact hb q (by rw [← hq])
  induction atts generalizing c with
  | nil => intro b hb; simp [suggestions] at hb
  | cons a as ih =>
    intro b hb
    unfold suggestions at hb
    simp only [List.mem_append] at hb
    rcases hb with hb | hb
    · cases hr : (bestOf (ownMerit f) id a (none, c)).1 with
      | none => rw [hr] at hb; cases hb
      | some r =>
        rw [hr] at hb
        have := List.mem_singleton.mp hb
        subst this
        exact hbest a c none (he a (by simp)) (by intro r h; cases h) b hr
    · exact ih _ (fun a' ha' => he a' (by simp [ha'])) b hb

example : (suggestions (ownMerit fun s => s.e0 + s.e1) id
    [[⟨1, 1, 1/2, 1/4, true⟩, ⟨1, 1, 1/4, 1, true⟩], [⟨1, 1, 1, 0, true⟩]] 0).1.map (fun b => b.2.2) = [1, 0] := by
  decide +kernel

end Verif.Rules.Criterion
