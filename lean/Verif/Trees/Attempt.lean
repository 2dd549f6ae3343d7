import Verif.Common
import Mathlib.Data.List.Sort
import Mathlib.Data.List.Induction

/-!
Model of the split decision of `HoeffdingTreeClassifier._attempt_to_split`
(trees/hoeffding_tree.py 552-611) and of `get_best_split_suggestions`
(trees/_nodes/base.py 449-480); C67, C68.

Simplifications: a suggestion is its merit and the attributes its test depends on
(`none` for the null split, which has no test); the Hoeffding bound is an arbitrary
number; merits are rational numbers.
-/

namespace Verif.Trees.Attempt

/-- `AttributeSplitSuggestion`: merit, and attributes of the test (`none`: no test). -/
structure Sug where
  merit : ℚ
  atts : Option (List Nat)
  deriving DecidableEq

/-- `get_best_split_suggestions`, base.py 466-480: the null split first (unless
`no_preprune`), then what the attribute observers propose. -/
def suggestions (noPreprune : Bool) (nullMerit : ℚ) (attrs : List (ℚ × Nat)) : List Sug :=
  (if noPreprune then [] else [⟨nullMerit, none⟩]) ++ attrs.map fun a => ⟨a.1, some [a.2]⟩

/-- `sort(key=attrgetter('merit'))`, line 585: stable, ascending. -/
def sortSugs (l : List Sug) : List Sug := l.insertionSort fun a b => a.merit ≤ b.merit

/-- What the attempt decides. -/
inductive Outcome where
  | keep
  | prune
  | split (s : Sug)
  deriving DecidableEq

/-- The loop 599-607: attributes to disable; `split_test` of a null split is `None`. -/
def poorAtts (best bound : ℚ) : List Sug → Except PyErr (List Nat)
  | [] => .ok []
  | s :: l =>
    match s.atts with
    | none => .error .attributeError
    | some atts => do
      let rest ← poorAtts best bound l
      match atts with
      | [a] => if best - s.merit > bound then pure (a :: rest) else pure rest
      | _ => pure rest

/-- `_attempt_to_split`, lines 576-615, up to the replacement of the leaf: the decision
and the attributes disabled. -/
def attempt (isPure noPreprune removePoor : Bool) (nullMerit : ℚ) (attrs : List (ℚ × Nat)) (bound tie : ℚ) :
    Except PyErr (Outcome × List Nat) :=
  if isPure then .ok (.keep, [])
  else
    let sugs := sortSugs (suggestions noPreprune nullMerit attrs)
    let decide (b : Bool) : Outcome :=
      match b, sugs.getLast? with
      | true, some s => if s.atts = none then .prune else .split s
      | _, _ => .keep
    match sugs.reverse with
    | best :: second :: _ => do
      let poor ← if removePoor then poorAtts best.merit bound sugs else pure []
      pure (decide (best.merit - second.merit > bound ∨ bound < tie), poor)
    | l => .ok (decide (l.length > 0), [])

/-! ### Proofs -/

theorem sort_perm (l : List Sug) : (sortSugs l).Perm l := List.perm_insertionSort _ _

theorem sort_sorted (l : List Sug) : (sortSugs l).Pairwise fun a b => a.merit ≤ b.merit := by
  haveI : Std.Total (fun a b : Sug => a.merit ≤ b.merit) := ⟨fun a b => le_total _ _⟩
  haveI : IsTrans Sug (fun a b : Sug => a.merit ≤ b.merit) := ⟨fun a b c => le_trans⟩
  exact List.pairwise_insertionSort _ l

theorem poorAtts_ok (best bound : ℚ) (l : List Sug) (h : ∀ s ∈ l, ∃ a, s.atts = some [a]) :
    ∃ r, poorAtts best bound l = .ok r ∧
      ∀ a, a ∈ r ↔ ∃ s ∈ l, s.atts = some [a] ∧ best - s.merit > bound := by
  induction l with
  | nil => exact ⟨[], rfl, by simp⟩
  | cons s l ih =>
    obtain ⟨r, hr, hm⟩ := ih fun s hs => h s (by simp [hs])
    obtain ⟨a, ha⟩ := h s (by simp)
    simp only [poorAtts, ha, hr, bind, Except.bind, pure, Except.pure]
    by_cases hb : best - s.merit > bound
    · rw [if_pos hb]
      refine ⟨_, rfl, ?_⟩
      intro x
      simp only [List.mem_cons, hm, exists_eq_or_imp, ha, Option.some.injEq, List.cons.injEq, and_true]
      constructor
      · rintro (rfl | h)
        · exact .inl ⟨rfl, hb⟩
        · exact .inr h
      · rintro (⟨rfl, _⟩ | h)
        · exact .inl rfl
        · exact .inr h
    · rw [if_neg hb]
      refine ⟨_, rfl, ?_⟩
      intro x
      simp only [List.mem_cons, hm, exists_eq_or_imp, ha, Option.some.injEq, List.cons.injEq, and_true]
      constructor
      · exact .inr
      · rintro (⟨_, h⟩ | h)
        · exact absurd h hb
        · exact h

theorem poorAtts_error (best bound : ℚ) (l : List Sug) (h : ∃ s ∈ l, s.atts = none) :
    poorAtts best bound l = .error .attributeError := by
  induction l with
  | nil => simp at h
  | cons s l ih =>
    cases ha : s.atts with
    | none => simp [poorAtts, ha]
    | some atts =>
      have : ∃ s ∈ l, s.atts = none := by
        obtain ⟨s', hs', hn⟩ := h
        rcases List.mem_cons.mp hs' with rfl | h'
        · rw [ha] at hn; cases hn
        · exact ⟨s', h', hn⟩
      simp [poorAtts, ha, ih this, bind, Except.bind]

theorem length_suggestions (noPreprune : Bool) (nullMerit : ℚ) (attrs : List (ℚ × Nat)) :
    (suggestions noPreprune nullMerit attrs).length = (if noPreprune then 0 else 1) + attrs.length := by
  cases noPreprune <;> simp [suggestions]
  omega

/-- C67 (violated): with `remove_poor_atts=True` and pre-pruning left on (the default),
every split attempt on an impure leaf for which at least one attribute proposes a
split raises `AttributeError`. -/
theorem C67_remove_poor_atts_violated (nullMerit : ℚ) (attrs : List (ℚ × Nat)) (bound tie : ℚ)
    (hne : attrs ≠ []) :
    attempt false false true nullMerit attrs bound tie = .error .attributeError := by
  set sugs := sortSugs (suggestions false nullMerit attrs) with hs
  have hlen : sugs.length = 1 + attrs.length := by
    rw [(sort_perm _).length_eq, length_suggestions]; rfl
  have hpos : 0 < attrs.length := List.length_pos_of_ne_nil hne
  have hnull : ∃ s ∈ sugs, s.atts = none :=
    ⟨⟨nullMerit, none⟩, (sort_perm _).mem_iff.mpr (by simp [suggestions]), rfl⟩
  simp only [attempt, Bool.false_eq_true, if_false, ← hs]
  have hr : sugs.reverse.length = 1 + attrs.length := by rw [List.length_reverse, hlen]
  match hrev : sugs.reverse with
  | [] => rw [hrev] at hr; simp only [List.length_nil] at hr; omega
  | [x] => rw [hrev] at hr; simp only [List.length_singleton] at hr; omega
  | best :: second :: l =>
    simp [poorAtts_error best.merit bound sugs hnull, bind, Except.bind]

example : attempt false false true 0 [(1/2, 3)] (1/10) (1/20) = .error .attributeError :=
  C67_remove_poor_atts_violated 0 [(1/2, 3)] _ _ (by simp)

/-- C67 (what holds): without pre-pruning, with at least two candidates, exactly the
attributes whose merit trails the best merit by more than the bound are disabled. -/
theorem C67_poor_atts_partial (nullMerit : ℚ) (attrs : List (ℚ × Nat)) (bound tie : ℚ)
    (h2 : 2 ≤ attrs.length) :
    ∃ o poor, attempt false true true nullMerit attrs bound tie = .ok (o, poor) ∧
      ∃ best ∈ attrs, (∀ a ∈ attrs, a.1 ≤ best.1) ∧
        ∀ i, i ∈ poor ↔ ∃ a ∈ attrs, a.2 = i ∧ best.1 - a.1 > bound := by
  set sugs := sortSugs (suggestions true nullMerit attrs) with hs
  have hmem : ∀ s, s ∈ sugs ↔ ∃ a ∈ attrs, s = ⟨a.1, some [a.2]⟩ := by
    intro s
    rw [(sort_perm _).mem_iff]
    simp [suggestions, eq_comm]
  have hlen : sugs.length = attrs.length := by
    rw [(sort_perm _).length_eq, length_suggestions]; simp
  have hsorted : sugs.Pairwise fun a b => a.merit ≤ b.merit := sort_sorted _
  simp only [attempt, Bool.false_eq_true, if_false, ← hs]
  have hr : sugs.reverse.length = attrs.length := by rw [List.length_reverse, hlen]
  match hrev : sugs.reverse with
  | [] => rw [hrev] at hr; simp only [List.length_nil] at hr; omega
  | [x] => rw [hrev] at hr; simp only [List.length_singleton] at hr; omega
  | best :: second :: l =>
    obtain ⟨r, hr, hm⟩ := poorAtts_ok best.merit bound sugs (by
      intro s hs'
      obtain ⟨a, _, rfl⟩ := (hmem s).mp hs'
      exact ⟨a.2, rfl⟩)
    have hbest : best ∈ sugs := by rw [← List.mem_reverse, hrev]; simp
    have hmax : ∀ s ∈ sugs, s.merit ≤ best.merit := by
      intro s hs'
      have hp : (best :: second :: l).Pairwise fun a b => b.merit ≤ a.merit := by
        rw [← hrev, List.pairwise_reverse]; exact hsorted
      rw [← List.mem_reverse, hrev] at hs'
      rcases List.mem_cons.mp hs' with rfl | h'
      · exact le_refl _
      · exact (List.pairwise_cons.mp hp).1 s h'
    simp only [if_true, hr, bind, Except.bind, pure, Except.pure]
    refine ⟨_, _, rfl, ?_⟩
    obtain ⟨b, hb, hbe⟩ := (hmem best).mp hbest
    refine ⟨b, hb, ?_, ?_⟩
    · intro a ha
      have := hmax ⟨a.1, some [a.2]⟩ ((hmem _).mpr ⟨a, ha, rfl⟩)
      rw [hbe] at this; exact this
    · intro i
      rw [hm]
      constructor
      · rintro ⟨s, hs', e, hgt⟩
        obtain ⟨a, ha, rfl⟩ := (hmem s).mp hs'
        simp only [Option.some.injEq, List.cons.injEq, and_true] at e
        exact ⟨a, ha, e, by rw [hbe] at hgt; exact hgt⟩
      · rintro ⟨a, ha, rfl, hgt⟩
        exact ⟨⟨a.1, some [a.2]⟩, (hmem _).mpr ⟨a, ha, rfl⟩, rfl, by rw [hbe]; exact hgt⟩

/-- C68: the decision.  Let the candidates be the null split (unless pre-pruning is off)
and the best split of every attribute.  If an impure leaf is split, the split taken is a
candidate of greatest merit; with at least two candidates this happens exactly when some
greatest-merit candidate leads every other one by more than the bound or the bound is
below the tie threshold; and the leaf is pre-pruned only if the null split has greatest
merit. -/
theorem C68_decision (noPreprune : Bool) (nullMerit : ℚ) (attrs : List (ℚ × Nat)) (bound tie : ℚ)
    (h2 : 2 ≤ (suggestions noPreprune nullMerit attrs).length) :
    ∃ best rest, (best :: rest).Perm (suggestions noPreprune nullMerit attrs) ∧
      (∀ s ∈ rest, s.merit ≤ best.merit) ∧
      attempt false noPreprune false nullMerit attrs bound tie = .ok
        (if (∀ s ∈ rest, best.merit - s.merit > bound) ∨ bound < tie then
          (if best.atts = none then .prune else .split best) else .keep, []) := by
  set cs := suggestions noPreprune nullMerit attrs
  set sugs := sortSugs cs with hs
  have hsorted : sugs.Pairwise fun a b => a.merit ≤ b.merit := sort_sorted _
  have hperm := sort_perm cs
  have hr : 2 ≤ sugs.reverse.length := by rw [List.length_reverse, hperm.length_eq]; exact h2
  match hrev : sugs.reverse with
  | [] => rw [hrev] at hr; simp at hr
  | [x] => rw [hrev] at hr; simp at hr
  | best :: second :: l =>
    have hp : (best :: second :: l).Pairwise fun a b => b.merit ≤ a.merit := by
      rw [← hrev, List.pairwise_reverse]; exact hsorted
    refine ⟨best, second :: l, ?_, ?_, ?_⟩
    · rw [← hrev]; exact (List.reverse_perm _).trans hperm
    · exact (List.pairwise_cons.mp hp).1
    · have hlast : sugs.getLast? = some best := by
        rw [← List.head?_reverse, hrev]; rfl
      have hiff : (∀ s ∈ second :: l, best.merit - s.merit > bound) ↔ best.merit - second.merit > bound := by
        constructor
        · intro h; exact h second (by simp)
        · intro h s hs'
          have h1 := List.pairwise_cons.mp hp
          rcases List.mem_cons.mp hs' with rfl | h'
          · exact h
          · have := (List.pairwise_cons.mp h1.2).1 s h'
            linarith
      have hs2 : sortSugs (suggestions noPreprune nullMerit attrs) = sugs := rfl
      simp only [attempt, Bool.false_eq_true, if_false, hs2, bind, Except.bind, pure, Except.pure]
      rw [hrev]
      simp only [hlast, hiff]
      clear_value sugs
      by_cases hc : best.merit - second.merit > bound ∨ bound < tie
      · simp [hc]
      · simp [hc]

/-- C68: a leaf with a single candidate that is not pure is split on it, or
pre-pruned if it is the null split. -/
theorem C68_single (noPreprune : Bool) (nullMerit : ℚ) (attrs : List (ℚ × Nat)) (bound tie : ℚ) (s : Sug)
    (h1 : suggestions noPreprune nullMerit attrs = [s]) (rp : Bool) :
    attempt false noPreprune rp nullMerit attrs bound tie = .ok
      (if s.atts = none then .prune else .split s, []) := by
  have : sortSugs [s] = [s] := by simp [sortSugs]
  simp [attempt, h1, this]

/-- C68: a pure leaf is never split. -/
theorem C68_pure (noPreprune : Bool) (nullMerit : ℚ) (attrs : List (ℚ × Nat)) (bound tie : ℚ) (rp : Bool) :
    attempt true noPreprune rp nullMerit attrs bound tie = .ok (.keep, []) := rfl

example : attempt false false false 0 [(1/2, 3), (1/4, 1)] (1/10) (1/20) =
    .ok (.split ⟨1/2, some [3]⟩, []) := by decide +kernel
example : attempt false true true 0 [(1/2, 3), (1/4, 1)] (1/10) (1/20) =
    .ok (.split ⟨1/2, some [3]⟩, [1]) := by decide +kernel
example : attempt false false false 0 [(1/12, 3), (1/13, 1)] (1/10) (1/20) = .ok (.keep, []) := by
  decide +kernel

end Verif.Trees.Attempt
