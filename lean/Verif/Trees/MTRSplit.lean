import Verif.Trees.MTRMerit
import Verif.Trees.HTRSplit

/-!
The split decision of the multi-target trees (C254): isoup_tree.py 477-566 with the criterion
intra_cluster_variance_reduction_split_criterion.py 14-30 and base.py 450-480.
-/

namespace Verif.Trees.MT

open Verif.Trees.HL (Test)
open Verif.Trees.HR (att)

variable {T : Nat}

/-- `AttributeSplitSuggestion`: test (`none` for the null split), branch statistics, merit.  `np`: the
merit is a numpy number (otherwise it is the Python float `0.0`); they differ when divided. -/
structure Sg (T : Nat) where
  test : Option Test
  dists : List (VStat T)
  merit : ℚ
  np : Bool

/-- The suggestion of an observer, with `get_merit_of_split` (14-30). -/
def evaluate (pre : VStat T) (t : Test) (ds : List (VStat T)) : Sg T :=
  ⟨some t, ds, merit pre ds, ds.all fun d => d.n ≥ 5⟩

/-- The null split, base.py 468-473. -/
def nullSg (pre : VStat T) : Sg T := ⟨none, [], merit pre [pre], decide (pre.n ≥ 5)⟩

/-- `get_best_split_suggestions`, base.py 450-480; `cands` are the best splits of the observers. -/
def suggestions (noPreprune : Bool) (pre : VStat T) (cands : List (Test × List (VStat T))) : List (Sg T) :=
  (if noPreprune then [] else [nullSg pre]) ++ cands.map fun c => evaluate pre c.1 c.2

/-- Division of two merits: a Python division by zero raises, a numpy division gives a value that
no comparison of lines 533-534 finds smaller (`none`). -/
def quot (a b : Sg T) : Except PyErr (Option ℚ) :=
  if b.merit = 0 then (if a.np || b.np then .ok none else .error .zeroDivision)
  else .ok (some (a.merit / b.merit))

/-- The poor attributes, lines 525-535. -/
def poor (bound : ℚ) (best : Sg T) (ratio : Option ℚ) : List (Sg T) → Except PyErr (List Int)
  | [] => .ok []
  | s :: ss =>
    match s.test with
    | none => poor bound best ratio ss
    | some t =>
      match quot s best with
      | .error e => .error e
      | .ok q =>
        match poor bound best ratio ss with
        | .error e => .error e
        | .ok ps =>
          match q, ratio with
          | some q, some r => if q < r - 2 * bound then .ok (att t :: ps) else .ok ps
          | _, _ => .ok ps

/-- What `_attempt_to_split` does: nothing but disabling attributes and perhaps pruning observers
(560-566), deactivate the leaf, or split. -/
inductive Verdict (T : Nat) where
  | keep (poor : List Int) (manage : Bool)
  | prune
  | split (t : Test) (ds : List (VStat T))

/-- Lines 540-558: the last suggestion. -/
def act (s : Sg T) : Verdict T :=
  match s.test with
  | none => .prune
  | some t => .split t s.dists

/-- `list.sort(key=attrgetter('merit'))`, line 507, a stable sort. -/
def byMerit (ss : List (Sg T)) : List (Sg T) := ss.insertionSort (fun a b => a.merit ≤ b.merit)

/-- `_attempt_to_split`, 502-566, on the suggestions of the leaf; `bound` is the Hoeffding bound.  Unlike
in the single-target tree poor attributes are only looked for when the leaf is not split. -/
def attemptSplit (bound tie : ℚ) (removePoor : Bool) (ss : List (Sg T)) : Except PyErr (Verdict T) :=
  match (byMerit ss).reverse with
  | [] => .ok (.keep [] false)
  | [s] => .ok (act s)
  | best :: second :: _ =>
    if best.merit > 0 ∧ (second.merit / best.merit < 1 - bound ∨ bound < tie) then .ok (act best)
    else
      let manage := decide (best.merit > 0) && decide (second.merit > 0)
      if removePoor then
        match quot second best with
        | .error e => .error e
        | .ok ratio =>
          match poor bound best ratio (byMerit ss) with
          | .error e => .error e
          | .ok ps => .ok (.keep ps manage)
      else .ok (.keep [] manage)

/-! ### Specification -/

/-- The best of several suggestions, the second best and the others. -/
def Ranked (ss : List (Sg T)) (best second : Sg T) (rest : List (Sg T)) : Prop :=
  ss.Perm (best :: second :: rest) ∧ second.merit ≤ best.merit ∧ ∀ s ∈ rest, s.merit ≤ second.merit

/-- A positive best merit with enough evidence against the second best. -/
def Clear (bound tie : ℚ) (best second : Sg T) : Prop :=
  0 < best.merit ∧ (bound < tie ∨ second.merit < (1 - bound) * best.merit)

instance (bound tie : ℚ) (best second : Sg T) : Decidable (Clear bound tie best second) := inferInstanceAs (Decidable (_ ∧ _))

/-! ### Proofs -/

theorem byMerit_perm (ss : List (Sg T)) : (byMerit ss).Perm ss := List.perm_insertionSort _ _

theorem byMerit_sorted (ss : List (Sg T)) : (byMerit ss).Pairwise (fun a b => a.merit ≤ b.merit) := by
  unfold byMerit
  haveI : Std.Total (fun a b : Sg T => a.merit ≤ b.merit) := ⟨fun a b => le_total _ _⟩
  haveI : IsTrans (Sg T) (fun a b : Sg T => a.merit ≤ b.merit) := ⟨fun a b c h1 h2 => le_trans h1 h2⟩
  exact List.pairwise_insertionSort (r := fun a b : Sg T => a.merit ≤ b.merit) ss

theorem top_two (ss : List (Sg T)) (best second : Sg T) (rest : List (Sg T)) (h : (byMerit ss).reverse = best :: second :: rest) :
    Ranked ss best second rest := by
  have h1 : byMerit ss = (best :: second :: rest).reverse := by rw [← h, List.reverse_reverse]
  have h2 := byMerit_sorted ss
  rw [h1, List.pairwise_reverse] at h2
  obtain ⟨a, b⟩ := List.pairwise_cons.mp h2
  obtain ⟨c, _⟩ := List.pairwise_cons.mp b
  refine ⟨?_, a second List.mem_cons_self, c⟩
  have := byMerit_perm ss
  rw [h1] at this
  exact this.symm.trans (List.reverse_perm _)

theorem clear_iff (bound tie : ℚ) (best second : Sg T) :
    (best.merit > 0 ∧ (second.merit / best.merit < 1 - bound ∨ bound < tie)) ↔ Clear bound tie best second := by
  unfold Clear
  constructor
  · rintro ⟨h, h' | h'⟩
    · rw [div_lt_iff₀ h] at h'; exact ⟨h, .inr h'⟩
    · exact ⟨h, .inl h'⟩
  · rintro ⟨h, h' | h'⟩
    · exact ⟨h, .inr h'⟩
    · exact ⟨h, .inl (by rw [div_lt_iff₀ h]; exact h')⟩

theorem poor_spec (bound : ℚ) (best : Sg T) (r : ℚ) (hb : 0 < best.merit) (ss : List (Sg T)) :
    ∃ ps, poor bound best (some r) ss = .ok ps ∧
      ∀ a, a ∈ ps ↔ ∃ s ∈ ss, ∃ t, s.test = some t ∧ att t = a ∧ s.merit / best.merit < r - 2 * bound := by
  induction ss with
  | nil => exact ⟨[], rfl, by simp⟩
  | cons s ss ih =>
    obtain ⟨ps, h1, h2⟩ := ih
    rw [poor]
    cases ht : s.test with
    | none =>
      refine ⟨ps, h1, fun a => ?_⟩
      rw [h2]
      constructor
      · rintro ⟨s', hs', h⟩; exact ⟨s', List.mem_cons_of_mem _ hs', h⟩
      · rintro ⟨s', hs', t, h, h'⟩
        rcases List.mem_cons.mp hs' with rfl | hs'
        · rw [ht] at h; cases h
        · exact ⟨s', hs', t, h, h'⟩
    | some t =>
      have hq : quot s best = .ok (some (s.merit / best.merit)) := by
        unfold quot; rw [if_neg (ne_of_gt hb)]
      simp only [hq, h1]
      by_cases hlt : s.merit / best.merit < r - 2 * bound
      · rw [if_pos hlt]
        refine ⟨_, rfl, fun a => ?_⟩
        rw [List.mem_cons, h2]
        constructor
        · rintro (rfl | ⟨s', hs', h⟩)
          · exact ⟨s, by simp, t, ht, rfl, hlt⟩
          · exact ⟨s', List.mem_cons_of_mem _ hs', h⟩
        · rintro ⟨s', hs', t', h, h', h''⟩
          rcases List.mem_cons.mp hs' with rfl | hs'
          · rw [ht] at h; cases h; exact .inl h'.symm
          · exact .inr ⟨s', hs', t', h, h', h''⟩
      · rw [if_neg hlt]
        refine ⟨_, rfl, fun a => ?_⟩
        rw [h2]
        constructor
        · rintro ⟨s', hs', h⟩; exact ⟨s', List.mem_cons_of_mem _ hs', h⟩
        · rintro ⟨s', hs', t', h, h', h''⟩
          rcases List.mem_cons.mp hs' with rfl | hs'
          · exact absurd h'' hlt
          · exact ⟨s', hs', t', h, h', h''⟩

/-- C254 (what holds): with two suggestions or more and a decision made, let `best` and `second` be the two of
largest merit. The tree is changed exactly if the best merit is positive and the bound is below the tie threshold or
the second merit below the fraction `1 - bound` of it; then the change is the split of `best`, of which
every branch weighs at least 5: a leaf is never deactivated. No attribute is disabled when the leaf is split;
when it is not, those whose merit is less than that of the second best by more than
`2 * bound` times the best merit, if that is positive. -/
theorem C254_rule_partial (bound tie : ℚ) (rp np : Bool) (pre : VStat T) (hpre : pre.n ≠ 0) (cands : List (Test × List (VStat T)))
    (h2 : 2 ≤ (suggestions np pre cands).length) (v : Verdict T)
    (hv : attemptSplit bound tie rp (suggestions np pre cands) = .ok v) :
    ∃ best second rest, Ranked (suggestions np pre cands) best second rest ∧
      (Clear bound tie best second → ∃ c ∈ cands, v = .split c.1 c.2 ∧ merit pre c.2 = best.merit ∧ ∀ d ∈ c.2, 5 ≤ d.n) ∧
      (¬ Clear bound tie best second → ∃ ps m, v = .keep ps m ∧ (m = true ↔ 0 < best.merit ∧ 0 < second.merit) ∧
        (rp = false → ps = []) ∧
        (rp = true → 0 < best.merit → ∀ a, a ∈ ps ↔ ∃ c ∈ cands, att c.1 = a ∧ merit pre c.2 < second.merit - 2 * bound * best.merit)) := by
  set ss := suggestions np pre cands with hss
  have hlen : (byMerit ss).reverse.length = ss.length := by rw [List.length_reverse, (byMerit_perm ss).length_eq]
  have hcases : ∀ s ∈ ss, s = nullSg pre ∨ ∃ c ∈ cands, s = evaluate pre c.1 c.2 := by
    intro s hs
    rw [hss, suggestions, List.mem_append] at hs
    rcases hs with hs | hs
    · cases np
      · exact .inl (List.mem_singleton.mp hs)
      · cases hs
    · obtain ⟨c, hc, rfl⟩ := List.mem_map.mp hs
      exact .inr ⟨c, hc, rfl⟩
  have hin : ∀ c ∈ cands, evaluate pre c.1 c.2 ∈ ss := by
    intro c hc
    rw [hss, suggestions, List.mem_append]
    exact .inr (List.mem_map.mpr ⟨c, hc, rfl⟩)
  match hr : (byMerit ss).reverse with
  | [] => rw [hr] at hlen; simp at hlen; omega
  | [s] => rw [hr] at hlen; simp at hlen; omega
  | best :: second :: rest =>
    have hrk := top_two ss best second rest hr
    refine ⟨best, second, rest, hrk, fun hc => ?_, fun hc => ?_⟩
    · unfold attemptSplit at hv
      rw [hr] at hv
      simp only [] at hv
      rw [if_pos ((clear_iff _ _ _ _).2 hc), Except.ok.injEq] at hv
      rcases hcases best (hrk.1.symm.subset List.mem_cons_self) with hb | ⟨c, hcm, hb⟩
      · have h0 : best.merit = 0 := by rw [hb]; exact C205_no_split pre hpre
        exact absurd hc.1 (by rw [h0]; exact lt_irrefl _)
      · refine ⟨c, hcm, by rw [← hv, hb]; rfl, by rw [hb]; rfl, fun d hd => ?_⟩
        by_contra h5
        have h0 : best.merit = 0 := by rw [hb]; exact C205_small_branch pre d c.2 hd (not_le.mp h5)
        exact absurd hc.1 (by rw [h0]; exact lt_irrefl _)
    · unfold attemptSplit at hv
      rw [hr] at hv
      simp only [] at hv
      rw [if_neg fun h => hc ((clear_iff _ _ _ _).1 h)] at hv
      have hm : (decide (best.merit > 0) && decide (second.merit > 0)) = true ↔ 0 < best.merit ∧ 0 < second.merit := by simp
      cases rp with
      | false =>
        simp only [Bool.false_eq_true, if_false, Except.ok.injEq] at hv
        exact ⟨[], _, hv.symm, hm, fun _ => rfl, by simp⟩
      | true =>
        simp only [if_true] at hv
        cases hq : quot second best with
        | error e => rw [hq] at hv; cases hv
        | ok ratio =>
          rw [hq] at hv
          simp only [] at hv
          cases hp : poor bound best ratio (byMerit ss) with
          | error e => rw [hp] at hv; cases hv
          | ok ps =>
            rw [hp] at hv
            simp only [Except.ok.injEq] at hv
            refine ⟨ps, _, hv.symm, hm, by simp, fun _ hpos a => ?_⟩
            have hratio : ratio = some (second.merit / best.merit) := by
              unfold quot at hq
              rw [if_neg (ne_of_gt hpos), Except.ok.injEq] at hq
              exact hq.symm
            rw [hratio] at hp
            obtain ⟨ps', g1, g2⟩ := poor_spec bound best (second.merit / best.merit) hpos (byMerit ss)
            rw [hp, Except.ok.injEq] at g1
            subst g1
            rw [g2]
            have hconv : ∀ x : ℚ, x / best.merit < second.merit / best.merit - 2 * bound ↔ x < second.merit - 2 * bound * best.merit := by
              intro x
              rw [div_lt_iff₀ hpos, sub_mul, div_mul_cancel₀ _ (ne_of_gt hpos)]
            constructor
            · rintro ⟨s, hs, t, ht, ha, hl⟩
              rcases hcases s ((byMerit_perm ss).subset hs) with rfl | ⟨c, hcm, rfl⟩
              · cases ht
              · cases ht
                exact ⟨c, hcm, ha, (hconv _).1 hl⟩
            · rintro ⟨c, hcm, ha, hl⟩
              exact ⟨evaluate pre c.1 c.2, (byMerit_perm ss).symm.subset (hin c hcm), c.1, rfl, ha, (hconv _).2 hl⟩

/-- Decisions are made (no error) whenever poor attributes stay or some suggestion has positive merit. -/
theorem C254_decides_partial (bound tie : ℚ) (rp : Bool) (ss : List (Sg T)) (h : rp = false ∨ ∃ s ∈ ss, 0 < s.merit) :
    ∃ v, attemptSplit bound tie rp ss = .ok v := by
  unfold attemptSplit
  match hr : (byMerit ss).reverse with
  | [] => exact ⟨_, rfl⟩
  | [s] => exact ⟨_, rfl⟩
  | best :: second :: rest =>
    obtain ⟨p1, p2, p3⟩ := top_two ss best second rest hr
    simp only []
    by_cases hc : best.merit > 0 ∧ (second.merit / best.merit < 1 - bound ∨ bound < tie)
    · rw [if_pos hc]; exact ⟨_, rfl⟩
    · rw [if_neg hc]
      rcases h with rfl | ⟨s, hs, hpos⟩
      · exact ⟨_, rfl⟩
      · cases rp with
        | false => exact ⟨_, rfl⟩
        | true =>
          have hb : 0 < best.merit := by
            rcases List.mem_cons.mp (p1.subset hs) with rfl | hs
            · exact hpos
            · rcases List.mem_cons.mp hs with rfl | hs
              · exact lt_of_lt_of_le hpos p2
              · exact lt_of_lt_of_le hpos (le_trans (p3 s hs) p2)
          have hq : quot second best = .ok (some (second.merit / best.merit)) := by
            unfold quot; rw [if_neg (ne_of_gt hb)]
          obtain ⟨ps, g1, _⟩ := poor_spec bound best (second.merit / best.merit) hb (byMerit ss)
          simp only [if_true, hq, g1]
          exact ⟨_, rfl⟩

/-- C254 (violated): a single suggestion (one attribute, `no_preprune=True`) is followed whatever its
merit and however light its branches. -/
theorem C254_single_violated (bound tie : ℚ) (rp : Bool) (pre : VStat T) (t : Test) (ds : List (VStat T)) :
    attemptSplit bound tie rp (suggestions true pre [(t, ds)]) = .ok (.split t ds) := rfl

theorem byMerit_const (ss : List (Sg T)) (h : ∀ s ∈ ss, s.merit = 0) : byMerit ss = ss := by
  induction ss with
  | nil => rfl
  | cons s ss ih =>
    have ih' := ih fun s' m => h s' (List.mem_cons_of_mem _ m)
    unfold byMerit at ih' ⊢
    rw [List.insertionSort_cons, ih']
    cases ss with
    | nil => rfl
    | cons s' ss =>
      rw [List.orderedInsert_cons, if_pos (by rw [h s List.mem_cons_self, h s' (by simp)])]

theorem poor_error (bound : ℚ) (best : Sg T) (ratio : Option ℚ) (hb : best.merit = 0) (hnp : best.np = false) (ht : best.test ≠ none)
    (ss : List (Sg T)) (hm : best ∈ ss) : poor bound best ratio ss = .error .zeroDivision := by
  induction ss with
  | nil => simp at hm
  | cons s ss ih =>
    rw [poor]
    cases hts : s.test with
    | none =>
      simp only []
      rcases List.mem_cons.mp hm with rfl | hm
      · exact absurd hts ht
      · exact ih hm
    | some t =>
      simp only []
      cases hs : s.np with
      | false =>
        have : quot s best = .error .zeroDivision := by simp [quot, hb, hs, hnp]
        simp only [this]
      | true =>
        have : quot s best = .ok none := by simp [quot, hb, hs]
        simp only [this]
        rcases List.mem_cons.mp hm with rfl | hm
        · rw [hnp] at hs; cases hs
        · simp only [ih hm]

/-- C254 (violated): with `remove_poor_atts=True`, a split attempt raises `ZeroDivisionError` when no
attribute admits a split into branches of weight at least 5. -/
theorem C254_poor_violated (bound tie : ℚ) (np : Bool) (pre : VStat T) (hpre : pre.n ≠ 0) (cands : List (Test × List (VStat T)))
    (hne : cands ≠ []) (hlight : ∀ c ∈ cands, ∃ d ∈ c.2, d.n < 5) (h2 : 2 ≤ (suggestions np pre cands).length) :
    attemptSplit bound tie true (suggestions np pre cands) = .error .zeroDivision := by
  have hev : ∀ c ∈ cands, evaluate pre c.1 c.2 = ⟨some c.1, c.2, 0, false⟩ := by
    intro c hc
    obtain ⟨d, hd, h5⟩ := hlight c hc
    have h1 : (c.2.all fun d => decide (d.n ≥ 5)) = false := by
      rw [List.all_eq_false]
      exact ⟨d, hd, by simpa using h5⟩
    rw [evaluate, C205_small_branch pre d c.2 hd h5, h1]
  obtain ⟨init, c, hcc⟩ : ∃ init c, cands = init ++ [c] := ⟨cands.dropLast, cands.getLast hne, (List.dropLast_append_getLast hne).symm⟩
  have hcm : c ∈ cands := by rw [hcc]; simp
  set pres : List (Sg T) := (if np then [] else [nullSg pre]) ++ init.map fun c => evaluate pre c.1 c.2 with hpres
  have hss : suggestions np pre cands = pres ++ [⟨some c.1, c.2, 0, false⟩] := by
    rw [suggestions, hcc, List.map_append, ← List.append_assoc, List.map_cons, List.map_nil, hev c hcm]
  have hall : ∀ s ∈ suggestions np pre cands, s.merit = 0 := by
    intro s hs
    rw [suggestions, List.mem_append] at hs
    rcases hs with hs | hs
    · cases np
      · rw [List.mem_singleton.mp hs]; exact C205_no_split pre hpre
      · cases hs
    · obtain ⟨c, hc, rfl⟩ := List.mem_map.mp hs
      rw [hev c hc]
  have hsort := byMerit_const _ hall
  have hrev : (suggestions np pre cands).reverse = ⟨some c.1, c.2, 0, false⟩ :: pres.reverse := by
    rw [hss, List.reverse_append]; rfl
  have hmem : (⟨some c.1, c.2, 0, false⟩ : Sg T) ∈ suggestions np pre cands := by rw [hss]; simp
  unfold attemptSplit
  rw [hsort, hrev]
  cases hrest : pres.reverse with
  | nil =>
    have h := congrArg List.length hrev
    rw [hrest] at h
    simp at h
    omega
  | cons second rest =>
    simp only [if_true]
    rw [if_neg fun h => lt_irrefl _ h.1]
    cases hq : quot second ⟨some c.1, c.2, 0, false⟩ with
    | error e =>
      have : e = .zeroDivision := by
        unfold quot at hq
        simp only [if_true] at hq
        by_cases h : (second.np || false) = true
        · rw [if_pos h] at hq; simp at hq
        · rw [if_neg h] at hq; simpa using hq.symm
      simp only [this]
    | ok ratio =>
      simp only []
      rw [poor_error bound _ ratio rfl rfl (by simp) _ hmem]

/-- Two targets, twenty rows: a split that separates the values of both targets, and one that separates nothing. -/
def exPre : VStat 2 := ⟨20, fun _ => 10, fun _ => 10⟩
def exGood : Test × List (VStat 2) := (.num ⟨0, 1, true⟩, [⟨10, fun _ => 10, fun _ => 10⟩, ⟨10, fun _ => 0, fun _ => 0⟩])
def exBad : Test × List (VStat 2) := (.num ⟨1, 1, true⟩, [⟨10, fun _ => 5, fun _ => 5⟩, ⟨10, fun _ => 5, fun _ => 5⟩])
def exFair : Test × List (VStat 2) := (.num ⟨2, 1, true⟩, [⟨10, fun _ => 9, fun _ => 9⟩, ⟨10, fun _ => 1, fun _ => 1⟩])
def exLight : Test × List (VStat 2) := (.num ⟨0, 1, true⟩, [⟨18, fun _ => 9, fun _ => 9⟩, ⟨2, fun _ => 1, fun _ => 1⟩])

def Verdict.text : Verdict T → Option (List Int) × Option Int
  | .keep ps _ => (some ps, none)
  | .prune => (none, none)
  | .split t _ => (none, some (att t))

/-- Clear evidence splits by attribute 0; with a large bound the leaf is kept, and attribute 1 is disabled if the bound
allows; two light candidates raise an error. -/
example : ((attemptSplit (1/4) (1/20) true (suggestions false exPre [exGood, exBad])).toOption.map Verdict.text) = some (none, some 0) ∧
    ((attemptSplit (2/5) (1/20) true (suggestions false exPre [exGood, exBad, exFair])).toOption.map Verdict.text) = some (some [], none) ∧
    ((attemptSplit (3/10) (1/20) true (suggestions false exPre [exGood, exGood, exBad])).toOption.map Verdict.text) = some (some [1], none) ∧
    ((attemptSplit (3/10) (1/20) true (suggestions false exPre [exLight, exLight])).toOption.map Verdict.text) = none := by
  decide +kernel

end Verif.Trees.MT
