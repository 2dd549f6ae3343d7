import Verif.Trees.HTRLeaf
import Mathlib.Data.List.Sort
import Mathlib.Tactic.Positivity

/-!
The split decision of the Hoeffding tree regressor (C177): hoeffding_tree_regressor.py 433-513 with
the criterion variance_reduction_split_criterion.py 19-34.
-/

namespace Verif.Trees.HR

open Verif.Trees Verif.Trees.Grow Verif.Trees.EBST
open Verif.Trees.HL (Test)

/-- `AttributeSplitSuggestion`: test (`none` for the null split), branch statistics, merit.  `np`: the
merit is a numpy number (otherwise it is the Python float `0.0`); they differ when divided. -/
structure Sg where
  test : Option Test
  dists : List Stat
  merit : ℚ
  np : Bool

/-- `get_merit_of_split` (19-34): `sdr` stands for the reduction of the standard deviation (30-33),
which is only computed if every branch weighs at least 5. -/
def evaluate (sdr : Stat → List Stat → ℚ) (pre : Stat) (t : Test) (ds : List Stat) : Sg :=
  if ∀ d ∈ ds, 5 ≤ d.n then ⟨some t, ds, sdr pre ds, true⟩ else ⟨some t, ds, 0, false⟩

/-- The null split, base.py 468-473. -/
def nullSg (sdr : Stat → List Stat → ℚ) (pre : Stat) : Sg :=
  if 5 ≤ pre.n then ⟨none, [], sdr pre [pre], true⟩ else ⟨none, [], 0, false⟩

/-- Division of two merits: a Python division by zero raises, a numpy division gives a value that
no comparison of lines 483-484 finds smaller (`none`). -/
def quot (a b : Sg) : Except PyErr (Option ℚ) :=
  if b.merit = 0 then (if a.np || b.np then .ok none else .error .zeroDivision)
  else .ok (some (a.merit / b.merit))

/-- The attribute of a test. -/
def att : Test → Int
  | .num t => t.att
  | .nom t => t.att
  | .multi t => t.att

/-- The poor attributes, lines 478-485. -/
def poor (bound : ℚ) (best : Sg) (ratio : Option ℚ) : List Sg → Except PyErr (List Int)
  | [] => .ok []
  | s :: ss =>
    match s.test with
    | none => poor bound best ratio ss
    | some t =>
      match quot s best with
      | .error e => .error e
      | .ok q =>
        match poor bound best ratio ss with
        | .error e => .error e
        | .ok ps =>
          match q, ratio with
          | some q, some r => if q < r - 2 * bound then .ok (att t :: ps) else .ok ps
          | _, _ => .ok ps

/-- What `_attempt_to_split` does: nothing but disabling attributes and perhaps pruning observers
(508-513), deactivate the leaf, or split. -/
inductive Verdict where
  | keep (poor : List Int) (manage : Bool)
  | prune (poor : List Int)
  | split (poor : List Int) (t : Test) (ds : List Stat)

/-- Lines 488-505: the last suggestion. -/
def act (ps : List Int) (s : Sg) : Verdict :=
  match s.test with
  | none => .prune ps
  | some t => .split ps t s.dists

/-- `list.sort(key=attrgetter('merit'))`, a stable sort. -/
def byMerit (ss : List Sg) : List Sg := ss.insertionSort (fun a b => a.merit ≤ b.merit)

/-- `_attempt_to_split`, 457-513, on the suggestions of the leaf; `bound` is the Hoeffding bound. -/
def attemptSplit (bound tie : ℚ) (removePoor : Bool) (ss : List Sg) : Except PyErr Verdict :=
  match (byMerit ss).reverse with
  | [] => .ok (.keep [] false)
  | [s] => .ok (act [] s)
  | best :: second :: _ =>
    let should := decide (best.merit > 0) && (decide (second.merit / best.merit < 1 - bound) || decide (bound < tie))
    match (if removePoor then
        match quot second best with
        | .error e => .error e
        | .ok ratio => poor bound best ratio (byMerit ss)
      else .ok [] : Except PyErr (List Int)) with
    | .error e => .error e
    | .ok ps =>
      if should then .ok (act ps best)
      else .ok (.keep ps (decide (best.merit > 0) && decide (second.merit > 0)))

/-! ### Specification -/

/-- The verdict changes the tree. -/
def Verdict.changes : Verdict → Bool
  | .keep _ _ => false
  | _ => true

/-- Suggestions as the leaf makes them. -/
def Suggested (sdr : Stat → List Stat → ℚ) (pre : Stat) (s : Sg) : Prop :=
  s = nullSg sdr pre ∨ ∃ t ds, s = evaluate sdr pre t ds

/-! ### Proofs -/

theorem byMerit_perm (ss : List Sg) : (byMerit ss).Perm ss := List.perm_insertionSort _ _

theorem byMerit_sorted (ss : List Sg) : (byMerit ss).Pairwise (fun a b => a.merit ≤ b.merit) := by
  unfold byMerit
  haveI : Std.Total (fun a b : Sg => a.merit ≤ b.merit) := ⟨fun a b => le_total _ _⟩
  haveI : IsTrans Sg (fun a b : Sg => a.merit ≤ b.merit) := ⟨fun a b c h1 h2 => le_trans h1 h2⟩
  exact List.pairwise_insertionSort (r := fun a b : Sg => a.merit ≤ b.merit) ss

theorem top_two (ss : List Sg) (best second : Sg) (rest : List Sg) (h : (byMerit ss).reverse = best :: second :: rest) :
    ss.Perm (best :: second :: rest) ∧ second.merit ≤ best.merit ∧ ∀ s ∈ rest, s.merit ≤ second.merit := by
  have h1 : byMerit ss = (best :: second :: rest).reverse := by rw [← h, List.reverse_reverse]
  have h2 := byMerit_sorted ss
  rw [h1, List.pairwise_reverse] at h2
  obtain ⟨a, b⟩ := List.pairwise_cons.mp h2
  obtain ⟨c, _⟩ := List.pairwise_cons.mp b
  refine ⟨?_, a second List.mem_cons_self, c⟩
  have := byMerit_perm ss
  rw [h1] at this
  exact this.symm.trans (List.reverse_perm _)

theorem act_changes (ps : List Int) (s : Sg) : (act ps s).changes = true := by
  unfold act
  cases s.test <;> rfl

/-- C177: with two suggestions or more, a leaf is split (or deactivated, if the null split is best)
exactly if some suggestion has positive merit, no other has more, and the Hoeffding bound is below
the tie threshold or all others stay below the fraction `1 - bound` of its merit. -/
theorem C177_rule_partial (bound tie : ℚ) (rp : Bool) (ss : List Sg) (h2 : 2 ≤ ss.length) (v : Verdict)
    (hv : attemptSplit bound tie rp ss = .ok v) :
    v.changes = true ↔ ∃ s rest, ss.Perm (s :: rest) ∧ 0 < s.merit ∧ (∀ s' ∈ rest, s'.merit ≤ s.merit) ∧
      (bound < tie ∨ ∀ s' ∈ rest, s'.merit < (1 - bound) * s.merit) := by
  have hlen : (byMerit ss).reverse.length = ss.length := by rw [List.length_reverse, (byMerit_perm ss).length_eq]
  match hr : (byMerit ss).reverse with
  | [] => rw [hr] at hlen; simp at hlen; omega
  | [s] => rw [hr] at hlen; simp at hlen; omega
  | best :: second :: rest =>
    obtain ⟨p1, p2, p3⟩ := top_two ss best second rest hr
    unfold attemptSplit at hv
    rw [hr] at hv
    simp only [] at hv
    cases hp : (if rp then
        match quot second best with
        | .error e => .error e
        | .ok ratio => poor bound best ratio (byMerit ss)
      else .ok [] : Except PyErr (List Int)) with
    | error e => rw [hp] at hv; simp at hv
    | ok ps =>
      rw [hp] at hv
      simp only [] at hv
      have hiff : v.changes = true ↔ best.merit > 0 ∧ (second.merit / best.merit < 1 - bound ∨ bound < tie) := by
        by_cases hs : best.merit > 0 ∧ (second.merit / best.merit < 1 - bound ∨ bound < tie)
        · have : (decide (best.merit > 0) && (decide (second.merit / best.merit < 1 - bound) || decide (bound < tie))) = true := by
            simpa using hs
          rw [if_pos this, Except.ok.injEq] at hv
          rw [← hv, act_changes]
          exact ⟨fun _ => hs, fun _ => rfl⟩
        · have : ¬ (decide (best.merit > 0) && (decide (second.merit / best.merit < 1 - bound) || decide (bound < tie))) = true := by
            simpa using hs
          rw [if_neg this, Except.ok.injEq] at hv
          rw [← hv]
          exact ⟨fun h => by simp [Verdict.changes] at h, fun h => absurd h hs⟩
      rw [hiff]
      have hall : ∀ s' ∈ second :: rest, s'.merit ≤ second.merit := by
        intro s' hs'
        rcases List.mem_cons.mp hs' with rfl | hs'
        · exact le_refl _
        · exact p3 s' hs'
      constructor
      · rintro ⟨hpos, hc⟩
        refine ⟨best, second :: rest, p1, hpos, fun s' hs' => le_trans (hall s' hs') p2, ?_⟩
        rcases hc with hc | hc
        · right
          rw [div_lt_iff₀ hpos] at hc
          exact fun s' hs' => lt_of_le_of_lt (hall s' hs') hc
        · exact .inl hc
      · rintro ⟨s, rest', q1, q2, q3, q4⟩
        have hb : s.merit = best.merit := by
          have hbm : best ∈ s :: rest' := q1.subset (p1.symm.subset List.mem_cons_self)
          have hsm : s ∈ best :: second :: rest := p1.subset (q1.symm.subset List.mem_cons_self)
          apply le_antisymm
          · rcases List.mem_cons.mp hsm with rfl | h
            · exact le_refl _
            · exact le_trans (hall s h) p2
          · rcases List.mem_cons.mp hbm with rfl | h
            · exact le_refl _
            · exact q3 best h
        rw [hb] at q2
        refine ⟨q2, ?_⟩
        rcases q4 with q4 | q4
        · exact .inr q4
        · left
          rw [div_lt_iff₀ q2, ← hb]
          -- the second largest merit occurs among the others
          have hperm : (best :: second :: rest).Perm (s :: rest') := p1.symm.trans q1
          have hm : (rest'.map Sg.merit).Perm ((second :: rest).map Sg.merit) := by
            have h5 := hperm.map Sg.merit
            rw [List.map_cons, List.map_cons (l := rest'), hb] at h5
            exact (List.perm_cons _).mp h5.symm
          have h6 : second.merit ∈ rest'.map Sg.merit := hm.symm.subset (by simp)
          obtain ⟨s', hs', e⟩ := List.mem_map.mp h6
          rw [← e]
          exact q4 s' hs'

/-- C177: with two suggestions or more, a leaf is only split along a suggestion of positive and
largest merit, and then every branch has a weight of at least 5. -/
theorem C177_branches_partial (sdr : Stat → List Stat → ℚ) (pre : Stat) (bound tie : ℚ) (rp : Bool) (ss : List Sg)
    (hsug : ∀ s ∈ ss, Suggested sdr pre s) (h2 : 2 ≤ ss.length) (ps : List Int) (t : Test) (ds : List Stat)
    (hv : attemptSplit bound tie rp ss = .ok (.split ps t ds)) :
    0 < sdr pre ds ∧ (∀ s ∈ ss, s.merit ≤ sdr pre ds) ∧ ∀ d ∈ ds, 5 ≤ d.n := by
  have hlen : (byMerit ss).reverse.length = ss.length := by rw [List.length_reverse, (byMerit_perm ss).length_eq]
  match hr : (byMerit ss).reverse with
  | [] => rw [hr] at hlen; simp at hlen; omega
  | [s] => rw [hr] at hlen; simp at hlen; omega
  | best :: second :: rest =>
    obtain ⟨p1, p2, p3⟩ := top_two ss best second rest hr
    unfold attemptSplit at hv
    rw [hr] at hv
    simp only [] at hv
    cases hp : (if rp then
        match quot second best with
        | .error e => .error e
        | .ok ratio => poor bound best ratio (byMerit ss)
      else .ok [] : Except PyErr (List Int)) with
    | error e => rw [hp] at hv; simp at hv
    | ok ps' =>
      rw [hp] at hv
      simp only [] at hv
      by_cases hs : (decide (best.merit > 0) && (decide (second.merit / best.merit < 1 - bound) || decide (bound < tie))) = true
      · rw [if_pos hs, Except.ok.injEq] at hv
        have hpos : best.merit > 0 := by
          rw [Bool.and_eq_true] at hs; simpa using hs.1
        have hb := hsug best (p1.symm.subset List.mem_cons_self)
        have hmax : ∀ s ∈ ss, s.merit ≤ best.merit := by
          intro s hs'
          rcases List.mem_cons.mp (p1.subset hs') with rfl | h
          · exact le_refl _
          · rcases List.mem_cons.mp h with rfl | h
            · exact p2
            · exact le_trans (p3 s h) p2
        rcases hb with rfl | ⟨t', ds', rfl⟩
        · unfold nullSg at hv
          by_cases h5 : 5 ≤ pre.n
          · rw [if_pos h5] at hv; simp [act] at hv
          · rw [if_neg h5] at hv; simp [act] at hv
        · by_cases h5 : ∀ d ∈ ds', 5 ≤ d.n
          · have he : evaluate sdr pre t' ds' = ⟨some t', ds', sdr pre ds', true⟩ := by rw [evaluate, if_pos h5]
            rw [he] at hv hpos hmax
            simp only [act, Verdict.split.injEq] at hv
            obtain ⟨_, _, rfl⟩ := hv
            exact ⟨hpos, hmax, h5⟩
          · have he : evaluate sdr pre t' ds' = ⟨some t', ds', 0, false⟩ := by rw [evaluate, if_neg h5]
            rw [he] at hpos
            simp at hpos
      · rw [if_neg hs] at hv; simp at hv

theorem top_merits (ss : List Sg) (a b : Sg) (r : List Sg) (a' b' : Sg) (r' : List Sg)
    (h : ss.Perm (a :: b :: r)) (h1 : b.merit ≤ a.merit) (h2 : ∀ s ∈ r, s.merit ≤ b.merit)
    (h' : ss.Perm (a' :: b' :: r')) (h1' : b'.merit ≤ a'.merit) (h2' : ∀ s ∈ r', s.merit ≤ b'.merit) :
    a'.merit = a.merit ∧ b'.merit = b.merit := by
  have hp : (a.merit :: b.merit :: r.map Sg.merit).Perm (a'.merit :: b'.merit :: r'.map Sg.merit) := (h.symm.trans h').map Sg.merit
  have top : ∀ (x y : ℚ) (l m : List ℚ), (x :: l).Perm (y :: m) → (∀ z ∈ l, z ≤ x) → (∀ z ∈ m, z ≤ y) → y = x := by
    intro x y l m hp h1 h2
    apply le_antisymm
    · rcases List.mem_cons.mp (hp.symm.subset List.mem_cons_self) with h | h
      · exact h.le
      · exact h1 _ h
    · rcases List.mem_cons.mp (hp.subset List.mem_cons_self) with h | h
      · exact h.le
      · exact h2 _ h
  have low : ∀ (a b : Sg) (r : List Sg), b.merit ≤ a.merit → (∀ s ∈ r, s.merit ≤ b.merit) →
      (∀ z ∈ r.map Sg.merit, z ≤ b.merit) ∧ ∀ z ∈ b.merit :: r.map Sg.merit, z ≤ a.merit := by
    intro a b r h1 h2
    have : ∀ z ∈ r.map Sg.merit, z ≤ b.merit := by
      intro z hz
      obtain ⟨s, hs, rfl⟩ := List.mem_map.mp hz
      exact h2 s hs
    refine ⟨this, fun z hz => ?_⟩
    rcases List.mem_cons.mp hz with rfl | hz
    · exact h1
    · exact le_trans (this z hz) h1
  have e := top _ _ _ _ hp (low a b r h1 h2).2 (low a' b' r' h1' h2').2
  rw [e] at hp
  exact ⟨e, top _ _ _ _ (List.Perm.cons_inv hp) (low a b r h1 h2).1 (low a' b' r' h1' h2').1⟩

/-- The attributes that are disabled. -/
def Verdict.poor : Verdict → List Int
  | .keep ps _ => ps
  | .prune ps => ps
  | .split ps _ _ => ps

theorem act_poor (ps : List Int) (s : Sg) : (act ps s).poor = ps := by
  unfold act
  cases s.test <;> rfl

theorem poor_spec (bound : ℚ) (best : Sg) (hb : best.merit ≠ 0) (r : ℚ) : ∀ ss : List Sg,
    ∃ ps, poor bound best (some r) ss = .ok ps ∧
      ∀ a, a ∈ ps ↔ ∃ s ∈ ss, ∃ t, s.test = some t ∧ att t = a ∧ s.merit / best.merit < r - 2 * bound := by
  intro ss
  induction ss with
  | nil => exact ⟨[], rfl, by simp⟩
  | cons s ss ih =>
    obtain ⟨ps, h1, h2⟩ := ih
    cases ht : s.test with
    | none =>
      refine ⟨ps, by simp only [poor, ht, h1], fun a => ?_⟩
      rw [h2]
      simp [ht]
    | some t =>
      by_cases hq : s.merit / best.merit < r - 2 * bound
      · refine ⟨att t :: ps, by simp only [poor, ht, h1, quot, if_neg hb, if_pos hq], fun a => ?_⟩
        rw [List.mem_cons, h2]
        simp only [List.mem_cons, exists_eq_or_imp, ht, Option.some.injEq, exists_eq_left', hq, and_true]
        rw [eq_comm (a := a)]
      · refine ⟨ps, by simp only [poor, ht, h1, quot, if_neg hb, if_neg hq], fun a => ?_⟩
        rw [h2]
        simp [ht, hq]

/-- C177: with a best suggestion of positive merit, `remove_poor_atts=True` disables exactly the
attributes with a suggestion whose merit is below the second best by more than twice the bound (times
the best merit); otherwise no attribute is disabled.  A leaf that stays is asked to prune its
observers exactly when the two best merits are positive. -/
theorem C177_disabled_partial (bound tie : ℚ) (rp : Bool) (ss : List Sg) (best second : Sg) (rest : List Sg)
    (hp : ss.Perm (best :: second :: rest)) (h1 : second.merit ≤ best.merit) (h2 : ∀ s ∈ rest, s.merit ≤ second.merit)
    (hb : 0 < best.merit) :
    ∃ v, attemptSplit bound tie rp ss = .ok v ∧
      (∀ a, a ∈ v.poor ↔ rp = true ∧ ∃ s ∈ ss, ∃ t, s.test = some t ∧ att t = a ∧ s.merit < second.merit - 2 * bound * best.merit) ∧
      ∀ ps m, v = .keep ps m → (m = true ↔ 0 < second.merit) := by
  have hlen : (byMerit ss).reverse.length = rest.length + 2 := by
    rw [List.length_reverse, (byMerit_perm ss).length_eq, hp.length_eq]; rfl
  match hr : (byMerit ss).reverse with
  | [] => rw [hr] at hlen; simp at hlen
  | [s] => rw [hr] at hlen; simp at hlen
  | b :: s :: rest' =>
    obtain ⟨p1, p2, p3⟩ := top_two ss b s rest' hr
    obtain ⟨e1, e2⟩ := top_merits ss best second rest b s rest' hp h1 h2 p1 p2 p3
    have hb' : b.merit ≠ 0 := by rw [e1]; exact hb.ne'
    have fin : ∀ ps : List Int, (if (decide (b.merit > 0) && (decide (s.merit / b.merit < 1 - bound) || decide (bound < tie))) = true then
          Except.ok (act ps b) else .ok (.keep ps (decide (b.merit > 0) && decide (s.merit > 0))) : Except PyErr Verdict) =
          .ok (if (decide (b.merit > 0) && (decide (s.merit / b.merit < 1 - bound) || decide (bound < tie))) = true then act ps b
            else .keep ps (decide (b.merit > 0) && decide (s.merit > 0))) := by
      intro ps; split <;> rfl
    have end' : ∀ ps : List Int, ∃ v, (if (decide (b.merit > 0) && (decide (s.merit / b.merit < 1 - bound) || decide (bound < tie))) = true then
          Except.ok (act ps b) else .ok (.keep ps (decide (b.merit > 0) && decide (s.merit > 0))) : Except PyErr Verdict) = .ok v ∧
          v.poor = ps ∧ ∀ qs m, v = .keep qs m → (m = true ↔ 0 < second.merit) := by
      intro ps
      refine ⟨_, fin ps, ?_, ?_⟩
      · split
        · exact act_poor ps b
        · rfl
      · intro qs m hv
        split at hv
        · unfold act at hv
          cases hbt : b.test with
          | none => rw [hbt] at hv; cases hv
          | some t => rw [hbt] at hv; cases hv
        · simp only [Verdict.keep.injEq] at hv
          rw [← hv.2, e1, e2]
          simp [hb]
    have runs : ∀ ps : List Int, ((if rp then
        match quot s b with
        | .error e => .error e
        | .ok ratio => poor bound b ratio (byMerit ss)
      else .ok [] : Except PyErr (List Int)) = .ok ps) →
        attemptSplit bound tie rp ss = (if (decide (b.merit > 0) && (decide (s.merit / b.merit < 1 - bound) || decide (bound < tie))) = true then
          Except.ok (act ps b) else .ok (.keep ps (decide (b.merit > 0) && decide (s.merit > 0))) : Except PyErr Verdict) := by
      intro ps h
      unfold attemptSplit
      rw [hr]
      simp only
      rw [h]
    cases rp with
    | false =>
      obtain ⟨v, v1, v2, v3⟩ := end' []
      refine ⟨v, (runs [] rfl).trans v1, fun a => ?_, v3⟩
      rw [v2]; simp
    | true =>
      obtain ⟨ps, q1, q2⟩ := poor_spec bound b hb' (s.merit / b.merit) (byMerit ss)
      obtain ⟨v, v1, v2, v3⟩ := end' ps
      refine ⟨v, (runs ps ?_).trans v1, fun a => ?_, v3⟩
      · rw [if_pos rfl, quot, if_neg hb']
        exact q1
      · rw [v2, q2]
        simp only [true_and]
        constructor
        · rintro ⟨x, hx, t, t1, t2, t3⟩
          refine ⟨x, (byMerit_perm ss).subset hx, t, t1, t2, ?_⟩
          rw [e1, e2, div_lt_iff₀ hb] at t3
          have : (second.merit / best.merit - 2 * bound) * best.merit = second.merit - 2 * bound * best.merit := by
            field_simp
          linarith
        · rintro ⟨x, hx, t, t1, t2, t3⟩
          refine ⟨x, (byMerit_perm ss).symm.subset hx, t, t1, t2, ?_⟩
          rw [e1, e2, div_lt_iff₀ hb]
          have : (second.merit / best.merit - 2 * bound) * best.merit = second.merit - 2 * bound * best.merit := by
            field_simp
          linarith

/-- C177: a leaf without suggestions is left as it is. -/
theorem C177_nothing_partial (bound tie : ℚ) (rp : Bool) : attemptSplit bound tie rp [] = .ok (.keep [] false) := rfl

/-- Non-vacuity: merits 10, 9 and 1 on attributes 0, 1 and 2 with bound 1/10; attribute 2 is poor. -/
example : ((attemptSplit (1/10) (1/20) true [⟨some (.num ⟨2, 0, true⟩), [], 1, true⟩, ⟨some (.num ⟨0, 0, true⟩), [], 10, true⟩,
    ⟨some (.num ⟨1, 0, true⟩), [], 9, true⟩]).toOption.map Verdict.poor) = some [2] := by decide +kernel

/-- C177 (violated): a single suggestion (one attribute, `no_preprune=True`) is followed whatever its
merit and however light its branches. -/
theorem C177_single_violated (sdr : Stat → List Stat → ℚ) (pre : Stat) (bound tie : ℚ) (rp : Bool) (t : Test) (ds : List Stat) :
    attemptSplit bound tie rp [evaluate sdr pre t ds] = .ok (.split [] t ds) := by
  have : byMerit [evaluate sdr pre t ds] = [evaluate sdr pre t ds] := rfl
  unfold attemptSplit
  rw [this]
  simp only [List.reverse_cons, List.reverse_nil, List.nil_append, act]
  unfold evaluate
  by_cases h5 : ∀ d ∈ ds, 5 ≤ d.n
  · rw [if_pos h5]
  · rw [if_neg h5]

theorem byMerit_const (ss : List Sg) (h : ∀ s ∈ ss, s.merit = 0) : byMerit ss = ss := by
  induction ss with
  | nil => rfl
  | cons s ss ih =>
    have ih' := ih fun s' m => h s' (List.mem_cons_of_mem _ m)
    unfold byMerit at ih' ⊢
    rw [List.insertionSort_cons, ih']
    cases ss with
    | nil => rfl
    | cons s' ss =>
      rw [List.orderedInsert_cons, if_pos (by rw [h s List.mem_cons_self, h s' (by simp)])]

theorem poor_error (bound : ℚ) (best : Sg) (ratio : Option ℚ) (hb : best.merit = 0) (hnp : best.np = false) (ht : best.test ≠ none)
    (ss : List Sg) (hm : best ∈ ss) : poor bound best ratio ss = .error .zeroDivision := by
  induction ss with
  | nil => simp at hm
  | cons s ss ih =>
    rw [poor]
    cases hts : s.test with
    | none =>
      simp only []
      rcases List.mem_cons.mp hm with rfl | hm
      · exact absurd hts ht
      · exact ih hm
    | some t =>
      simp only []
      cases hs : s.np with
      | false =>
        have : quot s best = .error .zeroDivision := by simp [quot, hb, hs, hnp]
        simp only [this]
      | true =>
        have : quot s best = .ok none := by simp [quot, hb, hs]
        simp only [this]
        rcases List.mem_cons.mp hm with rfl | hm
        · rw [hnp] at hs; cases hs
        · simp only [ih hm]

/-- C177 (violated): with `remove_poor_atts=True`, a split attempt raises `ZeroDivisionError` when no
attribute admits a split into branches of weight at least 5 (and the null split, if offered, has
merit 0). -/
theorem C177_poor_violated (sdr : Stat → List Stat → ℚ) (pre : Stat) (hnull : sdr pre [pre] = 0) (bound tie : ℚ)
    (cands : List (Test × List Stat)) (hne : cands ≠ []) (hlight : ∀ c ∈ cands, ∃ d ∈ c.2, d.n < 5) (nulls : List Sg)
    (hn : nulls = [nullSg sdr pre] ∨ (nulls = [] ∧ 2 ≤ cands.length)) :
    attemptSplit bound tie true (nulls ++ cands.map fun c => evaluate sdr pre c.1 c.2) = .error .zeroDivision := by
  have hev : ∀ c ∈ cands, evaluate sdr pre c.1 c.2 = ⟨some c.1, c.2, 0, false⟩ := by
    intro c hc
    obtain ⟨d, hd, h5⟩ := hlight c hc
    rw [evaluate, if_neg fun h => absurd (h d hd) (not_le.mpr h5)]
  have hnull0 : (nullSg sdr pre).merit = 0 := by
    unfold nullSg
    by_cases h5 : 5 ≤ pre.n
    · rw [if_pos h5]; exact hnull
    · rw [if_neg h5]
  set ss := nulls ++ cands.map fun c => evaluate sdr pre c.1 c.2 with hss
  have hall : ∀ s ∈ ss, s.merit = 0 := by
    intro s hs
    rw [hss] at hs
    rcases List.mem_append.mp hs with hs | hs
    · rcases hn with rfl | ⟨rfl, _⟩
      · rw [List.mem_singleton.mp hs]; exact hnull0
      · simp at hs
    · obtain ⟨c, hc, rfl⟩ := List.mem_map.mp hs
      rw [hev c hc]
  have hsort := byMerit_const ss hall
  obtain ⟨init, c, hcc⟩ : ∃ init c, cands = init ++ [c] := ⟨cands.dropLast, cands.getLast hne, (List.dropLast_append_getLast hne).symm⟩
  have hcm : c ∈ cands := by rw [hcc]; simp
  have hrev : ss.reverse = ⟨some c.1, c.2, 0, false⟩ :: (nulls ++ init.map fun c => evaluate sdr pre c.1 c.2).reverse := by
    rw [hss, hcc, List.map_append, ← List.append_assoc, List.reverse_append, List.map_cons, List.map_nil, hev c hcm]
    simp
  have hmem : (⟨some c.1, c.2, 0, false⟩ : Sg) ∈ ss := by
    rw [← List.mem_reverse, hrev]; simp
  have hlen : 2 ≤ ss.length := by
    rw [hss, List.length_append, List.length_map]
    rcases hn with rfl | ⟨rfl, h⟩
    · have : 0 < cands.length := List.length_pos_iff.mpr hne
      simp; omega
    · simpa using h
  unfold attemptSplit
  rw [hsort, hrev]
  cases hrest : (nulls ++ init.map fun c => evaluate sdr pre c.1 c.2).reverse with
  | nil =>
    have := congrArg List.length hrev
    rw [hrest] at this
    simp at this
    omega
  | cons second rest =>
    simp only [if_true]
    cases hq : quot second ⟨some c.1, c.2, 0, false⟩ with
    | error e =>
      have : e = .zeroDivision := by
        unfold quot at hq
        simp only [if_true] at hq
        by_cases h : (second.np || false) = true
        · rw [if_pos h] at hq; simp at hq
        · rw [if_neg h] at hq; simpa using hq.symm
      simp only [this]
    | ok ratio =>
      simp only []
      rw [poor_error bound _ ratio rfl rfl (by simp) ss hmem]

/-- Non-vacuity: a clear winner is split, two equal merits are kept until the bound is small. -/
example : let sdr : Stat → List Stat → ℚ := fun _ ds => (ds.map Stat.s).sum
    let a := evaluate sdr ⟨20, 0, 0⟩ (.num ⟨0, 1, true⟩) [⟨10, 5, 0⟩, ⟨10, 3, 0⟩]
    let b := evaluate sdr ⟨20, 0, 0⟩ (.num ⟨1, 1, true⟩) [⟨10, 2, 0⟩, ⟨10, 2, 0⟩]
    ((attemptSplit (1/4) (1/20) true [a, b]).toOption.map Verdict.changes) = some true ∧
    ((attemptSplit (3/4) (1/20) true [a, b]).toOption.map Verdict.changes) = some false ∧
    ((attemptSplit (1/25) (1/20) true [a, a]).toOption.map Verdict.changes) = some true := by
  decide +kernel

end Verif.Trees.HR
