import Verif.Rules.Model
import Mathlib.Algebra.Order.Monoid.WithTop
import Mathlib.Algebra.BigOperators.Group.List.Basic
import Mathlib.Data.List.Induction

/-!
C109: when a rule fires and how expanding changes that; C110: which rule learns from
an instance; C111: the grace period; C112: the maximum number of rules; C114: when a
rule is created.
-/

namespace Verif.Rules

variable {O D K : Type}

/-! ### Specification -/

/-- The condition `att op value` holds for the row. -/
def Holds (p : Pred) (x : Nat → ℚ) : Prop :=
  match p.op with
  | .gt => p.value < x p.att
  | .lt => x p.att < p.value
  | .ge => p.value ≤ x p.att
  | .le => x p.att ≤ p.value
  | .eqeq | .eq => x p.att = p.value
  | .ne => x p.att ≠ p.value
  | .other => False

/-- `best` beats the other suggestions by more than `h`, or is the only one, or `h` is
below the tie threshold. -/
def Clear (best : Sugg) (rest : List Sugg) (h tie : ℚ) : Prop :=
  rest = [] ∨ (∀ s ∈ rest, s.merit + (h : WithBot ℚ) < best.merit) ∨ h < tie

/-- Among `cands`, `best` has the largest merit and `rest` are the others. -/
def Best (cands : List Sugg) (best : Sugg) (rest : List Sugg) : Prop :=
  (best :: rest).Perm cands ∧ ∀ s ∈ rest, s.merit ≤ best.merit

/-! ### Basic facts -/

theorem covers_holds (p : Pred) (x : Nat → ℚ) : p.covers x = true ↔ Holds p x := by
  unfold Pred.covers Holds
  cases p.op <;> simp

/-- C109: a rule fires exactly when all of its conditions hold. -/
theorem C109_fires_iff_all_hold (r : Rule O D) (x : Nat → ℚ) :
    r.covers x = true ↔ ∀ p ∈ r.preds, Holds p x := by
  simp [Rule.covers, covers_holds]

theorem sort_perm (l : List Sugg) : (sortSugg l).Perm l := List.perm_insertionSort _ _

theorem sort_sorted (l : List Sugg) : (sortSugg l).Pairwise fun a b => a.merit ≤ b.merit := by
  haveI : Std.Total (fun a b : Sugg => a.merit ≤ b.merit) := ⟨fun a b => le_total _ _⟩
  haveI : IsTrans Sugg (fun a b : Sugg => a.merit ≤ b.merit) := ⟨fun a b c => le_trans⟩
  exact List.pairwise_insertionSort _ l

theorem gapAbove_iff (a b : WithBot ℚ) (h : ℚ) : gapAbove a b h = true ↔ b + (h : WithBot ℚ) < a := by
  cases a with
  | bot => simp [gapAbove]
  | coe a =>
    cases b with
    | bot => simp [gapAbove, WithBot.bot_lt_coe]
    | coe b =>
      simp only [gapAbove, decide_eq_true_eq]
      rw [← WithBot.coe_add, WithBot.coe_lt_coe]
      constructor <;> intro h <;> linarith

/-- The decision, in terms of the candidates and not of the sorted list. -/
theorem shouldExpand_spec (E : Env O D K) (dist : SDict Nat ℚ) (w : ℚ) (cands : List Sugg)
    (hne : cands ≠ []) :
    ∃ best rest, Best cands best rest ∧ (sortSugg cands).getLast? = some best ∧
      ∀ old, shouldExpand E dist w (sortSugg cands) old = true ↔
        Clear best rest (E.bound dist w) E.tie ∨ (old = true ∧ rest ≠ []) := by
  have hp := sort_perm cands
  have hs := sort_sorted cands
  generalize sortSugg cands = l at hp hs
  have hl : l.reverse ≠ [] := by
    intro h; rw [List.reverse_eq_nil_iff] at h; subst h; exact hne hp.nil_eq.symm
  match hrev : l.reverse with
  | [] => exact absurd hrev hl
  | [best] =>
    have he : l = [best] := by rw [← List.reverse_reverse l, hrev]; rfl
    subst he
    exact ⟨best, [], ⟨hp, by simp⟩, rfl, fun old => by simp [shouldExpand, Clear]⟩
  | best :: second :: t =>
    have hpw : (best :: second :: t).Pairwise fun a b => b.merit ≤ a.merit := by
      rw [← hrev, List.pairwise_reverse]; exact hs
    refine ⟨best, second :: t, ⟨?_, (List.pairwise_cons.mp hpw).1⟩, ?_, fun old => ?_⟩
    · rw [← hrev]; exact (List.reverse_perm _).trans hp
    · rw [← List.head?_reverse, hrev]; rfl
    · have hiff : (∀ s ∈ second :: t, s.merit + (E.bound dist w : WithBot ℚ) < best.merit) ↔
          second.merit + (E.bound dist w : WithBot ℚ) < best.merit := by
        constructor
        · intro h; exact h second (by simp)
        · intro h s hs'
          rcases List.mem_cons.mp hs' with rfl | h'
          · exact h
          · have := (List.pairwise_cons.mp (List.pairwise_cons.mp hpw).2).1 s h'
            exact lt_of_le_of_lt (add_le_add_left this _) h
      unfold shouldExpand Clear
      rw [hrev, hiff, ← gapAbove_iff]
      by_cases hg : gapAbove best.merit second.merit (E.bound dist w) = true <;>
        by_cases ht : E.bound dist w < E.tie <;> cases old <;> simp [ht, hg]

theorem shouldExpand_nil (E : Env O D K) (dist : SDict Nat ℚ) (w : ℚ) (old : Bool) :
    shouldExpand E dist w (sortSugg []) old = false := by simp [shouldExpand, sortSugg]

/-! ### Expanding a rule -/

theorem merge_none (new : Pred) (ps : List Pred) :
    mergePred new ps = none ↔ ∀ p ∈ ps, ¬ (p.op = new.op ∧ p.att = new.att) := by
  induction ps with
  | nil => simp [mergePred]
  | cons p ps ih =>
    unfold mergePred
    by_cases h : p.op = new.op ∧ p.att = new.att
    · rw [if_pos h]; simp [h]
    · rw [if_neg h, Option.map_eq_none_iff, ih]
      simp only [List.mem_cons, forall_eq_or_imp, h, not_false_iff, true_and]

theorem merge_some (new : Pred) (ps qs : List Pred) (h : mergePred new ps = some qs) (x : Nat → ℚ) :
    (new.op = .le ∨ new.op = .gt → ((∀ p ∈ qs, Holds p x) ↔ (∀ p ∈ ps, Holds p x) ∧ Holds new x)) ∧
    (new.op ≠ .le → new.op ≠ .gt → qs = ps) := by
  induction ps generalizing qs with
  | nil => simp [mergePred] at h
  | cons p ps ih =>
    unfold mergePred at h
    by_cases hm : p.op = new.op ∧ p.att = new.att
    · rw [if_pos hm] at h
      obtain ⟨ho, ha⟩ := hm
      have hh := Option.some.inj h
      constructor
      · rintro (e | e)
        · rw [e] at ho
          rw [ho] at hh
          rw [← hh]
          simp only [List.mem_cons, forall_eq_or_imp, Holds, ho, e, ha, le_min_iff]
          tauto
        · rw [e] at ho
          rw [ho] at hh
          rw [← hh]
          simp only [List.mem_cons, forall_eq_or_imp, Holds, ho, e, ha, max_lt_iff]
          tauto
      · intro h1 h2
        rw [← hh, ho]
        cases hop : new.op <;> first | rfl | (exact absurd hop h1) | (exact absurd hop h2)
    · rw [if_neg hm] at h
      obtain ⟨qs', hq, rfl⟩ := Option.map_eq_some_iff.mp h
      obtain ⟨i1, i2⟩ := ih qs' hq
      constructor
      · intro e
        simp only [List.mem_cons, forall_eq_or_imp, i1 e]
        tauto
      · intro h1 h2; rw [i2 h1 h2]

/-- No rule is ever appended by `_expand_rule`: copies for other classes have no
observers left to suggest an expansion. -/
theorem foilCopies_nil (E : Env O D K) (r : Rule O D) (h : r.obs = []) (cs : List Nat) :
    foilCopies E r cs = [] := by
  induction cs with
  | nil => rfl
  | cons c cs ih =>
    unfold foilCopies
    by_cases hc : some c ≠ r.cls
    · rw [if_pos hc]
      simp only [considerExpand, h, suggestAll, shouldExpand_nil]
      simpa using ih
    · rw [if_neg hc]; exact ih

theorem applyBest_obs (r : Rule O D) (s : Sugg) : (applyBest r s).obs = [] := by
  unfold applyBest
  cases mergePred s.pred r.preds <;> rfl

theorem considerExpand_fst (E : Env O D K) (r : Rule O D) (cls : Option Nat) :
    (considerExpand E r cls).1.preds = r.preds ∧ (considerExpand E r cls).1.dist = r.dist ∧
    (considerExpand E r cls).1.last = r.last ∧ (considerExpand E r cls).1.det = r.det ∧
    (considerExpand E r cls).1.cls = r.cls := by
  unfold considerExpand
  simp only
  split
  · cases E.removePoor <;> simp
  · simp

/-- C109: expanding a rule never adds rules to the rule set, also with `foil_gain` and
unordered rules. -/
theorem C109_no_copies (E : Env O D K) (r : Rule O D) : (expandRule E r).2 = [] := by
  unfold expandRule
  by_cases h : r.dist.length ≥ 2
  · rw [if_pos h]
    rcases considerExpand E r _ with ⟨r', _ | best⟩
    · rfl
    · simp only
      split
      · exact foilCopies_nil E _ (applyBest_obs _ _) _
      · rfl
  · rw [if_neg h]

/-- What the observers suggest when a rule is to be expanded. -/
def candidates (E : Env O D K) (r : Rule O D) : List Sugg :=
  (suggestAll E r.dist (if E.crit = .foil then r.cls else none) E.crit0 r.obs).1

theorem considerExpand_snd (E : Env O D K) (r : Rule O D) (cls : Option Nat) :
    (considerExpand E r cls).2 =
      if shouldExpand E r.dist r.weight (sortSugg (suggestAll E r.dist cls E.crit0 r.obs).1) false then
        (sortSugg (suggestAll E r.dist cls E.crit0 r.obs).1).getLast? else none := rfl

theorem expand_eq (E : Env O D K) (r : Rule O D) (h2 : 2 ≤ r.dist.length) (hc : candidates E r ≠ []) :
    ∃ best rest, Best (candidates E r) best rest ∧
      (Clear best rest (E.bound r.dist r.weight) E.tie →
        ∃ r', r'.preds = r.preds ∧ r'.dist = r.dist ∧ (expandRule E r).1 = applyBest r' best) ∧
      (¬ Clear best rest (E.bound r.dist r.weight) E.tie →
        (expandRule E r).1.preds = r.preds ∧ (expandRule E r).1.dist = r.dist) := by
  obtain ⟨best, rest, hb, hl, hd⟩ := shouldExpand_spec E r.dist r.weight (candidates E r) hc
  refine ⟨best, rest, hb, fun hcl => ?_, fun hcl => ?_⟩
  · have := (hd false).mpr (.inl hcl)
    obtain ⟨p1, p2, _⟩ := considerExpand_fst E r (if E.crit = .foil then r.cls else none)
    have hs : (considerExpand E r (if E.crit = .foil then r.cls else none)).2 = some best := by
      rw [considerExpand_snd]
      show (if shouldExpand E r.dist r.weight (sortSugg (candidates E r)) false then
        (sortSugg (candidates E r)).getLast? else none) = some best
      rw [this, if_pos rfl, hl]
    refine ⟨_, p1, p2, ?_⟩
    unfold expandRule
    rw [if_pos h2]
    rcases hce : considerExpand E r _ with ⟨r', o⟩
    rw [hce] at hs
    simp only at hs
    subst hs
    rfl
  · have : shouldExpand E r.dist r.weight (sortSugg (candidates E r)) false = false := by
      by_contra hh
      rw [Bool.not_eq_false, hd] at hh
      rcases hh with h | ⟨h, _⟩
      · exact hcl h
      · cases h
    obtain ⟨p1, p2, _⟩ := considerExpand_fst E r (if E.crit = .foil then r.cls else none)
    have hs : (considerExpand E r (if E.crit = .foil then r.cls else none)).2 = none := by
      rw [considerExpand_snd]
      show (if shouldExpand E r.dist r.weight (sortSugg (candidates E r)) false then
        (sortSugg (candidates E r)).getLast? else none) = none
      rw [this]; rfl
    unfold expandRule
    rw [if_pos h2]
    rcases hce : considerExpand E r _ with ⟨r', o⟩
    rw [hce] at hs p1 p2
    simp only at hs
    subst hs
    exact ⟨p1, p2⟩

theorem expand_nil (E : Env O D K) (r : Rule O D) (h : r.dist.length < 2 ∨ candidates E r = []) :
    (expandRule E r).1 = r := by
  unfold expandRule
  rcases h with h | h
  · rw [if_neg (by omega)]
  · by_cases h2 : r.dist.length ≥ 2
    · rw [if_pos h2]
      have he : considerExpand E r (if E.crit = .foil then r.cls else none) = (r, none) := by
        unfold considerExpand
        unfold candidates at h
        rw [h]
        simp [sortSugg, shouldExpand]
      rw [he]
    · rw [if_neg h2]

/-- C109: expanding never widens a rule: every row it covers afterwards it covered
before. -/
theorem C109_expansion_never_widens (E : Env O D K) (r : Rule O D) (x : Nat → ℚ)
    (h : (expandRule E r).1.covers x = true) : r.covers x = true := by
  by_cases hc : r.dist.length < 2 ∨ candidates E r = []
  · rwa [expand_nil E r hc] at h
  · obtain ⟨h2, h3⟩ := not_or.mp hc
    obtain ⟨best, rest, hb, h4, h5⟩ := expand_eq E r (by omega) h3
    by_cases hcl : Clear best rest (E.bound r.dist r.weight) E.tie
    · obtain ⟨r', e1, e2, e3⟩ := h4 hcl
      rw [e3, C109_fires_iff_all_hold] at h
      rw [C109_fires_iff_all_hold, ← e1]
      unfold applyBest at h
      cases hm : mergePred best.pred r'.preds with
      | none => rw [hm] at h; intro p hp; exact h p (by simp [hp])
      | some qs =>
        rw [hm] at h
        obtain ⟨i1, i2⟩ := merge_some _ _ _ hm x
        by_cases ho : best.pred.op = .le ∨ best.pred.op = .gt
        · exact ((i1 ho).mp h).1
        · obtain ⟨o1, o2⟩ := not_or.mp ho
          rw [← i2 o1 o2]; exact h
    · rw [C109_fires_iff_all_hold] at h ⊢
      rw [(h5 hcl).1] at h; exact h

/-- C109 (partial): when the best suggestion is clear, and is numeric or tests an
attribute in a way the rule does not test yet, the rule afterwards covers exactly the
rows it covered that also satisfy the suggestion, and its class distribution is the
one of that side of the split; when it is not clear, nothing changes. Missing:
nominal tests of an attribute the rule tests already, see `C109_nominal_violated`. -/
theorem C109_expansion_adds_condition_partial (E : Env O D K) (r : Rule O D) (h2 : 2 ≤ r.dist.length)
    (hc : candidates E r ≠ []) :
    ∃ best rest, Best (candidates E r) best rest ∧
      (Clear best rest (E.bound r.dist r.weight) E.tie →
        (best.op = .le ∨ best.op = .gt ∨ ∀ p ∈ r.preds, ¬ (p.op = best.op ∧ p.att = best.att)) →
        (∀ x, (expandRule E r).1.covers x = true ↔
          r.covers x = true ∧ Holds ⟨best.att, best.op, best.value⟩ x) ∧
        (expandRule E r).1.dist = if best.op = .eq ∨ best.op = .le then best.left else best.right) ∧
      (¬ Clear best rest (E.bound r.dist r.weight) E.tie →
        (∀ x, (expandRule E r).1.covers x = r.covers x) ∧ (expandRule E r).1.dist = r.dist) := by
  obtain ⟨best, rest, hb, h4, h5⟩ := expand_eq E r h2 hc
  refine ⟨best, rest, hb, fun hcl hop => ?_, fun hcl => ?_⟩
  · obtain ⟨r', e1, e2, e3⟩ := h4 hcl
    rw [e3]
    unfold applyBest
    cases hm : mergePred best.pred r'.preds with
    | none =>
      refine ⟨fun x => ?_, rfl⟩
      rw [C109_fires_iff_all_hold, C109_fires_iff_all_hold, ← e1]
      simp only [List.mem_append, List.mem_singleton, or_imp, forall_and, forall_eq]
      rfl
    | some qs =>
      have hop' : best.op = .le ∨ best.op = .gt := by
        rcases hop with h | h | h
        · exact .inl h
        · exact .inr h
        · rw [← e1] at h
          rw [(merge_none best.pred r'.preds).mpr h] at hm
          cases hm
      refine ⟨fun x => ?_, ?_⟩
      · rw [C109_fires_iff_all_hold, C109_fires_iff_all_hold, ← e1]
        exact (merge_some _ _ _ hm x).1 hop'
      · rcases hop' with h | h <;> simp [h]
  · obtain ⟨a, b⟩ := h5 hcl
    exact ⟨fun x => by unfold Rule.covers; rw [a], b⟩

/-- C109 (violated): a rule that already has a `!=` (or `=`) condition on an attribute
ignores a further one on that attribute, however clear it is: it goes on covering the
rows excluded, and keeps its class distribution. -/
theorem C109_nominal_violated (E : Env O D K) (r : Rule O D) (h2 : 2 ≤ r.dist.length)
    (best : Sugg) (hc : candidates E r = [best]) (hop : best.op = .ne ∨ best.op = .eq)
    (hp : ∃ p ∈ r.preds, p.op = best.op ∧ p.att = best.att) :
    (∀ x, (expandRule E r).1.covers x = r.covers x) ∧ (expandRule E r).1.dist = r.dist := by
  obtain ⟨b, rest, hb, h4, -⟩ := expand_eq E r h2 (by simp [hc])
  rw [hc] at hb
  have hlen := hb.1.length_eq
  simp only [List.length_cons, List.length_nil] at hlen
  have hr : rest = [] := List.length_eq_zero_iff.mp (by omega)
  subst hr
  have hbb : b = best := by simpa using hb.1
  subst hbb
  obtain ⟨r', e1, e2, e3⟩ := h4 (.inl rfl)
  cases hm : mergePred b.pred r'.preds with
  | none =>
    rw [merge_none, e1] at hm
    obtain ⟨p, hp1, hp2⟩ := hp
    exact absurd hp2 (hm p hp1)
  | some qs =>
    have hq : qs = r'.preds := (merge_some _ _ _ hm (fun _ => 0)).2
      (by rcases hop with h | h <;> simp [Sugg.pred, h]) (by rcases hop with h | h <;> simp [Sugg.pred, h])
    rw [e3]
    unfold applyBest
    rw [hm]
    refine ⟨fun x => ?_, ?_⟩
    · unfold Rule.covers; simp only [hq, e1]
    · rcases hop with h | h <;> simp [h, e2]

/-! ### Learning -/

theorem learn_weight (E : Env O D K) (r : Rule O D) (x : Nat → ℚ) (y : Nat) (w : ℚ) :
    (r.learn E x y w).weight = r.weight + w := by
  have := SDict.dsum_alter (K := Nat) (fun _ (v : ℚ) => v) (fun o => o.getD 0 + w) y w
    (by intro o; cases o <;> simp) r.dist
  exact this

theorem ruleStep_snd (E : Env O D K) (r : Rule O D) (x : Nat → ℚ) (y : Nat) (w : ℚ) :
    (ruleStep E r x y w).2 = [] := by
  unfold ruleStep
  simp only
  split
  · exact C109_no_copies E _
  · rfl

theorem check_none (E : Env O D K) (hd : E.detector = none) (r : Rule O D) (y : Nat) :
    r.check E y = (r, false) := by
  unfold Rule.check; rw [hd]

theorem scan_none (E : Env O D K) (x : Nat → ℚ) (y : Nat) (w : ℚ) (rules : List (Rule O D))
    (h : ∀ r ∈ rules, r.covers x = false) : scan E x y w rules = (rules, [], false) := by
  induction rules with
  | nil => unfold scan; rfl
  | cons r rules ih =>
    unfold scan
    rw [if_neg (by simp [h r])]
    simp only [ih fun r' hr' => h r' (by simp [hr'])]

theorem scan_appended (E : Env O D K) (x : Nat → ℚ) (y : Nat) (w : ℚ) (rules : List (Rule O D)) :
    (scan E x y w rules).2.1 = [] := by
  induction hn : rules.length using Nat.strong_induction_on generalizing rules with
  | _ n ih =>
    cases rules with
    | nil => unfold scan; rfl
    | cons r rest =>
      unfold scan
      simp only [List.length_cons] at hn
      by_cases hc : r.covers x = true
      · rw [if_pos hc]
        simp only
        by_cases hd : (r.check E y).2 = true
        · rw [if_pos hd]
          cases rest with
          | nil => rfl
          | cons n' rest => exact ih rest.length (by simp at hn; omega) rest rfl
        · rw [if_neg hd]
          cases ho : E.ordered with
          | true => simp [ruleStep_snd]
          | false => simp [ruleStep_snd, ih rest.length (by omega) rest rfl]
      · rw [if_neg hc]
        exact ih rest.length (by omega) rest rfl

/-- C110: what learning does to a rule: the weight of the class and with it the total
grow by the weight of the instance; the conditions stay. -/
theorem C110_learning (E : Env O D K) (r : Rule O D) (hs : r.dist.Sorted) (x : Nat → ℚ) (y : Nat) (w : ℚ)
    (hg : r.weight + w - r.last < E.grace) :
    (ruleStep E r x y w).1.preds = r.preds ∧ (ruleStep E r x y w).1.weight = r.weight + w ∧
    (ruleStep E r x y w).1.last = r.last ∧
    ∀ c, (ruleStep E r x y w).1.dist.get? c =
      if c = y then some ((r.dist.get? y).getD 0 + w) else r.dist.get? c := by
  unfold ruleStep
  simp only
  rw [if_neg (by rw [learn_weight]; exact not_le.mpr hg)]
  refine ⟨rfl, learn_weight E r x y w, rfl, fun c => ?_⟩
  exact SDict.get?_alter (fun o => o.getD 0 + w) r.dist hs y c

/-- C110: with ordered rules and no drift detector an instance changes the first rule
that covers it and nothing else, and that is the rule that predicts it. -/
theorem C110_ordered (E : Env O D K) (hd : E.detector = none) (ho : E.ordered = true) (pre post : List (Rule O D))
    (r dflt : Rule O D) (x : Nat → ℚ) (y : Nat) (w : ℚ) (hpre : ∀ p ∈ pre, p.covers x = false)
    (hr : r.covers x = true) :
    St.learn E ⟨pre ++ r :: post, dflt⟩ x y w = ⟨pre ++ (ruleStep E r x y w).1 :: post, dflt⟩ ∧
    votesFor E ⟨pre ++ r :: post, dflt⟩ x = r.votes E x := by
  have hscan : scan E x y w (pre ++ r :: post) = (pre ++ (ruleStep E r x y w).1 :: post, [], true) := by
    induction pre with
    | nil =>
      simp only [List.nil_append]
      unfold scan
      simp only [hr, if_true, check_none E hd, Bool.false_eq_true, if_false, ho, ruleStep_snd]
    | cons p pre ih =>
      rw [List.cons_append]
      unfold scan
      simp only [hpre p (by simp), Bool.false_eq_true, if_false, ih fun q hq => hpre q (by simp [hq]),
        List.cons_append]
  constructor
  · unfold St.learn
    simp only [hscan, if_true, List.append_nil]
  · unfold votesFor firstHit
    simp only [ho, if_true]
    have : (pre ++ r :: post).find? (fun r => r.covers x) = some r := by
      rw [List.find?_append, List.find?_eq_none.mpr (by intro p hp; simp [hpre p hp])]
      simp [hr]
    rw [this]

/-- C110: with unordered rules and no drift detector an instance changes every rule
that covers it, and no other rule, and if there is one the default rule stays. -/
theorem C110_unordered (E : Env O D K) (hd : E.detector = none) (ho : E.ordered = false) (s : St O D)
    (x : Nat → ℚ) (y : Nat) (w : ℚ) (hr : ∃ r ∈ s.rules, r.covers x = true) :
    s.learn E x y w =
      ⟨s.rules.map fun r => if r.covers x = true then (ruleStep E r x y w).1 else r, s.default⟩ := by
  have hscan : ∀ rules : List (Rule O D), scan E x y w rules =
      (rules.map fun r => if r.covers x = true then (ruleStep E r x y w).1 else r, [],
        rules.any fun r => r.covers x) := by
    intro rules
    induction rules with
    | nil => unfold scan; rfl
    | cons r rules ih =>
      unfold scan
      by_cases hc : r.covers x = true
      · simp only [hc, if_true, check_none E hd, Bool.false_eq_true, if_false, ho, ruleStep_snd, ih,
          List.map_cons, List.any_cons, Bool.true_or, List.append_nil]
      · simp only [hc, Bool.false_eq_true, if_false, ih, List.map_cons, List.any_cons, Bool.false_or]
  unfold St.learn
  have hany : s.rules.any (fun r => r.covers x) = true := by simpa using hr
  simp only [hscan, hany, if_true, List.append_nil]

/-- C110: an instance that no rule covers is learned by the default rule; the rules
stay, and a new one may follow them. -/
theorem C110_uncovered (E : Env O D K) (s : St O D) (x : Nat → ℚ) (y : Nat) (w : ℚ)
    (hn : ∀ r ∈ s.rules, r.covers x = false) :
    s.learn E x y w =
      if s.rules.length < E.maxRules ∧ E.grace ≤ s.default.weight + w - s.default.last then
        createRule E ⟨s.rules, s.default.learn E x y w⟩
      else ⟨s.rules, s.default.learn E x y w⟩ := by
  unfold St.learn
  simp only [scan_none E x y w _ hn, List.append_nil, Bool.false_eq_true, if_false, learn_weight]
  rfl

/-- C110: whatever the drift detectors say, an instance that some rule covers never
changes the default rule. -/
theorem C110_covered (E : Env O D K) (s : St O D) (x : Nat → ℚ) (y : Nat) (w : ℚ)
    (hr : ∃ r ∈ s.rules, r.covers x = true) : (s.learn E x y w).default = s.default := by
  have key : ∀ rules : List (Rule O D), (∃ r ∈ rules, r.covers x = true) → (scan E x y w rules).2.2 = true := by
    intro rules
    induction rules with
    | nil => rintro ⟨r, hr, _⟩; cases hr
    | cons r rest ih =>
      intro h
      unfold scan
      by_cases hc : r.covers x = true
      · rw [if_pos hc]
        simp only
        by_cases hd : (r.check E y).2 = true
        · rw [if_pos hd]
          cases rest <;> rfl
        · rw [if_neg hd]
          by_cases ho : E.ordered = true
          · rw [if_pos ho]
          · rw [if_neg ho]
      · rw [if_neg hc]
        obtain ⟨r', hr', hc'⟩ := h
        rcases List.mem_cons.1 hr' with rfl | hm
        · exact absurd hc' hc
        · exact ih ⟨r', hm, hc'⟩
  unfold St.learn
  simp only [key s.rules hr, if_true]

/-- C110 (violated): with a drift detector, when a rule is removed the rule after it is
passed over: although it covers the instance it neither learns nor has its detector
updated. -/
theorem C110_rule_after_removed_skipped_violated (E : Env O D K) (r n dflt : Rule O D) (rest : List (Rule O D))
    (x : Nat → ℚ) (y : Nat) (w : ℚ) (d0 d : D) (hd : E.detector = some d0) (hrd : r.det = some d)
    (hr : r.covers x = true) (hch : E.detChange (E.detAdd d (r.correct y)) = true)
    (hw : E.minWeight < r.weight) :
    ∃ rest', St.learn E ⟨r :: n :: rest, dflt⟩ x y w = ⟨n :: rest', dflt⟩ := by
  refine ⟨(scan E x y w rest).1, ?_⟩
  have hc : (r.check E y).2 = true := by
    unfold Rule.check; rw [hd, hrd]; simp [hch, hw]
  unfold St.learn
  have : scan E x y w (r :: n :: rest) = (n :: (scan E x y w rest).1, [], true) := by
    conv_lhs => unfold scan
    simp only [hr, if_true, hc, scan_appended]
  simp only [this, if_true, List.append_nil]

/-! ### Grace period -/

/-- A rule that learns one instance after another. -/
def runRule (E : Env O D K) (r : Rule O D) (l : List Inst) : Rule O D :=
  l.foldl (fun r i => (ruleStep E r i.x i.y i.w).1) r

/-- C111 (partial): after an expansion attempt, a rule is not touched by another one as
long as it has learned less than the grace period; with the instance that reaches the
grace period it is, and the count starts again. Missing: rules just created, see
`C111_new_rule_violated`. -/
theorem C111_grace_period_partial (E : Env O D K) (r : Rule O D) (hl : r.last = r.weight) (l : List Inst)
    (hw : ∀ i ∈ l, 0 ≤ i.w) (hg : (l.map Inst.w).sum < E.grace) :
    (runRule E r l).preds = r.preds ∧ (runRule E r l).weight = r.weight + (l.map Inst.w).sum ∧
    (runRule E r l).last = r.weight ∧
    ∀ i : Inst, E.grace ≤ (l.map Inst.w).sum + i.w →
      ∃ e : Rule O D, e = (expandRule E ((runRule E r l).learn E i.x i.y i.w)).1 ∧
        runRule E r (l ++ [i]) = { e with last := e.weight } := by
  have key : ∀ l : List Inst, (∀ i ∈ l, 0 ≤ i.w) → (l.map Inst.w).sum < E.grace →
      (runRule E r l).preds = r.preds ∧ (runRule E r l).weight = r.weight + (l.map Inst.w).sum ∧
      (runRule E r l).last = r.weight := by
    intro l
    induction l using List.reverseRecOn with
    | nil => intro _ _; simp [runRule, hl]
    | append_singleton l i ih =>
      intro hw hg
      rw [List.map_append, List.sum_append] at hg
      have h0 := hw i (by simp)
      simp only [List.map_cons, List.map_nil, List.sum_cons, List.sum_nil, add_zero] at hg
      obtain ⟨a, b, c⟩ := ih (fun j hj => hw j (by simp [hj])) (by linarith)
      have hrun : runRule E r (l ++ [i]) = (ruleStep E (runRule E r l) i.x i.y i.w).1 := by
        simp [runRule]
      have hstep : (ruleStep E (runRule E r l) i.x i.y i.w).1 = (runRule E r l).learn E i.x i.y i.w := by
        unfold ruleStep
        simp only
        rw [if_neg]
        rw [learn_weight, b]
        show ¬ (r.weight + (l.map Inst.w).sum + i.w - (runRule E r l).last ≥ E.grace)
        rw [c]
        linarith
      rw [hrun, hstep]
      refine ⟨a, ?_, c⟩
      rw [learn_weight, b, List.map_append, List.sum_append]
      simp [add_assoc]
  obtain ⟨a, b, c⟩ := key l hw hg
  refine ⟨a, b, c, fun i hi => ⟨_, rfl, ?_⟩⟩
  have hrun : runRule E r (l ++ [i]) = (ruleStep E (runRule E r l) i.x i.y i.w).1 := by
    simp [runRule]
  rw [hrun]
  unfold ruleStep
  simp only
  rw [if_pos]
  rw [learn_weight, b]
  show r.weight + (l.map Inst.w).sum + i.w - (runRule E r l).last ≥ E.grace
  rw [c]
  linarith

/-- C111 (violated): a rule created with the statistics of a split counts them as
learned since the last attempt: if they reach the grace period together with the first
instance, expansion is attempted after that one instance. -/
theorem C111_new_rule_violated (E : Env O D K) (s : Sugg) (cls : Option Nat) (i : Inst)
    (h : E.grace ≤ (s.kept.map Prod.snd).sum + i.w) :
    ∃ e : Rule O D, e = (expandRule E ((ruleOf E s cls).learn E i.x i.y i.w)).1 ∧
      runRule E (ruleOf E s cls) [i] = { e with last := e.weight } := by
  refine ⟨_, rfl, ?_⟩
  simp only [runRule, List.foldl_cons, List.foldl_nil]
  unfold ruleStep
  simp only
  rw [if_pos]
  rw [learn_weight]
  show (s.kept.map Prod.snd).sum + i.w - 0 ≥ E.grace
  linarith

/-! ### Number of rules -/

theorem scan_length (E : Env O D K) (x : Nat → ℚ) (y : Nat) (w : ℚ) (rules : List (Rule O D)) :
    (scan E x y w rules).1.length ≤ rules.length := by
  induction hn : rules.length using Nat.strong_induction_on generalizing rules with
  | _ n ih =>
    cases rules with
    | nil => unfold scan; simp
    | cons r rest =>
      unfold scan
      simp only [List.length_cons] at hn
      by_cases hc : r.covers x = true
      · rw [if_pos hc]
        simp only
        by_cases hd : (r.check E y).2 = true
        · rw [if_pos hd]
          cases rest with
          | nil => simp
          | cons n' rest =>
            have := ih rest.length (by simp at hn; omega) rest rfl
            simp only [List.length_cons] at hn ⊢; omega
        · rw [if_neg hd]
          cases ho : E.ordered with
          | true => simp; omega
          | false =>
            have := ih rest.length (by omega) rest rfl
            simp; omega
      · rw [if_neg hc]
        have := ih rest.length (by omega) rest rfl
        simp only [List.length_cons]; omega

theorem createGain_length (E : Env O D K) (s : St O D) : (createGain E s).rules.length ≤ s.rules.length + 1 := by
  unfold createGain
  simp only
  split <;> simp

/-- C112 (partial): with `info_gain` or `hellinger` there are never more than
`max_rules` rules. Missing: `foil_gain`, see `C112_foil_violated`. -/
theorem C112_at_most_max_rules_partial (E : Env O D K) (hc : E.crit = .gain) (batches : List (List Inst)) :
    (batches.foldl (fun s b => s.fit E b) St.init).rules.length ≤ E.maxRules := by
  have h1 : ∀ (s : St O D) (i : Inst), s.rules.length ≤ E.maxRules → (s.learn E i.x i.y i.w).rules.length ≤ E.maxRules := by
    intro s i hs
    have hl := scan_length E i.x i.y i.w s.rules
    have ha := scan_appended E i.x i.y i.w s.rules
    unfold St.learn
    simp only [ha, List.append_nil]
    split
    · exact le_trans hl hs
    · split
      · rename_i hcond
        unfold createRule
        split
        · rw [hc]
          refine le_trans (createGain_length E _) ?_
          have := hcond.1
          simp only at this ⊢
          omega
        · exact le_trans hl hs
      · exact le_trans hl hs
  have h2 : ∀ (b : List Inst) (s : St O D), s.rules.length ≤ E.maxRules → (s.fit E b).rules.length ≤ E.maxRules := by
    intro b
    induction b with
    | nil => intro s hs; exact hs
    | cons i b ih =>
      intro s hs
      refine ih _ ?_
      show (if i.w ≠ 0 then St.learn E s i.x i.y i.w else s).rules.length ≤ E.maxRules
      split
      · exact h1 s i hs
      · exact hs
  have h3 : ∀ (bs : List (List Inst)) (s : St O D), s.rules.length ≤ E.maxRules →
      (bs.foldl (fun s b => s.fit E b) s).rules.length ≤ E.maxRules := by
    intro bs
    induction bs with
    | nil => intro s hs; exact hs
    | cons b bs ih => intro s hs; exact ih _ (h2 b s hs)
  exact h3 batches St.init (by simp [St.init])

/-! ### Creating rules -/

/-- C114: with `info_gain` or `hellinger`, when the default rule has seen two classes
and its observers suggest splits: if the best one is clear a rule with just that
condition and the statistics of that side follows the others, and the default rule
starts again with the statistics of the other side; otherwise only the count towards
the next attempt starts again. -/
theorem C114_creation (E : Env O D K) (hcr : E.crit = .gain) (s : St O D) (h2 : 2 ≤ s.default.dist.length)
    (cands : List Sugg) (hcd : cands = (suggestAll E s.default.dist none E.crit0 s.default.obs).1)
    (hne : cands ≠ []) :
    ∃ best rest, Best cands best rest ∧
      (Clear best rest (E.bound s.default.dist s.default.weight) E.tie →
        ∃ r : Rule O D, createRule E s = ⟨s.rules ++ [r], ⟨[], if best.op = .eq ∨ best.op = .le then best.right
            else best.left, 0, [], s.default.det.map E.detReset, none⟩⟩ ∧
          (∀ x, r.covers x = true ↔ Holds ⟨best.att, best.op, best.value⟩ x) ∧
          r.dist = (if best.op = .eq ∨ best.op = .le then best.left else best.right) ∧ r.det = E.detector) ∧
      (¬ Clear best rest (E.bound s.default.dist s.default.weight) E.tie →
        createRule E s = ⟨s.rules, { s.default with last := s.default.weight }⟩) := by
  obtain ⟨best, rest, hb, hl, hd⟩ := shouldExpand_spec E s.default.dist s.default.weight cands hne
  refine ⟨best, rest, hb, fun hcl => ⟨ruleOf E best none, ?_, ?_, rfl, rfl⟩, fun hcl => ?_⟩
  · have := (hd false).mpr (.inl hcl)
    unfold createRule
    rw [if_pos h2, hcr]
    unfold createGain
    simp only [← hcd, this, hl]
    rfl
  · intro x
    rw [C109_fires_iff_all_hold]
    simp [ruleOf, newRule, Sugg.pred]
  · have : shouldExpand E s.default.dist s.default.weight (sortSugg cands) false = false := by
      by_contra hh
      rw [Bool.not_eq_false, hd] at hh
      rcases hh with h | ⟨h, _⟩
      · exact hcl h
      · cases h
    unfold createRule
    rw [if_pos h2, hcr]
    unfold createGain
    simp only [← hcd, this]

/-- C114: with fewer than two classes, or without suggestions, no rule is created. -/
theorem C114_no_creation (E : Env O D K) (hcr : E.crit = .gain) (s : St O D)
    (h : s.default.dist.length < 2 ∨ (suggestAll E s.default.dist none E.crit0 s.default.obs).1 = []) :
    createRule E s = ⟨s.rules, { s.default with last := s.default.weight }⟩ := by
  unfold createRule
  rcases h with h | h
  · rw [if_neg (by omega)]
  · by_cases h2 : s.default.dist.length ≥ 2
    · rw [if_pos h2, hcr]
      unfold createGain
      simp [h, shouldExpand_nil]
    · rw [if_neg h2]

/-- C114 (violated): with `foil_gain`, once the test has passed for one class, a rule
is made for every later class with at least two suggestions, whether its own best
suggestion is clear or not. -/
theorem C114_foil_stale_decision_violated (E : Env O D K) (d : Rule O D) (rules : List (Rule O D)) (k : K)
    (c : Nat) (h2 : 2 ≤ (suggestAll E d.dist (some c) k d.obs).1.length) :
    ∃ best rest k', Best (suggestAll E d.dist (some c) k d.obs).1 best rest ∧
      foilLoop E d [c] (rules, true, k) = (rules ++ [ruleOf E best (some c)], true, k') := by
  have hne : (suggestAll E d.dist (some c) k d.obs).1 ≠ [] := by
    intro h; rw [h] at h2; simp at h2
  obtain ⟨best, rest, hb, hl, hd⟩ := shouldExpand_spec E d.dist d.weight _ hne
  have hr : rest ≠ [] := by
    rintro rfl
    have := hb.1.length_eq
    simp only [List.length_cons, List.length_nil] at this
    omega
  have := (hd true).mpr (.inr ⟨rfl, hr⟩)
  refine ⟨best, rest, (suggestAll E d.dist (some c) k d.obs).2, hb, ?_⟩
  unfold foilLoop
  simp only [this, hl]
  rfl

end Verif.Rules
