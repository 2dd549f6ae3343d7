import Mathlib.Algebra.Order.BigOperators.Group.List
import Verif.Rules.Examples
import Verif.Drift.DDMProps

/-!
C146: removal of rules by their drift detectors; C147: `remove_poor_atts`
(`rules/very_fast_decision_rules.py` 291-330, 512-536 and 645-675).
-/

namespace Verif.Rules

variable {O D K : Type}

/-! ### C146 -/

/-- `c` has the largest weight in the dictionary, the first such key; 0 if it is empty. -/
def Majority (d : SDict Nat ℚ) (c : Nat) : Prop :=
  (d = [] ∧ c = 0) ∨ ∃ pre v post, d = pre ++ (c, v) :: post ∧ (∀ p ∈ pre, p.2 < v) ∧ ∀ p ∈ post, p.2 ≤ v

theorem top_spec (d : SDict Nat ℚ) (q : Nat × ℚ) :
    ∃ c v, d.foldl (fun (b : Option (Nat × ℚ)) p =>
      match b with
      | none => some p
      | some q => if p.2 > q.2 then some p else b) (some q) = some (c, v) ∧
      ((c, v) = q ∧ (∀ p ∈ d, p.2 ≤ v) ∨
        q.2 < v ∧ ∃ pre post, d = pre ++ (c, v) :: post ∧ (∀ p ∈ pre, p.2 < v) ∧ ∀ p ∈ post, p.2 ≤ v) := by
  induction d generalizing q with
  | nil => exact ⟨q.1, q.2, rfl, .inl ⟨rfl, by simp⟩⟩
  | cons a d ih =>
    simp only [List.foldl_cons]
    by_cases h : a.2 > q.2
    · rw [if_pos h]
      obtain ⟨c, v, h1, h2⟩ := ih a
      refine ⟨c, v, h1, .inr ?_⟩
      rcases h2 with ⟨rfl, h2⟩ | ⟨h2, pre, post, rfl, h3, h4⟩
      · exact ⟨h, [], d, rfl, by simp, h2⟩
      · refine ⟨h.trans h2, a :: pre, post, rfl, ?_, h4⟩
        intro p hp
        rcases List.mem_cons.1 hp with rfl | hp
        · exact h2
        · exact h3 p hp
    · rw [if_neg h]
      obtain ⟨c, v, h1, h2⟩ := ih q
      refine ⟨c, v, h1, ?_⟩
      rcases h2 with ⟨rfl, h2⟩ | ⟨h2, pre, post, rfl, h3, h4⟩
      · left
        refine ⟨rfl, ?_⟩
        intro p hp
        rcases List.mem_cons.1 hp with rfl | hp
        · exact not_lt.1 h
        · exact h2 p hp
      · right
        refine ⟨h2, a :: pre, post, rfl, ?_, h4⟩
        intro p hp
        rcases List.mem_cons.1 hp with rfl | hp
        · exact (not_lt.1 h).trans_lt h2
        · exact h3 p hp

theorem majority_exists (r : Rule O D) :
    ∃ c, Majority r.dist c ∧ ∀ y, r.correct y = if c = y then 1 else 0 := by
  have key : ∀ (b : Option (Nat × ℚ)) (c y : Nat), (match b with
      | none => 0
      | some q => q.1) = c → (if (match b with
      | none => 0
      | some q => q.1) = y then 1 else 0) = if c = y then 1 else 0 := by
    intro b c y h; rw [h]
  cases hd : r.dist with
  | nil => exact ⟨0, .inl ⟨rfl, rfl⟩, fun y => by unfold Rule.correct; rw [hd]; rfl⟩
  | cons a d =>
    obtain ⟨c, v, h1, h2⟩ := top_spec d a
    have hc : ∀ y, r.correct y = if c = y then 1 else 0 := by
      intro y
      unfold Rule.correct
      rw [hd]
      refine key _ c y ?_
      generalize hg : List.foldl _ none (a :: d) = b
      have hb : b = some (c, v) := hg.symm.trans h1
      rw [hb]
    refine ⟨c, .inr ?_, hc⟩
    rcases h2 with ⟨rfl, h2⟩ | ⟨h2, pre, post, rfl, h3, h4⟩
    · exact ⟨[], v, d, rfl, by simp, h2⟩
    · refine ⟨a :: pre, v, post, rfl, ?_, h4⟩
      intro p hp
      rcases List.mem_cons.1 hp with rfl | hp
      · exact h2
      · exact h3 p hp

theorem majority_unique (d : SDict Nat ℚ) (a b : Nat) (ha : Majority d a) (hb : Majority d b) : a = b := by
  rcases ha with ⟨rfl, rfl⟩ | ⟨p1, v1, s1, h1, h2, h3⟩
  · rcases hb with ⟨_, rfl⟩ | ⟨p1, v1, s1, h1, _⟩
    · rfl
    · simp at h1
  · rcases hb with ⟨rfl, _⟩ | ⟨p2, v2, s2, k1, k2, k3⟩
    · simp at h1
    · rw [h1] at k1
      rcases List.append_eq_append_iff.1 k1 with ⟨as, e1, e2⟩ | ⟨as, e1, e2⟩
      · cases as with
        | nil => simp only [List.nil_append, List.cons.injEq, Prod.mk.injEq] at e2; exact e2.1.1
        | cons x as =>
          simp only [List.cons_append, List.cons.injEq] at e2
          have := k2 (a, v1) (by rw [e1]; simp [e2.1])
          have := h3 (b, v2) (by rw [e2.2]; simp)
          simp only at *
          linarith
      · cases as with
        | nil => simp only [List.nil_append, List.cons.injEq, Prod.mk.injEq] at e2; exact e2.1.1.symm
        | cons x as =>
          simp only [List.cons_append, List.cons.injEq] at e2
          have := h2 (b, v2) (by rw [e1]; simp [e2.1])
          have := k3 (a, v1) (by rw [e2.2]; simp)
          simp only at *
          linarith

theorem correct_eq (r : Rule O D) (c y : Nat) (h : Majority r.dist c) :
    r.correct y = if c = y then 1 else 0 := by
  obtain ⟨c', h1, h2⟩ := majority_exists r
  rw [majority_unique _ _ _ h h1]
  exact h2 y

theorem scan_skip (E : Env O D K) (x : Nat → ℚ) (y : Nat) (w : ℚ) (pre rules : List (Rule O D))
    (h : ∀ r ∈ pre, r.covers x = false) :
    (scan E x y w (pre ++ rules)).1 = pre ++ (scan E x y w rules).1 ∧
    (scan E x y w (pre ++ rules)).2.2 = (scan E x y w rules).2.2 := by
  induction pre with
  | nil => exact ⟨rfl, rfl⟩
  | cons p pre ih =>
    obtain ⟨h1, h2⟩ := ih (fun r hr => h r (by simp [hr]))
    rw [List.cons_append]
    have hs : scan E x y w (p :: (pre ++ rules)) = (p :: (scan E x y w (pre ++ rules)).1,
        (scan E x y w (pre ++ rules)).2.1, (scan E x y w (pre ++ rules)).2.2) := by
      conv_lhs => unfold scan
      simp only [h p (by simp), Bool.false_eq_true, if_false]
    rw [hs]
    exact ⟨by rw [h1]; rfl, h2⟩

/-- **C146, partial.** What the detector of a rule is told and when the rule goes. For the
first rule that covers the instance, before it learns: its detector gets 1 if the
majority class of the rule is the label and 0 if not; if it then reports a change and
the rule has seen more than `min_weight`, the rule is removed and learns nothing,
otherwise it stays and learns. Missing: detectors that take 1 for an error, see below. -/
theorem C146_removal_partial (E : Env O D K) (d0 d : D) (hd : E.detector = some d0)
    (pre post : List (Rule O D)) (r dflt : Rule O D) (hrd : r.det = some d) (x : Nat → ℚ) (y : Nat) (w : ℚ)
    (hpre : ∀ p ∈ pre, p.covers x = false) (hr : r.covers x = true) (c : Nat) (hc : Majority r.dist c) :
    ((E.detChange (E.detAdd d (if c = y then 1 else 0)) = true ∧ E.minWeight < r.weight →
        ∃ post', St.learn E ⟨pre ++ r :: post, dflt⟩ x y w = ⟨pre ++ post', dflt⟩ ∧
          post'.length ≤ post.length ∧ post'.head? = post.head?) ∧
     (¬ (E.detChange (E.detAdd d (if c = y then 1 else 0)) = true ∧ E.minWeight < r.weight) →
        ∃ post', St.learn E ⟨pre ++ r :: post, dflt⟩ x y w =
            ⟨pre ++ (ruleStep E { r with det := some (E.detAdd d (if c = y then 1 else 0)) } x y w).1 :: post',
              dflt⟩ ∧ post'.length ≤ post.length ∧ (E.ordered = true → post' = post))) := by
  have hck : r.check E y = ({ r with det := some (E.detAdd d (if c = y then 1 else 0)) },
      E.detChange (E.detAdd d (if c = y then 1 else 0)) && decide (r.weight > E.minWeight)) := by
    unfold Rule.check
    rw [hd, hrd]
    simp only [correct_eq r c y hc]
  have hlearn : ∀ rules, (scan E x y w (r :: post)).1 = rules → (scan E x y w (r :: post)).2.2 = true →
      St.learn E ⟨pre ++ r :: post, dflt⟩ x y w = ⟨pre ++ rules, dflt⟩ := by
    intro rules h1 h2
    obtain ⟨k1, k2⟩ := scan_skip E x y w pre (r :: post) hpre
    unfold St.learn
    simp only [k2, h2, if_true, scan_appended, List.append_nil, k1, h1]
  constructor
  · intro h
    have h2 : (r.check E y).2 = true := by rw [hck]; simpa using h
    cases post with
    | nil =>
      refine ⟨[], hlearn [] ?_ ?_, by simp, rfl⟩
      · unfold scan; simp only [hr, if_true, h2]
      · unfold scan; simp only [hr, if_true, h2]
    | cons n post =>
      refine ⟨n :: (scan E x y w post).1, hlearn _ ?_ ?_, ?_, rfl⟩
      · conv_lhs => unfold scan
        simp only [hr, if_true, h2]
      · conv_lhs => unfold scan
        simp only [hr, if_true, h2]
      · have := scan_length E x y w post
        simp only [List.length_cons]; omega
  · intro h
    have h2 : (r.check E y).2 = false := by rw [hck]; simpa using h
    by_cases ho : E.ordered = true
    · refine ⟨post, hlearn _ ?_ ?_, le_refl _, fun _ => rfl⟩
      · unfold scan; simp only [hr, if_true, h2, Bool.false_eq_true, if_false, ho]; rw [hck]
      · unfold scan; simp only [hr, if_true, h2, Bool.false_eq_true, if_false, ho]
    · refine ⟨(scan E x y w post).1, hlearn _ ?_ ?_, scan_length E x y w post, fun h => absurd h ho⟩
      · conv_lhs => unfold scan
        simp only [hr, if_true, h2, Bool.false_eq_true, if_false, ho]; rw [hck]
      · conv_lhs => unfold scan
        simp only [hr, if_true, h2, Bool.false_eq_true, if_false, ho]

open Verif.Drift in
/-- DDM that has been told 0 all the time has found nothing; told 1 it finds a change. -/
theorem ddm_zeros (c : DDMPar) (h0 : c.sqrt 0 = 0) (n : Nat) :
    (DDM.run c (List.replicate n 0)).change = false ∧ (n = 0 ∨
      ((DDM.run c (List.replicate n 0)).sampleCount = n + 1 ∧ (DDM.run c (List.replicate n 0)).missProb = 0 ∧
        ((DDM.run c (List.replicate n 0)).mins = some (0, 0, 0) ∨
          (n + 1 < c.minInstances ∧ (DDM.run c (List.replicate n 0)).mins = none)))) := by
  induction n with
  | zero => exact ⟨rfl, .inl rfl⟩
  | succ n ih =>
    have hrun : DDM.run c (List.replicate (n + 1) 0) = DDM.addElement c (DDM.run c (List.replicate n 0)) 0 := by
      rw [List.replicate_succ']
      unfold DDM.run
      rw [List.foldl_append]; rfl
    rw [hrun]
    obtain ⟨h1, h2⟩ := ih
    have hp : (DDM.run c (List.replicate n 0)).missProb +
        (0 - (DDM.run c (List.replicate n 0)).missProb) / ((DDM.run c (List.replicate n 0)).sampleCount : ℚ) = 0 := by
      rcases h2 with rfl | ⟨_, h3, _⟩
      · norm_num [DDM.run, DDM.init]
      · rw [h3]; simp
    have hs : (DDM.run c (List.replicate n 0)).sampleCount = n + 1 := by
      rcases h2 with rfl | ⟨h3, _⟩
      · rfl
      · exact h3
    have hm : (DDM.run c (List.replicate n 0)).mins = some (0, 0, 0) ∨
        (DDM.run c (List.replicate n 0)).mins = none := by
      rcases h2 with rfl | ⟨_, _, h4 | ⟨_, h4⟩⟩
      · exact .inr rfl
      · exact .inl h4
      · exact .inr h4
    generalize DDM.run c (List.replicate n 0) = d at *
    have hu : DDM.updMins 0 0 d.mins = (0, 0, 0) := by
      rcases hm with h | h <;> rw [h] <;> simp [DDM.updMins]
    unfold DDM.addElement
    rw [hs] at hp
    simp only [h1, Bool.false_eq_true, if_false, hs, hp, zero_mul, zero_div, h0, hu, mul_zero, add_zero,
      gt_iff_lt, lt_irrefl]
    by_cases hlt : n + 1 + 1 < c.minInstances
    · rw [if_pos hlt]
      refine ⟨rfl, .inr ⟨rfl, rfl, ?_⟩⟩
      rcases h2 with rfl | ⟨_, _, h4 | ⟨_, h4⟩⟩
      · rcases hm with h | h
        · exact .inl h
        · exact .inr ⟨hlt, h⟩
      · exact .inl h4
      · exact .inr ⟨hlt, h4⟩
    · rw [if_neg hlt]
      exact ⟨rfl, .inr ⟨rfl, rfl, .inl rfl⟩⟩

open Verif.Drift in
/-- **C146, violated.** With DDM, which takes 1 for an error, a rule that has been wrong
about every instance so far is not removed by another wrong prediction, whatever the
number of errors; the first time it is right it is. (DDM with any levels, a square root
with `sqrt 0 = 0`, and at least `min_num_instances` predictions.) -/
theorem C146_ddm_wrong_kept_right_removed_violated (c : DDMPar) (h0 : c.sqrt 0 = 0) (hs : ∀ q, 0 ≤ c.sqrt q)
    (E : Env O DDM K) (d0 : DDM) (hd : E.detector = some d0)
    (hadd : ∀ d n, E.detAdd d n = DDM.addElement c d (n : ℚ)) (hch : ∀ d, E.detChange d = d.change)
    (r dflt : Rule O DDM) (n : Nat) (hn : 0 < n) (hmin : c.minInstances ≤ n + 1)
    (hrd : r.det = some (DDM.run c (List.replicate n 0)))
    (hw : E.minWeight < r.weight) (x : Nat → ℚ) (w : ℚ) (hr : r.covers x = true) (m : Nat)
    (hm : Majority r.dist m) :
    (∀ y ≠ m, ∃ r', St.learn E ⟨[r], dflt⟩ x y w = ⟨[r'], dflt⟩ ∧
      (E.grace > r.weight + w - r.last → r'.det = some (DDM.run c (List.replicate (n + 1) 0)))) ∧
    St.learn E ⟨[r], dflt⟩ x m w = ⟨[], dflt⟩ := by
  have hz := ddm_zeros c h0 n
  have hz1 := ddm_zeros c h0 (n + 1)
  have hrun : DDM.run c (List.replicate (n + 1) 0) = DDM.addElement c (DDM.run c (List.replicate n 0)) 0 := by
    rw [List.replicate_succ']
    unfold DDM.run
    rw [List.foldl_append]; rfl
  constructor
  · intro y hy
    have hne : ¬ m = y := fun h => hy h.symm
    have := (C146_removal_partial E d0 _ hd [] [] r dflt hrd x y w (by simp) hr m hm).2
    rw [if_neg hne, hadd, hch] at this
    simp only [Nat.cast_zero] at this
    rw [← hrun] at this
    obtain ⟨post', h1, h2, _⟩ := this (by rw [hz1.1]; simp)
    have : post' = [] := by simpa using h2
    subst this
    refine ⟨_, by simpa using h1, ?_⟩
    intro hg
    unfold ruleStep
    simp only
    rw [if_neg]
    · rfl
    · rw [learn_weight]
      exact not_le.mpr hg
  · have := (C146_removal_partial E d0 _ hd [] [] r dflt hrd x m w (by simp) hr m hm).1
    rw [if_pos rfl, hadd, hch] at this
    obtain ⟨post', h1, h2, _⟩ := this ⟨by
      rcases hz.2 with h | ⟨h1, h2, h3⟩
      · omega
      · have h3 : (DDM.run c (List.replicate n 0)).mins = some (0, 0, 0) := by
          rcases h3 with h3 | ⟨h3, _⟩
          · exact h3
          · omega
        have hc := hz.1
        generalize DDM.run c (List.replicate n 0) = d at *
        unfold DDM.addElement
        simp only [hc, Bool.false_eq_true, if_false, h1, h2, h3]
        rw [if_neg (by omega)]
        have hp : (0 : ℚ) < 0 + ((1 : Nat) - 0) / ((n + 1 : Nat) : ℚ) := by
          have : (0 : ℚ) < ((n + 1 : Nat) : ℚ) := by exact_mod_cast Nat.succ_pos n
          simp only [Nat.cast_one, sub_zero, zero_add]
          exact div_pos one_pos this
        generalize (0 : ℚ) + ((1 : Nat) - 0) / ((n + 1 : Nat) : ℚ) = p at hp ⊢
        have hsq := hs (p * (1 - p) / ((n + 1 : Nat) : ℚ))
        generalize c.sqrt (p * (1 - p) / ((n + 1 : Nat) : ℚ)) = s at hsq ⊢
        have hu : DDM.updMins p s (some (0, 0, 0)) = (0, 0, 0) := by
          unfold DDM.updMins
          simp only
          rw [if_neg (by linarith)]
        rw [hu]
        simp only [mul_zero, add_zero]
        rw [if_pos (by linarith)], hw⟩
    have : post' = [] := by simpa using h2
    subst this
    simpa using h1

/-- VFDR with DDM (`min_num_instances` 3): the rule predicts class 0, from then on all
instances are of class 1. It is wrong six times, until its counts have adapted; with the
first right prediction it is removed. -/
example :
    let c : Drift.DDMPar := ⟨3, 2, 3, id⟩
    let E : Env (List (ℚ × Nat × ℚ)) Drift.DDM Unit :=
      { nAtt := 1, freshObs := fun _ => [], update := fun o v y w => o ++ [(v, y, w)], nullObs := [], crit0 := (),
        suggest := fun _ _ _ _ _ => (none, ()), bound := fun _ _ => 1, nb := fun _ d _ => d,
        detector := some Drift.DDM.init, detAdd := fun d n => Drift.DDM.addElement c d n,
        detChange := Drift.DDM.change, detReset := fun _ => Drift.DDM.init, crit := .gain, ordered := true,
        mode := .firstHit, grace := 100, tie := 1/20, maxRules := 5, minWeight := 1, nbThreshold := 0,
        nbPrediction := false, removePoor := false }
    let s : St (List (ℚ × Nat × ℚ)) Drift.DDM := ⟨[⟨[], [(0, 5)], 0, [], some Drift.DDM.init, none⟩], newRule none none⟩
    (s.fit E (List.replicate 6 (inst 1 1))).rules.map (fun r => r.dist) = [[(0, 5), (1, 6)]] ∧
    (s.fit E (List.replicate 7 (inst 1 1))).rules.map (fun r => r.dist) = [] := by
  decide +kernel

/-! ### C147 -/

/-- Attribute `i` is poor: it has a suggestion worse than the best by more than `h`, and
none that is worse by less than `h` (a merit may be minus infinity, `⊥`). -/
def Poor (cands : List Sugg) (best : Sugg) (h : ℚ) (i : Nat) : Prop :=
  (∃ s ∈ cands, s.att = i ∧ s.merit + (h : WithBot ℚ) < best.merit) ∧
  ∀ s ∈ cands, s.att = i → ¬ best.merit < s.merit + (h : WithBot ℚ)

theorem gapBelow_iff (a b : WithBot ℚ) (h : ℚ) (hab : b ≤ a) : gapBelow a b h = true ↔ a < b + (h : WithBot ℚ) := by
  cases a with
  | bot =>
    rw [le_bot_iff] at hab
    subst hab
    rw [WithBot.bot_add]
    simp only [lt_irrefl, iff_false]
    exact Bool.false_ne_true
  | coe a =>
    cases b with
    | bot =>
      rw [WithBot.bot_add]
      simp only [not_lt_bot, iff_false]
      exact Bool.false_ne_true
    | coe b =>
      rw [← WithBot.coe_add, WithBot.coe_lt_coe]
      show decide _ = true ↔ _
      rw [decide_eq_true_eq]
      constructor <;> intro h <;> linarith

/-- **C147, partial.** With `remove_poor_atts` and at least two suggestions, an expansion
attempt disables the observers of the poor attributes and no others, and changes nothing
else of the rule. Missing: naive Bayes votes, see below. -/
theorem C147_disabled_partial (E : Env O D K) (r : Rule O D) (cls : Option Nat) (hp : E.removePoor = true)
    (h2 : 2 ≤ (suggestAll E r.dist cls E.crit0 r.obs).1.length) :
    ∃ best ∈ (suggestAll E r.dist cls E.crit0 r.obs).1,
      (∀ s ∈ (suggestAll E r.dist cls E.crit0 r.obs).1, s.merit ≤ best.merit) ∧
      (considerExpand E r cls).1 = { r with obs := (considerExpand E r cls).1.obs } ∧
      List.Forall₂ (fun p p' => p'.1 = p.1 ∧
        (Poor (suggestAll E r.dist cls E.crit0 r.obs).1 best (E.bound r.dist r.weight) p.1 → p'.2 = E.nullObs) ∧
        (¬ Poor (suggestAll E r.dist cls E.crit0 r.obs).1 best (E.bound r.dist r.weight) p.1 → p'.2 = p.2))
        r.obs (considerExpand E r cls).1.obs := by
  generalize hcd : (suggestAll E r.dist cls E.crit0 r.obs).1 = cands at *
  have hperm := sort_perm cands
  have hsort := sort_sorted cands
  unfold considerExpand
  simp only [hcd]
  generalize sortSugg cands = l at hperm hsort
  have hlen : 2 ≤ l.reverse.length := by rw [List.length_reverse, hperm.length_eq]; exact h2
  cases hl : l.reverse with
  | nil => rw [hl] at hlen; simp at hlen
  | cons best rest =>
    cases rest with
    | nil => rw [hl] at hlen; simp at hlen
    | cons sec rest =>
      have hl' : l = (sec :: rest).reverse ++ [best] := by
        have := congrArg List.reverse hl
        simpa using this
      have hmem : ∀ s, s ∈ l ↔ s ∈ cands := fun s => hperm.mem_iff
      have hbest : best ∈ cands := (hmem best).1 (by rw [hl']; simp)
      have hle : ∀ s ∈ cands, s.merit ≤ best.merit := by
        intro s hs
        have hs' := (hmem s).2 hs
        rw [hl'] at hs' hsort
        rw [List.pairwise_append] at hsort
        rcases List.mem_append.1 hs' with h | h
        · exact hsort.2.2 s h best (by simp)
        · rw [List.mem_singleton] at h; rw [h]
      refine ⟨best, hbest, hle, ?_, ?_⟩
      · simp only [hp, if_true]
      · simp only [hp, if_true]
        unfold disable
        rw [List.forall₂_map_right_iff, List.forall₂_same]
        intro p _
        have hpoor : (poorAtts best (E.bound r.dist r.weight) l).contains p.1 = true ↔
            Poor cands best (E.bound r.dist r.weight) p.1 := by
          unfold poorAtts Poor
          rw [List.contains_iff_mem, List.mem_filter]
          simp only [List.mem_map, List.mem_filter, Bool.not_eq_true', List.contains_eq_mem,
            decide_eq_false_iff_not]
          constructor
          · rintro ⟨⟨s, ⟨h1, h3⟩, h4⟩, h5⟩
            have h1' := (hmem s).1 h1
            refine ⟨⟨s, h1', h4, (gapAbove_iff _ _ _).1 h3⟩, ?_⟩
            intro s' hs' ha hb
            exact h5 ⟨s', ⟨(hmem s').2 hs', (gapBelow_iff _ _ _ (hle s' hs')).2 hb⟩, ha⟩
          · rintro ⟨⟨s, h1, h3, h4⟩, h5⟩
            refine ⟨⟨s, ⟨(hmem s).2 h1, (gapAbove_iff _ _ _).2 h4⟩, h3⟩, ?_⟩
            rintro ⟨s', ⟨h6, h7⟩, h8⟩
            have h6' := (hmem s').1 h6
            exact h5 s' h6' h8 ((gapBelow_iff _ _ _ (hle s' h6')).1 h7)
        by_cases h : (poorAtts best (E.bound r.dist r.weight) l).contains p.1 = true
        · rw [if_pos h]
          exact ⟨rfl, fun _ => rfl, fun hn => absurd (hpoor.1 h) hn⟩
        · rw [if_neg h]
          exact ⟨rfl, fun hp => absurd (hpoor.2 hp) h, fun _ => rfl⟩

/-- **C147.** Without `remove_poor_atts` no observer is touched. -/
theorem C147_off (E : Env O D K) (r : Rule O D) (cls : Option Nat) (hp : E.removePoor = false) :
    (considerExpand E r cls).1 = r := by
  unfold considerExpand
  simp only [hp, Bool.false_eq_true, if_false]
  split <;> rfl

theorem updObs_keeps (E : Env O D K) (hu : ∀ v y w, E.update E.nullObs v y w = E.nullObs) (obs : List (Nat × O))
    (i j : Nat) (v : ℚ) (y : Nat) (w : ℚ) (h : (i, E.nullObs) ∈ obs) : (i, E.nullObs) ∈ updObs E obs j v y w := by
  unfold updObs
  split
  · refine List.mem_map.2 ⟨_, h, ?_⟩
    by_cases e : i = j
    · simp only [e, if_true, hu]
    · simp only [e, if_false]
  · exact List.mem_append_left _ h

/-- **C147.** A disabled attribute stays disabled while the rule learns, and a disabled
observer makes no suggestion. -/
theorem C147_stays_disabled (E : Env O D K) (hu : ∀ v y w, E.update E.nullObs v y w = E.nullObs)
    (r : Rule O D) (i : Nat) (h : (i, E.nullObs) ∈ r.obs) (x : Nat → ℚ) (y : Nat) (w : ℚ) :
    (i, E.nullObs) ∈ (r.learn E x y w).obs := by
  unfold Rule.learn
  simp only
  generalize List.range E.nAtt = l
  have hobs := h
  generalize r.obs = obs at hobs
  clear h
  induction l generalizing obs with
  | nil => exact hobs
  | cons j l ih => exact ih _ (updObs_keeps E hu _ _ _ _ _ _ hobs)

/-- `do_naive_bayes_prediction`, bayes/utils.py 28-42, for the attributes `0..n-1` and
observers with the given conditional probabilities (never nan). -/
def bayesVotes (n : Nat) (prob : O → ℚ → Nat → ℚ) (x : Nat → ℚ) (dist : SDict Nat ℚ) (obs : List (Nat × O)) :
    SDict Nat ℚ :=
  let t := (dist.map Prod.snd).sum
  if dist = [] ∨ t = 0 then [(0, 0)]
  else dist.map fun kv => (kv.1, (List.range n).foldl (fun v i =>
    match obs.lookup i with
    | some o => v * prob o (x i) kv.1
    | none => v) (kv.2 / t))

/-- C147, partial: Bayes' rule. The vote of an observed class is its share of the weight times the
probabilities of the attribute values under it; an attribute without observer counts as 1; without
any weight the vote is 0 for class 0. -/
theorem C147_bayes_rule_partial (n : Nat) (prob : O → ℚ → Nat → ℚ) (x : Nat → ℚ) (dist : SDict Nat ℚ)
    (obs : List (Nat × O)) :
    (¬ 0 < (dist.map Prod.snd).sum → (∀ kv ∈ dist, 0 ≤ kv.2) → bayesVotes n prob x dist obs = [(0, 0)]) ∧
    (0 < (dist.map Prod.snd).sum → (bayesVotes n prob x dist obs).map Prod.fst = dist.map Prod.fst ∧
      ∀ c w, (c, w) ∈ dist → (c, w / (dist.map Prod.snd).sum *
        ((List.range n).map fun i => ((obs.lookup i).map fun o => prob o (x i) c).getD 1).prod) ∈
          bayesVotes n prob x dist obs) := by
  have hf : ∀ (l : List Nat) (c : Nat) (v : ℚ), l.foldl (fun v i =>
      match obs.lookup i with
      | some o => v * prob o (x i) c
      | none => v) v = v * (l.map fun i => ((obs.lookup i).map fun o => prob o (x i) c).getD 1).prod := by
    intro l c
    induction l with
    | nil => intro v; simp
    | cons j l ih =>
      intro v
      simp only [List.foldl_cons, List.map_cons, List.prod_cons]
      rw [ih]
      cases obs.lookup j <;> simp [mul_assoc]
  unfold bayesVotes
  simp only
  constructor
  · intro h hp
    rw [if_pos]
    right
    refine le_antisymm (not_lt.1 h) (List.sum_nonneg ?_)
    intro a ha
    obtain ⟨kv, hkv, rfl⟩ := List.mem_map.1 ha
    exact hp kv hkv
  · intro h
    rw [if_neg]
    · refine ⟨by simp [List.map_map, Function.comp_def], ?_⟩
      intro c w hcw
      exact List.mem_map.2 ⟨(c, w), hcw, by simp only [hf]⟩
    · rintro (h' | h')
      · subst h'; simp at h
      · exact absurd h' (ne_of_gt h)

example : bayesVotes 2 (fun (o : ℚ) v c => o * v + c) (fun i => (i : ℚ)) [(0, 1), (1, 3)] [(1, 2)] = [(0, 1/2), (1, 9/4)] := by
  decide +kernel

theorem lookup_of_mem (obs : List (Nat × O)) (hn : (obs.map Prod.fst).Nodup) (i : Nat) (o : O) (h : (i, o) ∈ obs) :
    obs.lookup i = some o := by
  induction obs with
  | nil => cases h
  | cons a obs ih =>
    obtain ⟨k, o'⟩ := a
    simp only [List.map_cons, List.nodup_cons] at hn
    rcases List.mem_cons.1 h with h' | h'
    · cases h'; simp
    · have : i ≠ k := by
        rintro rfl
        exact hn.1 (List.mem_map.2 ⟨(i, o), h', rfl⟩)
      rw [List.lookup_cons]
      have hb : (i == k) = false := by simpa using this
      rw [hb]
      exact ih hn.2 h'

/-- **C147, violated.** With naive Bayes prediction (the default), one disabled attribute
makes every vote of the rule zero, whatever the other attributes say: the null observer
gives every value probability 0 (attribute_observer_null.py 16-17). -/
theorem C147_votes_vanish_violated (n : Nat) (prob : O → ℚ → Nat → ℚ) (E : Env O D K)
    (hnb : E.nb = bayesVotes n prob) (hpr : E.nbPrediction = true) (h0 : ∀ v c, prob E.nullObs v c = 0)
    (r : Rule O D) (hk : (r.obs.map Prod.fst).Nodup) (i : Nat) (hi : i < n) (hd : (i, E.nullObs) ∈ r.obs)
    (hw : E.nbThreshold ≤ r.weight) (x : Nat → ℚ) : ∀ p ∈ r.votes E x, p.2 = 0 := by
  have hzero : ∀ (l : List Nat) (c : Nat) (v : ℚ), v = 0 → l.foldl (fun v i =>
      match r.obs.lookup i with
      | some o => v * prob o (x i) c
      | none => v) v = 0 := by
    intro l c
    induction l with
    | nil => intro v h; exact h
    | cons j l ih =>
      intro v h
      simp only [List.foldl_cons]
      apply ih
      rw [h]
      split <;> simp
  have hfold : ∀ (l : List Nat) (c : Nat) (v : ℚ), i ∈ l → l.foldl (fun v i =>
      match r.obs.lookup i with
      | some o => v * prob o (x i) c
      | none => v) v = 0 := by
    intro l c
    induction l with
    | nil => intro v h; cases h
    | cons j l ih =>
      intro v h
      simp only [List.foldl_cons]
      by_cases e : i = j
      · subst e
        apply hzero
        rw [lookup_of_mem r.obs hk i _ hd]
        simp [h0]
      · rcases List.mem_cons.1 h with h | h
        · exact absurd h e
        · exact ih _ h
  unfold Rule.votes
  rw [if_pos ⟨hw, hpr⟩, hnb]
  unfold bayesVotes
  simp only
  intro p hp
  split at hp
  · simp only [List.mem_singleton] at hp; rw [hp]
  · obtain ⟨kv, _, rfl⟩ := List.mem_map.1 hp
    exact hfold _ _ _ (List.mem_range.2 hi)

/-- Three attributes: 0 is best, 1 is close, 2 is poor. The attempt disables 2 only. The rule
has seen class 1 nine times out of ten, yet its votes are all zero. -/
example :
    let E : Env (List (ℚ × Nat × ℚ)) Bool Unit :=
      { exEnv .le (fun i _ => if i = 2 then ((0 : ℚ) : WithBot ℚ) else if i = 1 then ((9/10 : ℚ) : WithBot ℚ)
          else ((1 : ℚ) : WithBot ℚ)) .gain true .firstHit 3 5 4 (1/2) none with
        removePoor := true, nbPrediction := true,
        nb := bayesVotes 3 (fun o v c => if o = [] then 0 else 1) }
    let r : Rule (List (ℚ × Nat × ℚ)) Bool :=
      ⟨[], [(0, 1), (1, 9)], 0, [(0, [(1, 1, 1)]), (1, [(1, 1, 1)]), (2, [(1, 1, 1)])], none, none⟩
    (considerExpand E r none).1.obs = [(0, [(1, 1, 1)]), (1, [(1, 1, 1)]), (2, [])] ∧
    r.votes E (fun _ => 1) = [(0, 1/10), (1, 9/10)] ∧
    (considerExpand E r none).1.votes E (fun _ => 1) = [(0, 0), (1, 0)] := by
  decide +kernel

end Verif.Rules
