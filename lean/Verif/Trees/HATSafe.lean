import Verif.Trees.HATVotes

/-!
Properties of the Hoeffding adaptive tree: training and prediction never fail (C167), node
counters (C168).
-/

namespace Verif.Trees.HA

open Verif.Trees Verif.Trees.HL

variable {O D : Type}

/-! ### Specification -/

/-- An instance with `n` attributes whose split decisions are sound. -/
def Ev.Ok (n : Nat) (e : Ev O) : Prop := e.x.length = n ∧ ∀ l, (e.choose l).Ok n

mutual
/-- Number of leaves of the main tree. -/
def N.leafCount : N O D → Int
  | .leaf _ _ => 1
  | .split _ _ _ _ kids => kids.leafCount
/-- See `N.leafCount`. -/
def K.leafCount : K O D → Int
  | .nil => 0
  | .cons _ t rest => t.leafCount + rest.leafCount
end

mutual
/-- Number of split nodes of the main tree. -/
def N.splitCount : N O D → Int
  | .leaf _ _ => 0
  | .split _ _ _ _ kids => 1 + kids.splitCount
/-- See `N.splitCount`. -/
def K.splitCount : K O D → Int
  | .nil => 0
  | .cons _ t rest => t.splitCount + rest.splitCount
end

/-- The detectors never report a change. -/
def HCfg.Quiet (cfg : HCfg O D) : Prop := ∀ d b, cfg.det.change (cfg.det.add d b) = false

/-! ### Proofs -/

mutual
/-- The branch ids of every split node are `0, …, k-1`, `k` the branches of its test; all leaves
are active. -/
def N.WF (n : Nat) : N O D → Prop
  | .leaf l _ => l.active = true
  | .split t _ _ alt kids => (∀ l d, alt = some (l, d) → l.active = true) ∧ ∃ k, t.Ok n k ∧ kids.WFfrom n 0 k
/-- See `N.WF`. -/
def K.WFfrom (n : Nat) : K O D → Nat → Nat → Prop
  | .nil, i, k => i = k
  | .cons j t rest, i, k => j = i ∧ t.WF n ∧ rest.WFfrom n (i + 1) k
end

mutual
/-- No alternate trees. -/
def N.NoAlt : N O D → Prop
  | .leaf _ _ => True
  | .split _ _ _ alt kids => alt = none ∧ kids.NoAlt
/-- See `N.NoAlt`. -/
def K.NoAlt : K O D → Prop
  | .nil => True
  | .cons _ t rest => t.NoAlt ∧ rest.NoAlt
end

/-- The counter changes match a change of the tree. -/
def Cnt.Fits (c : Cnt) (dl ds : Int) : Prop :=
  c.actives = dl ∧ c.inactives = 0 ∧ c.decisions = ds ∧ c.alternates = 0 ∧ c.pruned = 0 ∧ c.switched = 0

theorem newKids_facts (cfg : HCfg O D) (n : Nat) (ds : List Stats) (i : Nat) :
    (newKids cfg i ds).WFfrom n i (i + ds.length) ∧ (newKids cfg i ds).NoAlt ∧
    (newKids cfg i ds).leafCount = ds.length ∧ (newKids cfg i ds).splitCount = 0 := by
  induction ds generalizing i with
  | nil => exact ⟨rfl, trivial, rfl, rfl⟩
  | cons d ds ih =>
    obtain ⟨h1, h2, h3, h4⟩ := ih (i + 1)
    refine ⟨⟨rfl, rfl, ?_⟩, ⟨trivial, h2⟩, ?_, ?_⟩
    · rwa [show i + 1 + ds.length = i + (d :: ds).length by simp; omega] at h1
    · simp only [newKids, K.leafCount, N.leafCount, h3, List.length_cons]; omega
    · simp only [newKids, K.splitCount, N.splitCount, h4]; rfl

theorem K.snoc_facts (n : Nat) (kids : K O D) (t : N O D) (a k : Nat) :
    (t.WF n → kids.WFfrom n a k → (kids.snoc k t).WFfrom n a (k + 1)) ∧
    (t.NoAlt → kids.NoAlt → (kids.snoc k t).NoAlt) ∧
    (kids.snoc k t).leafCount = kids.leafCount + t.leafCount ∧
    (kids.snoc k t).splitCount = kids.splitCount + t.splitCount := by
  match kids with
  | .nil =>
    refine ⟨fun ht h => ?_, fun ht _ => ⟨ht, trivial⟩, by simp [K.snoc, K.leafCount], by simp [K.snoc, K.splitCount]⟩
    have : a = k := h
    subst this
    exact ⟨rfl, ht, rfl⟩
  | .cons j u rest =>
    obtain ⟨h1, h2, h3, h4⟩ := K.snoc_facts n rest t (a + 1) k
    refine ⟨fun ht h => ⟨h.1, h.2.1, h1 ht h.2.2⟩, fun ht h => ⟨h.1, h2 ht h.2⟩, ?_, ?_⟩
    · simp only [K.snoc, K.leafCount, h3]; omega
    · simp only [K.snoc, K.splitCount, h4]; omega

theorem attempt_facts (cfg : HCfg O D) (hstop : cfg.stop = false) (e : Ev O) (n : Nat) (he : e.Ok n) (attached : Bool)
    (l : Leaf O) (d : D) (ha : l.active = true) :
    (attempt cfg e attached l d).1.node.WF n ∧ (attempt cfg e attached l d).1.node.NoAlt ∧
    (∀ l' d', (attempt cfg e attached l d).1 = .stays l' d' → l'.active = true) ∧
    (attached = true → (attempt cfg e attached l d).2.Fits ((attempt cfg e attached l d).1.node.leafCount - 1)
      (attempt cfg e attached l d).1.node.splitCount) := by
  unfold attempt
  have hstay : ∀ l2 : Leaf O, l2.active = true → (Out.stays l2 d : Out O D).node.WF n ∧ (Out.stays l2 d).node.NoAlt ∧
      (∀ l' d', (Out.stays l2 d : Out O D) = .stays l' d' → l'.active = true) ∧
      (attached = true → ({} : Cnt).Fits ((Out.stays l2 d).node.leafCount - 1) (Out.stays l2 d).node.splitCount) := by
    intro l2 h2
    refine ⟨h2, trivial, ?_, fun _ => ?_⟩
    · intro l' d' h
      simp only [Out.stays.injEq] at h
      rw [← h.1]; exact h2
    · simp [Cnt.Fits, Out.node, N.leafCount, N.splitCount]
  by_cases h1 : total l.stats - l.last ≥ cfg.base.grace
  · rw [if_pos h1]
    by_cases h2 : EF.isPure l.stats = true
    · rw [if_pos h2]; exact hstay _ ha
    · rw [if_neg h2]
      have hch := he.2 l
      cases hc : e.choose l with
      | keep f => exact hstay _ ha
      | prune =>
        refine ⟨?_, trivial, ?_, ?_⟩
        · simp [Out.node, N.WF, newLeaf, hstop]
        · intro l' d' h; simp at h
        · intro hat
          subst hat
          simp [hstop, Cnt.Fits, Out.node, N.leafCount, N.splitCount]
      | split t ds =>
        rw [hc] at hch
        obtain ⟨k1, k2, k3, k4⟩ := newKids_facts cfg n ds 0
        rw [Nat.zero_add] at k1
        refine ⟨⟨by simp, ds.length, hch, k1⟩, ⟨rfl, k2⟩, ?_, ?_⟩
        · intro l' d' h; simp at h
        · intro _
          simp [Cnt.Fits, Out.node, N.leafCount, N.splitCount, k3, k4]
  · rw [if_neg h1]; exact hstay _ ha

theorem leafLearn_facts (cfg : HCfg O D) (hstop : cfg.stop = false) (e : Ev O) (n : Nat) (he : e.Ok n) (attached : Bool)
    (k : Nat) (l : Leaf O) (d : D) (ha : l.active = true) :
    (leafLearn cfg e attached k l d).1.node.WF n ∧ (leafLearn cfg e attached k l d).1.node.NoAlt ∧
    (∀ l' d', (leafLearn cfg e attached k l d).1 = .stays l' d' → l'.active = true) ∧
    (attached = true → (leafLearn cfg e attached k l d).2.Fits ((leafLearn cfg e attached k l d).1.node.leafCount - 1)
      (leafLearn cfg e attached k l d).1.node.splitCount) :=
  attempt_facts cfg hstop e n he attached _ _ ha

mutual
theorem N.predicted_ok (cfg : HCfg O D) (n : Nat) (x : List ℚ) (hx : x.length = n) (r : N O D) (h : r.WF n) :
    ∃ c, r.predicted cfg x = .ok c := by
  match r with
  | .leaf l d => exact ⟨_, rfl⟩
  | .split t s d alt kids =>
    obtain ⟨_, k, h1, h2⟩ := h
    rcases Test.branch_ok h1 x hx with ⟨b, hb, hbr⟩ | ⟨m, rfl, hbr⟩
    · obtain ⟨c, hc⟩ := K.predicted_ok cfg n x hx kids b 0 k h2 (by omega) hb
      exact ⟨c, by rw [N.predicted]; simp only [hbr]; rw [if_pos (by omega), Int.toNat_natCast, hc]⟩
    · exact ⟨classOf s, by rw [N.predicted]; simp only [hbr]; rw [if_neg (by omega)]⟩
theorem K.predicted_ok (cfg : HCfg O D) (n : Nat) (x : List ℚ) (hx : x.length = n) (kids : K O D) (b i k : Nat)
    (h : kids.WFfrom n i k) (h1 : i ≤ b) (h2 : b < k) : ∃ c, kids.predicted cfg x b = .ok c := by
  match kids with
  | .nil => exact ⟨0, rfl⟩
  | .cons j t rest =>
    obtain ⟨rfl, ht, hr⟩ := h
    by_cases e : b = j
    · obtain ⟨c, hc⟩ := N.predicted_ok cfg n x hx t ht
      exact ⟨c, by rw [K.predicted, if_pos e, hc]⟩
    · obtain ⟨c, hc⟩ := K.predicted_ok cfg n x hx rest b (j + 1) k hr (by omega) h2
      exact ⟨c, by rw [K.predicted, if_neg e, hc]⟩
end

mutual
theorem N.nLeaves_ok (n : Nat) (r : N O D) (h : r.WF n) : r.nLeaves = .ok r.leafCount := by
  match r with
  | .leaf l d => rw [N.nLeaves, if_pos (show l.active = true from h)]; rfl
  | .split t s d alt kids =>
    obtain ⟨_, k, _, h2⟩ := h
    rw [N.nLeaves, K.nLeaves_ok n kids 0 k h2]; rfl
theorem K.nLeaves_ok (n : Nat) (kids : K O D) (i k : Nat) (h : kids.WFfrom n i k) : kids.nLeaves = .ok kids.leafCount := by
  match kids with
  | .nil => rfl
  | .cons j t rest =>
    obtain ⟨_, ht, hr⟩ := h
    rw [K.nLeaves, N.nLeaves_ok n t ht, K.nLeaves_ok n rest (i + 1) k hr]; rfl
end

theorem reacted_ok (cfg : HCfg O D) (n : Nat) (r : React) (alt : Option (Leaf O × D)) (kids : K O D) (k : Nat)
    (ha : ∀ l d, alt = some (l, d) → l.active = true) (hk : kids.WFfrom n 0 k) :
    ∃ alt1 c1, reacted cfg r alt kids = .ok (alt1, c1) ∧ (∀ l d, alt1 = some (l, d) → l.active = true) := by
  cases r with
  | fresh =>
    refine ⟨_, _, rfl, ?_⟩
    intro l d h
    simp only [Option.some.injEq, Prod.mk.injEq] at h
    rw [← h.1]; rfl
  | switch =>
    have : reacted cfg .switch alt kids = .ok (alt, Cnt.add { actives := 1 - kids.leafCount, switched := 1 } kids.kill) := by
      simp only [reacted, K.nLeaves_ok n kids 0 k hk]
    exact ⟨_, _, this, ha⟩
  | drop => exact ⟨none, _, rfl, by simp⟩
  | stay => exact ⟨alt, _, rfl, ha⟩

theorem learnAlt_ok (cfg : HCfg O D) (hstop : cfg.stop = false) (e : Ev O) (n : Nat) (he : e.Ok n) (attached sw : Bool)
    (k : Nat) (alt : Option (Leaf O × D)) (ha : ∀ l d, alt = some (l, d) → l.active = true) :
    (∀ l d, (learnAlt cfg e attached sw k alt).1 = some (l, d) → l.active = true) ∧
    ∀ r, (learnAlt cfg e attached sw k alt).2.1 = some r → r.WF n := by
  cases alt with
  | none => simp [learnAlt]
  | some p =>
    obtain ⟨l, d⟩ := p
    obtain ⟨h1, _, h3, _⟩ := leafLearn_facts cfg hstop e n he attached k l d (ha l d rfl)
    cases ho : (leafLearn cfg e attached k l d).1 with
    | stays l' d' =>
      simp only [learnAlt, ho]
      refine ⟨fun l2 d2 h => ?_, fun r h => ?_⟩
      · simp only [Option.some.injEq, Prod.mk.injEq] at h
        rw [← h.1]; exact h3 l' d' ho
      · cases sw with
        | false => simp at h
        | true =>
          simp only [if_true, Option.some.injEq] at h
          rw [← h]; exact h3 l' d' ho
    | becomes m =>
      simp only [learnAlt, ho]
      refine ⟨fun l2 d2 h => ?_, fun r h => ?_⟩
      · simp only [Option.some.injEq, Prod.mk.injEq] at h
        rw [← h.1]; exact ha l d rfl
      · simp only [Option.some.injEq] at h
        rw [ho] at h1
        rw [← h]; exact h1

theorem quiet_react (cfg : HCfg O D) (hq : cfg.Quiet) (d : D) (b : Bool) : react cfg d (cfg.det.add d b) none = .stay := by
  simp [react, hq d b]

theorem Cnt.Fits.add {a b : Cnt} {l1 s1 l2 s2 : Int} (ha : a.Fits l1 s1) (hb : b.Fits l2 s2) :
    (a.add b).Fits (l1 + l2) (s1 + s2) := by
  obtain ⟨h1, h2, h3, h4, h5, h6⟩ := ha
  obtain ⟨k1, k2, k3, k4, k5, k6⟩ := hb
  simp [Cnt.Fits, Cnt.add, h1, h2, h3, h4, h5, h6, k1, k2, k3, k4, k5, k6]

mutual
theorem N.learn_ok (cfg : HCfg O D) (hstop : cfg.stop = false) (e : Ev O) (n : Nat) (he : e.Ok n) (attached : Bool)
    (depth : Nat) (r : N O D) (h : r.WF n) :
    ∃ r' c, r.learn cfg e attached depth = .ok (r', c) ∧ r'.WF n ∧
      (cfg.Quiet → r.NoAlt → attached = true → r'.NoAlt ∧
        c.Fits (r'.leafCount - r.leafCount) (r'.splitCount - r.splitCount)) := by
  match r with
  | .leaf l d =>
    obtain ⟨h1, h2, _, h4⟩ := leafLearn_facts cfg hstop e n he attached (e.draw depth false) l d h
    refine ⟨_, _, by rw [N.learn, if_pos (show l.active = true from h)], h1, fun _ _ hat => ⟨h2, ?_⟩⟩
    have := h4 hat
    simpa [N.leafCount, N.splitCount] using this
  | .split t s d alt kids =>
    obtain ⟨halt, k, h1, h2⟩ := h
    obtain ⟨p, hp⟩ := N.predicted_ok cfg n e.x he.1 (.split t s d alt kids) ⟨halt, k, h1, h2⟩
    obtain ⟨alt1, c1, hre, halt1⟩ := reacted_ok cfg n (react cfg d (cfg.det.add d (decide (e.y ≠ p))) alt) alt kids k halt h2
    obtain ⟨ka1, ka2⟩ := learnAlt_ok cfg hstop e n he attached
      (decide (react cfg d (cfg.det.add d (decide (e.y ≠ p))) alt = .switch)) (e.draw depth true) alt1 halt1
    have hquiet : cfg.Quiet → alt = none → alt1 = none ∧ c1 = {} ∧
        learnAlt cfg e attached (decide (react cfg d (cfg.det.add d (decide (e.y ≠ p))) alt = .switch))
          (e.draw depth true) alt1 = (none, none, {}) := by
      intro hq hn
      subst hn
      rw [quiet_react cfg hq] at hre
      simp only [reacted, Except.ok.injEq, Prod.mk.injEq] at hre
      obtain ⟨rfl, rfl⟩ := hre
      exact ⟨rfl, rfl, rfl⟩
    have hd : ∀ (o : Option (N O D)) (m : N O D), (∀ r, o = some r → r.WF n) → m.WF n → (o.getD m).WF n := by
      intro o m ho hm
      cases o with
      | none => exact hm
      | some r => exact ho r rfl
    have h00 : ({} : Cnt).Fits 0 0 := by simp [Cnt.Fits]
    rcases Test.branch_ok h1 e.x he.1 with ⟨b, hb, hbr⟩ | ⟨m, rfl, hbr⟩
    · obtain ⟨kids', c3, g1, g2, g3⟩ := K.learn_ok cfg hstop e n he
        (attached && (learnAlt cfg e attached (decide (react cfg d (cfg.det.add d (decide (e.y ≠ p))) alt = .switch))
          (e.draw depth true) alt1).2.1.isNone) (depth + 1) kids b 0 k h2 (by omega) hb
      refine ⟨_, _, by rw [N.learn]; simp only [hp, hre, hbr]; rw [if_pos (by omega), Int.toNat_natCast, g1], ?_, ?_⟩
      · exact hd _ _ ka2 ⟨ka1, k, h1, g2⟩
      · intro hq hn hat
        obtain ⟨q1, q2, q3⟩ := hquiet hq hn.1
        rw [q3] at g3 ⊢
        obtain ⟨w1, w2⟩ := g3 hq hn.2 (by simp [hat])
        refine ⟨⟨rfl, w1⟩, ?_⟩
        have := (q2 ▸ h00.add h00).add w2
        simpa [N.leafCount, N.splitCount, q2, Option.getD_none] using this
    · obtain ⟨v, m', g1, g2, g3⟩ := addBranch_ok h1 e.x he.1 hbr
      obtain ⟨w1, w2, _, w4⟩ := leafLearn_facts cfg hstop e n he
        (attached && (learnAlt cfg e attached (decide (react cfg d (cfg.det.add d (decide (e.y ≠ p))) alt = .switch))
          (e.draw depth true) alt1).2.1.isNone) (e.draw (depth + 1) false) (newLeaf cfg.base true []) cfg.det.new rfl
      refine ⟨_, _, by rw [N.learn]; simp only [hp, hre, hbr]; rw [if_neg (by omega)]; simp only [g1, g2]; rfl, ?_, ?_⟩
      · exact hd _ _ ka2 ⟨ka1, k + 1, g3, (K.snoc_facts n kids _ 0 k).1 w1 h2⟩
      · intro hq hn hat
        obtain ⟨q1, q2, q3⟩ := hquiet hq hn.1
        rw [q3] at w1 w2 w4 ⊢
        obtain ⟨_, s2, s3, s4⟩ := K.snoc_facts n kids (leafLearn cfg e (attached && (none : Option (N O D)).isNone)
          (e.draw (depth + 1) false) (newLeaf cfg.base true []) cfg.det.new).1.node 0 k
        simp only [Option.isNone_none, Bool.and_true] at w2 w4 s2 s3 s4 ⊢
        refine ⟨⟨rfl, s2 w2 hn.2⟩, ?_⟩
        have h10 : ({ actives := 1 } : Cnt).Fits 1 0 := by simp [Cnt.Fits]
        have := ((h00.add h00).add h10).add (w4 hat)
        simp only [Option.getD_none, N.leafCount, N.splitCount, s3, s4, q2]
        convert this using 1 <;> omega
theorem K.learn_ok (cfg : HCfg O D) (hstop : cfg.stop = false) (e : Ev O) (n : Nat) (he : e.Ok n) (attached : Bool)
    (depth : Nat) (kids : K O D) (b i k : Nat) (h : kids.WFfrom n i k) (h1 : i ≤ b) (h2 : b < k) :
    ∃ kids' c, kids.learn cfg e attached depth b = .ok (kids', c) ∧ kids'.WFfrom n i k ∧
      (cfg.Quiet → kids.NoAlt → attached = true → kids'.NoAlt ∧
        c.Fits (kids'.leafCount - kids.leafCount) (kids'.splitCount - kids.splitCount)) := by
  match kids with
  | .nil => have : i = k := h; omega
  | .cons j t rest =>
    obtain ⟨rfl, ht, hr⟩ := h
    by_cases e' : b = j
    · obtain ⟨t', c, g1, g2, g3⟩ := N.learn_ok cfg hstop e n he attached depth t ht
      refine ⟨.cons j t' rest, c, by rw [K.learn, if_pos e', g1], ⟨rfl, g2, hr⟩, fun hq hn hat => ?_⟩
      obtain ⟨w1, w2⟩ := g3 hq hn.1 hat
      refine ⟨⟨w1, hn.2⟩, ?_⟩
      simp only [K.leafCount, K.splitCount]
      convert w2 using 1 <;> omega
    · obtain ⟨rest', c, g1, g2, g3⟩ := K.learn_ok cfg hstop e n he attached depth rest b (j + 1) k hr (by omega) h2
      refine ⟨.cons j t rest', c, by rw [K.learn, if_neg e', g1], ⟨rfl, ht, g2⟩, fun hq hn hat => ?_⟩
      obtain ⟨w1, w2⟩ := g3 hq hn.2 hat
      refine ⟨⟨hn.1, w1⟩, ?_⟩
      simp only [K.leafCount, K.splitCount]
      convert w2 using 1 <;> omega
end

mutual
theorem N.found_ok (cfg : HCfg O D) (n : Nat) (x : List ℚ) (hx : x.length = n) (pb : Int) (r : N O D) (h : r.WF n) :
    ∃ fs, r.found cfg x pb = .ok fs := by
  match r with
  | .leaf l d => exact ⟨_, by rw [N.found, if_pos (show l.active = true from h)]⟩
  | .split t s d alt kids =>
    obtain ⟨_, k, h1, h2⟩ := h
    rcases Test.branch_ok h1 x hx with ⟨b, hb, hbr⟩ | ⟨m, rfl, hbr⟩
    · obtain ⟨fs, hc⟩ := K.found_ok cfg n x hx pb s kids b 0 k h2 (by omega) hb
      exact ⟨_, by rw [N.found]; simp only [hbr]; rw [if_pos (by omega), Int.toNat_natCast, hc]⟩
    · exact ⟨_, by rw [N.found]; simp only [hbr]; rw [if_neg (by omega)]⟩
theorem K.found_ok (cfg : HCfg O D) (n : Nat) (x : List ℚ) (hx : x.length = n) (pb : Int) (s : Stats) (kids : K O D)
    (b i k : Nat) (h : kids.WFfrom n i k) (h1 : i ≤ b) (h2 : b < k) : ∃ fs, kids.found cfg x pb s b = .ok fs := by
  match kids with
  | .nil => exact ⟨_, rfl⟩
  | .cons j t rest =>
    obtain ⟨rfl, ht, hr⟩ := h
    by_cases e : b = j
    · obtain ⟨c, hc⟩ := N.found_ok cfg n x hx pb t ht
      exact ⟨c, by rw [K.found, if_pos e, hc]⟩
    · obtain ⟨c, hc⟩ := K.found_ok cfg n x hx pb s rest b (j + 1) k hr (by omega) h2
      exact ⟨c, by rw [K.found, if_neg e, hc]⟩
end

theorem WF_inactive (n : Nat) (r : N O D) (h : r.WF n) : r.inactive = none := by
  match r with
  | .leaf l d => simp [N.inactive, show l.active = true from h]
  | .split _ _ _ _ _ => rfl

/-- The state of the tree between instances. -/
def Tree.Inv (cfg : HCfg O D) (n : Nat) (h : Tree O D) : Prop :=
  (∀ r, h.root = some r → r.WF n) ∧
  (cfg.Quiet → (∀ r, h.root = some r → r.NoAlt ∧ h.cnt.Fits r.leafCount r.splitCount) ∧
    (h.root = none → h.cnt = {}))

theorem step_inv (cfg : HCfg O D) (hstop : cfg.stop = false) (n : Nat) (h : Tree O D) (hi : h.Inv cfg n) (e : Ev O)
    (he : e.Ok n) : ∃ h' r, step cfg h e = .ok h' ∧ h'.root = some r ∧ h'.Inv cfg n := by
  have hr : (h.root.getD (.leaf (newLeaf cfg.base true []) cfg.det.new)).WF n := by
    cases hh : h.root with
    | none => rfl
    | some r => exact hi.1 r hh
  obtain ⟨r', c, g1, g2, g3⟩ := N.learn_ok cfg hstop e n he true 0 _ hr
  refine ⟨⟨some r', (if h.root.isSome then h.cnt else { h.cnt with actives := 1 }).add c, h.seen + e.w⟩, r', ?_, rfl, ?_⟩
  · simp only [step, WF_inactive n _ hr, g1]
  · refine ⟨fun r hr' => by simp only [Option.some.injEq] at hr'; rw [← hr']; exact g2, fun hq => ⟨fun r hr' => ?_, by simp⟩⟩
    simp only [Option.some.injEq] at hr'
    subst hr'
    obtain ⟨i1, i2⟩ := hi.2 hq
    cases hh : h.root with
    | none =>
      rw [hh] at g3
      obtain ⟨w1, w2⟩ := g3 hq trivial rfl
      refine ⟨w1, ?_⟩
      rw [i2 hh]
      have h1 : ({ actives := 1 } : Cnt).Fits 1 0 := by simp [Cnt.Fits]
      have := h1.add w2
      simp only [Option.isSome_none, Option.getD_none, N.leafCount, N.splitCount] at this ⊢
      convert this using 1 <;> first | rfl | omega
    | some r =>
      rw [hh] at g3
      obtain ⟨j1, j2⟩ := i1 r hh
      obtain ⟨w1, w2⟩ := g3 hq j1 rfl
      refine ⟨w1, ?_⟩
      have := j2.add w2
      simp only [Option.isSome_some, if_true, Option.getD_some] at this ⊢
      convert this using 1 <;> first | rfl | omega

theorem run_inv (cfg : HCfg O D) (hstop : cfg.stop = false) (n : Nat) (es : List (Ev O)) (he : ∀ e ∈ es, e.Ok n) :
    ∀ h : Tree O D, h.Inv cfg n → ∃ h', run cfg h es = .ok h' ∧ h'.Inv cfg n ∧
      (h'.root = none → es = []) := by
  induction es with
  | nil => intro h hi; exact ⟨h, rfl, hi, fun _ => rfl⟩
  | cons e es ih =>
    intro h hi
    obtain ⟨h1, r, g1, g2, g3⟩ := step_inv cfg hstop n h hi e (he e List.mem_cons_self)
    obtain ⟨h2, k1, k2, k3⟩ := ih (fun e' h' => he e' (List.mem_cons_of_mem _ h')) h1 g3
    refine ⟨h2, by simp only [run, g1, k1], k2, fun hn => ?_⟩
    have := k3 hn
    subst this
    simp only [run, Except.ok.injEq] at k1
    subst k1
    rw [g2] at hn
    simp at hn

/-- C167 (partial): unless memory management is stopped, training on rows of a fixed length
never fails, and neither does any prediction for a row of that length, whatever splits,
alternate trees, switches and prunings there were.  Missing (and false, see the violation):
`stop_mem_management=True`. -/
theorem C167_never_fails_partial (cfg : HCfg O D) (hstop : cfg.stop = false) (n : Nat) (es : List (Ev O))
    (he : ∀ e ∈ es, e.Ok n) :
    ∃ h, run cfg {} es = .ok h ∧ ∀ x : List ℚ, x.length = n → ∃ v, votes cfg h x = .ok v := by
  obtain ⟨h, h1, h2, _⟩ := run_inv cfg hstop n es he {} ⟨by simp, fun _ => ⟨by simp, fun _ => rfl⟩⟩
  refine ⟨h, h1, fun x hx => ?_⟩
  unfold votes
  cases hr : h.root with
  | none => exact ⟨[], rfl⟩
  | some r =>
    obtain ⟨fs, hf⟩ := N.found_ok cfg n x hx (-1) r (h2.1 r hr)
    simp only [WF_inactive n r (h2.1 r hr), hf]
    exact ⟨_, rfl⟩

/-- A root split at 5; then the left leaf holds two classes and is pruned. -/
def pruning : List (Ev (List (List ℚ × Int × ℚ))) :=
  [inst 1 0 (splitAt 5), inst 9 1 (splitAt 5), inst 1 0 (fun _ => .prune), inst 1 1 (fun _ => .prune)]

/-- C167 (violated): with `stop_mem_management=True` a leaf below a split node that is pruned
stays inactive; every later instance that is routed to it makes training raise `TypeError`
and prediction raise `AttributeError`. -/
theorem C167_pruned_violated :
    ((run (logCfg true) {} pruning).toOption.map fun h =>
      ((match run (logCfg true) h [inst 1 0 fun _ => .keep id] with
        | .error .typeError => true
        | _ => false),
       (match votes (logCfg true) h [1] with
        | .error .attributeError => true
        | _ => false))) = some (true, true) := by
  decide +kernel

/-- Without it the same run goes on. -/
example : ((run (logCfg false) {} (pruning ++ [inst 1 0 fun _ => .keep id])).toOption.map fun h => h.cnt.actives) =
    some 2 := by decide +kernel

example : (∀ e ∈ pruning, e.Ok 1) ∧ ∀ e ∈ takeover, e.Ok 1 := by
  have hs : ∀ v l, (splitAt v l).Ok 1 := by intro v l; simp [splitAt, Choice.Ok, Test.Ok]
  have hk : ∀ x y, (inst x y fun _ => .keep id).Ok 1 := fun x y => ⟨rfl, fun l => trivial⟩
  have hp : ∀ x y, (inst x y fun _ => .prune).Ok 1 := fun x y => ⟨rfl, fun l => trivial⟩
  have h5 : ∀ x y v, (inst x y (splitAt v)).Ok 1 := fun x y v => ⟨rfl, fun l => hs v l⟩
  constructor
  · intro e he
    simp only [pruning, List.mem_cons, List.not_mem_nil, or_false] at he
    rcases he with rfl | rfl | rfl | rfl
    exacts [h5 _ _ _, h5 _ _ _, hp _ _, hp _ _]
  · intro e he
    simp only [takeover, List.mem_append, List.mem_cons, List.not_mem_nil, or_false, List.mem_replicate] at he
    rcases he with (((he | he) | he) | he) | he
    · rcases he with rfl | rfl <;> exact h5 _ _ _
    · rw [he.2]; exact hk _ _
    · rw [he.2]; exact hk _ _
    · rw [he.2]; exact hk _ _
    · rw [he]; exact h5 _ _ _

/-! ### C168: counters -/

/-- C168 (partial): as long as the detectors report no change, the counters are exact: active
leaves and decision nodes are those of the tree, and there are no inactive leaves and no
alternate trees.  Missing (and false, see the violations): anything after a change. -/
theorem C168_counters_partial (cfg : HCfg O D) (hstop : cfg.stop = false) (hq : cfg.Quiet) (n : Nat) (es : List (Ev O))
    (hne : es ≠ []) (he : ∀ e ∈ es, e.Ok n) :
    ∃ h r, run cfg {} es = .ok h ∧ h.root = some r ∧ h.cnt.actives = r.leafCount ∧ h.cnt.decisions = r.splitCount ∧
      h.cnt.inactives = 0 ∧ h.cnt.alternates = 0 ∧ h.cnt.pruned = 0 ∧ h.cnt.switched = 0 := by
  obtain ⟨h, h1, h2, h3⟩ := run_inv cfg hstop n es he {} ⟨by simp, fun _ => ⟨by simp, fun _ => rfl⟩⟩
  cases hr : h.root with
  | none => exact absurd (h3 hr) hne
  | some r =>
    obtain ⟨_, a1, a2, a3, a4, a5, a6⟩ := (h2.2 hq).1 r hr
    exact ⟨h, r, h1, hr, a1, a3, a2, a4, a5, a6⟩

/-- Counters (active leaves, decision nodes) next to the numbers in the tree. -/
def counts (h : Tree O D) : Option ((Int × Int) × (Int × Int)) :=
  h.root.map fun r => ((h.cnt.actives, h.cnt.decisions), (r.leafCount, r.splitCount))

/-- C168 (violated): when an alternate leaf splits and so takes the place of a node, the leaves
and decision nodes that disappear with the node stay in the counters. -/
theorem C168_takeover_violated :
    ((run (logCfg false) {} (takeover.take 14)).toOption.bind counts) = some ((2, 1), (2, 1)) ∧
    ((run (logCfg false) {} takeover).toOption.bind counts) = some ((4, 3), (2, 1)) := by decide +kernel

mutual
theorem N.kill_leaves (n : Nat) (r : N O D) (h : r.WF n) : r.kill.actives = -r.leafCount ∧ r.kill.decisions = 0 := by
  match r with
  | .leaf l d => rw [N.kill, if_pos (show l.active = true from h)]; exact ⟨rfl, rfl⟩
  | .split t s d alt kids =>
    obtain ⟨_, k, _, h2⟩ := h
    obtain ⟨k1, k2⟩ := K.kill_leaves n kids 0 k h2
    rw [N.kill, N.leafCount]
    split <;> simp [Cnt.add, k1, k2]
theorem K.kill_leaves (n : Nat) (kids : K O D) (i k : Nat) (h : kids.WFfrom n i k) :
    kids.kill.actives = -kids.leafCount ∧ kids.kill.decisions = 0 := by
  match kids with
  | .nil => exact ⟨rfl, rfl⟩
  | .cons j t rest =>
    obtain ⟨_, ht, hr⟩ := h
    obtain ⟨k1, k2⟩ := N.kill_leaves n t ht
    obtain ⟨k3, k4⟩ := K.kill_leaves n rest (i + 1) k hr
    rw [K.kill, K.leafCount]
    simp only [Cnt.add, k1, k2, k3, k4]
    omega
end

mutual
/-- Number of nodes of the main tree with an alternate tree. -/
def N.altCount : N O D → Int
  | .leaf _ _ => 0
  | .split _ _ _ alt kids => (if alt.isSome then 1 else 0) + kids.altCount
/-- See `N.altCount`. -/
def K.altCount : K O D → Int
  | .nil => 0
  | .cons _ t rest => t.altCount + rest.altCount
end

mutual
/-- Number of inactive leaves of the main tree. -/
def N.inactiveCount : N O D → Int
  | .leaf l _ => if l.active then 0 else 1
  | .split _ _ _ _ kids => kids.inactiveCount
/-- See `N.inactiveCount`. -/
def K.inactiveCount : K O D → Int
  | .nil => 0
  | .cons _ t rest => t.inactiveCount + rest.inactiveCount
end

mutual
theorem N.kill_counts (r : N O D) : r.kill = ⟨r.inactiveCount - r.leafCount, -r.inactiveCount, 0, 0, r.altCount, 0⟩ := by
  match r with
  | .leaf l d => cases h : l.active <;> simp [N.kill, N.inactiveCount, N.leafCount, N.altCount, h]
  | .split t s d alt kids =>
    rw [N.kill, K.kill_counts kids]
    cases alt <;> simp [Cnt.add, N.inactiveCount, N.leafCount, N.altCount]
theorem K.kill_counts (kids : K O D) :
    kids.kill = ⟨kids.inactiveCount - kids.leafCount, -kids.inactiveCount, 0, 0, kids.altCount, 0⟩ := by
  match kids with
  | .nil => rfl
  | .cons j t rest =>
    rw [K.kill, N.kill_counts t, K.kill_counts rest]
    simp only [Cnt.add, K.inactiveCount, K.leafCount, K.altCount, Cnt.mk.injEq]
    refine ⟨?_, ?_, ?_, ?_, ?_, ?_⟩
    all_goals first | trivial | omega
end

/-- C168 (violated): when a more accurate alternate leaf takes the place of a node with `L`
leaves, the active leaf counter loses `2 L` instead of `L`, and the decision node counter
loses nothing; the alternate trees below the node are counted as pruned. -/
theorem C168_switch_violated (cfg : HCfg O D) (n : Nat) (t : Test) (s : Stats) (d : D) (alt : Option (Leaf O × D))
    (kids : K O D) (h : (N.split t s d alt kids).WF n) :
    ∃ c, reacted cfg .switch alt kids = .ok (alt, c) ∧
      c.actives = 1 - 2 * (N.split t s d alt kids).leafCount ∧ c.inactives = 0 ∧ c.decisions = 0 ∧
      c.alternates = 0 ∧ c.pruned = kids.altCount ∧ c.switched = 1 := by
  obtain ⟨_, k, _, h2⟩ := h
  obtain ⟨k1, k2⟩ := K.kill_leaves n kids 0 k h2
  have hk := K.kill_counts kids
  have h0 : kids.inactiveCount = 0 := by
    have := congrArg Cnt.actives hk
    simp only [k1] at this
    omega
  refine ⟨Cnt.add { actives := 1 - kids.leafCount, switched := 1 } kids.kill, ?_, ?_⟩
  · simp only [reacted, K.nLeaves_ok n kids 0 k h2]
  · rw [hk, h0]
    simp only [Cnt.add, N.leafCount]
    omega

/-- What `kill_tree_children` takes off the counters in general: the active and the inactive
leaves below the node; the alternate trees below it count as pruned, decision nodes are left
alone. -/
theorem C168_kill (kids : K O D) :
    kids.kill.actives = -(kids.leafCount - kids.inactiveCount) ∧ kids.kill.inactives = -kids.inactiveCount ∧
    kids.kill.decisions = 0 ∧ kids.kill.alternates = 0 ∧ kids.kill.pruned = kids.altCount ∧ kids.kill.switched = 0 := by
  rw [K.kill_counts kids]
  exact ⟨by simp, rfl, rfl, rfl, rfl, rfl⟩

/-- A node with an active leaf, an inactive one, and a split node with an alternate leaf. -/
example (l : Leaf O) (d : D) (t : Test) :
    (K.cons 0 (N.leaf { l with active := true } d) (K.cons 1 (N.leaf { l with active := false } d)
      (K.cons 2 (N.split t [] d (some (l, d)) .nil) .nil))).kill = ⟨-1, -1, 0, 0, 1, 0⟩ := by
  rfl

/-- Counters when an alternate tree is started or dropped, or nothing happens: exactly the one
counter that names the event moves, by one, and none of the node counters. -/
theorem C168_alternates (cfg : HCfg O D) (alt : Option (Leaf O × D)) (kids : K O D) :
    (∃ a, reacted cfg .fresh alt kids = .ok (some a, ⟨0, 0, 0, 1, 0, 0⟩) ∧ a.1.stats = [] ∧ a.1.active = true) ∧
    reacted cfg .drop alt kids = .ok (none, ⟨0, 0, 0, 0, 1, 0⟩) ∧
    reacted cfg .stay alt kids = .ok (alt, ⟨0, 0, 0, 0, 0, 0⟩) :=
  ⟨⟨_, rfl, rfl, rfl⟩, rfl, rfl⟩

/-- Counters when a leaf is pruned (its split attempt is due, it holds several classes, and the
null split wins).  A leaf of the main tree with memory management on is activated again at
once: the counters stay.  Otherwise one leaf moves from the active to the inactive ones: for
`stop_mem_management=True` that is what happens in the tree, for an alternate leaf (never
counted as active) it is one off. -/
theorem C168_prune (cfg : HCfg O D) (e : Ev O) (attached : Bool) (l : Leaf O) (d : D)
    (hdue : total l.stats - l.last ≥ cfg.base.grace) (hp : EF.isPure l.stats = false) (hc : e.choose l = .prune) :
    ∃ l', (attempt cfg e attached l d).1 = .becomes (.leaf l' cfg.det.new) ∧ l'.stats = l.stats ∧
      (l'.active = true ↔ cfg.stop = false) ∧
      ((attached = true ∧ cfg.stop = false) → (attempt cfg e attached l d).2 = ⟨0, 0, 0, 0, 0, 0⟩) ∧
      ((attached = false ∨ cfg.stop = true) → (attempt cfg e attached l d).2 = ⟨-1, 1, 0, 0, 0, 0⟩) := by
  have ha : attempt cfg e attached l d = (.becomes (.leaf (newLeaf cfg.base (!cfg.stop) l.stats) cfg.det.new),
      if attached && !cfg.stop then {} else { actives := -1, inactives := 1 }) := by
    simp [attempt, hdue, hp, hc]
  rw [ha]
  refine ⟨_, rfl, rfl, ?_, ?_, ?_⟩
  · simp [newLeaf]
  · rintro ⟨h1, h2⟩; simp [h1, h2]
  · rintro (h | h) <;> simp [h]

/-- A split, three wrong predictions (alarm), then instances that fit the alternate leaf. -/
def switching : List (Ev (List (List ℚ × Int × ℚ))) :=
  [inst 1 0 (splitAt 5), inst 9 1 (splitAt 5)] ++ List.replicate 2 (inst 1 0 fun _ => .keep id) ++
  List.replicate 3 (inst 1 1 fun _ => .keep id) ++ List.replicate 6 (inst 9 1 fun _ => .keep id)

/-- Detectors whose width grows faster. -/
def wide : HCfg (List (List ℚ × Int × ℚ)) (List Bool) :=
  { logCfg false with det := { tally with width := fun d => 150 * d.length } }

/-- C168 (violated): a concrete run with a switch: the tree is a single leaf, the counters say
-1 active leaves and 1 decision node. -/
theorem C168_negative_violated :
    ((run wide {} (switching.take 12)).toOption.bind counts) = some ((2, 1), (2, 1)) ∧
    ((run wide {} (switching.take 13)).toOption.bind counts) = some ((-1, 1), (1, 0)) := by decide +kernel

end Verif.Trees.HA
