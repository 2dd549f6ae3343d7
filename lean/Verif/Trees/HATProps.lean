import Verif.Trees.HAT

/-!
Properties of the Hoeffding adaptive tree: what happens to alternate trees (C163), bootstrap
weights (C164), votes (C165), reset (C166).
-/

namespace Verif.Trees.HA

open Verif.Trees Verif.Trees.HL

variable {O D : Type}

/-! ### C163: alternate trees -/

/-- The detector reports a change and the error rate did not go down. -/
def Alarm (cfg : HCfg O D) (old new : D) : Prop := cfg.det.change new = true ∧ cfg.det.est old ≤ cfg.det.est new

/-- Both error rates come from more than 300 instances, and `a` is lower than `b` by more than the
bound. -/
def Lower (cfg : HCfg O D) (main alt a b : D) : Prop :=
  cfg.det.width main > 300 ∧ cfg.det.width alt > 300 ∧
  cfg.bound (cfg.det.est main) (cfg.det.width alt) (cfg.det.width main) < cfg.det.est b - cfg.det.est a

/-- `l'` is `l` after learning the instance with Poisson draw `k` (the time of the last split
attempt aside). -/
def Learned (cfg : HCfg O D) (e : Ev O) (k : Nat) (l l' : Leaf O) : Prop :=
  ∃ last, l' = { l.learn cfg.lcfg e.x e.y (bootWeight cfg.boot k e.w) with last := last }

theorem react_cases (cfg : HCfg O D) (d d' : D) (alt : Option (Leaf O × D)) :
    (Alarm cfg d d' ∧ react cfg d d' alt = .fresh) ∨
    (¬ Alarm cfg d d' ∧ ∃ l ad, alt = some (l, ad) ∧ Lower cfg d' ad ad d' ∧ react cfg d d' alt = .switch) ∨
    (¬ Alarm cfg d d' ∧ ∃ l ad, alt = some (l, ad) ∧ ¬ Lower cfg d' ad ad d' ∧ Lower cfg d' ad d' ad ∧
      react cfg d d' alt = .drop) ∨
    (¬ Alarm cfg d d' ∧ (∀ l ad, alt = some (l, ad) → ¬ Lower cfg d' ad ad d' ∧ ¬ Lower cfg d' ad d' ad) ∧
      react cfg d d' alt = .stay) := by
  unfold react
  by_cases h : cfg.det.change d' = true ∧ ¬ cfg.det.est d > cfg.det.est d'
  · rw [if_pos h]
    exact .inl ⟨⟨h.1, not_lt.1 h.2⟩, rfl⟩
  · rw [if_neg h]
    have hna : ¬ Alarm cfg d d' := fun ha => h ⟨ha.1, not_lt.2 ha.2⟩
    cases alt with
    | none => exact .inr (.inr (.inr ⟨hna, by simp, rfl⟩))
    | some p =>
      obtain ⟨l, ad⟩ := p
      simp only
      by_cases hw : cfg.det.width d' > 300 ∧ cfg.det.width ad > 300
      · rw [if_pos hw]
        by_cases h1 : cfg.bound (cfg.det.est d') (cfg.det.width ad) (cfg.det.width d') < cfg.det.est d' - cfg.det.est ad
        · rw [if_pos h1]
          exact .inr (.inl ⟨hna, l, ad, rfl, ⟨hw.1, hw.2, h1⟩, rfl⟩)
        · rw [if_neg h1]
          by_cases h2 : cfg.bound (cfg.det.est d') (cfg.det.width ad) (cfg.det.width d') <
              cfg.det.est ad - cfg.det.est d'
          · rw [if_pos h2]
            exact .inr (.inr (.inl ⟨hna, l, ad, rfl, fun h => h1 h.2.2, ⟨hw.1, hw.2, h2⟩, rfl⟩))
          · rw [if_neg h2]
            refine .inr (.inr (.inr ⟨hna, ?_, rfl⟩))
            intro l' ad' he
            simp only [Option.some.injEq, Prod.mk.injEq] at he
            obtain ⟨_, rfl⟩ := he
            exact ⟨fun h => h1 h.2.2, fun h => h2 h.2.2⟩
      · rw [if_neg hw]
        refine .inr (.inr (.inr ⟨hna, ?_, rfl⟩))
        intro l' ad' he
        simp only [Option.some.injEq, Prod.mk.injEq] at he
        obtain ⟨_, rfl⟩ := he
        exact ⟨fun h => hw ⟨h.1, h.2.1⟩, fun h => hw ⟨h.1, h.2.1⟩⟩

/-- What remains of `N.learn` at a split node once the alternate tree has been dealt with. -/
theorem learn_split (cfg : HCfg O D) (e : Ev O) (attached : Bool) (depth : Nat) (t : Test) (s : Stats) (d : D)
    (alt : Option (Leaf O × D)) (kids : K O D) (n : N O D) (c : Cnt)
    (h : (N.split t s d alt kids).learn cfg e attached depth = .ok (n, c)) :
    ∃ wrong alt1 c1, reacted cfg (react cfg d (cfg.det.add d wrong) alt) alt kids = .ok (alt1, c1) ∧
      (∃ p, (N.split t s d alt kids).predicted cfg e.x = .ok p ∧ (wrong = true ↔ e.y ≠ p)) ∧
      ∃ t' kids', n = (learnAlt cfg e attached (decide (react cfg d (cfg.det.add d wrong) alt = .switch))
          (e.draw depth true) alt1).2.1.getD
        (.split t' s (cfg.det.add d wrong) (learnAlt cfg e attached
          (decide (react cfg d (cfg.det.add d wrong) alt = .switch)) (e.draw depth true) alt1).1 kids') := by
  rw [N.learn] at h
  cases hp : (N.split t s d alt kids).predicted cfg e.x with
  | error err => rw [hp] at h; simp at h
  | ok p =>
    rw [hp] at h
    simp only at h
    refine ⟨decide (e.y ≠ p), ?_⟩
    cases hr : reacted cfg (react cfg d (cfg.det.add d (decide (e.y ≠ p))) alt) alt kids with
    | error err => rw [hr] at h; simp at h
    | ok q =>
      obtain ⟨alt1, c1⟩ := q
      rw [hr] at h
      simp only at h
      refine ⟨alt1, c1, rfl, ⟨p, rfl, by simp⟩, ?_⟩
      cases hb : t.branch e.x with
      | error err => rw [hb] at h; simp at h
      | ok b =>
        rw [hb] at h
        simp only at h
        by_cases hb0 : b ≥ 0
        · rw [if_pos hb0] at h
          split at h
          · simp at h
          · rename_i kids' c3 _
            simp only [Except.ok.injEq, Prod.mk.injEq] at h
            exact ⟨t, kids', h.1.symm⟩
        · rw [if_neg hb0] at h
          cases t with
          | multi m =>
            simp only at h
            split at h
            · simp at h
            · split at h
              · simp at h
              · rename_i id m' _
                simp only [Except.ok.injEq, Prod.mk.injEq] at h
                exact ⟨.multi m', _, h.1.symm⟩
          | num m =>
            simp only [Except.ok.injEq, Prod.mk.injEq] at h
            exact ⟨_, kids, h.1.symm⟩
          | nom m =>
            simp only [Except.ok.injEq, Prod.mk.injEq] at h
            exact ⟨_, kids, h.1.symm⟩

theorem attempt_keep (cfg : HCfg O D) (e : Ev O) (hk : ∀ l, ∃ f, e.choose l = .keep f) (attached : Bool)
    (l : Leaf O) (d : D) : ∃ last, (attempt cfg e attached l d).1 = .stays { l with last := last } d := by
  unfold attempt
  by_cases h : total l.stats - l.last ≥ cfg.base.grace
  · rw [if_pos h]
    by_cases h2 : EF.isPure l.stats = true
    · rw [if_pos h2]; exact ⟨_, rfl⟩
    · rw [if_neg h2]
      obtain ⟨f, hf⟩ := hk l
      rw [hf]
      exact ⟨_, rfl⟩
  · rw [if_neg h]; exact ⟨l.last, rfl⟩

theorem learnAlt_keep (cfg : HCfg O D) (e : Ev O) (hk : ∀ l, ∃ f, e.choose l = .keep f) (attached sw : Bool) (k : Nat)
    (l : Leaf O) (d : D) : ∃ l' d', Learned cfg e k l l' ∧ (learnAlt cfg e attached sw k (some (l, d))).1 = some (l', d') ∧
      (learnAlt cfg e attached sw k (some (l, d))).2.1 = if sw then some (.leaf l' d') else none := by
  obtain ⟨last, h⟩ := attempt_keep cfg e hk attached (l.learn cfg.lcfg e.x e.y (bootWeight cfg.boot k e.w))
    (cfg.det.add d (decide (e.y ≠ classOf (leafVotes cfg l d e.x))))
  refine ⟨_, cfg.det.add d (decide (e.y ≠ classOf (leafVotes cfg l d e.x))), ⟨last, rfl⟩, ?_, ?_⟩
  · simp only [learnAlt, leafLearn, h]
  · simp only [learnAlt, leafLearn, h]

/-- C163 (partial): when split attempts keep the leaves as they are, what a split node does
with an instance that training accepts is this.  `wrong`: the tree below the node predicted
another class; `d'`: its detector with this outcome.
* On an alarm a new alternate leaf is started, and learns the instance.
* Otherwise, if the error rate of the alternate leaf is lower by more than the bound, it takes
  the place of the node.
* Otherwise, if it is higher by more than the bound, it is dropped.
* Otherwise node and alternate leaf both stay.
In all cases in which the node stays, it keeps its statistics.  Missing (and false, see the
violation): instances at which the alternate leaf splits. -/
theorem C163_alternate_partial (cfg : HCfg O D) (e : Ev O) (hk : ∀ l, ∃ f, e.choose l = .keep f)
    (attached : Bool) (depth : Nat) (t : Test) (s : Stats) (d : D) (alt : Option (Leaf O × D)) (kids : K O D)
    (n : N O D) (c : Cnt) (h : (N.split t s d alt kids).learn cfg e attached depth = .ok (n, c)) :
    ∃ wrong d', (∃ p, (N.split t s d alt kids).predicted cfg e.x = .ok p ∧ (wrong = true ↔ e.y ≠ p)) ∧
      d' = cfg.det.add d wrong ∧
      ((Alarm cfg d d' ∧ ∃ t' kids' l ad, n = .split t' s d' (some (l, ad)) kids' ∧
          Learned cfg e (e.draw depth true) (newLeaf cfg.base true []) l) ∨
       (¬ Alarm cfg d d' ∧ ∃ l ad l' ad', alt = some (l, ad) ∧ Lower cfg d' ad ad d' ∧ n = .leaf l' ad' ∧
          Learned cfg e (e.draw depth true) l l') ∨
       (¬ Alarm cfg d d' ∧ ∃ l ad t' kids', alt = some (l, ad) ∧ ¬ Lower cfg d' ad ad d' ∧ Lower cfg d' ad d' ad ∧
          n = .split t' s d' none kids') ∨
       (¬ Alarm cfg d d' ∧ ((alt = none ∧ ∃ t' kids', n = .split t' s d' none kids') ∨
          ∃ l ad l' ad' t' kids', alt = some (l, ad) ∧ ¬ Lower cfg d' ad ad d' ∧ ¬ Lower cfg d' ad d' ad ∧
            n = .split t' s d' (some (l', ad')) kids' ∧ Learned cfg e (e.draw depth true) l l'))) := by
  obtain ⟨wrong, alt1, c1, h1, h2, t', kids', hn⟩ := learn_split cfg e attached depth t s d alt kids n c h
  refine ⟨wrong, cfg.det.add d wrong, h2, rfl, ?_⟩
  rcases react_cases cfg d (cfg.det.add d wrong) alt with ⟨ha, hr⟩ | ⟨ha, l, ad, hal, hl, hr⟩ |
    ⟨ha, l, ad, hal, hl, hl2, hr⟩ | ⟨ha, hl, hr⟩
  · left
    rw [hr] at h1 hn
    simp only [reacted, Except.ok.injEq, Prod.mk.injEq] at h1
    obtain ⟨rfl, _⟩ := h1
    obtain ⟨l', d', k1, k2, k3⟩ := learnAlt_keep cfg e hk attached (decide (React.fresh = .switch)) (e.draw depth true)
      (newLeaf cfg.base true []) cfg.det.new
    rw [k3, k2] at hn
    exact ⟨ha, t', kids', l', d', by simpa using hn, k1⟩
  · right; left
    subst hal
    rw [hr] at h1 hn
    simp only [reacted] at h1
    split at h1
    · simp at h1
    · simp only [Except.ok.injEq, Prod.mk.injEq] at h1
      obtain ⟨rfl, _⟩ := h1
      obtain ⟨l', d', k1, k2, k3⟩ := learnAlt_keep cfg e hk attached (decide (React.switch = .switch)) (e.draw depth true) l ad
      rw [k3] at hn
      exact ⟨ha, l, ad, l', d', rfl, hl, by simpa using hn, k1⟩
  · right; right; left
    subst hal
    rw [hr] at h1 hn
    simp only [reacted, Except.ok.injEq, Prod.mk.injEq] at h1
    obtain ⟨rfl, _⟩ := h1
    exact ⟨ha, l, ad, t', kids', rfl, hl, hl2, by simpa [learnAlt] using hn⟩
  · right; right; right
    rw [hr] at h1 hn
    simp only [reacted, Except.ok.injEq, Prod.mk.injEq] at h1
    obtain ⟨rfl, _⟩ := h1
    refine ⟨ha, ?_⟩
    cases alt with
    | none => exact .inl ⟨rfl, t', kids', by simpa [learnAlt] using hn⟩
    | some p =>
      obtain ⟨l, ad⟩ := p
      obtain ⟨l', d', k1, k2, k3⟩ := learnAlt_keep cfg e hk attached (decide (React.stay = .switch)) (e.draw depth true) l ad
      rw [k3, k2] at hn
      obtain ⟨q1, q2⟩ := hl l ad rfl
      exact .inr ⟨l, ad, l', d', t', kids', rfl, q1, q2, by simpa using hn, k1⟩

/-- C163 (violated): an alternate leaf learns with the parent and branch of the node it is an
alternate to.  When it splits, the new split node is put there: it replaces the node and
everything below it, whatever the error rates are.  It is enough that there was no alarm and
that the alternate leaf was not dropped at this instance. -/
theorem C163_takeover_violated (cfg : HCfg O D) (e : Ev O) (attached : Bool) (depth : Nat) (t : Test) (s : Stats) (d : D)
    (l : Leaf O) (ad : D) (kids : K O D) (n : N O D) (c : Cnt)
    (h : (N.split t s d (some (l, ad)) kids).learn cfg e attached depth = .ok (n, c))
    (hna : ∀ wrong, ¬ Alarm cfg d (cfg.det.add d wrong) ∧
      ¬ Lower cfg (cfg.det.add d wrong) ad (cfg.det.add d wrong) ad)
    (l' : Leaf O) (hl' : l' = l.learn cfg.lcfg e.x e.y (bootWeight cfg.boot (e.draw depth true) e.w))
    (hdue : total l'.stats - l'.last ≥ cfg.base.grace) (hp : EF.isPure l'.stats = false)
    (t' : Test) (ds : List Stats) (hch : e.choose l' = .split t' ds) :
    n = .split t' l'.stats cfg.det.new none (newKids cfg 0 ds) := by
  obtain ⟨wrong, alt1, c1, h1, h2, t2, kids', hn⟩ := learn_split cfg e attached depth t s d _ kids n c h
  have ha : ∀ sw, (learnAlt cfg e attached sw (e.draw depth true) (some (l, ad))).2.1 =
      some (.split t' l'.stats cfg.det.new none (newKids cfg 0 ds)) := by
    intro sw
    have : (attempt cfg e attached l' (cfg.det.add ad (decide (e.y ≠ classOf (leafVotes cfg l ad e.x))))).1 =
        .becomes (.split t' l'.stats cfg.det.new none (newKids cfg 0 ds)) := by
      unfold attempt
      rw [if_pos hdue, if_neg (by simp [hp]), hch]
    simp only [learnAlt, leafLearn, ← hl', this]
  have halt : alt1 = some (l, ad) := by
    rcases react_cases cfg d (cfg.det.add d wrong) (some (l, ad)) with ⟨h', _⟩ | ⟨_, _, _, _, _, hr⟩ |
      ⟨_, l2, ad2, hal, _, hl2, _⟩ | ⟨_, _, hr⟩
    · exact absurd h' (hna wrong).1
    · rw [hr] at h1
      simp only [reacted] at h1
      split at h1
      · simp at h1
      · simp only [Except.ok.injEq, Prod.mk.injEq] at h1; exact h1.1.symm
    · simp only [Option.some.injEq, Prod.mk.injEq] at hal
      obtain ⟨_, rfl⟩ := hal
      exact absurd hl2 (hna wrong).2
    · rw [hr] at h1
      simp only [reacted, Except.ok.injEq, Prod.mk.injEq] at h1
      exact h1.1.symm
  subst halt
  rw [ha] at hn
  simpa using hn

/-! ### A concrete tree -/

/-- A detector over all outcomes so far; change is reported at the third error in a row. -/
def tally : Det (List Bool) where
  new := []
  add d b := d ++ [b]
  change d := decide (d.drop (d.length - 3) = [true, true, true])
  est d := if d.length = 0 then 0 else ((d.filter id).length : ℚ) / d.length
  width d := 50 * d.length

/-- Observers keep the instances. -/
def logCfg (stop : Bool) : HCfg (List (List ℚ × Int × ℚ)) (List Bool) :=
  ⟨⟨.mc, 0, 2, [], fun o x y w => o ++ [(x, y, w)], fun s _ _ => s⟩, false, stop, tally, fun _ _ _ => 1/10⟩

/-- Split on attribute 0 at `v`, class distributions from the logged instances. -/
def splitAt (v : ℚ) (l : Leaf (List (List ℚ × Int × ℚ))) : Choice (List (List ℚ × Int × ℚ)) :=
  .split (.num ⟨0, v, true⟩)
    [(l.obs.filter fun r => r.1.getD 0 0 ≤ v).foldl (fun s r => bump s r.2.1 r.2.2) [],
     (l.obs.filter fun r => ¬ r.1.getD 0 0 ≤ v).foldl (fun s r => bump s r.2.1 r.2.2) []]

/-- An instance of weight 1. -/
def inst (x : ℚ) (y : Int) (ch : Leaf (List (List ℚ × Int × ℚ)) → Choice (List (List ℚ × Int × ℚ))) :
    Ev (List (List ℚ × Int × ℚ)) := ⟨[x], y, 1, ch, fun _ _ => 1⟩

/-- The threshold of the root test. -/
def rootTest : Tree O D → Option ℚ
  | ⟨some (.split (.num t) _ _ _ _), _, _⟩ => some t.value
  | _ => none

/-- The error estimates of the root and of its alternate leaf. -/
def rootErrors (cfg : HCfg O D) : Tree O D → Option (ℚ × Option ℚ)
  | ⟨some (.split _ _ d alt _), _, _⟩ => some (cfg.det.est d, alt.map fun a => cfg.det.est a.2)
  | _ => none

/-- Split at 5, nine instances that fit, three that do not: alarm; then one instance that fits
the old tree but not the alternate leaf. -/
def takeover : List (Ev (List (List ℚ × Int × ℚ))) :=
  [inst 1 0 (splitAt 5), inst 9 1 (splitAt 5)] ++
  List.replicate 4 (inst 1 0 fun _ => .keep id) ++ List.replicate 5 (inst 9 1 fun _ => .keep id) ++
  List.replicate 3 (inst 1 1 fun _ => .keep id) ++ [inst 1 0 (splitAt 3)]

/-- In this run the alternate leaf replaces the root although its error rate is 1, against 1/4
for the root, and its width is at most 100. -/
example : ((run (logCfg false) {} (takeover.take 14)).toOption.map fun h => (rootTest h, rootErrors (logCfg false) h)) =
      some (some 5, some (1/4, some 1)) ∧
    ((run (logCfg false) {} takeover).toOption.map rootTest) = some (some 3) := by decide +kernel

end Verif.Trees.HA
