import Verif.Trees.HATRSafe

/-!
The Hoeffding adaptive tree regressor: alternate trees (C210), and equality with the Hoeffding tree
regressor as long as no change is detected (C211).
-/

namespace Verif.Trees.HRA

open Verif.Trees Verif.Trees.Grow Verif.Trees.EBST
open Verif.Trees.HL (Test addBranch_ok)
open Verif.Trees.HR (Leaf Sums weight newLeaf percPredict mean)

variable {O D : Type}

/-! ### C210: alternate trees -/

/-- The detector reports a change and the estimated error did not go down. -/
def Alarm (cfg : RCfg O D) (old new : D) : Prop := cfg.det.change new = true ∧ cfg.det.est old ≤ cfg.det.est new

/-- The bound: the square root of `2 e (1 - e) ln 40 (1 / n + 1 / n')` for the error estimate `e` of the node and
the widths `n`, `n'` of the two windows (0 if this is not positive). -/
def Hoeffding (cfg : RCfg O D) (main alt : D) (b : ℚ) : Prop :=
  ∃ v, v = 2 * (cfg.det.est main * (1 - cfg.det.est main)) * cfg.log40 *
      ((cfg.det.width main)⁻¹ + (cfg.det.width alt)⁻¹) ∧
    (0 < v → b = cfg.base.sqrt v) ∧ (v ≤ 0 → b = 0)

/-- Both estimates come from windows of more than 300 values, and that of `a` is lower than that of `b`
by more than the bound. -/
def Lower (cfg : RCfg O D) (main alt a b : D) : Prop :=
  cfg.det.width main > 300 ∧ cfg.det.width alt > 300 ∧
  ∃ bd, Hoeffding cfg main alt bd ∧ bd < cfg.det.est b - cfg.det.est a

theorem hoeffding_iff (cfg : RCfg O D) (main alt : D) (b : ℚ) :
    Hoeffding cfg main alt b ↔ b = bound cfg (cfg.det.est main) (cfg.det.width alt) (cfg.det.width main) := by
  have e : 2 * cfg.det.est main * (1 - cfg.det.est main) * cfg.log40 *
      (1 / cfg.det.width alt + 1 / cfg.det.width main) = 2 * (cfg.det.est main * (1 - cfg.det.est main)) * cfg.log40 *
      ((cfg.det.width main)⁻¹ + (cfg.det.width alt)⁻¹) := by ring
  unfold Hoeffding bound
  simp only [e]
  generalize 2 * (cfg.det.est main * (1 - cfg.det.est main)) * cfg.log40 *
      ((cfg.det.width main)⁻¹ + (cfg.det.width alt)⁻¹) = v
  by_cases hv : v > 0
  · rw [if_pos hv]
    exact ⟨fun ⟨_, h1, h2, _⟩ => by subst h1; exact h2 hv, fun h => ⟨v, rfl, fun _ => h, fun h' => absurd hv (not_lt.2 h')⟩⟩
  · rw [if_neg hv]
    exact ⟨fun ⟨_, h1, _, h3⟩ => by subst h1; exact h3 (not_lt.1 hv), fun h => ⟨v, rfl, fun h' => absurd h' hv, fun _ => h⟩⟩

theorem lower_iff (cfg : RCfg O D) (main alt a b : D) : Lower cfg main alt a b ↔
    cfg.det.width main > 300 ∧ cfg.det.width alt > 300 ∧
    bound cfg (cfg.det.est main) (cfg.det.width alt) (cfg.det.width main) < cfg.det.est b - cfg.det.est a := by
  unfold Lower
  simp only [hoeffding_iff]
  simp

/-- `l'` is `l` after learning the row with Poisson draw `k` (observers pruned by a split attempt and the
time of the attempt aside). -/
def Learned (cfg : RCfg O D) (s : Sums) (e : Ev O) (k : Nat) (init : List ℚ) (l l' : Leaf O) : Prop :=
  ∃ l1, l.learn cfg.lcfg s (e.toLeaf (bootWeight cfg.boot k e.w) init) = .ok l1 ∧
    l'.stats = l1.stats ∧ l'.w = l1.w ∧ l'.active = l1.active

theorem react_cases (cfg : RCfg O D) (d d' : D) (alt : Option (Leaf O × Mon D)) :
    (Alarm cfg d d' ∧ react cfg d d' alt = .fresh) ∨
    (¬ Alarm cfg d d' ∧ ∃ l am, alt = some (l, am) ∧ Lower cfg d' am.det am.det d' ∧ react cfg d d' alt = .switch) ∨
    (¬ Alarm cfg d d' ∧ ∃ l am, alt = some (l, am) ∧ ¬ Lower cfg d' am.det am.det d' ∧ Lower cfg d' am.det d' am.det ∧
      react cfg d d' alt = .drop) ∨
    (¬ Alarm cfg d d' ∧ (∀ l am, alt = some (l, am) → ¬ Lower cfg d' am.det am.det d' ∧ ¬ Lower cfg d' am.det d' am.det) ∧
      react cfg d d' alt = .stay) := by
  unfold react
  by_cases h : cfg.det.change d' = true ∧ ¬ cfg.det.est d > cfg.det.est d'
  · rw [if_pos h]
    exact .inl ⟨⟨h.1, not_lt.1 h.2⟩, rfl⟩
  · rw [if_neg h]
    have hna : ¬ Alarm cfg d d' := fun ha => h ⟨ha.1, not_lt.2 ha.2⟩
    cases alt with
    | none => exact .inr (.inr (.inr ⟨hna, by simp, rfl⟩))
    | some p =>
      obtain ⟨l, am⟩ := p
      simp only
      by_cases hw : cfg.det.width d' > 300 ∧ cfg.det.width am.det > 300
      · rw [if_pos hw]
        by_cases h1 : bound cfg (cfg.det.est d') (cfg.det.width am.det) (cfg.det.width d') <
            cfg.det.est d' - cfg.det.est am.det
        · rw [if_pos h1]
          exact .inr (.inl ⟨hna, l, am, rfl, (lower_iff ..).2 ⟨hw.1, hw.2, h1⟩, rfl⟩)
        · rw [if_neg h1]
          by_cases h2 : bound cfg (cfg.det.est d') (cfg.det.width am.det) (cfg.det.width d') <
              cfg.det.est am.det - cfg.det.est d'
          · rw [if_pos h2]
            exact .inr (.inr (.inl ⟨hna, l, am, rfl, fun h => h1 ((lower_iff ..).1 h).2.2, (lower_iff ..).2 ⟨hw.1, hw.2, h2⟩, rfl⟩))
          · rw [if_neg h2]
            refine .inr (.inr (.inr ⟨hna, ?_, rfl⟩))
            intro l' am' he
            simp only [Option.some.injEq, Prod.mk.injEq] at he
            obtain ⟨_, rfl⟩ := he
            exact ⟨fun h => h1 ((lower_iff ..).1 h).2.2, fun h => h2 ((lower_iff ..).1 h).2.2⟩
      · rw [if_neg hw]
        refine .inr (.inr (.inr ⟨hna, ?_, rfl⟩))
        intro l' am' he
        simp only [Option.some.injEq, Prod.mk.injEq] at he
        obtain ⟨_, rfl⟩ := he
        exact ⟨fun h => hw ⟨h.1, h.2.1⟩, fun h => hw ⟨h.1, h.2.1⟩⟩

/-- The steps of `N.learn` at a split node. -/
theorem learn_split (cfg : RCfg O D) (s : Sums) (e : Ev O) (depth : Nat) (t : Test) (st : Option Stat) (m : Mon D)
    (alt : Option (Leaf O × Mon D)) (kids : K O D) (n : N O D)
    (h : (N.split t st m alt kids).learn cfg s e depth = .ok n) :
    ∃ en p a, (N.split t st m alt kids).route e.x = .ok en ∧ endPred cfg s e.x en = .ok p ∧
      learnAlt cfg s e (decide (react cfg m.det (nodeWatch cfg m e.y p).det alt = .switch)) depth
        (reacted cfg (react cfg m.det (nodeWatch cfg m e.y p).det alt) alt) = .ok a ∧
      ((∃ t' kids', n = a.2.getD (.split t' st (nodeWatch cfg m e.y p) a.1 kids')) ∨
        leafLearn cfg s e (e.draw (depth + 1) false) (e.init (depth + 1) false)
            (newLeaf cfg.base true none .unset) (newMon cfg) = .ok (.becomes n)) := by
  rw [N.learn] at h
  cases hen : (N.split t st m alt kids).route e.x with
  | error err => simp [hen] at h
  | ok en =>
    simp only [hen] at h
    cases hp : endPred cfg s e.x en with
    | error err => simp [hp] at h
    | ok p =>
      simp only [hp] at h
      cases ha : learnAlt cfg s e (decide (react cfg m.det (nodeWatch cfg m e.y p).det alt = .switch)) depth
        (reacted cfg (react cfg m.det (nodeWatch cfg m e.y p).det alt) alt) with
      | error err => simp [ha] at h
      | ok a =>
        simp only [ha] at h
        refine ⟨en, p, a, rfl, hp, ha, ?_⟩
        cases hb : t.branch e.x with
        | error err => simp [hb] at h
        | ok b =>
          simp only [hb] at h
          by_cases hb0 : b ≥ 0
          · rw [if_pos hb0] at h
            cases hk : kids.learn cfg s e (depth + 1) b.toNat with
            | error err => simp [hk] at h
            | ok kids' =>
              simp only [hk, Except.ok.injEq] at h
              exact .inl ⟨t, kids', h.symm⟩
          · rw [if_neg hb0] at h
            cases t with
            | multi mt =>
              simp only [sprout] at h
              split at h
              · cases h
              · split at h
                · cases h
                · rename_i id mt' _
                  cases hl : leafLearn cfg s e (e.draw (depth + 1) false) (e.init (depth + 1) false)
                    (newLeaf cfg.base true none .unset) (newMon cfg) with
                  | error err => simp [hl] at h
                  | ok o =>
                    cases o with
                    | stays l' m' =>
                      simp only [hl, Except.ok.injEq] at h
                      exact .inl ⟨.multi mt', _, h.symm⟩
                    | becomes r =>
                      simp only [hl, Except.ok.injEq] at h
                      subst h
                      exact .inr rfl
            | num q => simp [sprout] at h
            | nom q => simp [sprout] at h

/-- Split attempts at this row split nothing. -/
def Ev.Keeps (e : Ev O) : Prop := ∀ l, ∃ f, e.choose l = .keep f

theorem leafLearn_keep (cfg : RCfg O D) (s : Sums) (e : Ev O) (hk : e.Keeps) (k : Nat) (init : List ℚ) (l : Leaf O)
    (m : Mon D) (o : Out O D) (h : leafLearn cfg s e k init l m = .ok o) :
    ∃ l' m', o = .stays l' m' ∧ Learned cfg s e k init l l' := by
  unfold leafLearn at h
  cases hp : leafPred cfg s l e.x with
  | error err => simp [hp] at h
  | ok p =>
    simp only [hp] at h
    cases hl : l.learn cfg.lcfg s (e.toLeaf (bootWeight cfg.boot k e.w) init) with
    | error err => simp [hl] at h
    | ok l1 =>
      simp only [hl, Except.ok.injEq] at h
      subst h
      unfold attempt
      obtain ⟨f, hf⟩ := hk l1
      by_cases hg : weight l1.stats - l1.last ≥ cfg.base.grace
      · rw [if_pos hg, hf]
        exact ⟨_, _, rfl, l1, hl, rfl, rfl, rfl⟩
      · rw [if_neg hg]
        exact ⟨_, _, rfl, l1, hl, rfl, rfl, rfl⟩

theorem learnAlt_keep (cfg : RCfg O D) (s : Sums) (e : Ev O) (hk : e.Keeps) (sw : Bool) (depth : Nat) (l : Leaf O)
    (m : Mon D) (a : Option (Leaf O × Mon D) × Option (N O D)) (h : learnAlt cfg s e sw depth (some (l, m)) = .ok a) :
    ∃ l' m', Learned cfg s e (e.draw depth true) (e.init depth true) l l' ∧ a.1 = some (l', m') ∧
      a.2 = if sw then some (.leaf l' m') else none := by
  unfold learnAlt at h
  simp only at h
  cases hl : leafLearn cfg s e (e.draw depth true) (e.init depth true) l m with
  | error err => simp [hl] at h
  | ok o =>
    obtain ⟨l', m', rfl, h2⟩ := leafLearn_keep cfg s e hk _ _ l m o hl
    simp only [hl, Except.ok.injEq] at h
    subst h
    exact ⟨l', m', h2, rfl, rfl⟩

/-- C210 (partial): at a row where split attempts split nothing, a split node does the following.  `p` is
what the tree below the node predicts for the row (alternate trees are not asked), `m'` the
node's monitor after the normalised error of this prediction.
* On an alarm a new alternate leaf is started, and learns the row.
* Otherwise, if the estimated error of the alternate leaf is lower by more than the bound, the
  alternate leaf takes the place of the node.
* Otherwise, if it is higher by more than the bound, it is dropped.
* Otherwise node and alternate leaf both stay.
In all cases in which the node stays, it keeps its statistics.  Missing (and false, see the
violations): rows at which the alternate leaf, or a leaf for a new category, splits. -/
theorem C210_alternate_partial (cfg : RCfg O D) (s : Sums) (e : Ev O) (hk : e.Keeps) (depth : Nat) (t : Test)
    (st : Option Stat) (m : Mon D) (alt : Option (Leaf O × Mon D)) (kids : K O D) (n : N O D)
    (h : (N.split t st m alt kids).learn cfg s e depth = .ok n) :
    ∃ en p m', (N.split t st m alt kids).route e.x = .ok en ∧ endPred cfg s e.x en = .ok p ∧ m' = nodeWatch cfg m e.y p ∧
      ((Alarm cfg m.det m'.det ∧ ∃ t' kids' l am, n = .split t' st m' (some (l, am)) kids' ∧
          Learned cfg s e (e.draw depth true) (e.init depth true) (newLeaf cfg.base true none .unset) l) ∨
       (¬ Alarm cfg m.det m'.det ∧ ∃ l am l' am', alt = some (l, am) ∧ Lower cfg m'.det am.det am.det m'.det ∧
          n = .leaf l' am' ∧ Learned cfg s e (e.draw depth true) (e.init depth true) l l') ∨
       (¬ Alarm cfg m.det m'.det ∧ ∃ l am t' kids', alt = some (l, am) ∧ ¬ Lower cfg m'.det am.det am.det m'.det ∧
          Lower cfg m'.det am.det m'.det am.det ∧ n = .split t' st m' none kids') ∨
       (¬ Alarm cfg m.det m'.det ∧ ((alt = none ∧ ∃ t' kids', n = .split t' st m' none kids') ∨
          ∃ l am l' am' t' kids', alt = some (l, am) ∧ ¬ Lower cfg m'.det am.det am.det m'.det ∧
            ¬ Lower cfg m'.det am.det m'.det am.det ∧ n = .split t' st m' (some (l', am')) kids' ∧
            Learned cfg s e (e.draw depth true) (e.init depth true) l l'))) := by
  obtain ⟨en, p, a, h1, h2, h3, h4⟩ := learn_split cfg s e depth t st m alt kids n h
  have h4 : ∃ t' kids', n = a.2.getD (.split t' st (nodeWatch cfg m e.y p) a.1 kids') := by
    rcases h4 with h4 | h4
    · exact h4
    · obtain ⟨_, _, q, _⟩ := leafLearn_keep cfg s e hk _ _ _ _ _ h4
      cases q
  obtain ⟨t', kids', hn⟩ := h4
  refine ⟨en, p, _, h1, h2, rfl, ?_⟩
  rcases react_cases cfg m.det (nodeWatch cfg m e.y p).det alt with ⟨ha, hr⟩ | ⟨ha, l, am, hal, hl, hr⟩ |
    ⟨ha, l, am, hal, hl, hl2, hr⟩ | ⟨ha, hl, hr⟩
  · left
    rw [hr] at h3
    obtain ⟨l', m', k1, k2, k3⟩ := learnAlt_keep cfg s e hk _ depth _ _ a h3
    rw [k3, k2] at hn
    exact ⟨ha, t', kids', l', m', by simpa using hn, k1⟩
  · right; left
    subst hal
    rw [hr] at h3
    obtain ⟨l', m', k1, k2, k3⟩ := learnAlt_keep cfg s e hk _ depth _ _ a h3
    rw [k3] at hn
    exact ⟨ha, l, am, l', m', rfl, hl, by simpa using hn, k1⟩
  · right; right; left
    subst hal
    rw [hr] at h3
    simp only [reacted, learnAlt, Except.ok.injEq] at h3
    subst h3
    exact ⟨ha, l, am, t', kids', rfl, hl, hl2, by simpa using hn⟩
  · right; right; right
    refine ⟨ha, ?_⟩
    rw [hr] at h3
    cases alt with
    | none =>
      simp only [reacted, learnAlt, Except.ok.injEq] at h3
      subst h3
      exact .inl ⟨rfl, t', kids', by simpa using hn⟩
    | some q =>
      obtain ⟨l, am⟩ := q
      obtain ⟨l', m', k1, k2, k3⟩ := learnAlt_keep cfg s e hk _ depth _ _ a h3
      rw [k3, k2] at hn
      obtain ⟨q1, q2⟩ := hl l am rfl
      exact .inr ⟨l, am, l', m', t', kids', rfl, q1, q2, by simpa using hn, k1⟩

theorem becomes_of (cfg : RCfg O D) (s : Sums) (e : Ev O) (k : Nat) (init : List ℚ) (l : Leaf O) (m : Mon D) (o : Out O D)
    (h : leafLearn cfg s e k init l m = .ok o) (l' : Leaf O)
    (hl' : l.learn cfg.lcfg s (e.toLeaf (bootWeight cfg.boot k e.w) init) = .ok l')
    (hdue : weight l'.stats - l'.last ≥ cfg.base.grace) (t' : Test) (ds : List Stat) (hch : e.choose l' = .split t' ds) :
    o = .becomes (.split t' l'.stats (newMon cfg) none (newKids cfg l'.w 0 ds)) := by
  unfold leafLearn at h
  cases hp : leafPred cfg s l e.x with
  | error err => simp [hp] at h
  | ok p =>
    simp only [hp, hl', Except.ok.injEq] at h
    subst h
    unfold attempt
    rw [if_pos hdue, hch]

/-- C210 (violated): an alternate leaf learns with the parent and branch of the node it is an alternate
to.  When it splits, the new split node is put there: it replaces the node and everything below it,
whatever the errors are.  It is enough that there was no alarm and that the alternate leaf was not
dropped at this row (and that the row is not of a new category, whose leaf might split as well). -/
theorem C210_takeover_violated (cfg : RCfg O D) (s : Sums) (e : Ev O) (depth : Nat) (t : Test) (st : Option Stat)
    (m : Mon D) (l : Leaf O) (am : Mon D) (kids : K O D) (n : N O D)
    (h : (N.split t st m (some (l, am)) kids).learn cfg s e depth = .ok n)
    (hb : ∃ b : Nat, t.branch e.x = .ok b)
    (hna : ∀ v, ¬ Alarm cfg m.det (cfg.det.add m.det v) ∧
      ¬ Lower cfg (cfg.det.add m.det v) am.det (cfg.det.add m.det v) am.det)
    (l' : Leaf O)
    (hl' : l.learn cfg.lcfg s (e.toLeaf (bootWeight cfg.boot (e.draw depth true) e.w) (e.init depth true)) = .ok l')
    (hdue : weight l'.stats - l'.last ≥ cfg.base.grace) (t' : Test) (ds : List Stat)
    (hch : e.choose l' = .split t' ds) :
    n = .split t' l'.stats (newMon cfg) none (newKids cfg l'.w 0 ds) := by
  obtain ⟨b, hb⟩ := hb
  obtain ⟨en, p, a, h1, h2, h3, -⟩ := learn_split cfg s e depth t st m _ kids n h
  have hdet : ∃ v, (nodeWatch cfg m e.y p).det = cfg.det.add m.det v := by
    cases p with
    | none => exact ⟨_, rfl⟩
    | some p =>
      unfold nodeWatch watch
      cases m.wf with
      | none => exact ⟨_, rfl⟩
      | some w => cases p <;> exact ⟨_, rfl⟩
  obtain ⟨v, hv⟩ := hdet
  have hre : reacted cfg (react cfg m.det (nodeWatch cfg m e.y p).det (some (l, am))) (some (l, am)) = some (l, am) := by
    rcases react_cases cfg m.det (nodeWatch cfg m e.y p).det (some (l, am)) with ⟨ha, hr⟩ | ⟨ha, l2, am2, hal, hl, hr⟩ |
      ⟨ha, l2, am2, hal, hl, hl2, hr⟩ | ⟨ha, hl, hr⟩
    · rw [hv] at ha; exact absurd ha (hna v).1
    · rw [hr]; rfl
    · simp only [Option.some.injEq, Prod.mk.injEq] at hal
      obtain ⟨_, rfl⟩ := hal
      rw [hv] at hl2
      exact absurd hl2 (hna v).2
    · rw [hr]; rfl
  rw [hre] at h3
  have ha2 : a.2 = some (.split t' l'.stats (newMon cfg) none (newKids cfg l'.w 0 ds)) := by
    unfold learnAlt at h3
    simp only at h3
    cases hl : leafLearn cfg s e (e.draw depth true) (e.init depth true) l am with
    | error err => simp [hl] at h3
    | ok o =>
      obtain rfl := becomes_of cfg s e _ _ l am o hl l' hl' hdue t' ds hch
      simp only [hl, Except.ok.injEq] at h3
      subst h3
      rfl
  rw [N.learn] at h
  simp only [h1, h2] at h
  rw [hre, h3] at h
  simp only [hb] at h
  rw [if_pos (by omega), Int.toNat_natCast] at h
  cases hk : kids.learn cfg s e (depth + 1) b with
  | error err => simp [hk] at h
  | ok kids' =>
    simp only [hk, Except.ok.injEq] at h
    rw [← h, ha2]
    rfl

/-- C210 (violated): the leaf for a category that a split node has not seen learns with the parent and
branch of the split node.  If it splits at once (its only row weighs as much as the grace period),
the new split node replaces the node and everything below it. -/
theorem C210_new_category_violated (cfg : RCfg O D) (s : Sums) (e : Ev O) (depth : Nat) (mt : MultiTest) (st : Option Stat)
    (m : Mon D) (alt : Option (Leaf O × Mon D)) (kids : K O D) (n : N O D)
    (h : (N.split (.multi mt) st m alt kids).learn cfg s e depth = .ok n)
    (b : Int) (hb : (Test.multi mt).branch e.x = .ok b) (hneg : b < 0)
    (l' : Leaf O)
    (hl' : (newLeaf cfg.base true none .unset).learn cfg.lcfg s
      (e.toLeaf (bootWeight cfg.boot (e.draw (depth + 1) false) e.w) (e.init (depth + 1) false)) = .ok l')
    (hdue : weight l'.stats - l'.last ≥ cfg.base.grace) (t' : Test) (ds : List Stat)
    (hch : e.choose l' = .split t' ds) :
    n = .split t' l'.stats (newMon cfg) none (newKids cfg l'.w 0 ds) := by
  obtain ⟨en, p, a, h1, h2, h3, -⟩ := learn_split cfg s e depth _ st m _ kids n h
  rw [N.learn] at h
  simp only [h1, h2] at h
  rw [h3] at h
  simp only [hb] at h
  rw [if_neg (by omega)] at h
  simp only [sprout] at h
  split at h
  · cases h
  · split at h
    · cases h
    · cases hl : leafLearn cfg s e (e.draw (depth + 1) false) (e.init (depth + 1) false)
          (newLeaf cfg.base true none .unset) (newMon cfg) with
      | error err => simp [hl] at h
      | ok o =>
        obtain rfl := becomes_of cfg s e _ _ _ _ o hl l' hl' hdue t' ds hch
        simp only [hl, Except.ok.injEq] at h
        exact h.symm

/-- In the run `takeover` the alarm of the fourth row starts an alternate leaf, and this leaf replaces
the root when it splits, although both windows are shorter than 300. -/
example : ((run logCfg {} (takeover.take 5)).toOption.map fun h => (rootTest h, rootErrors logCfg h)) =
      some (some 5, some (5/9, none)) ∧
    ((run logCfg {} (takeover.take 6)).toOption.map fun h => (rootTest h, rootErrors logCfg h)) =
      some (some 5, some (65/114, some 0)) ∧
    ((run logCfg {} takeover).toOption.map fun h => (rootTest h, rootErrors logCfg h)) = some (some 3, some (0, none)) := by
  decide +kernel

/-- The third to sixth row split nothing. -/
example : (inst 9 4 fun _ => .keep id).Keeps := fun _ => ⟨id, rfl⟩

/-! ### C211: specification -/

/-- The detectors report no change. -/
def RCfg.Quiet (cfg : RCfg O D) : Prop := ∀ d v, cfg.det.change (cfg.det.add d v) = false

/-- A leaf as a leaf of the Hoeffding tree regressor, which has perceptron weights only if it predicts
with them. -/
def eraseLeaf (perceptron : Bool) (l : Leaf O) : Leaf O := if perceptron then l else { l with w := .unset }

mutual
/-- The main tree as a Hoeffding tree: without monitors and alternate trees. -/
def N.erase (p : Bool) : N O D → G (Leaf O) (Option Stat)
  | .leaf l _ => .leaf (eraseLeaf p l)
  | .split t s _ _ kids => .split t s (kids.erase p)
/-- See `N.erase`. -/
def K.erase (p : Bool) : K O D → GF (Leaf O) (Option Stat)
  | .nil => .nil
  | .cons j t rest => .cons j (t.erase p) (rest.erase p)
end

/-- The same row given to a Hoeffding tree regressor whose memory management changes nothing and whose
split decisions are the same. -/
def Ev.toHTR (e : Ev O) : HR.Ev O :=
  { x := e.x, y := e.y, w := e.w, init := e.init 0 false, growth := true, memory := fun _ => none
    choose := fun l => match e.choose l with
      | .keep f => .keep f
      | .split t ds => .split t ds }

/-- The row weighs less than the grace period, there is one vector of initial weights, and split
decisions do not depend on perceptron weights. -/
def Ev.Plain (cfg : RCfg O D) (e : Ev O) : Prop :=
  e.w < cfg.base.grace ∧ (∀ d a, e.init d a = e.init 0 false) ∧ ∀ l w, e.choose { l with w := w } = e.choose l

mutual
/-- There are no alternate trees. -/
def N.NoAlt : N O D → Prop
  | .leaf _ _ => True
  | .split _ _ _ alt kids => alt = none ∧ kids.NoAlt
/-- See `N.NoAlt`. -/
def K.NoAlt : K O D → Prop
  | .nil => True
  | .cons _ t rest => t.NoAlt ∧ rest.NoAlt
end

/-! ### C211: proofs -/

theorem choose_erase (cfg : RCfg O D) (e : Ev O) (he : e.Plain cfg) (p : Bool) (l : Leaf O) :
    e.choose (eraseLeaf p l) = e.choose l := by
  cases p
  · exact he.2.2 l .unset
  · rfl

theorem lcfg_perceptron (cfg : RCfg O D) (h : cfg.base.perceptron = true) : cfg.lcfg = cfg.base := by
  unfold RCfg.lcfg
  rw [← h]

theorem learn_erase (cfg : RCfg O D) (s : Sums) (e : Ev O) (he : e.Plain cfg) (d : Nat) (a : Bool) (l l' : Leaf O)
    (h : l.learn cfg.lcfg s (e.toLeaf e.w (e.init d a)) = .ok l') :
    (eraseLeaf cfg.base.perceptron l).learn cfg.base s e.toHTR = .ok (eraseLeaf cfg.base.perceptron l') := by
  cases hp : cfg.base.perceptron with
  | true =>
    rw [lcfg_perceptron cfg hp, he.2.1] at h
    exact h
  | false =>
    have hpc : cfg.lcfg.perceptron = true := rfl
    have hu : cfg.lcfg.update = cfg.base.update := rfl
    generalize cfg.lcfg = c at hpc hu h
    unfold HR.Leaf.learn at h ⊢
    simp only [hpc, if_true] at h
    simp only [hp, eraseLeaf]
    split at h
    · cases h
    · rw [Except.ok.injEq] at h
      subst h
      simp only [Ev.toLeaf, Ev.toHTR, hu]
      rfl

theorem newKids_erase (cfg : RCfg O D) (l : Leaf O) (i : Nat) (ds : List Stat) :
    (newKids cfg l.w i ds).erase cfg.base.perceptron =
      kidsFrom (fun d => newLeaf cfg.base true (some d) (eraseLeaf cfg.base.perceptron l).w) i ds := by
  induction ds generalizing i with
  | nil => rfl
  | cons d ds ih =>
    simp only [newKids, kidsFrom, K.erase, N.erase, ih]
    congr 2
    cases cfg.base.perceptron <;> rfl

theorem newKids_noAlt (cfg : RCfg O D) (w : HR.Weights) (i : Nat) (ds : List Stat) : (newKids cfg w i ds).NoAlt := by
  induction ds generalizing i with
  | nil => trivial
  | cons d ds ih => exact ⟨trivial, ih (i + 1)⟩

theorem K.snoc_erase (p : Bool) (kids : K O D) (i : Nat) (t : N O D) :
    (kids.snoc i t).erase p = (kids.erase p).snoc i (t.erase p) := by
  match kids with
  | .nil => rfl
  | .cons j u rest => simp only [K.snoc, K.erase, GF.snoc, K.snoc_erase p rest i t]

theorem K.snoc_noAlt (kids : K O D) (i : Nat) (t : N O D) (h : kids.NoAlt) (ht : t.NoAlt) : (kids.snoc i t).NoAlt := by
  match kids with
  | .nil => exact ⟨ht, trivial⟩
  | .cons j u rest => exact ⟨h.1, K.snoc_noAlt rest i t h.2 ht⟩

theorem erase_fields (p : Bool) (l : Leaf O) : (eraseLeaf p l).active = l.active ∧ (eraseLeaf p l).stats = l.stats ∧
    (eraseLeaf p l).last = l.last ∧ (eraseLeaf p l).obs = l.obs := by
  cases p <;> exact ⟨rfl, rfl, rfl, rfl⟩

theorem attempt_erase (cfg : RCfg O D) (e : Ev O) (he : e.Plain cfg) (l : Leaf O) (m : Mon D) (ha : l.active = true) :
    HR.attempt cfg.base e.toHTR (eraseLeaf cfg.base.perceptron l) = (attempt cfg e l m).node.erase cfg.base.perceptron ∧
    (attempt cfg e l m).node.NoAlt := by
  obtain ⟨f1, f2, f3, f4⟩ := erase_fields cfg.base.perceptron l
  unfold attempt HR.attempt
  rw [f1, f2, f3]
  by_cases h : weight l.stats - l.last ≥ cfg.base.grace
  · have hc : e.toHTR.growth = true ∧ l.active = true ∧ weight l.stats - l.last ≥ cfg.base.grace := ⟨rfl, ha, h⟩
    rw [if_pos hc, if_pos h]
    simp only [Ev.toHTR, choose_erase cfg e he]
    cases hch : e.choose l with
    | keep f =>
      refine ⟨?_, trivial⟩
      simp only [Out.node, N.erase, f4]
      cases cfg.base.perceptron <;> rfl
    | split t ds =>
      refine ⟨?_, rfl, newKids_noAlt cfg _ _ _⟩
      simp only [Out.node, N.erase, newKids_erase]
  · have hc : ¬ (e.toHTR.growth = true ∧ l.active = true ∧ weight l.stats - l.last ≥ cfg.base.grace) := fun q => h q.2.2
    rw [if_neg hc, if_neg h]
    exact ⟨rfl, trivial⟩

theorem leafLearn_erase (cfg : RCfg O D) (hb : cfg.boot = false) (s : Sums) (e : Ev O) (he : e.Plain cfg) (k d : Nat) (a : Bool)
    (l : Leaf O) (ha : l.active = true) (m : Mon D) (o : Out O D) (h : leafLearn cfg s e k (e.init d a) l m = .ok o) :
    ((eraseLeaf cfg.base.perceptron l).learn cfg.base s e.toHTR).map (HR.attempt cfg.base e.toHTR) =
      .ok (o.node.erase cfg.base.perceptron) ∧ o.node.NoAlt := by
  unfold leafLearn at h
  cases hp : leafPred cfg s l e.x with
  | error err => simp [hp] at h
  | ok p =>
    simp only [hp] at h
    rw [show bootWeight cfg.boot k e.w = e.w by simp [bootWeight, hb]] at h
    cases hl : l.learn cfg.lcfg s (e.toLeaf e.w (e.init d a)) with
    | error err => simp [hl] at h
    | ok l' =>
      simp only [hl, Except.ok.injEq] at h
      subst h
      rw [learn_erase cfg s e he d a l l' hl]
      have hac : l'.active = true := by rw [learn_active _ s _ l l' hl, ha]
      obtain ⟨h1, h2⟩ := attempt_erase cfg e he l' (watch cfg m (p.map fun p => |e.y - p|)) hac
      exact ⟨by simp only [Except.map, h1], h2⟩

/-- A new leaf does not split at its first row. -/
theorem fresh_stays (cfg : RCfg O D) (hb : cfg.boot = false) (s : Sums) (e : Ev O) (he : e.Plain cfg) (k d : Nat) (a : Bool)
    (m : Mon D) (o : Out O D) (h : leafLearn cfg s e k (e.init d a) (newLeaf cfg.base true none .unset) m = .ok o) :
    ∃ l' m', o = .stays l' m' ∧
      (newLeaf cfg.base true none .unset).learn cfg.base s e.toHTR = .ok (eraseLeaf cfg.base.perceptron l') := by
  unfold leafLearn at h
  cases hp : leafPred cfg s (newLeaf cfg.base true none .unset) e.x with
  | error err => simp [hp] at h
  | ok p =>
    simp only [hp] at h
    rw [show bootWeight cfg.boot k e.w = e.w by simp [bootWeight, hb]] at h
    cases hl : (newLeaf cfg.base true none .unset).learn cfg.lcfg s (e.toLeaf e.w (e.init d a)) with
    | error err => simp [hl] at h
    | ok l' =>
      simp only [hl, Except.ok.injEq] at h
      subst h
      have hle := learn_erase cfg s e he d a _ l' hl
      rw [show eraseLeaf cfg.base.perceptron (newLeaf cfg.base true none .unset) = newLeaf cfg.base true none .unset by
        cases cfg.base.perceptron <;> rfl] at hle
      have hst : weight l'.stats - l'.last = e.w := by
        unfold HR.Leaf.learn at hl
        rw [show cfg.lcfg.perceptron = true from rfl] at hl
        simp only [if_true] at hl
        split at hl
        · cases hl
        · rw [Except.ok.injEq] at hl
          subst hl
          simp [newLeaf, weight, HR.addStat, Ev.toLeaf]
      refine ⟨l', watch cfg m (p.map fun p => |e.y - p|), ?_, hle⟩
      unfold attempt
      rw [if_neg (by rw [hst]; exact not_le.mpr he.1)]

theorem quiet_react (cfg : RCfg O D) (hq : cfg.Quiet) (m : Mon D) (y : ℚ) (p : Option (Option ℚ)) :
    react cfg m.det (nodeWatch cfg m y p).det none = .stay := by
  have hdet : ∃ v, (nodeWatch cfg m y p).det = cfg.det.add m.det v := by
    cases p with
    | none => exact ⟨_, rfl⟩
    | some p =>
      unfold nodeWatch watch
      cases m.wf with
      | none => exact ⟨_, rfl⟩
      | some w => cases p <;> exact ⟨_, rfl⟩
  obtain ⟨v, hv⟩ := hdet
  unfold react
  rw [hv, hq]
  simp

mutual
theorem N.learn_erase (cfg : RCfg O D) (hb : cfg.boot = false) (hq : cfg.Quiet) (n : Nat) (s : Sums) (hs : SumsOk n s)
    (e : Ev O) (hok : e.Ok n) (he : e.Plain cfg) (depth : Nat) (r : N O D) (h : r.WF n) (hn : r.NoAlt) :
    ∃ r', r.learn cfg s e depth = .ok r' ∧ r'.NoAlt ∧
      (r.erase cfg.base.perceptron).learn e.x
        (fun l => (l.learn cfg.base s e.toHTR).map (HR.attempt cfg.base e.toHTR)) (fun l => l.learn cfg.base s e.toHTR)
        (newLeaf cfg.base true none .unset) = .ok (r'.erase cfg.base.perceptron) := by
  match r with
  | .leaf l m =>
    obtain ⟨o, h1, _⟩ := leafLearn_ok cfg n s hs e hok (e.draw depth false) depth false l m h
    obtain ⟨h2, h3⟩ := leafLearn_erase cfg hb s e he _ depth false l h.1 m o h1
    exact ⟨o.node, by simp only [N.learn, h1], h3, by rw [N.erase, G.learn]; exact h2⟩
  | .split t st m alt kids =>
    obtain ⟨en, hen, hek⟩ := N.route_ok n e.x hok.1 (.split t st m alt kids) h
    obtain ⟨hst, halt, k, h1, h2⟩ := h
    have hn1 : alt = none := hn.1
    subst hn1
    obtain ⟨p, hp⟩ := endPred_ok cfg n s hs e.x hok.1 en hek
    rcases Test.branch_ok h1 e.x hok.1 with ⟨b, hb', hbr⟩ | ⟨mt, rfl, hbr⟩
    · obtain ⟨kids', g1, g2, g3⟩ := K.learn_erase cfg hb hq n s hs e hok he (depth + 1) kids b 0 k h2 hn.2 (by omega) hb'
      refine ⟨.split t st (nodeWatch cfg m e.y p) none kids', ?_, ⟨rfl, g2⟩, ?_⟩
      · rw [N.learn]
        simp only [hen, hp, quiet_react cfg hq, reacted, learnAlt, hbr]
        rw [if_pos (by omega), Int.toNat_natCast, g1]
        rfl
      · rw [N.erase, G.learn]
        simp only [hbr]
        rw [if_pos (by omega), Int.toNat_natCast, g3]
        rfl
    · obtain ⟨v, mt', g1, g2, g3⟩ := addBranch_ok h1 e.x hok.1 hbr
      obtain ⟨o, o1, o2⟩ := leafLearn_ok cfg n s hs e hok (e.draw (depth + 1) false) (depth + 1) false
        (newLeaf cfg.base true none .unset) (newMon cfg) (newLeaf_ok cfg n _ _ (unset_len _))
      obtain ⟨l', m', rfl, o3⟩ := fresh_stays cfg hb s e he _ _ _ _ o o1
      refine ⟨.split (.multi mt') st (nodeWatch cfg m e.y p) none (kids.snoc k (.leaf l' m')), ?_,
        ⟨rfl, K.snoc_noAlt kids k _ hn.2 trivial⟩, ?_⟩
      · rw [N.learn]
        simp only [hen, hp, quiet_react cfg hq, reacted, learnAlt, hbr]
        rw [if_neg (by omega)]
        simp only [sprout, g1, g2, o1]
        rfl
      · rw [N.erase, G.learn]
        simp only [hbr]
        rw [if_neg (by omega)]
        simp only [Grow.sprout, g1, g2, o3]
        rw [N.erase, K.snoc_erase, N.erase]
theorem K.learn_erase (cfg : RCfg O D) (hb : cfg.boot = false) (hq : cfg.Quiet) (n : Nat) (s : Sums) (hs : SumsOk n s)
    (e : Ev O) (hok : e.Ok n) (he : e.Plain cfg) (depth : Nat) (kids : K O D) (b i k : Nat) (h : kids.WFfrom n i k)
    (hn : kids.NoAlt) (h1 : i ≤ b) (h2 : b < k) :
    ∃ kids', kids.learn cfg s e depth b = .ok kids' ∧ kids'.NoAlt ∧
      (kids.erase cfg.base.perceptron).learn e.x
        (fun l => (l.learn cfg.base s e.toHTR).map (HR.attempt cfg.base e.toHTR)) (fun l => l.learn cfg.base s e.toHTR)
        (newLeaf cfg.base true none .unset) b = .ok (kids'.erase cfg.base.perceptron) := by
  match kids with
  | .nil => have : i = k := h; omega
  | .cons j t rest =>
    obtain ⟨rfl, ht, hr⟩ := h
    by_cases e' : b = j
    · obtain ⟨t', g1, g2, g3⟩ := N.learn_erase cfg hb hq n s hs e hok he depth t ht hn.1
      exact ⟨.cons j t' rest, by rw [K.learn, if_pos e', g1], ⟨g2, hn.2⟩,
        by rw [K.erase, GF.learn, if_pos e', g3, K.erase]⟩
    · obtain ⟨rest', g1, g2, g3⟩ := K.learn_erase cfg hb hq n s hs e hok he depth rest b (j + 1) k hr hn.2 (by omega) h2
      exact ⟨.cons j t rest', by rw [K.learn, if_neg e', g1], ⟨hn.1, g2⟩,
        by rw [K.erase, GF.learn, if_neg e', g3, K.erase]⟩
end

mutual
theorem mapLeaves_id {L S : Type} (r : G L S) (p : List Nat) : r.mapLeaves (fun _ l => l) p = r := by
  match r with
  | .leaf l => rfl
  | .split t s kids => rw [G.mapLeaves, mapLeavesF_id kids p]
theorem mapLeavesF_id {L S : Type} (kids : GF L S) (p : List Nat) : kids.mapLeaves (fun _ l => l) p = kids := by
  match kids with
  | .nil => rfl
  | .cons j t rest => rw [GF.mapLeaves, mapLeaves_id t, mapLeavesF_id rest]
end

/-- The regressor as a Hoeffding tree regressor. -/
def Reg.erase (p : Bool) (h : Reg O D) : HR.Reg O := ⟨h.sums, h.root.map (N.erase p)⟩

/-- As `End`, with the leaf as in the Hoeffding tree regressor. -/
def eraseEnd (p : Bool) : End (Leaf O) (Option Stat) → End (Leaf O) (Option Stat)
  | .leaf l => .leaf (eraseLeaf p l)
  | e => e

mutual
theorem N.route_erase (p : Bool) (x : List ℚ) (r : N O D) : (r.erase p).route x = (r.route x).map (eraseEnd p) := by
  match r with
  | .leaf l m => rfl
  | .split t s m alt kids =>
    rw [N.erase, G.route, N.route]
    cases t.branch x with
    | error e => rfl
    | ok b =>
      simp only
      by_cases hb : b ≥ 0
      · rw [if_pos hb, if_pos hb, K.route_erase p x kids]
      · rw [if_neg hb, if_neg hb]; rfl
theorem K.route_erase (p : Bool) (x : List ℚ) (kids : K O D) (b : Nat) :
    (kids.erase p).route x b = (kids.route x b).map (eraseEnd p) := by
  match kids with
  | .nil => rfl
  | .cons j t rest =>
    rw [K.erase, GF.route, K.route]
    by_cases hb : b = j
    · rw [if_pos hb, if_pos hb, N.route_erase p x t]
    · rw [if_neg hb, if_neg hb, K.route_erase p x rest]
end

theorem predictOne_erase (cfg : RCfg O D) (hp : cfg.base.perceptron = true) (s : Sums) (r : N O D) (x : List ℚ) :
    predictOne cfg s r x = HR.predictOne cfg.base s (r.erase cfg.base.perceptron) x := by
  unfold predictOne HR.predictOne
  rw [N.route_erase, hp]
  cases r.route x with
  | error e => rfl
  | ok en =>
    cases en with
    | leaf l => simp only [Except.map, eraseEnd, eraseLeaf, leafPred, hp, if_true]
    | stuck st => cases st <;> rfl
    | missing => rfl

theorem predict_erase (cfg : RCfg O D) (hp : cfg.base.perceptron = true) (h : Reg O D) (rows : List (List ℚ)) :
    predict cfg h rows = HR.predict cfg.base (h.erase cfg.base.perceptron) rows := by
  have hall : ∀ (r : N O D) (rows : List (List ℚ)),
      predictAll cfg h.sums r rows = HR.predictAll cfg.base h.sums (r.erase cfg.base.perceptron) rows := by
    intro r rows
    induction rows with
    | nil => rfl
    | cons x xs ih => rw [predictAll, HR.predictAll, ih, predictOne_erase cfg hp]; rfl
  unfold predict HR.predict Reg.erase
  cases h.root with
  | none => rfl
  | some r => simp only [Option.map_some, hall]

/-- C211: if the detectors report no change, bootstrap sampling is off, single rows weigh less than the
grace period and rows have at least two attributes, the main tree is after every training sequence
the Hoeffding tree regressor trained on the same sequence with the same split decisions and initial
weights: in structure, statistics, observers, and (with `leaf_prediction='perceptron'`) the weights of
its leaves.  With `leaf_prediction='perceptron'` the two also make the same predictions. -/
theorem C211_refines_hoeffding_tree (cfg : RCfg O D) (hb : cfg.boot = false) (hq : cfg.Quiet) (n : Nat) (hn : 2 ≤ n)
    (es : List (Ev O)) (he : ∀ e ∈ es, e.Ok n ∧ e.Plain cfg) :
    ∃ h : Reg O D, run cfg {} es = .ok h ∧
      HR.run cfg.base {} (es.map Ev.toHTR) = .ok (h.erase cfg.base.perceptron) ∧
      (cfg.base.perceptron = true → ∀ rows, predict cfg h rows = HR.predict cfg.base (h.erase cfg.base.perceptron) rows) := by
  have key : ∀ (es : List (Ev O)) (h : Reg O D), h.Inv n → (∀ r, h.root = some r → r.NoAlt) →
      (∀ e ∈ es, e.Ok n ∧ e.Plain cfg) →
      ∃ h' : Reg O D, run cfg h es = .ok h' ∧
        HR.run cfg.base (h.erase cfg.base.perceptron) (es.map Ev.toHTR) = .ok (h'.erase cfg.base.perceptron) := by
    intro es
    induction es with
    | nil => intro h _ _ _; exact ⟨h, rfl, rfl⟩
    | cons e es ih =>
      intro h hi hna he
      obtain ⟨e1, e2⟩ := he e List.mem_cons_self
      obtain ⟨r1, s1, s2, s3⟩ := step_ok cfg n hn h hi e e1
      have hnaR : (h.root.getD (.leaf (newLeaf cfg.base true none .unset) (newMon cfg))).NoAlt := by
        cases hr : h.root with
        | none => trivial
        | some r => exact hna r hr
      obtain ⟨r', g1, g2, g3⟩ := N.learn_erase cfg hb hq n _ s3 e e1 e2 0 _ (root_ok cfg n h fun r hr => (hi.1 r hr).1) hnaR
      have hr : r' = r1 := by
        simp only [step, g1, Except.ok.injEq, Reg.mk.injEq, true_and, Option.some.injEq] at s1
        exact s1
      subst hr
      obtain ⟨h2, k1, k2⟩ := ih ⟨h.sums.add e.x e.y e.w, some r'⟩
        ⟨by intro r hr; cases hr; exact ⟨s2, s3⟩, by intro hr; cases hr⟩
        (by intro r hr; cases hr; exact g2) (fun e' h' => he e' (List.mem_cons_of_mem _ h'))
      refine ⟨h2, by simp only [run, s1, k1], ?_⟩
      have hroot : (h.erase cfg.base.perceptron).root.getD (.leaf (newLeaf cfg.base true none .unset)) =
          (h.root.getD (.leaf (newLeaf cfg.base true none .unset) (newMon cfg))).erase cfg.base.perceptron := by
        unfold Reg.erase
        cases h.root with
        | some r => rfl
        | none => simp only [Option.map_none, Option.getD_none, N.erase]; cases cfg.base.perceptron <;> rfl
      have hst : HR.step cfg.base (h.erase cfg.base.perceptron) e.toHTR =
          .ok (Reg.erase cfg.base.perceptron ⟨h.sums.add e.x e.y e.w, some r'⟩) := by
        unfold HR.step
        simp only [hroot]
        simp only [Ev.toHTR, Reg.erase] at g3 ⊢
        rw [g3]
        have hid : (fun _ : List Nat => HR.setActive cfg.base none) = fun _ (l : Leaf O) => l := by funext _ l; rfl
        simp only [hid, mapLeaves_id, Option.map_some]
      simp only [List.map_cons, HR.run, hst]
      exact k2
  obtain ⟨h, h1, h2⟩ := key es {} ⟨by simp, by simp⟩ (by simp) he
  exact ⟨h, h1, h2, fun hp rows => predict_erase cfg hp h rows⟩

/-- The run `takeover` without detected changes meets the hypotheses, with either leaf prediction. -/
example : calm.Quiet ∧ calm.boot = false ∧ ∀ e ∈ takeover, e.Ok 2 ∧ e.Plain calm ∧
    e.Plain { calm with base := { calm.base with perceptron := true } } := by
  refine ⟨fun _ _ => rfl, rfl, fun e he => ⟨takeover_ok e he, ?_⟩⟩
  have hw : (1 : ℚ) < 2 := by decide +kernel
  simp only [takeover, List.mem_cons, List.not_mem_nil, or_false] at he
  rcases he with rfl | rfl | rfl | rfl | rfl | rfl | rfl <;>
    exact ⟨⟨hw, fun _ _ => rfl, fun _ _ => rfl⟩, ⟨hw, fun _ _ => rfl, fun _ _ => rfl⟩⟩

/-- There the root keeps its split. -/
example : ((run calm {} takeover).toOption.map rootTest) = some (some 5) := by decide +kernel

end Verif.Trees.HRA
