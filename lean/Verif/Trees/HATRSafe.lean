import Verif.Trees.HATR

/-!
The Hoeffding adaptive tree regressor never fails on two attributes or more, and fails on one (C209).
-/

namespace Verif.Trees.HRA

open Verif.Trees Verif.Trees.Grow Verif.Trees.EBST
open Verif.Trees.HL (Test addBranch_ok)
open Verif.Trees.HR (Leaf Sums weight newLeaf percPredict mean)

variable {O D : Type}

/-! ### Specification -/

/-- A row of `n` attributes; draws of perceptron weights have `n + 1` entries, and tests that are chosen
suit rows of `n` attributes. -/
def Ev.Ok (n : Nat) (e : Ev O) : Prop :=
  e.x.length = n ∧ (∀ d a, (e.init d a).length = n + 1) ∧ ∀ l t ds, e.choose l = .split t ds → t.Ok n ds.length

/-- Total weight of the rows. -/
def total (es : List (Ev O)) : ℚ := (es.map Ev.w).sum

/-! ### Proofs -/

/-- Leaves that can be trained. -/
def LeafOk (n : Nat) (l : Leaf O) : Prop := l.active = true ∧ l.w.Len (n + 1)

mutual
/-- Trees of the model. -/
def N.WF (n : Nat) : N O D → Prop
  | .leaf l _ => LeafOk n l
  | .split t s _ alt kids => s ≠ none ∧ (∀ l m, alt = some (l, m) → LeafOk n l) ∧ ∃ k, t.Ok n k ∧ kids.WFfrom n 0 k
/-- See `N.WF`. -/
def K.WFfrom (n : Nat) : K O D → Nat → Nat → Prop
  | .nil, i, k => i = k
  | .cons j t rest, i, k => j = i ∧ t.WF n ∧ rest.WFfrom n (i + 1) k
end

/-- The sums have an entry for every attribute. -/
def SumsOk (n : Nat) (s : Sums) : Prop := s.x.length = n ∧ s.xx.length = n

theorem sums_ok (n : Nat) (hn : 2 ≤ n) (s : Sums) (h : (s.x = [] ∧ s.xx = []) ∨ SumsOk n s) (x : List ℚ) (hx : x.length = n)
    (y w : ℚ) : SumsOk n (s.add x y w) := by
  have h1 : s.x = [] ∨ s.x.length = n := h.imp (·.1) (·.1)
  have h2 : s.xx = [] ∨ s.xx.length = n := h.imp (·.2) (·.2)
  exact ⟨(HR.sums_x n hn s.x _ (by simp [hx]) h1).1, (HR.sums_x n hn s.xx _ (by simp [hx]) h2).1⟩

theorem newLeaf_ok (cfg : RCfg O D) (n : Nat) (s : Option Stat) (w : HR.Weights) (hw : w.Len (n + 1)) :
    LeafOk n (newLeaf cfg.base true s w) := ⟨rfl, hw⟩

theorem unset_len (n : Nat) : HR.Weights.unset.Len n := by
  intro v h
  cases h

theorem newKids_ok (cfg : RCfg O D) (n : Nat) (w : HR.Weights) (hw : w.Len (n + 1)) (ds : List Stat) (i : Nat) :
    (newKids cfg w i ds).WFfrom n i (i + ds.length) := by
  induction ds generalizing i with
  | nil => simp [newKids, K.WFfrom]
  | cons d ds ih =>
    refine ⟨rfl, newLeaf_ok cfg n _ w hw, ?_⟩
    have := ih (i + 1)
    simpa [Nat.add_comm, Nat.add_left_comm, Nat.add_assoc] using this

theorem snoc_ok (n : Nat) (kids : K O D) (t : N O D) (i k : Nat) (ht : t.WF n) (h : kids.WFfrom n i k) :
    (kids.snoc k t).WFfrom n i (k + 1) := by
  match kids with
  | .nil => have : i = k := h; exact ⟨this.symm, ht, by simp [K.WFfrom, this]⟩
  | .cons j u rest => exact ⟨h.1, h.2.1, snoc_ok n rest t (i + 1) k ht h.2.2⟩

theorem percPredict_ok (cfg : RCfg O D) (n : Nat) (s : Sums) (hs : SumsOk n s) (l : Leaf O) (hl : l.w.Len (n + 1))
    (x : List ℚ) (hx : x.length = n) : ∃ p, percPredict cfg.base s l x = .ok p := by
  obtain ⟨xs, g1, g2⟩ := HR.normalize_ok cfg.base s n hs.1 hs.2 x hx
  unfold percPredict
  cases hw : l.w with
  | unset => exact ⟨_, rfl⟩
  | nan => exact ⟨none, by simp only [g1]⟩
  | ok w => exact ⟨_, by simp only [g1]; rw [if_pos (by rw [g2, hl w hw])]⟩

theorem leafPred_ok (cfg : RCfg O D) (n : Nat) (s : Sums) (hs : SumsOk n s) (l : Leaf O) (hl : LeafOk n l)
    (x : List ℚ) (hx : x.length = n) : ∃ p, leafPred cfg s l x = .ok p := by
  unfold leafPred
  by_cases hp : cfg.base.perceptron = true
  · rw [if_pos hp]; exact percPredict_ok cfg n s hs l hl.2 x hx
  · rw [if_neg hp]; exact ⟨_, rfl⟩

theorem learn_active (cfg : HR.Cfg O) (s : Sums) (e : HR.Ev O) (l l' : Leaf O) (h : l.learn cfg s e = .ok l') :
    l'.active = l.active := by
  unfold HR.Leaf.learn at h
  by_cases hp : cfg.perceptron = true
  · simp only [if_pos hp] at h
    split at h
    · cases h
    · simp only [Except.ok.injEq] at h; subst h; rfl
  · simp only [if_neg hp, Except.ok.injEq] at h; subst h; rfl

theorem toLeaf_ok (n : Nat) (e : Ev O) (he : e.Ok n) (w : ℚ) (d : Nat) (a : Bool) : (e.toLeaf w (e.init d a)).Ok n :=
  ⟨he.1, he.2.1 d a, fun _ => trivial⟩

/-- What a leaf may become. -/
def OutOk (n : Nat) : Out O D → Prop
  | .stays l _ => LeafOk n l
  | .becomes r => r.WF n

theorem OutOk.node {n : Nat} {o : Out O D} (h : OutOk n o) : o.node.WF n := by
  cases o <;> exact h

theorem attempt_ok (cfg : RCfg O D) (n : Nat) (e : Ev O) (he : e.Ok n) (l : Leaf O) (m : Mon D) (hl : LeafOk n l)
    (hst : l.stats ≠ none) : OutOk n (attempt cfg e l m) := by
  unfold attempt
  by_cases h : weight l.stats - l.last ≥ cfg.base.grace
  · rw [if_pos h]
    cases hc : e.choose l with
    | keep f => exact hl
    | split t ds =>
      refine ⟨hst, by simp, ds.length, he.2.2 l t ds hc, ?_⟩
      have := newKids_ok cfg n l.w hl.2 ds 0
      simpa using this
  · rw [if_neg h]; exact hl

theorem leafLearn_ok (cfg : RCfg O D) (n : Nat) (s : Sums) (hs : SumsOk n s) (e : Ev O) (he : e.Ok n) (k : Nat) (d : Nat)
    (a : Bool) (l : Leaf O) (m : Mon D) (hl : LeafOk n l) :
    ∃ o, leafLearn cfg s e k (e.init d a) l m = .ok o ∧ OutOk n o := by
  obtain ⟨p, hp⟩ := leafPred_ok cfg n s hs l hl e.x he.1
  obtain ⟨l', h1, h2, _, h3⟩ := HR.learn_ok cfg.lcfg s n hs.1 hs.2 (e.toLeaf (bootWeight cfg.boot k e.w) (e.init d a))
    (toLeaf_ok n e he _ d a) l hl.2
  refine ⟨attempt cfg e l' (watch cfg m (p.map fun p => |e.y - p|)), by simp only [leafLearn, hp, h1],
    attempt_ok cfg n e he l' _ ⟨?_, h2⟩ h3⟩
  rw [learn_active cfg.lcfg s _ l l' h1]
  exact hl.1

/-- The ends of routes. -/
def EndOk (n : Nat) : End (Leaf O) (Option Stat) → Prop
  | .leaf l => LeafOk n l
  | .stuck s => s ≠ none
  | .missing => False

mutual
theorem N.route_ok (n : Nat) (x : List ℚ) (hx : x.length = n) (r : N O D) (h : r.WF n) :
    ∃ en, r.route x = .ok en ∧ EndOk n en := by
  match r with
  | .leaf l m => exact ⟨_, rfl, h⟩
  | .split t s m alt kids =>
    obtain ⟨hs, _, k, h1, h2⟩ := h
    rcases Test.branch_ok h1 x hx with ⟨b, hb, hbr⟩ | ⟨mt, rfl, hbr⟩
    · obtain ⟨en, hc, he⟩ := K.route_ok n x hx kids b 0 k h2 (by omega) hb
      exact ⟨en, by rw [N.route]; simp only [hbr]; rw [if_pos (by omega), Int.toNat_natCast, hc], he⟩
    · exact ⟨.stuck s, by rw [N.route]; simp only [hbr]; rw [if_neg (by omega)], hs⟩
theorem K.route_ok (n : Nat) (x : List ℚ) (hx : x.length = n) (kids : K O D) (b i k : Nat)
    (h : kids.WFfrom n i k) (h1 : i ≤ b) (h2 : b < k) : ∃ en, kids.route x b = .ok en ∧ EndOk n en := by
  match kids with
  | .nil => have : i = k := h; omega
  | .cons j t rest =>
    obtain ⟨rfl, ht, hr⟩ := h
    by_cases e : b = j
    · obtain ⟨c, hc, he⟩ := N.route_ok n x hx t ht
      exact ⟨c, by rw [K.route, if_pos e, hc], he⟩
    · obtain ⟨c, hc, he⟩ := K.route_ok n x hx rest b (j + 1) k hr (by omega) h2
      exact ⟨c, by rw [K.route, if_neg e, hc], he⟩
end

theorem endPred_ok (cfg : RCfg O D) (n : Nat) (s : Sums) (hs : SumsOk n s) (x : List ℚ) (hx : x.length = n)
    (en : End (Leaf O) (Option Stat)) (h : EndOk n en) : ∃ p, endPred cfg s x en = .ok p := by
  cases en with
  | leaf l =>
    obtain ⟨p, hp⟩ := leafPred_ok cfg n s hs l h x hx
    exact ⟨some p, by simp only [endPred, hp]⟩
  | stuck st => exact ⟨_, rfl⟩
  | missing => exact ⟨_, rfl⟩

theorem reacted_ok (cfg : RCfg O D) (n : Nat) (r : React) (alt : Option (Leaf O × Mon D))
    (h : ∀ l m, alt = some (l, m) → LeafOk n l) : ∀ l m, reacted cfg r alt = some (l, m) → LeafOk n l := by
  intro l m hr
  cases r with
  | fresh =>
    simp only [reacted, Option.some.injEq, Prod.mk.injEq] at hr
    obtain ⟨rfl, _⟩ := hr
    exact newLeaf_ok cfg n _ _ (unset_len _)
  | switch => exact h l m hr
  | drop => simp [reacted] at hr
  | stay => exact h l m hr

theorem learnAlt_ok (cfg : RCfg O D) (n : Nat) (s : Sums) (hs : SumsOk n s) (e : Ev O) (he : e.Ok n) (sw : Bool) (d : Nat)
    (alt : Option (Leaf O × Mon D)) (h : ∀ l m, alt = some (l, m) → LeafOk n l) :
    ∃ a, learnAlt cfg s e sw d alt = .ok a ∧ (∀ l m, a.1 = some (l, m) → LeafOk n l) ∧ ∀ r, a.2 = some r → r.WF n := by
  cases alt with
  | none => exact ⟨_, rfl, by simp, by simp⟩
  | some p =>
    obtain ⟨l, m⟩ := p
    obtain ⟨o, h1, h2⟩ := leafLearn_ok cfg n s hs e he (e.draw d true) d true l m (h l m rfl)
    cases o with
    | stays l' m' =>
      refine ⟨(some (l', m'), if sw then some (.leaf l' m') else none), by simp only [learnAlt, h1], ?_, ?_⟩
      · intro l2 m2 h3
        simp only [Option.some.injEq, Prod.mk.injEq] at h3
        obtain ⟨rfl, _⟩ := h3
        exact h2
      · intro r h3
        cases sw with
        | true =>
          simp only [if_true, Option.some.injEq] at h3
          subst h3
          exact h2
        | false => simp at h3
    | becomes r =>
      refine ⟨(some (l, m), some r), by simp only [learnAlt, h1], fun l2 m2 h3 => ?_, fun r2 h3 => ?_⟩
      · simp only [Option.some.injEq, Prod.mk.injEq] at h3
        obtain ⟨rfl, _⟩ := h3
        exact h l m rfl
      · simp only [Option.some.injEq] at h3
        subst h3
        exact h2

theorem getD_ok {n : Nat} {o : Option (N O D)} {r : N O D} (ho : ∀ r, o = some r → r.WF n) (hr : r.WF n) :
    (o.getD r).WF n := by
  cases o with
  | none => exact hr
  | some q => exact ho q rfl

mutual
theorem N.learn_ok (cfg : RCfg O D) (n : Nat) (s : Sums) (hs : SumsOk n s) (e : Ev O) (he : e.Ok n) (depth : Nat)
    (r : N O D) (h : r.WF n) : ∃ r', r.learn cfg s e depth = .ok r' ∧ r'.WF n := by
  match r with
  | .leaf l m =>
    obtain ⟨o, h1, h2⟩ := leafLearn_ok cfg n s hs e he (e.draw depth false) depth false l m h
    exact ⟨o.node, by simp only [N.learn, h1], h2.node⟩
  | .split t st m alt kids =>
    obtain ⟨en, hen, hek⟩ := N.route_ok n e.x he.1 (.split t st m alt kids) h
    obtain ⟨hst, halt, k, h1, h2⟩ := h
    obtain ⟨p, hp⟩ := endPred_ok cfg n s hs e.x he.1 en hek
    obtain ⟨a, ha, hal, har⟩ := learnAlt_ok cfg n s hs e he
      (decide (react cfg m.det (nodeWatch cfg m e.y p).det alt = .switch)) depth
      (reacted cfg (react cfg m.det (nodeWatch cfg m e.y p).det alt) alt) (reacted_ok cfg n _ alt halt)
    rcases Test.branch_ok h1 e.x he.1 with ⟨b, hb, hbr⟩ | ⟨mt, rfl, hbr⟩
    · obtain ⟨kids', g1, g2⟩ := K.learn_ok cfg n s hs e he (depth + 1) kids b 0 k h2 (by omega) hb
      refine ⟨a.2.getD (.split t st (nodeWatch cfg m e.y p) a.1 kids'), ?_, getD_ok har ⟨hst, hal, k, h1, g2⟩⟩
      rw [N.learn]
      simp only [hen, hp, ha, hbr]
      rw [if_pos (by omega), Int.toNat_natCast, g1]
    · obtain ⟨v, mt', g1, g2, g3⟩ := addBranch_ok h1 e.x he.1 hbr
      obtain ⟨o, o1, o2⟩ := leafLearn_ok cfg n s hs e he (e.draw (depth + 1) false) (depth + 1) false
        (newLeaf cfg.base true none .unset) (newMon cfg) (newLeaf_ok cfg n _ _ (unset_len _))
      have hl : (N.split (.multi mt) st m alt kids).learn cfg s e depth =
          sprout cfg s e depth st (nodeWatch cfg m e.y p) a.1 a.2 kids (.multi mt) := by
        rw [N.learn]
        simp only [hen, hp, ha, hbr]
        rw [if_neg (by omega)]
      cases o with
      | stays l' m' =>
        refine ⟨a.2.getD (.split (.multi mt') st (nodeWatch cfg m e.y p) a.1 (kids.snoc k (.leaf l' m'))),
          by simp only [hl, sprout, g1, g2, o1], getD_ok har ⟨hst, hal, k + 1, g3, ?_⟩⟩
        exact snoc_ok n kids _ 0 k o2 h2
      | becomes r => exact ⟨r, by simp only [hl, sprout, g1, g2, o1], o2⟩
theorem K.learn_ok (cfg : RCfg O D) (n : Nat) (s : Sums) (hs : SumsOk n s) (e : Ev O) (he : e.Ok n) (depth : Nat)
    (kids : K O D) (b i k : Nat) (h : kids.WFfrom n i k) (h1 : i ≤ b) (h2 : b < k) :
    ∃ kids', kids.learn cfg s e depth b = .ok kids' ∧ kids'.WFfrom n i k := by
  match kids with
  | .nil => have : i = k := h; omega
  | .cons j t rest =>
    obtain ⟨rfl, ht, hr⟩ := h
    by_cases hb : b = j
    · obtain ⟨t', q1, q2⟩ := N.learn_ok cfg n s hs e he depth t ht
      exact ⟨.cons j t' rest, by rw [K.learn, if_pos hb]; simp only [q1], rfl, q2, hr⟩
    · obtain ⟨rest', q1, q2⟩ := K.learn_ok cfg n s hs e he depth rest b (j + 1) k hr (by omega) h2
      exact ⟨.cons j t rest', by rw [K.learn, if_neg hb]; simp only [q1], rfl, ht, q2⟩
end

/-- The state between rows. -/
def Reg.Inv (n : Nat) (h : Reg O D) : Prop :=
  (∀ r, h.root = some r → r.WF n ∧ SumsOk n h.sums) ∧ (h.root = none → h.sums.x = [] ∧ h.sums.xx = [])

theorem root_ok (cfg : RCfg O D) (n : Nat) (h : Reg O D) (hi : ∀ r, h.root = some r → r.WF n) :
    (h.root.getD (.leaf (newLeaf cfg.base true none .unset) (newMon cfg))).WF n := by
  cases hr : h.root with
  | none => exact newLeaf_ok cfg n _ _ (unset_len _)
  | some r => exact hi r hr

theorem step_ok (cfg : RCfg O D) (n : Nat) (hn : 2 ≤ n) (h : Reg O D) (hi : h.Inv n) (e : Ev O) (he : e.Ok n) :
    ∃ r, step cfg h e = .ok ⟨h.sums.add e.x e.y e.w, some r⟩ ∧ r.WF n ∧ SumsOk n (h.sums.add e.x e.y e.w) := by
  have hs : SumsOk n (h.sums.add e.x e.y e.w) := by
    refine sums_ok n hn h.sums ?_ e.x he.1 e.y e.w
    cases hr : h.root with
    | none => exact .inl (hi.2 hr)
    | some r => exact .inr (hi.1 r hr).2
  obtain ⟨r, h1, h2⟩ := N.learn_ok cfg n _ hs e he 0 _ (root_ok cfg n h fun r hr => (hi.1 r hr).1)
  exact ⟨r, by simp only [step, h1], h2, hs⟩

theorem run_ok (cfg : RCfg O D) (n : Nat) (hn : 2 ≤ n) (es : List (Ev O)) (he : ∀ e ∈ es, e.Ok n) :
    ∀ h : Reg O D, h.Inv n → ∃ h', run cfg h es = .ok h' ∧ h'.Inv n ∧ h'.sums.n = h.sums.n + total es ∧
      (h'.root = none → es = []) := by
  induction es with
  | nil => intro h hi; exact ⟨h, rfl, hi, by simp [total], fun _ => rfl⟩
  | cons e es ih =>
    intro h hi
    obtain ⟨r, h1, h2, h3⟩ := step_ok cfg n hn h hi e (he e (by simp))
    obtain ⟨h', k1, k2, k3, k4⟩ := ih (fun e' m => he e' (List.mem_cons_of_mem _ m)) ⟨h.sums.add e.x e.y e.w, some r⟩
      ⟨fun r' hr => by cases hr; exact ⟨h2, h3⟩, fun hr => by simp at hr⟩
    refine ⟨h', by simp only [run, h1, k1], k2, ?_, fun hr => ?_⟩
    · rw [k3]
      simp only [Sums.add, total, List.map_cons, List.sum_cons]
      ring
    · have := k4 hr
      subst this
      simp only [run, Except.ok.injEq] at k1
      subst k1
      simp at hr

theorem predictOne_ok (cfg : RCfg O D) (n : Nat) (s : Sums) (hs : SumsOk n s) (r : N O D) (hr : r.WF n) (x : List ℚ)
    (hx : x.length = n) : ∃ p, predictOne cfg s r x = .ok p := by
  obtain ⟨en, h1, h2⟩ := N.route_ok n x hx r hr
  unfold predictOne
  rw [h1]
  cases en with
  | leaf l => exact leafPred_ok cfg n s hs l h2 x hx
  | stuck st =>
    cases st with
    | none => exact absurd rfl h2
    | some st => exact ⟨_, rfl⟩
  | missing => exact absurd h2 id

theorem predictAll_ok (cfg : RCfg O D) (n : Nat) (s : Sums) (hs : SumsOk n s) (r : N O D) (hr : r.WF n)
    (rows : List (List ℚ)) (hx : ∀ x ∈ rows, x.length = n) :
    ∃ ps, predictAll cfg s r rows = .ok ps ∧ ps.length = rows.length := by
  induction rows with
  | nil => exact ⟨[], rfl, rfl⟩
  | cons x xs ih =>
    obtain ⟨p, h1⟩ := predictOne_ok cfg n s hs r hr x (hx x (by simp))
    obtain ⟨ps, h2, h3⟩ := ih fun x' m => hx x' (List.mem_cons_of_mem _ m)
    exact ⟨p :: ps, by simp only [predictAll, h1, h2], by simp [h3]⟩

/-- C209 (partial): with two attributes or more, training never fails, whatever splits, alternate
trees, switches and Poisson draws there are, and then every row gets one prediction.  Missing (and
false, see the violation): a single attribute. -/
theorem C209_never_fails_partial (cfg : RCfg O D) (n : Nat) (hn : 2 ≤ n) (es : List (Ev O)) (he : ∀ e ∈ es, e.Ok n)
    (hw : 0 < total es) :
    ∃ h, run cfg {} es = .ok h ∧ ∀ rows : List (List ℚ), (∀ x ∈ rows, x.length = n) →
      ∃ ps, predict cfg h rows = .ok ps ∧ ps.length = rows.length := by
  obtain ⟨h, h1, h2, h3, h4⟩ := run_ok cfg n hn es he {} ⟨by simp, fun _ => ⟨rfl, rfl⟩⟩
  refine ⟨h, h1, fun rows hrows => ?_⟩
  cases hr : h.root with
  | none =>
    rw [h4 hr] at hw
    simp [total] at hw
  | some r =>
    obtain ⟨q1, q2⟩ := h2.1 r hr
    unfold predict
    rw [hr]
    simp only []
    rw [if_pos (by rw [h3]; simpa using hw)]
    exact predictAll_ok cfg n h.sums q2 r q1 rows hrows

/-! ### A single attribute -/

theorem addInto_one (v : ℚ) : HR.addInto [] [v] = some [] := rfl

theorem sums_one (s : Sums) (h1 : s.x = []) (h2 : s.xx = []) (x : List ℚ) (hx : x.length = 1) (y w : ℚ) :
    (s.add x y w).x = [] ∧ (s.add x y w).xx = [] := by
  obtain ⟨v, rfl⟩ := List.length_eq_one_iff.mp hx
  simp [Sums.add, h1, h2, addInto_one]

theorem normalize_one (cfg : HR.Cfg O) (hnom : cfg.nominal 0 = false) (s : Sums) (hs : s.x = []) (hbig : s.n > 1)
    (x : List ℚ) (hx : x.length = 1) : HR.normalize cfg s x = .error .indexError := by
  obtain ⟨v, rfl⟩ := List.length_eq_one_iff.mp hx
  have : HR.normFrom cfg s 0 [v] = .error .indexError := by
    simp only [HR.normFrom]
    rw [if_pos ⟨hnom, hbig⟩]
    simp [hs]
  simp [HR.normalize, this, Except.map]

theorem leafLearn_fails (cfg : RCfg O D) (hnom : cfg.base.nominal 0 = false) (s : Sums) (hs : s.x = []) (hbig : s.n > 1)
    (e : Ev O) (hx : e.x.length = 1) (hw : 1 ≤ e.w) (k : Nat) (init : List ℚ) (l : Leaf O) (m : Mon D) :
    leafLearn cfg s e k init l m = .error .indexError := by
  have hn := normalize_one cfg.base hnom s hs hbig e.x hx
  have hn2 := normalize_one cfg.lcfg hnom s hs hbig e.x hx
  have hlearn : l.learn cfg.lcfg s (e.toLeaf (bootWeight cfg.boot k e.w) init) = .error .indexError := by
    have hk : ∃ j, ⌊bootWeight cfg.boot k e.w⌋.toNat = j + 1 := by
      have h1 : 1 ≤ bootWeight cfg.boot k e.w := by
        unfold bootWeight
        split
        · split
          · rename_i hk
            have : (1 : ℚ) ≤ k := by exact_mod_cast hk
            nlinarith
          · exact hw
        · exact hw
      have h2 : (1 : ℤ) ≤ ⌊bootWeight cfg.boot k e.w⌋ := Int.le_floor.mpr (by exact_mod_cast h1)
      exact ⟨⌊bootWeight cfg.boot k e.w⌋.toNat - 1, by omega⟩
    obtain ⟨j, hj⟩ := hk
    unfold HR.Leaf.learn
    simp only [Ev.toLeaf, RCfg.lcfg, if_true]
    rw [hj]
    have hn3 : HR.normalize { cfg.base with perceptron := true } s e.x = .error .indexError := hn2
    simp only [HR.updateMany, HR.updateW, hn3]
  unfold leafLearn
  cases hp : leafPred cfg s l e.x with
  | ok p => simp only [hlearn]
  | error err =>
    unfold leafPred at hp
    by_cases hc : cfg.base.perceptron = true
    · rw [if_pos hc] at hp
      unfold percPredict at hp
      cases hw : l.w with
      | unset => rw [hw] at hp; simp at hp
      | nan => rw [hw] at hp; simp only [hn, Except.error.injEq] at hp; rw [← hp]
      | ok w => rw [hw] at hp; simp only [hn, Except.error.injEq] at hp; rw [← hp]
    · rw [if_neg hc] at hp; cases hp

theorem endPred_fails (cfg : RCfg O D) (hnom : cfg.base.nominal 0 = false) (s : Sums) (hs : s.x = []) (hbig : s.n > 1)
    (x : List ℚ) (hx : x.length = 1) (en : End (Leaf O) (Option Stat)) :
    endPred cfg s x en = .error .indexError ∨ ∃ p, endPred cfg s x en = .ok p := by
  cases en with
  | leaf l =>
    have hn := normalize_one cfg.base hnom s hs hbig x hx
    have : leafPred cfg s l x = .error .indexError ∨ ∃ p, leafPred cfg s l x = .ok p := by
      unfold leafPred
      by_cases hc : cfg.base.perceptron = true
      · rw [if_pos hc]
        unfold percPredict
        cases hw : l.w with
        | unset => exact .inr ⟨_, rfl⟩
        | nan => exact .inl (by simp only [hn])
        | ok w => exact .inl (by simp only [hn])
      · rw [if_neg hc]; exact .inr ⟨_, rfl⟩
    rcases this with h | ⟨p, h⟩
    · exact .inl (by simp only [endPred, h])
    · exact .inr ⟨some p, by simp only [endPred, h]⟩
  | stuck st => exact .inr ⟨_, rfl⟩
  | missing => exact .inr ⟨_, rfl⟩

mutual
theorem N.learn_fails (cfg : RCfg O D) (hnom : cfg.base.nominal 0 = false) (s : Sums) (hs : s.x = []) (hbig : s.n > 1)
    (e : Ev O) (he : e.Ok 1) (hw : 1 ≤ e.w) (depth : Nat) (r : N O D) (h : r.WF 1) :
    r.learn cfg s e depth = .error .indexError := by
  match r with
  | .leaf l m => simp only [N.learn, leafLearn_fails cfg hnom s hs hbig e he.1 hw]
  | .split t st m alt kids =>
    obtain ⟨en, hen, _⟩ := N.route_ok 1 e.x he.1 (.split t st m alt kids) h
    obtain ⟨hst, halt, k, h1, h2⟩ := h
    rw [N.learn]
    simp only [hen]
    rcases endPred_fails cfg hnom s hs hbig e.x he.1 en with hp | ⟨p, hp⟩
    · simp only [hp]
    · simp only [hp]
      cases hre : reacted cfg (react cfg m.det (nodeWatch cfg m e.y p).det alt) alt with
      | some q =>
        obtain ⟨l, m⟩ := q
        simp only [learnAlt, leafLearn_fails cfg hnom s hs hbig e he.1 hw]
      | none =>
        simp only [learnAlt]
        rcases Test.branch_ok h1 e.x he.1 with ⟨b, hb, hbr⟩ | ⟨mt, rfl, hbr⟩
        · simp only [hbr]
          rw [if_pos (by omega), Int.toNat_natCast,
            K.learn_fails cfg hnom s hs hbig e he hw (depth + 1) kids b 0 k h2 (by omega) hb]
        · obtain ⟨v, mt', g1, g2, g3⟩ := addBranch_ok h1 e.x he.1 hbr
          simp only [hbr]
          rw [if_neg (by omega)]
          simp only [sprout, g1, g2, leafLearn_fails cfg hnom s hs hbig e he.1 hw]
theorem K.learn_fails (cfg : RCfg O D) (hnom : cfg.base.nominal 0 = false) (s : Sums) (hs : s.x = []) (hbig : s.n > 1)
    (e : Ev O) (he : e.Ok 1) (hw : 1 ≤ e.w) (depth : Nat)
    (kids : K O D) (b i k : Nat) (h : kids.WFfrom 1 i k) (h1 : i ≤ b) (h2 : b < k) :
    kids.learn cfg s e depth b = .error .indexError := by
  match kids with
  | .nil => have : i = k := h; omega
  | .cons j t rest =>
    obtain ⟨rfl, ht, hr⟩ := h
    rw [K.learn]
    by_cases hb : b = j
    · rw [if_pos hb, N.learn_fails cfg hnom s hs hbig e he hw depth t ht]
    · rw [if_neg hb, K.learn_fails cfg hnom s hs hbig e he hw depth rest b (j + 1) k hr (by omega) h2]
end

/-- As long as the weight is at most 1, samples are not normalised. -/
theorem normalize_small (cfg : HR.Cfg O) (s : Sums) (hn : ¬ s.n > 1) (x : List ℚ) :
    ∃ xs, HR.normalize cfg s x = .ok xs ∧ xs.length = x.length + 1 := by
  have : ∀ (x : List ℚ) i, ∃ xs, HR.normFrom cfg s i x = .ok xs ∧ xs.length = x.length := by
    intro x
    induction x with
    | nil => intro i; exact ⟨[], rfl, rfl⟩
    | cons v vs ih =>
      intro i
      obtain ⟨ys, k1, k2⟩ := ih (i + 1)
      simp only [HR.normFrom, k1]
      rw [if_neg (fun h => hn h.2)]
      by_cases hc : cfg.nominal i = true
      · rw [if_pos hc]; exact ⟨_, rfl, by simp [k2]⟩
      · rw [if_neg hc]; exact ⟨_, rfl, by simp [k2]⟩
  obtain ⟨xs, k1, k2⟩ := this x 0
  exact ⟨xs ++ [if s.n > 1 then 1 else 0], by simp [HR.normalize, k1, Except.map], by simp [k2]⟩

theorem updateMany_small (cfg : HR.Cfg O) (s : Sums) (hn : ¬ s.n > 1) (x : List ℚ) (y lr : ℚ) (k : Nat) (w : HR.Weights)
    (hw : w.Len (x.length + 1)) : ∃ w', HR.updateMany cfg s x y lr k w = .ok w' ∧ w'.Len (x.length + 1) := by
  obtain ⟨xs, n1, n2⟩ := normalize_small cfg s hn x
  induction k generalizing w with
  | zero => exact ⟨w, rfl, hw⟩
  | succ k ih =>
    have : ∃ w', HR.updateW cfg s x y lr w = .ok w' ∧ w'.Len (x.length + 1) := by
      unfold HR.updateW
      rw [n1]
      cases w with
      | unset => exact ⟨_, rfl, hw⟩
      | nan => exact ⟨_, rfl, hw⟩
      | ok w =>
        have hl := hw w rfl
        simp only
        rw [if_pos (by rw [hl, n2])]
        refine ⟨_, rfl, ?_⟩
        intro v hv
        split at hv
        · cases hv
        · simp only [HR.Weights.ok.injEq] at hv
          subst hv
          simp [hl, n2]
    obtain ⟨w', k1, k2⟩ := this
    obtain ⟨w'', k3, k4⟩ := ih w' k2
    exact ⟨w'', by simp only [HR.updateMany, k1, k3], k4⟩

/-- The first row, of weight 1, is accepted. -/
theorem learn_first (cfg : RCfg O D) (s : Sums) (hn : ¬ s.n > 1) (e : Ev O) (he : e.Ok 1) :
    ∃ r, (N.leaf (newLeaf cfg.base true none .unset) (newMon cfg) : N O D).learn cfg s e 0 = .ok r ∧ r.WF 1 := by
  obtain ⟨hx, hi, hch⟩ := he
  have hp : ∃ p, leafPred cfg s (newLeaf cfg.base true none .unset) e.x = .ok p := by
    unfold leafPred percPredict newLeaf
    split <;> exact ⟨_, rfl⟩
  obtain ⟨p, hp⟩ := hp
  have hl : ∃ l', (newLeaf cfg.base true none .unset).learn cfg.lcfg s
      (e.toLeaf (bootWeight cfg.boot (e.draw 0 false) e.w) (e.init 0 false)) = .ok l' ∧ LeafOk 1 l' ∧ l'.stats ≠ none := by
    have hpc : cfg.lcfg.perceptron = true := rfl
    generalize cfg.lcfg = c at hpc
    generalize bootWeight cfg.boot (e.draw 0 false) e.w = w
    unfold HR.Leaf.learn
    simp only [if_pos hpc]
    obtain ⟨w', k1, k2⟩ := updateMany_small c s hn
      e.x e.y (if c.lrConst then c.lr else c.lr / (1 + (HR.addStat (none : Option Stat) e.y w).n * c.decay)) ⌊w⌋.toNat
      (.ok (e.init 0 false)) (by intro v hv; cases hv; rw [hi, hx])
    simp only [newLeaf, Ev.toLeaf, if_true]
    rw [k1]
    exact ⟨_, rfl, ⟨rfl, by rw [hx] at k2; exact k2⟩, by simp⟩
  obtain ⟨l', k1, k2, k3⟩ := hl
  have := attempt_ok cfg 1 e ⟨hx, hi, hch⟩ l' (watch cfg (newMon cfg) (p.map fun p => |e.y - p|)) k2 k3
  refine ⟨_, ?_, this.node⟩
  simp only [N.learn, leafLearn, hp, k1]

/-- C209 (violated): with a single numeric attribute, training raises `IndexError` at the second row
at the latest, even with `leaf_prediction='mean'`. -/
theorem C209_single_attribute_violated (cfg : RCfg O D) (hnom : cfg.base.nominal 0 = false)
    (e1 e2 : Ev O) (es : List (Ev O)) (h1 : e1.Ok 1) (h2 : e2.Ok 1) (w1 : 1 ≤ e1.w) (w2 : 1 ≤ e2.w) :
    run cfg {} (e1 :: e2 :: es) = .error .indexError := by
  have hleaf : (N.leaf (newLeaf cfg.base true none .unset) (newMon cfg) : N O D).WF 1 :=
    newLeaf_ok cfg 1 _ _ (unset_len _)
  obtain ⟨a1, a2⟩ := sums_one {} rfl rfl e1.x h1.1 e1.y e1.w
  obtain ⟨b1, b2⟩ := sums_one _ a1 a2 e2.x h2.1 e2.y e2.w
  by_cases hbig : e1.w > 1
  · have := N.learn_fails cfg hnom (Sums.add {} e1.x e1.y e1.w) a1 (by simpa [Sums.add] using hbig) e1 h1 w1 0 _ hleaf
    simp only [run, step, Option.getD_none, this]
  · have hw1 : e1.w = 1 := le_antisymm (not_lt.mp hbig) w1
    obtain ⟨r, hr, hwf⟩ := learn_first cfg (Sums.add {} e1.x e1.y e1.w) (by simp [Sums.add, hw1]) e1 h1
    have := N.learn_fails cfg hnom ((Sums.add {} e1.x e1.y e1.w).add e2.x e2.y e2.w) b1
      (by simp only [Sums.add]; linarith) e2 h2 w2 0 r hwf
    simp only [run, step, Option.getD_none, Option.getD_some, hr, this]

/-! ### Concrete runs -/

/-- A detector that keeps its values and reports a change at the fourth. -/
def tally : Det (List ℚ) where
  new := []
  add d v := d ++ [v]
  change d := decide (d.length = 4)
  est d := d.sum / d.length
  width d := 50 * d.length

/-- Observers keep the rows; `leaf_prediction='mean'`. -/
def logCfg : RCfg (List (List ℚ × ℚ × ℚ)) (List ℚ) :=
  ⟨⟨false, 2, 1/100, 0, true, fun _ => false, fun v => v, [], fun o x y w => o ++ [(x, y, w)]⟩, false, tally, 4⟩

/-- The same with detectors that report nothing. -/
def calm : RCfg (List (List ℚ × ℚ × ℚ)) (List ℚ) := { logCfg with det := { tally with change := fun _ => false } }

/-- Statistics of logged rows. -/
def statOf (rows : List (List ℚ × ℚ × ℚ)) : Stat :=
  ⟨(rows.map fun r => r.2.2).sum, (rows.map fun r => r.2.1 * r.2.2).sum, (rows.map fun r => r.2.1 * r.2.1 * r.2.2).sum⟩

/-- Split on attribute 0 at `v`. -/
def splitAt (v : ℚ) (l : Leaf (List (List ℚ × ℚ × ℚ))) : Choice (List (List ℚ × ℚ × ℚ)) :=
  .split (.num ⟨0, v, true⟩)
    [statOf (l.obs.filter fun r => r.1.getD 0 0 ≤ v), statOf (l.obs.filter fun r => ¬ r.1.getD 0 0 ≤ v)]

/-- A row of weight 1 with two attributes. -/
def inst (x y : ℚ) (ch : Leaf (List (List ℚ × ℚ × ℚ)) → Choice (List (List ℚ × ℚ × ℚ))) : Ev (List (List ℚ × ℚ × ℚ)) :=
  ⟨[x, 1], y, 1, ch, fun _ _ => 1, fun _ _ => [1, 1/2, 0]⟩

/-- The threshold of the root test. -/
def rootTest : Reg O D → Option ℚ
  | ⟨_, some (.split (.num t) _ _ _ _)⟩ => some t.value
  | _ => none

/-- The error estimates of the root and of its alternate leaf. -/
def rootErrors (cfg : RCfg O D) : Reg O D → Option (ℚ × Option ℚ)
  | ⟨_, some (.split _ _ m alt _)⟩ => some (cfg.det.est m.det, alt.map fun a => cfg.det.est a.2.det)
  | _ => none

/-- Split at 5 at the second row; the fourth row after it raises an alarm, and the alternate leaf
splits at its second row. -/
def takeover : List (Ev (List (List ℚ × ℚ × ℚ))) :=
  [inst 1 0 (splitAt 5), inst 9 10 (splitAt 5), inst 1 1 fun _ => .keep id, inst 9 9 fun _ => .keep id,
    inst 1 2 fun _ => .keep id, inst 9 4 fun _ => .keep id, inst 1 0 (splitAt 3)]

/-- These rows meet the hypotheses of C209: two attributes, three initial weights, well-formed splits. -/
theorem takeover_ok : ∀ e ∈ takeover, e.Ok 2 := by
  have h1 : ∀ x y v, (inst x y (splitAt v)).Ok 2 := by
    intro x y v
    refine ⟨rfl, fun _ _ => rfl, fun l t ds h => ?_⟩
    simp only [inst, splitAt, Choice.split.injEq] at h
    obtain ⟨rfl, rfl⟩ := h
    simp [Test.Ok]
  have h2 : ∀ x y f, (inst x y (fun _ => .keep f)).Ok 2 :=
    fun x y f => ⟨rfl, fun _ _ => rfl, fun l t ds h => by simp [inst] at h⟩
  intro e he
  simp only [takeover, List.mem_cons, List.not_mem_nil, or_false] at he
  rcases he with rfl | rfl | rfl | rfl | rfl | rfl | rfl
  · exact h1 _ _ _
  · exact h1 _ _ _
  · exact h2 _ _ _
  · exact h2 _ _ _
  · exact h2 _ _ _
  · exact h2 _ _ _
  · exact h1 _ _ _

/-- What is predicted after these rows, for three rows. -/
example : ((run logCfg {} takeover).toOption.bind fun h => (predict logCfg h [[1, 1], [4, 1], [9, 1]]).toOption) =
    some [some 0, some 4, some 4] := by decide +kernel

end Verif.Trees.HRA
