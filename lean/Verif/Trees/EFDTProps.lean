import Verif.Trees.EFDT
import Mathlib.Algebra.Order.BigOperators.Group.List
import Mathlib.Tactic.Linarith

/-!
The root of the extremely fast decision tree (C158), what a split attempt and a
re-evaluation decide (C159), and when nodes are re-evaluated (C160).
-/

namespace Verif.Trees.EF

open Verif.Trees Verif.Trees.HL

variable {O : Type}

/-! ### Specification -/

/-- Class statistics of a node. -/
def N.stats : N O → Stats
  | .leaf l => l.stats
  | .split _ s _ _ _ => s

/-- Attribute observers of a node. -/
def N.obs : N O → O
  | .leaf l => l.obs
  | .split _ _ o _ _ => o

/-- The training instances, in order, counted in class statistics. -/
def countAll (es : List Ev) : Stats := es.foldl (fun s e => bump s e.y e.w) []

/-- The training instances, in order, shown to fresh observers. -/
def observeAll (cfg : ECfg O) (es : List Ev) : O :=
  es.foldl (fun o e => cfg.base.update o e.x e.y e.w) cfg.base.fresh

/-- The memory manager never touches the root during an instance. -/
def Ev.SparesRoot (e : Ev) : Prop := (∀ q ∈ e.estimate, q.1 ≠ []) ∧ ∀ q ∈ e.enforce, q.1 ≠ []

/-- `b` has the largest merit in a list of suggestions. -/
def Top (l : List Sugg) (b : Sugg) : Prop := b ∈ l ∧ ∀ g ∈ l, g.merit ≤ b.merit

/-- `b` has the largest merit among the suggestions on attribute `a`. -/
def TopOn (l : List Sugg) (a : Int) (b : Sugg) : Prop := Top (l.filter fun g => attOf g.test = a) b

/-- Merit `x` exceeds merit `y` by more than `d`. -/
def Exceeds (x y : WithBot ℚ) (d : ℚ) : Prop := y + (d : WithBot ℚ) < x

/-! ### Proofs -/

/-- Kind, statistics and observers of the root. -/
def N.isLeaf : N O → Bool
  | .leaf _ => true
  | .split _ _ _ _ _ => false

theorem sort_root (cfg : ECfg O) (x : List ℚ) (y : Int) (w : ℚ) (r r1 : N O) (d : Int)
    (h : r.sort cfg x y w = .ok (r1, d)) :
    r1.isLeaf = r.isLeaf ∧ r1.stats = (if r.isLeaf then bump r.stats y w else r.stats) ∧
    ((∀ l, r = .leaf l → l.active = true) → r1.obs = if r.isLeaf then cfg.base.update r.obs x y w else r.obs) ∧
    (∀ l, r1 = .leaf l → ∃ l0, r = .leaf l0 ∧ l.active = l0.active) := by
  cases r with
  | leaf l =>
    rw [N.sort] at h
    obtain ⟨rfl, rfl⟩ := Prod.mk.inj (Except.ok.inj h)
    refine ⟨rfl, rfl, ?_, ?_⟩
    · intro ha
      simp [N.obs, Leaf.learn, ha l rfl, N.isLeaf]
    · rintro l' hl
      injection hl with hl; subst hl
      exact ⟨l, rfl, rfl⟩
  | split t s o seen kids =>
    rw [N.sort] at h
    cases hb : t.branch x with
    | error e => simp [hb] at h
    | ok b =>
      rw [hb] at h
      simp only at h
      by_cases h0 : b ≥ 0
      · rw [if_pos h0] at h
        cases hk : kids.sort cfg x y w b.toNat with
        | error e => simp [hk] at h
        | ok kd =>
          obtain ⟨kids', d'⟩ := kd
          rw [hk] at h
          obtain ⟨rfl, rfl⟩ := Prod.mk.inj (Except.ok.inj h)
          exact ⟨rfl, rfl, fun _ => rfl, by intro l hl; cases hl⟩
      · rw [if_neg h0] at h
        obtain ⟨rfl, rfl⟩ := Prod.mk.inj (Except.ok.inj h)
        exact ⟨rfl, rfl, fun _ => rfl, by intro l hl; cases hl⟩

theorem attempt_root (cfg : ECfg O) (g : Bool) (l : Leaf O) :
    (attempt cfg g l).1.stats = l.stats ∧ (attempt cfg g l).1.obs = l.obs ∧
    (∀ l', (attempt cfg g l).1 = .leaf l' → l'.active = l.active) := by
  unfold attempt
  by_cases h : g ∧ l.active ∧ total l.stats - l.last ≥ cfg.base.grace
  · rw [if_pos h]
    cases splitOn cfg l.stats l.obs with
    | some g => exact ⟨rfl, rfl, by intro l' hl; cases hl⟩
    | none => exact ⟨rfl, rfl, by intro l' hl; injection hl with hl; subst hl; rfl⟩
  · rw [if_neg h]
    exact ⟨rfl, rfl, by intro l' hl; injection hl with hl; subst hl; rfl⟩

theorem process_root (cfg : ECfg O) (x : List ℚ) (y : Int) (w : ℚ) (g : Bool) (r r1 : N O) (c : Cnt)
    (h : r.process cfg x y w g = .ok (r1, c)) :
    r1.stats = (if r.isLeaf then r.stats else bump r.stats y w) ∧
    r1.obs = (if r.isLeaf then r.obs else cfg.base.update r.obs x y w) ∧
    (∀ l, r1 = .leaf l → (∀ l0, r = .leaf l0 → l0.active = true) → l.active = true) := by
  cases r with
  | leaf l =>
    rw [N.process] at h
    have h := Except.ok.inj h
    have ha := attempt_root cfg g l
    rw [h] at ha
    exact ⟨ha.1, ha.2.1, fun l' hl h0 => by rw [ha.2.2 l' hl]; exact h0 l rfl⟩
  | split t s o seen kids =>
    rw [N.process] at h
    simp only at h
    cases hd : decision cfg t (bump s y w) (cfg.base.update o x y w) seen with
    | error e => simp [hd] at h
    | ok a =>
      rw [hd] at h
      have key : ∀ a : Action, (match (a.test t).branch x with
          | .error e => (.error e : Except PyErr (N O × Cnt))
          | .ok b =>
            if b ≥ 0 then
              match kids.process cfg x y w g b.toNat with
              | .error e => .error e
              | .ok (kids', c) => .ok (.split (a.test t) (bump s y w) (cfg.base.update o x y w) seen kids', c)
            else .ok (.split (a.test t) (bump s y w) (cfg.base.update o x y w) seen kids, ⟨0, 0⟩)) = .ok (r1, c) →
          ∃ t' kids', r1 = .split t' (bump s y w) (cfg.base.update o x y w) seen kids' := by
        intro a h
        cases hb : (a.test t).branch x with
        | error e => simp [hb] at h
        | ok b =>
          rw [hb] at h
          simp only at h
          by_cases h0 : b ≥ 0
          · rw [if_pos h0] at h
            cases hk : kids.process cfg x y w g b.toNat with
            | error e => simp [hk] at h
            | ok kd =>
              obtain ⟨kids', c'⟩ := kd
              rw [hk] at h
              obtain ⟨rfl, rfl⟩ := Prod.mk.inj (Except.ok.inj h)
              exact ⟨_, _, rfl⟩
          · rw [if_neg h0] at h
            obtain ⟨rfl, rfl⟩ := Prod.mk.inj (Except.ok.inj h)
            exact ⟨_, _, rfl⟩
      cases a with
      | kill =>
        obtain ⟨rfl, rfl⟩ := Prod.mk.inj (Except.ok.inj h)
        exact ⟨rfl, rfl, by intro l hl _; injection hl with hl; subst hl; rfl⟩
      | replace g' =>
        obtain ⟨rfl, rfl⟩ := Prod.mk.inj (Except.ok.inj h)
        exact ⟨rfl, rfl, by intro l hl _; cases hl⟩
      | keep =>
        obtain ⟨t', kids', rfl⟩ := key .keep h
        exact ⟨rfl, rfl, by intro l hl _; cases hl⟩
      | retest t2 =>
        obtain ⟨t', kids', rfl⟩ := key (.retest t2) h
        exact ⟨rfl, rfl, by intro l hl _; cases hl⟩

theorem flip_root (cfg : ECfg O) (h : Tree O) (q : Path × Bool) (r : N O) (hr : h.root = some r) :
    ∃ r', (flip cfg h q).root = some r' ∧ r'.isLeaf = r.isLeaf ∧ r'.stats = r.stats ∧
      (q.1 ≠ [] → r'.obs = r.obs ∧ ∀ l, r' = .leaf l → r = .leaf l) := by
  unfold flip
  rw [hr]
  simp only
  cases hg : r.get q.1 with
  | none => exact ⟨r, hr, rfl, rfl, fun _ => ⟨rfl, fun l hl => hl⟩⟩
  | some n =>
    cases n with
    | split t s o v kids => exact ⟨r, hr, rfl, rfl, fun _ => ⟨rfl, fun l hl => hl⟩⟩
    | leaf l =>
      simp only
      by_cases ha : l.active = q.2
      · rw [if_pos ha]; exact ⟨r, hr, rfl, rfl, fun _ => ⟨rfl, fun l hl => hl⟩⟩
      · rw [if_neg ha]
        refine ⟨_, rfl, ?_⟩
        obtain ⟨p, b⟩ := q
        simp only at hg ⊢
        match r, p with
        | .leaf l', [] =>
          simp only [N.get, Option.some.injEq, N.leaf.injEq] at hg
          subst hg
          exact ⟨rfl, rfl, fun h => absurd rfl h⟩
        | .leaf l', _ :: _ => simp [N.get] at hg
        | .split t s o v kids, [] => simp [N.get] at hg
        | .split t s o v kids, i :: p => exact ⟨rfl, rfl, fun _ => ⟨rfl, fun l hl => by cases hl⟩⟩

theorem flips_root (cfg : ECfg O) (qs : List (Path × Bool)) (h : Tree O) (r : N O) (hr : h.root = some r) :
    ∃ r', (qs.foldl (flip cfg) h).root = some r' ∧ r'.isLeaf = r.isLeaf ∧ r'.stats = r.stats ∧
      ((∀ q ∈ qs, q.1 ≠ []) → r'.obs = r.obs ∧ ∀ l, r' = .leaf l → r = .leaf l) := by
  induction qs generalizing h r with
  | nil => exact ⟨r, hr, rfl, rfl, fun _ => ⟨rfl, fun l hl => hl⟩⟩
  | cons q qs ih =>
    obtain ⟨r1, h1, h2, h3, h4⟩ := flip_root cfg h q r hr
    obtain ⟨r2, g1, g2, g3, g4⟩ := ih (flip cfg h q) r1 h1
    refine ⟨r2, g1, by rw [g2, h2], by rw [g3, h3], fun hq => ?_⟩
    obtain ⟨a1, a2⟩ := h4 (hq q (by simp))
    obtain ⟨b1, b2⟩ := g4 fun q' hq' => hq q' (by simp [hq'])
    exact ⟨by rw [b1, a1], fun l hl => a2 l (b2 l hl)⟩

/-- The root before an instance: the stored one, or a fresh leaf. -/
def Tree.rooted (cfg : ECfg O) (h : Tree O) : N O := h.root.getD (.leaf (newLeaf cfg.base true []))

/-- A step as sort, flips, process, flips. -/
theorem step_split (cfg : ECfg O) (h h' : Tree O) (e : Ev) (hs : step cfg h e = .ok h') :
    ∃ r1 d r2 r3 c, (h.rooted cfg).sort cfg e.x e.y e.w = .ok (r1, d) ∧
      let a0 := if h.root = none then 1 else h.actives
      let h1 := e.estimate.foldl (flip cfg) { h with root := some r1, actives := a0 + d }
      h1.root = some r2 ∧
      r2.process cfg e.x e.y e.w e.growth = .ok (r3, c) ∧
      h' = e.enforce.foldl (flip cfg)
            { h1 with root := some r3, decisions := h1.decisions + c.splits, actives := h1.actives + c.leaves } := by
  have main : ∀ h0 : Tree O, ∀ r, h0.root = some r → (match h0.root with
      | none => (.ok h0 : Except PyErr (Tree O))
      | some r =>
        match r.sort cfg e.x e.y e.w with
        | .error err => .error err
        | .ok (r1, d) =>
          let h1 := e.estimate.foldl (flip cfg) { h0 with root := some r1, actives := h0.actives + d }
          match h1.root with
          | none => .ok h1
          | some r2 =>
            match r2.process cfg e.x e.y e.w e.growth with
            | .error err => .error err
            | .ok (r3, c) =>
              .ok (e.enforce.foldl (flip cfg)
                { h1 with root := some r3, decisions := h1.decisions + c.splits,
                          actives := h1.actives + c.leaves })) = .ok h' →
      ∃ r1 d r2 r3 c, r.sort cfg e.x e.y e.w = .ok (r1, d) ∧
        let h1 := e.estimate.foldl (flip cfg) { h0 with root := some r1, actives := h0.actives + d }
        h1.root = some r2 ∧
        r2.process cfg e.x e.y e.w e.growth = .ok (r3, c) ∧
        h' = e.enforce.foldl (flip cfg)
            { h1 with root := some r3, decisions := h1.decisions + c.splits, actives := h1.actives + c.leaves } := by
    intro h0 r hr hs
    rw [hr] at hs
    simp only at hs
    cases h1 : r.sort cfg e.x e.y e.w with
    | error err => simp [h1] at hs
    | ok p =>
      obtain ⟨r1, d⟩ := p
      rw [h1] at hs
      simp only at hs
      obtain ⟨r2, f1, _⟩ := flips_root cfg e.estimate { h0 with root := some r1, actives := h0.actives + d } r1 rfl
      rw [f1] at hs
      simp only at hs
      cases h2 : r2.process cfg e.x e.y e.w e.growth with
      | error err => simp [h2] at hs
      | ok p =>
        obtain ⟨r3, c⟩ := p
        rw [h2] at hs
        exact ⟨r1, d, r2, r3, c, rfl, f1, h2, (Except.ok.inj hs).symm⟩
  unfold step at hs
  cases hr : h.root with
  | none =>
    rw [hr] at hs
    obtain ⟨r1, d, r2, r3, c, a1, a2⟩ := main { h with root := some (.leaf (newLeaf cfg.base true [])), actives := 1 } _ rfl hs
    refine ⟨r1, d, r2, r3, c, ?_, a2⟩
    rw [Tree.rooted, hr]
    exact a1
  | some r =>
    rw [hr] at hs
    obtain ⟨r1, d, r2, r3, c, a1, a2⟩ := main h r hr hs
    refine ⟨r1, d, r2, r3, c, ?_, a2⟩
    rw [Tree.rooted, hr]
    exact a1

theorem step_root (cfg : ECfg O) (h h' : Tree O) (e : Ev) (hs : step cfg h e = .ok h') :
    ∃ r', h'.root = some r' ∧ r'.stats = bump (h.rooted cfg).stats e.y e.w ∧
      (e.SparesRoot → (∀ l, h.rooted cfg = .leaf l → l.active = true) →
        r'.obs = cfg.base.update (h.rooted cfg).obs e.x e.y e.w ∧ ∀ l, r' = .leaf l → l.active = true) := by
  obtain ⟨r1, d, r2, r3, c, a1, a2, a3, rfl⟩ := step_split cfg h h' e hs
  obtain ⟨s1, s2, s3, s4⟩ := sort_root cfg e.x e.y e.w _ r1 d a1
  obtain ⟨r2', f1, f2, f3, f4⟩ := flips_root cfg e.estimate
    { h with root := some r1, actives := (if h.root = none then 1 else h.actives) + d } r1 rfl
  have : r2' = r2 := by rw [f1] at a2; exact Option.some.inj a2
  subst this
  obtain ⟨p1, p2, p3⟩ := process_root cfg e.x e.y e.w e.growth _ r3 c a3
  obtain ⟨r4, g1, g2, g3, g4⟩ := flips_root cfg e.enforce
    { (e.estimate.foldl (flip cfg)
        { h with root := some r1, actives := (if h.root = none then 1 else h.actives) + d }) with
      root := some r3,
      decisions := (e.estimate.foldl (flip cfg)
        { h with root := some r1, actives := (if h.root = none then 1 else h.actives) + d }).decisions + c.splits,
      actives := (e.estimate.foldl (flip cfg)
        { h with root := some r1, actives := (if h.root = none then 1 else h.actives) + d }).actives + c.leaves }
    r3 rfl
  refine ⟨r4, g1, ?_, ?_⟩
  · rw [g3, p1, f2, f3, s1, s2]
    cases (h.rooted cfg).isLeaf <;> rfl
  · rintro ⟨he1, he2⟩ hact
    obtain ⟨b1, b2⟩ := f4 he1
    obtain ⟨c1, c2⟩ := g4 he2
    refine ⟨?_, ?_⟩
    · rw [c1, p2, f2, s1, b1, s3 hact]
      cases (h.rooted cfg).isLeaf <;> rfl
    · intro l hl
      refine p3 l (c2 l hl) fun l0 hl0 => ?_
      obtain ⟨l1, e1, e2⟩ := s4 l0 (b2 l0 hl0)
      rw [e2]
      exact hact l1 e1

/-- C158: after any training run - whatever was split, re-evaluated, replaced or pruned,
and whichever leaves were deactivated - the statistics of the root are those of all the
training instances, each counted once; and unless the memory manager touched the root, its
observers have seen exactly the training instances, in order. -/
theorem C158_root (cfg : ECfg O) (es : List Ev) (hne : es ≠ []) (h : Tree O) (hr : run cfg {} es = .ok h) :
    ∃ r, h.root = some r ∧ r.stats = countAll es ∧
      ((∀ e ∈ es, e.SparesRoot) → r.obs = observeAll cfg es) := by
  have main : ∀ (es : List Ev) (h h' : Tree O), run cfg h es = .ok h' →
      (h'.rooted cfg).stats = es.foldl (fun s e => bump s e.y e.w) (h.rooted cfg).stats ∧
      ((∀ e ∈ es, e.SparesRoot) → (∀ l, h.rooted cfg = .leaf l → l.active = true) →
        (h'.rooted cfg).obs = es.foldl (fun o e => cfg.base.update o e.x e.y e.w) (h.rooted cfg).obs) ∧
      (es ≠ [] → ∃ r, h'.root = some r) := by
    intro es
    induction es with
    | nil =>
      intro h h' hr
      rw [run] at hr
      rw [← Except.ok.inj hr]
      exact ⟨rfl, fun _ _ => rfl, fun h => absurd rfl h⟩
    | cons e es ih =>
      intro h h' hr
      rw [run] at hr
      cases hs : step cfg h e with
      | error err => simp [hs] at hr
      | ok h1 =>
        rw [hs] at hr
        obtain ⟨r', b1, b2, b3⟩ := step_root cfg h h1 e hs
        obtain ⟨i1, i2, i3⟩ := ih h1 h' hr
        have hroot : h1.rooted cfg = r' := by rw [Tree.rooted, b1]; rfl
        refine ⟨?_, ?_, fun _ => ?_⟩
        · rw [i1, hroot, b2]; rfl
        · intro hes hact
          obtain ⟨c1, c2⟩ := b3 (hes e (by simp)) hact
          rw [i2 (fun e' he' => hes e' (by simp [he'])) (by rw [hroot]; exact c2), hroot, c1]
          rfl
        · cases es with
          | nil =>
            have hr : Except.ok h1 = Except.ok h' := hr
            rw [← Except.ok.inj hr]
            exact ⟨r', b1⟩
          | cons e' es' => exact i3 (by simp)
  obtain ⟨m1, m2, m3⟩ := main es {} h hr
  obtain ⟨r, hr'⟩ := m3 hne
  have hroot : h.rooted cfg = r := by rw [Tree.rooted, hr']; rfl
  refine ⟨r, hr', by rw [← hroot, m1]; rfl, fun hs => ?_⟩
  rw [← hroot, m2 hs (by intro l hl; injection hl with hl; subst hl; rfl)]
  rfl

/-! Decisions. -/

theorem suggs_perm (l : List Sugg) : (sortSuggs l).Perm l := List.perm_insertionSort _ _

theorem suggs_sorted (l : List Sugg) : (sortSuggs l).Pairwise fun a b => a.merit ≤ b.merit := by
  haveI : Std.Total (fun a b : Sugg => a.merit ≤ b.merit) := ⟨fun a b => le_total _ _⟩
  haveI : IsTrans Sugg (fun a b : Sugg => a.merit ≤ b.merit) := ⟨fun a b c => le_trans⟩
  exact List.pairwise_insertionSort _ l

theorem last_max (l : List Sugg) (h : l.Pairwise fun a b => a.merit ≤ b.merit) (b : Sugg) (hb : l.getLast? = some b) :
    b ∈ l ∧ ∀ g ∈ l, g.merit ≤ b.merit := by
  rcases List.eq_nil_or_concat l with rfl | ⟨l', c, rfl⟩
  · simp at hb
  · simp only [List.concat_eq_append, List.getLast?_append, List.getLast?_singleton, Option.some_or,
      Option.some.injEq] at hb
    subst hb
    rw [List.concat_eq_append, List.pairwise_append] at h
    refine ⟨by simp, fun g hg => ?_⟩
    rw [List.concat_eq_append, List.mem_append] at hg
    rcases hg with hg | hg
    · exact h.2.2 g hg c (by simp)
    · rw [List.mem_singleton] at hg; rw [hg]

theorem best_top (l : List Sugg) (b : Sugg) (hb : (sortSuggs l).getLast? = some b) : Top l b := by
  obtain ⟨h1, h2⟩ := last_max _ (suggs_sorted l) b hb
  exact ⟨(suggs_perm l).mem_iff.1 h1, fun g hg => h2 g ((suggs_perm l).mem_iff.2 hg)⟩

theorem best_none (l : List Sugg) (hb : (sortSuggs l).getLast? = none) : l = [] := by
  rw [List.getLast?_eq_none_iff] at hb
  have := suggs_perm l
  rw [hb] at this
  exact this.symm.eq_nil

theorem current_top (l : List Sugg) (a : Int) (b : Sugg) (hb : findAttribute a (sortSuggs l) = some b) :
    TopOn l a b := by
  unfold findAttribute at hb
  obtain ⟨h1, h2⟩ := last_max _ ((suggs_sorted l).filter _) b hb
  have hp := (suggs_perm l).filter fun g => attOf g.test = a
  exact ⟨hp.mem_iff.1 h1, fun g hg => h2 g (hp.mem_iff.2 hg)⟩

theorem current_none (l : List Sugg) (a : Int) (hb : findAttribute a (sortSuggs l) = none) :
    ∀ g ∈ l, attOf g.test ≠ a := by
  unfold findAttribute at hb
  rw [List.getLast?_eq_none_iff, List.filter_eq_nil_iff] at hb
  intro g hg
  simpa using hb g ((suggs_perm l).mem_iff.2 hg)

/-- C159, re-evaluation: what becomes of a split node that has just learnt an instance,
`s` and `o` being its updated statistics and observers.

It keeps its test if it was not due, or all its weight is in one class, or there are no
suggestions.  Otherwise let `best` have the largest merit: if the null split exceeds it by
more than the bound, the node becomes an active leaf with the node's statistics and observers and nothing
else counted (no split attempt, no right predictions); else
let `cur` be the best suggestion on the node's own attribute: if `best` exceeds it by more
than the bound, or the bound is below the tie threshold, the node is replaced by a new
split with fresh leaves when `best` is on another attribute and takes over the test of
`best` when it is on the same one; otherwise it keeps its test. -/
theorem C159_reevaluation (cfg : ECfg O) (x : List ℚ) (y : Int) (w : ℚ) (growth : Bool) (t : Test) (s0 : Stats)
    (o0 : O) (seen : ℚ) (kids : K O) (n : N O) (c : Cnt)
    (h : (N.split t s0 o0 seen kids).process cfg x y w growth = .ok (n, c)) :
    let s := bump s0 y w
    let o := cfg.base.update o0 x y w
    let due := total s - seen ≥ cfg.minReeval
    (¬ due ∨ isPure s = true ∨ cfg.suggest s o = [] → ∃ kids', n = .split t s o seen kids') ∧
    (due → isPure s = false → cfg.suggest s o ≠ [] → ∃ best, Top (cfg.suggest s o) best ∧
      ((Exceeds (cfg.nullMerit s) best.merit (cfg.bound s) ∧ n = .leaf ⟨true, s, o, 0, 0, 0⟩) ∨
       (¬ Exceeds (cfg.nullMerit s) best.merit (cfg.bound s) ∧ ∃ cur, TopOn (cfg.suggest s o) (attOf t) cur ∧
        let better := Exceeds best.merit cur.merit (cfg.bound s) ∨ cfg.bound s < cfg.tie
        ((better ∧ attOf best.test ≠ attOf t ∧ n = .split best.test s o (total s) (newKids cfg 0 best.dists)) ∨
         (better ∧ attOf best.test = attOf t ∧ ∃ kids', n = .split best.test s o seen kids') ∨
         (¬ better ∧ ∃ kids', n = .split t s o seen kids'))))) := by
  intro s o due
  rw [N.process] at h
  simp only at h
  have key : ∀ a : Action, (match (a.test t).branch x with
      | .error e => (.error e : Except PyErr (N O × Cnt))
      | .ok b =>
        if b ≥ 0 then
          match kids.process cfg x y w growth b.toNat with
          | .error e => .error e
          | .ok (kids', c) => .ok (.split (a.test t) s o seen kids', c)
        else .ok (.split (a.test t) s o seen kids, ⟨0, 0⟩)) = .ok (n, c) →
      ∃ kids', n = .split (a.test t) s o seen kids' := by
    intro a h
    cases hb : (a.test t).branch x with
    | error e => simp [hb] at h
    | ok b =>
      rw [hb] at h
      simp only at h
      by_cases h0 : b ≥ 0
      · rw [if_pos h0] at h
        cases hk : kids.process cfg x y w growth b.toNat with
        | error e => simp [hk] at h
        | ok kd =>
          obtain ⟨kids', c'⟩ := kd
          rw [hk] at h
          obtain ⟨rfl, rfl⟩ := Prod.mk.inj (Except.ok.inj h)
          exact ⟨_, rfl⟩
      · rw [if_neg h0] at h
        obtain ⟨rfl, rfl⟩ := Prod.mk.inj (Except.ok.inj h)
        exact ⟨_, rfl⟩
  have hkeep : decision cfg t s o seen = .ok .keep → ∃ kids', n = .split t s o seen kids' := by
    intro hd
    rw [hd] at h
    exact key .keep h
  constructor
  · intro hc
    apply hkeep
    unfold decision
    by_cases hdue : total s - seen ≥ cfg.minReeval
    · rw [if_pos hdue]
      unfold reevaluate
      by_cases hp : isPure s = true
      · rw [if_pos hp]
      · rw [if_neg hp]
        rcases hc with hc | hc | hc
        · exact absurd hdue hc
        · exact absurd hc hp
        · have hl : (sortSuggs (cfg.suggest s o)).getLast? = none := by rw [hc]; rfl
          simp only [hl]
    · rw [if_neg hdue]
  · intro hdue hp hne
    have hd : decision cfg t s o seen = reevaluate cfg t s o := by unfold decision; rw [if_pos hdue]
    unfold reevaluate at hd
    rw [if_neg (by rw [hp]; simp)] at hd
    simp only at hd
    cases hl : (sortSuggs (cfg.suggest s o)).getLast? with
    | none => exact absurd (best_none _ hl) hne
    | some best =>
      rw [hl] at hd
      simp only at hd
      refine ⟨best, best_top _ _ hl, ?_⟩
      by_cases hk : best.merit + (cfg.bound s : WithBot ℚ) < (cfg.nullMerit s : WithBot ℚ)
      · rw [if_pos hk] at hd
        change decision cfg t (bump s0 y w) (cfg.base.update o0 x y w) seen = _ at hd
        rw [hd] at h
        obtain ⟨rfl, rfl⟩ := Prod.mk.inj (Except.ok.inj h)
        exact .inl ⟨hk, rfl⟩
      · rw [if_neg hk] at hd
        refine .inr ⟨hk, ?_⟩
        cases hf : findAttribute (attOf t) (sortSuggs (cfg.suggest s o)) with
        | none =>
          rw [hf] at hd
          simp only at hd
          change decision cfg t (bump s0 y w) (cfg.base.update o0 x y w) seen = _ at hd
          rw [hd] at h
          simp at h
        | some cur =>
          rw [hf] at hd
          simp only at hd
          refine ⟨cur, current_top _ _ _ hf, ?_⟩
          by_cases hb : cur.merit + (cfg.bound s : WithBot ℚ) < best.merit ∨ cfg.bound s < cfg.tie
          · rw [if_pos hb] at hd
            by_cases ha : attOf t ≠ attOf best.test
            · rw [if_pos ha] at hd
              change decision cfg t (bump s0 y w) (cfg.base.update o0 x y w) seen = _ at hd
              rw [hd] at h
              obtain ⟨rfl, rfl⟩ := Prod.mk.inj (Except.ok.inj h)
              exact .inl ⟨hb, fun e => ha e.symm, rfl⟩
            · rw [if_neg ha] at hd
              change decision cfg t (bump s0 y w) (cfg.base.update o0 x y w) seen = _ at hd
              rw [hd] at h
              push Not at ha
              exact .inr (.inl ⟨hb, ha.symm, key (.retest best.test) h⟩)
          · rw [if_neg hb] at hd
            exact .inr (.inr ⟨hb, hkeep hd⟩)

/-- C159, splitting: an active leaf with `grace_period` new weight, several classes and
some suggestion is split exactly when the best suggestion exceeds the null split by more
than the bound or the bound is below the tie threshold; the split is on a suggestion of
largest merit, takes over statistics and observers, and gets one fresh leaf per branch.
In all other cases the leaf stays as it is, apart from the weight at the last attempt,
which is the present weight if an attempt was due. -/
theorem C159_split (cfg : ECfg O) (x : List ℚ) (y : Int) (w : ℚ) (growth : Bool) (l : Leaf O) :
    ∃ n c, (N.leaf l).process cfg x y w growth = .ok (n, c) ∧
      ((∃ best, growth = true ∧ l.active = true ∧ total l.stats - l.last ≥ cfg.base.grace ∧ isPure l.stats = false ∧
          Top (cfg.suggest l.stats l.obs) best ∧
          (Exceeds best.merit (cfg.nullMerit l.stats) (cfg.bound l.stats) ∨ cfg.bound l.stats < cfg.tie) ∧
          n = .split best.test l.stats l.obs (total l.stats) (newKids cfg 0 best.dists)) ∨
       (¬ (growth = true ∧ l.active = true ∧ total l.stats - l.last ≥ cfg.base.grace ∧ isPure l.stats = false ∧
           ∃ best, Top (cfg.suggest l.stats l.obs) best ∧
           (Exceeds best.merit (cfg.nullMerit l.stats) (cfg.bound l.stats) ∨ cfg.bound l.stats < cfg.tie)) ∧
        n = .leaf { l with last :=
          if growth = true ∧ l.active = true ∧ total l.stats - l.last ≥ cfg.base.grace then total l.stats else l.last })) := by
  refine ⟨(attempt cfg growth l).1, (attempt cfg growth l).2, by rw [N.process], ?_⟩
  unfold attempt
  by_cases h : growth ∧ l.active ∧ total l.stats - l.last ≥ cfg.base.grace
  · rw [if_pos h]
    have none_case : splitOn cfg l.stats l.obs = none →
        ¬ (isPure l.stats = false ∧ ∃ best, Top (cfg.suggest l.stats l.obs) best ∧
           (Exceeds best.merit (cfg.nullMerit l.stats) (cfg.bound l.stats) ∨ cfg.bound l.stats < cfg.tie)) := by
      rintro hn ⟨hp, best, hb1, hb2⟩
      unfold splitOn at hn
      rw [if_neg (by rw [hp]; simp)] at hn
      cases hl : (sortSuggs (cfg.suggest l.stats l.obs)).getLast? with
      | none =>
        have := hb1.1
        rw [best_none _ hl] at this
        simp at this
      | some b =>
        rw [hl] at hn
        simp only at hn
        have hm : b.merit = best.merit := by
          have ht := best_top _ _ hl
          exact le_antisymm (hb1.2 b ht.1) (ht.2 best hb1.1)
        rw [if_pos (by rw [hm]; exact hb2)] at hn
        cases hn
    cases hs : splitOn cfg l.stats l.obs with
    | some g =>
      left
      unfold splitOn at hs
      by_cases hp : isPure l.stats = true
      · rw [if_pos hp] at hs; cases hs
      · rw [if_neg hp] at hs
        cases hl : (sortSuggs (cfg.suggest l.stats l.obs)).getLast? with
        | none => simp [hl] at hs
        | some b =>
          rw [hl] at hs
          simp only at hs
          by_cases hb : (cfg.nullMerit l.stats : WithBot ℚ) + (cfg.bound l.stats : WithBot ℚ) < b.merit ∨
              cfg.bound l.stats < cfg.tie
          · rw [if_pos hb] at hs
            obtain rfl := Option.some.inj hs
            exact ⟨b, h.1, h.2.1, h.2.2, by simpa using hp, best_top _ _ hl, hb, rfl⟩
          · rw [if_neg hb] at hs; cases hs
    | none =>
      right
      exact ⟨fun hc => none_case hs hc.2.2.2, by rw [if_pos h]⟩
  · rw [if_neg h]
    right
    refine ⟨fun hc => h ⟨hc.1, hc.2.1, hc.2.2.1⟩, by rw [if_neg h]⟩

/-- C159, pruning: with a non-negative bound and suggestions whose merits are either -inf or
at least the merit of the null split - as information gain and Gini merits are, C95 - a split
node becomes a leaf only if every suggestion has merit -inf. -/
theorem C159_prune_only_degenerate (cfg : ECfg O) (x : List ℚ) (y : Int) (w : ℚ) (growth : Bool) (t : Test)
    (s0 : Stats) (o0 : O) (seen : ℚ) (kids : K O) (l : Leaf O) (c : Cnt)
    (hb : ∀ s, 0 ≤ cfg.bound s)
    (hm : ∀ s o, ∀ g ∈ cfg.suggest s o, g.merit = ⊥ ∨ (cfg.nullMerit s : WithBot ℚ) ≤ g.merit)
    (h : (N.split t s0 o0 seen kids).process cfg x y w growth = .ok (.leaf l, c)) :
    cfg.suggest (bump s0 y w) (cfg.base.update o0 x y w) ≠ [] ∧
    ∀ g ∈ cfg.suggest (bump s0 y w) (cfg.base.update o0 x y w), g.merit = ⊥ := by
  obtain ⟨h1, h2⟩ := C159_reevaluation cfg x y w growth t s0 o0 seen kids _ c h
  by_cases hc : ¬ (total (bump s0 y w) - seen ≥ cfg.minReeval) ∨ isPure (bump s0 y w) = true ∨
      cfg.suggest (bump s0 y w) (cfg.base.update o0 x y w) = []
  · obtain ⟨kids', e⟩ := h1 hc
    cases e
  · push Not at hc
    refine ⟨hc.2.2, ?_⟩
    obtain ⟨best, hbest, h3⟩ := h2 hc.1 (by simpa using hc.2.1) hc.2.2
    rcases h3 with ⟨hk, _⟩ | ⟨_, cur, _, h4⟩
    · have hbot : best.merit = ⊥ := by
        rcases hm _ _ best hbest.1 with hm | hm
        · exact hm
        · exfalso
          unfold Exceeds at hk
          have h0 : (0 : WithBot ℚ) ≤ ((cfg.bound (bump s0 y w) : ℚ) : WithBot ℚ) := by
            exact_mod_cast hb (bump s0 y w)
          have : best.merit ≤ best.merit + ((cfg.bound (bump s0 y w) : ℚ) : WithBot ℚ) :=
            le_add_of_nonneg_right h0
          exact absurd (lt_of_le_of_lt this hk) (not_lt.2 hm)
      intro g hg
      have := hbest.2 g hg
      rw [hbot] at this
      exact le_bot_iff.1 this
    · rcases h4 with ⟨_, _, e⟩ | ⟨_, _, k, e⟩ | ⟨_, k, e⟩ <;> cases e

theorem total_bump (s : Stats) (y : Int) (w : ℚ) : total (bump s y w) = total s + w := by
  have h := SDict.dsum_alter (fun _ (v : ℚ) => v) (fun o : Option ℚ => o.getD 0 + w) y w
    (by intro o; cases o <;> simp) s
  simpa [SDict.dsum, total, bump] using h

theorem step_split_root (cfg : ECfg O) (h h' : Tree O) (e : Ev) (t : Test) (s : Stats) (o : O) (seen : ℚ) (kids : K O)
    (hr : h.root = some (.split t s o seen kids)) (hs : step cfg h e = .ok h') :
    ∃ kids1 n c, (N.split t s o seen kids1).process cfg e.x e.y e.w e.growth = .ok (n, c) ∧
      ∀ t' s' o' v' k', n = .split t' s' o' v' k' → ∃ k'', h'.root = some (.split t' s' o' v' k'') := by
  have flip_split : ∀ (qs : List (Path × Bool)) (h : Tree O) t s o v k, h.root = some (.split t s o v k) →
      ∃ k', (qs.foldl (flip cfg) h).root = some (.split t s o v k') := by
    intro qs
    induction qs with
    | nil => intro h t s o v k hr; exact ⟨k, hr⟩
    | cons q qs ih =>
      intro h t s o v k hr
      obtain ⟨k', hk⟩ : ∃ k', (flip cfg h q).root = some (.split t s o v k') := by
        unfold flip
        rw [hr]
        simp only
        cases hg : (N.split t s o v k).get q.1 with
        | none => exact ⟨k, hr⟩
        | some n =>
          cases n with
          | split t s o v kids => exact ⟨k, hr⟩
          | leaf l =>
            simp only
            by_cases ha : l.active = q.2
            · rw [if_pos ha]; exact ⟨k, hr⟩
            · rw [if_neg ha]
              obtain ⟨p, b⟩ := q
              cases p with
              | nil => simp [N.get] at hg
              | cons i p => exact ⟨_, rfl⟩
      exact ih _ t s o v k' hk
  obtain ⟨r1, d, r2, r3, c, a1, a2, a3, rfl⟩ := step_split cfg h h' e hs
  rw [Tree.rooted, hr] at a1
  obtain ⟨k1, hk1⟩ : ∃ k1, r1 = .split t s o seen k1 := by
    simp only [Option.getD_some] at a1
    rw [N.sort] at a1
    cases hb : t.branch e.x with
    | error err => simp [hb] at a1
    | ok b =>
      rw [hb] at a1
      simp only at a1
      by_cases h0 : b ≥ 0
      · rw [if_pos h0] at a1
        cases hk : kids.sort cfg e.x e.y e.w b.toNat with
        | error err => simp [hk] at a1
        | ok kd =>
          obtain ⟨kids', d'⟩ := kd
          rw [hk] at a1
          obtain ⟨rfl, rfl⟩ := Prod.mk.inj (Except.ok.inj a1)
          exact ⟨_, rfl⟩
      · rw [if_neg h0] at a1
        obtain ⟨rfl, rfl⟩ := Prod.mk.inj (Except.ok.inj a1)
        exact ⟨_, rfl⟩
  subst hk1
  obtain ⟨k2, hk2⟩ := flip_split e.estimate
    { h with root := some (.split t s o seen k1), actives := (if h.root = none then 1 else h.actives) + d } t s o seen k1 rfl
  rw [a2] at hk2
  obtain rfl := Option.some.inj hk2
  refine ⟨k2, r3, c, a3, ?_⟩
  rintro t' s' o' v' k' rfl
  exact flip_split e.enforce _ t' s' o' v' k' rfl

/-- C160 (partial): a root that has just become a split node keeps its test until it has
seen `min_samples_reevaluate` more weight. -/
theorem C160_fresh_kept_partial (cfg : ECfg O) (h h' : Tree O) (t : Test) (s : Stats) (o : O) (kids : K O)
    (hr : h.root = some (.split t s o (total s) kids)) (es : List Ev) (hw : ∀ e ∈ es, 0 ≤ e.w)
    (hsum : (es.map Ev.w).sum < cfg.minReeval) (hrun : run cfg h es = .ok h') :
    ∃ s' o' kids', h'.root = some (.split t s' o' (total s) kids') := by
  have main : ∀ (es : List Ev) (h : Tree O) (s1 : Stats) (o : O) (kids : K O),
      h.root = some (.split t s1 o (total s) kids) → (∀ e ∈ es, 0 ≤ e.w) →
      total s1 + (es.map Ev.w).sum < total s + cfg.minReeval → run cfg h es = .ok h' →
      ∃ s' o' kids', h'.root = some (.split t s' o' (total s) kids') := by
    intro es
    induction es with
    | nil =>
      intro h s1 o kids hr _ _ hrun
      have hrun : Except.ok h = Except.ok h' := hrun
      rw [← Except.ok.inj hrun]
      exact ⟨s1, o, kids, hr⟩
    | cons e es ih =>
      intro h s1 o kids hr hw hsum hrun
      rw [run] at hrun
      cases hs : step cfg h e with
      | error err => simp [hs] at hrun
      | ok h1 =>
        rw [hs] at hrun
        obtain ⟨kids1, n, c, hp, hn⟩ := step_split_root cfg h h1 e t s1 o (total s) kids hr hs
        have hnn : 0 ≤ (es.map Ev.w).sum :=
          List.sum_nonneg (by
            intro v hv
            obtain ⟨e', he', rfl⟩ := List.mem_map.1 hv
            exact hw e' (by simp [he']))
        simp only [List.map_cons, List.sum_cons] at hsum
        have hnd : ¬ (total (bump s1 e.y e.w) - total s ≥ cfg.minReeval) := by
          rw [total_bump]; intro hc; linarith
        obtain ⟨kids', rfl⟩ := (C159_reevaluation cfg e.x e.y e.w e.growth t s1 o (total s) kids1 n c hp).1 (.inl hnd)
        obtain ⟨k'', hk⟩ := hn _ _ _ _ _ rfl
        exact ih h1 _ _ k'' hk (fun e' he' => hw e' (by simp [he'])) (by rw [total_bump]; linarith) hrun
  exact main es h s o kids hr hw (by linarith) hrun

/-- C160 (violated): `min_samples_reevaluate` is the weight between re-evaluations only until
the first one.  Once a root has seen that much, and as long as it is not replaced, it is
re-evaluated at every single instance: whenever the best suggestion is on the node's own
attribute and the bound is below the tie threshold, say, each instance puts in a new test. -/
theorem C160_every_instance_violated (cfg : ECfg O) (h h' : Tree O) (t : Test) (s : Stats) (o : O) (seen : ℚ)
    (kids : K O) (hr : h.root = some (.split t s o seen kids)) (hdue : total s - seen ≥ cfg.minReeval)
    (e : Ev) (hw : 0 ≤ e.w) (hs : step cfg h e = .ok h') (g : Sugg)
    (hg : cfg.suggest (bump s e.y e.w) (cfg.base.update o e.x e.y e.w) = [g]) (ha : attOf g.test = attOf t)
    (hp : isPure (bump s e.y e.w) = false)
    (hb : 0 ≤ cfg.bound (bump s e.y e.w) ∧ cfg.bound (bump s e.y e.w) < cfg.tie)
    (hm : (cfg.nullMerit (bump s e.y e.w) : WithBot ℚ) ≤ g.merit) :
    ∃ s' o' kids', h'.root = some (.split g.test s' o' seen kids') ∧ total s' - seen ≥ cfg.minReeval := by
  obtain ⟨kids1, n, c, hpr, hn⟩ := step_split_root cfg h h' e t s o seen kids hr hs
  have hd : total (bump s e.y e.w) - seen ≥ cfg.minReeval := by rw [total_bump]; linarith
  obtain ⟨best, hbest, h3⟩ := (C159_reevaluation cfg e.x e.y e.w e.growth t s o seen kids1 n c hpr).2 hd hp
    (by rw [hg]; simp)
  have hbg : best = g := by
    have := hbest.1
    rw [hg] at this
    simpa using this
  subst hbg
  rcases h3 with ⟨hk, _⟩ | ⟨_, cur, _, h4⟩
  · exfalso
    unfold Exceeds at hk
    have h0 : (0 : WithBot ℚ) ≤ ((cfg.bound (bump s e.y e.w) : ℚ) : WithBot ℚ) := by exact_mod_cast hb.1
    exact absurd (lt_of_le_of_lt (le_add_of_nonneg_right h0) hk) (not_lt.2 hm)
  · rcases h4 with ⟨_, hne, _⟩ | ⟨_, _, k, rfl⟩ | ⟨hno, _⟩
    · exact absurd ha hne
    · obtain ⟨k'', hk⟩ := hn _ _ _ _ _ rfl
      exact ⟨_, _, k'', hk, hd⟩
    · exact absurd (.inr hb.2) hno

/-! ### Examples -/

/-- Observers that keep the instances. -/
abbrev Rec := List (List ℚ × Int × ℚ)

/-- A tree of majority leaves with `grace_period` 20 and `min_samples_reevaluate` 20. -/
def demo (tie bound : ℚ) (suggest : Stats → Rec → List Sugg) : ECfg Rec where
  base := ⟨.mc, 0, 20, [], fun o x y w => o ++ [(x, y, w)], fun _ _ _ => []⟩
  minReeval := 20
  tie := tie
  suggest := suggest
  nullMerit := fun _ => 0
  bound := fun _ => bound

/-- An instance without memory management. -/
def inst (x : List ℚ) (y : Int) (w : ℚ) : Ev := ⟨x, y, w, true, [], []⟩

/-- Class weights of the instances on the two sides of a threshold. -/
def sides (a : Nat) (v : ℚ) (o : Rec) : List Stats :=
  let f (p : Bool) : Stats :=
    (o.filter fun r => decide ((r.1.getD a 0) ≤ v) = p).foldl (fun s r => bump s r.2.1 r.2.2) []
  [f true, f false]

/-- The threshold and attribute at the root, if it is a numeric split. -/
def rootTest : Tree Rec → Option (Int × ℚ)
  | ⟨some (.split (.num t) _ _ _ _), _, _, _⟩ => some (t.att, t.value)
  | _ => none

/-- Statistics of the root. -/
def rootStats (h : Tree Rec) : Stats := (h.root.map N.stats).getD []

/-- Attribute 0 is best at first, attribute 1 once weight 40 has been seen. -/
def changing : ECfg Rec := demo 0 (1/2) fun s o =>
  [⟨.num ⟨0, 5, true⟩, sides 0 5 o, if total s < 40 then 1 else 0⟩,
   ⟨.num ⟨1, 5, true⟩, sides 1 5 o, if total s < 40 then 0 else 1⟩]

/-- Four instances of weight 10. -/
def four : List Ev := [inst [1, 9] 0 10, inst [9, 1] 1 10, inst [1, 1] 1 10, inst [9, 9] 0 10]

/-- C158, C159: the root is split on attribute 0, kept while not due, then replaced by a
split on attribute 1; its statistics are those of all instances. -/
example :
    ((run changing {} (four.take 2)).toOption.map fun h => (rootTest h, rootStats h)) =
      some (some (0, 5), [(0, 10), (1, 10)]) ∧
    ((run changing {} (four.take 3)).toOption.map fun h => (rootTest h, rootStats h)) =
      some (some (0, 5), [(0, 10), (1, 20)]) ∧
    ((run changing {} four).toOption.map fun h => (rootTest h, rootStats h)) =
      some (some (1, 5), [(0, 20), (1, 20)]) ∧ countAll four = [(0, 20), (1, 20)] := by
  decide +kernel

/-- The best threshold moves with the weight seen; ties are always broken. -/
def moving : ECfg Rec := demo 1 (1/2) fun s o => [⟨.num ⟨0, total s, true⟩, sides 0 (total s) o, 1⟩]

/-- Six instances. -/
def six : List Ev := [inst [1] 0 10, inst [2] 1 10, inst [1] 0 10, inst [2] 1 10, inst [1] 0 1, inst [2] 1 1]

/-- C160: re-evaluation waits for weight 20, then happens at each of the next instances,
of weight 1 each. -/
example : (List.range 7).map (fun k => (run moving {} (six.take k)).toOption.bind rootTest) =
    [none, none, some (0, 20), some (0, 20), some (0, 40), some (0, 41), some (0, 42)] := by decide +kernel

/-- The best suggestion degenerates: the node is pruned. -/
def failing : ECfg Rec := demo 0 (1/2) fun s o =>
  [⟨.num ⟨0, 5, true⟩, sides 0 5 o, if total s < 40 then 1 else ⊥⟩]

/-- C159: a node all of whose suggestions have merit -inf becomes a leaf with the node's
statistics. -/
example : ((run failing {} four).toOption.map fun h => (rootTest h, rootStats h, h.decisions, h.actives)) =
    some (none, [(0, 20), (1, 20)], 0, 1) := by decide +kernel

end Verif.Trees.EF
