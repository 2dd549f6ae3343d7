import Verif.Trees.EFDTCount

/-!
Nodes of the extremely fast decision tree and the instances they learn (C162).

Here the observers of a node are the list of the instances shown to it, of which the real
observers are a function; the suggestions are an arbitrary function of that list.
-/

namespace Verif.Trees.EF

open Verif.Trees Verif.Trees.HL

/-! ### Specification -/

/-- The observers keep the instances. -/
def ECfg.Logs (cfg : ECfg Rec) : Prop :=
  cfg.base.fresh = [] ∧ ∀ o x y w, cfg.base.update o x y w = o ++ [(x, y, w)]

mutual
/-- The tree sends `x` along the path: at each node of the path the test selects the next
branch. -/
def N.Sends {O : Type} (x : List ℚ) : N O → Path → Prop
  | _, [] => True
  | .leaf _, _ :: _ => False
  | .split t _ _ _ kids, i :: p => t.branch x = .ok (i : Int) ∧ kids.Sends x i p
/-- See `N.Sends`. -/
def K.Sends {O : Type} (x : List ℚ) : K O → Nat → Path → Prop
  | .nil, _, _ => False
  | .cons j t rest, i, p => if i = j then t.Sends x p else rest.Sends x i p
end

/-! ### Proofs -/

mutual
/-- Every instance logged in the tree satisfies `P`, and is sent by the tests to where it is
logged. -/
def N.Good (P : List ℚ → Prop) : N Rec → Prop
  | .leaf l => ∀ e ∈ l.obs, P e.1
  | .split t _ o _ kids => (∀ e ∈ o, P e.1) ∧ kids.Good P t
/-- See `N.Good`. -/
def K.Good (P : List ℚ → Prop) (t : Test) : K Rec → Prop
  | .nil => True
  | .cons j n rest => n.Good (fun x => P x ∧ t.branch x = .ok (j : Int)) ∧ rest.Good P t
end

mutual
theorem N.good_get (P : List ℚ → Prop) (r : N Rec) (h : r.Good P) (p : Path) (n : N Rec) (hg : r.get p = some n)
    (e : List ℚ × Int × ℚ) (he : e ∈ n.obs) : P e.1 ∧ r.Sends e.1 p := by
  match r, p with
  | .leaf l, [] =>
    simp only [N.get, Option.some.injEq] at hg
    subst hg
    exact ⟨h e he, by simp [N.Sends]⟩
  | .split t s o v kids, [] =>
    simp only [N.get, Option.some.injEq] at hg
    subst hg
    exact ⟨h.1 e he, by simp [N.Sends]⟩
  | .leaf l, i :: p => simp [N.get] at hg
  | .split t s o v kids, i :: p =>
    simp only [N.get] at hg
    obtain ⟨a1, a2, a3⟩ := K.good_get P t kids h.2 i p n hg e he
    exact ⟨a1, by rw [N.Sends]; exact ⟨a2, a3⟩⟩
theorem K.good_get (P : List ℚ → Prop) (t : Test) (k : K Rec) (h : k.Good P t) (i : Nat) (p : Path) (n : N Rec)
    (hg : k.get i p = some n) (e : List ℚ × Int × ℚ) (he : e ∈ n.obs) :
    P e.1 ∧ t.branch e.1 = .ok (i : Int) ∧ k.Sends e.1 i p := by
  match k with
  | .nil => simp [K.get] at hg
  | .cons j m rest =>
    rw [K.get] at hg
    rw [K.Sends]
    by_cases hij : i = j
    · rw [if_pos hij] at hg ⊢
      obtain ⟨⟨a1, a2⟩, a3⟩ := N.good_get _ m h.1 p n hg e he
      subst hij
      exact ⟨a1, a2, a3⟩
    · rw [if_neg hij] at hg ⊢
      exact K.good_get P t rest h.2 i p n hg e he
end

theorem newKids_good (cfg : ECfg Rec) (hl : cfg.Logs) (P : List ℚ → Prop) (t : Test) (ds : List Stats) (i : Nat) :
    (newKids cfg i ds).Good P t := by
  induction ds generalizing i with
  | nil => trivial
  | cons d ds ih =>
    refine ⟨?_, ih (i + 1)⟩
    intro e he
    simp only [newLeaf, hl.1, List.not_mem_nil] at he

theorem learn_good (cfg : ECfg Rec) (hl : cfg.Logs) (P : List ℚ → Prop) (l : Leaf Rec) (x : List ℚ) (y : Int) (w : ℚ)
    (h : ∀ e ∈ l.obs, P e.1) (hx : P x) : ∀ e ∈ (l.learn cfg.base x y w).obs, P e.1 := by
  intro e he
  simp only [Leaf.learn] at he
  split at he
  · rw [hl.2, List.mem_append, List.mem_singleton] at he
    rcases he with he | rfl
    · exact h e he
    · exact hx
  · exact h e he

mutual
theorem N.sort_good (cfg : ECfg Rec) (hl : cfg.Logs) (x : List ℚ) (y : Int) (w : ℚ) (P : List ℚ → Prop) (hx : P x)
    (t t' : N Rec) (d : Int) (h : t.Good P) (hs : t.sort cfg x y w = .ok (t', d)) : t'.Good P := by
  match t with
  | .leaf l =>
    rw [N.sort] at hs
    obtain ⟨rfl, rfl⟩ := Prod.mk.inj (Except.ok.inj hs)
    exact learn_good cfg hl P l x y w h hx
  | .split t s o v kids =>
    rw [N.sort] at hs
    cases hb : t.branch x with
    | error e => simp [hb] at hs
    | ok b =>
      rw [hb] at hs
      simp only at hs
      by_cases h0 : b ≥ 0
      · rw [if_pos h0] at hs
        cases hk : kids.sort cfg x y w b.toNat with
        | error e => simp [hk] at hs
        | ok kd =>
          obtain ⟨kids', d'⟩ := kd
          rw [hk] at hs
          obtain ⟨rfl, rfl⟩ := Prod.mk.inj (Except.ok.inj hs)
          exact ⟨h.1, K.sort_good cfg hl x y w P hx t kids kids' b.toNat d'
            (by rw [hb, Int.toNat_of_nonneg h0]) h.2 hk⟩
      · rw [if_neg h0] at hs
        obtain ⟨rfl, rfl⟩ := Prod.mk.inj (Except.ok.inj hs)
        exact h
theorem K.sort_good (cfg : ECfg Rec) (hl : cfg.Logs) (x : List ℚ) (y : Int) (w : ℚ) (P : List ℚ → Prop) (hx : P x)
    (t : Test) (k k' : K Rec) (b : Nat) (d : Int) (hb : t.branch x = .ok (b : Int)) (h : k.Good P t)
    (hs : k.sort cfg x y w b = .ok (k', d)) : k'.Good P t := by
  match k with
  | .nil =>
    rw [K.sort] at hs
    obtain ⟨rfl, rfl⟩ := Prod.mk.inj (Except.ok.inj hs)
    refine ⟨learn_good cfg hl (fun z => P z ∧ t.branch z = .ok (b : Int)) (newLeaf cfg.base true []) x y w ?_ ⟨hx, hb⟩, trivial⟩
    intro e he
    simp only [newLeaf, hl.1, List.not_mem_nil] at he
  | .cons j n rest =>
    rw [K.sort] at hs
    by_cases e : b = j
    · rw [if_pos e] at hs
      cases ht : n.sort cfg x y w with
      | error e => simp [ht] at hs
      | ok td =>
        obtain ⟨t', d'⟩ := td
        rw [ht] at hs
        obtain ⟨rfl, rfl⟩ := Prod.mk.inj (Except.ok.inj hs)
        exact ⟨N.sort_good cfg hl x y w _ ⟨hx, by rw [hb, e]⟩ n t' d' h.1 ht, h.2⟩
    · rw [if_neg e] at hs
      cases ht : rest.sort cfg x y w b with
      | error e => simp [ht] at hs
      | ok td =>
        obtain ⟨rest', d'⟩ := td
        rw [ht] at hs
        obtain ⟨rfl, rfl⟩ := Prod.mk.inj (Except.ok.inj hs)
        exact ⟨h.1, K.sort_good cfg hl x y w P hx t rest rest' b d' hb h.2 ht⟩
end

/-- With a tie threshold at most the bound, no test is replaced on the same attribute. -/
theorem no_retest {O : Type} (cfg : ECfg O) (hb : ∀ s, 0 ≤ cfg.bound s ∧ cfg.tie ≤ cfg.bound s) (t : Test) (s : Stats)
    (o : O) (v : ℚ) (t' : Test) : decision cfg t s o v ≠ .ok (.retest t') := by
  intro hd
  unfold decision at hd
  by_cases hdue : total s - v ≥ cfg.minReeval
  · rw [if_pos hdue] at hd
    unfold reevaluate at hd
    by_cases hp : isPure s = true
    · rw [if_pos hp] at hd; cases hd
    · rw [if_neg hp] at hd
      simp only at hd
      cases hl : (sortSuggs (cfg.suggest s o)).getLast? with
      | none => simp [hl] at hd
      | some b =>
        rw [hl] at hd
        simp only at hd
        by_cases hk : b.merit + (cfg.bound s : WithBot ℚ) < (cfg.nullMerit s : WithBot ℚ)
        · rw [if_pos hk] at hd; cases hd
        · rw [if_neg hk] at hd
          cases hf : findAttribute (attOf t) (sortSuggs (cfg.suggest s o)) with
          | none => simp [hf] at hd
          | some cur =>
            rw [hf] at hd
            simp only at hd
            by_cases hx : cur.merit + (cfg.bound s : WithBot ℚ) < b.merit ∨ cfg.bound s < cfg.tie
            · rw [if_pos hx] at hd
              by_cases ha : attOf t ≠ attOf b.test
              · rw [if_pos ha] at hd; cases hd
              · push Not at ha
                rcases hx with hx | hx
                · have hcur := (current_top _ _ _ hf).2 b (by
                    rw [List.mem_filter]
                    exact ⟨(best_top _ _ hl).1, by simp [ha]⟩)
                  have h0 : (0 : WithBot ℚ) ≤ ((cfg.bound s : ℚ) : WithBot ℚ) := by exact_mod_cast (hb s).1
                  exact absurd (lt_of_le_of_lt (le_add_of_nonneg_right h0) hx) (not_lt.2 hcur)
                · exact absurd hx (not_lt.2 (hb s).2)
            · rw [if_neg hx] at hd; cases hd
  · rw [if_neg hdue] at hd; cases hd

theorem attempt_good (cfg : ECfg Rec) (hl : cfg.Logs) (P : List ℚ → Prop) (g : Bool) (l : Leaf Rec)
    (h : ∀ e ∈ l.obs, P e.1) : (attempt cfg g l).1.Good P := by
  unfold attempt
  by_cases hc : g ∧ l.active ∧ total l.stats - l.last ≥ cfg.base.grace
  · rw [if_pos hc]
    cases splitOn cfg l.stats l.obs with
    | some g => exact ⟨h, newKids_good cfg hl P _ _ _⟩
    | none => exact h
  · rw [if_neg hc]; exact h

mutual
theorem N.process_good (cfg : ECfg Rec) (hl : cfg.Logs) (hb : ∀ s, 0 ≤ cfg.bound s ∧ cfg.tie ≤ cfg.bound s) (x : List ℚ) (y : Int)
    (w : ℚ) (gr : Bool) (P : List ℚ → Prop) (hx : P x) (t t' : N Rec) (c : Cnt) (h : t.Good P)
    (hs : t.process cfg x y w gr = .ok (t', c)) : t'.Good P := by
  match t with
  | .leaf l =>
    rw [N.process] at hs
    have hs := Except.ok.inj hs
    have := attempt_good cfg hl P gr l h
    rw [hs] at this
    exact this
  | .split t s o v kids =>
    rw [N.process] at hs
    simp only at hs
    have ho : ∀ e ∈ cfg.base.update o x y w, P e.1 := by
      intro e he
      rw [hl.2, List.mem_append, List.mem_singleton] at he
      rcases he with he | rfl
      · exact h.1 e he
      · exact hx
    cases hd : decision cfg t (bump s y w) (cfg.base.update o x y w) v with
    | error e => simp [hd] at hs
    | ok a =>
      rw [hd] at hs
      cases a with
      | kill =>
        obtain ⟨rfl, rfl⟩ := Prod.mk.inj (Except.ok.inj hs)
        exact ho
      | replace g =>
        obtain ⟨rfl, rfl⟩ := Prod.mk.inj (Except.ok.inj hs)
        exact ⟨ho, newKids_good cfg hl P _ _ _⟩
      | retest t2 => exact absurd hd (no_retest cfg hb _ _ _ _ _)
      | keep =>
        simp only [Action.test] at hs
        cases hbr : t.branch x with
        | error e => simp [hbr] at hs
        | ok b =>
          rw [hbr] at hs
          simp only at hs
          by_cases h0 : b ≥ 0
          · rw [if_pos h0] at hs
            cases hk : kids.process cfg x y w gr b.toNat with
            | error e => simp [hk] at hs
            | ok kd =>
              obtain ⟨kids', c'⟩ := kd
              rw [hk] at hs
              obtain ⟨rfl, rfl⟩ := Prod.mk.inj (Except.ok.inj hs)
              exact ⟨ho, K.process_good cfg hl hb x y w gr P hx t kids kids' b.toNat c'
                (by rw [hbr, Int.toNat_of_nonneg h0]) h.2 hk⟩
          · rw [if_neg h0] at hs
            obtain ⟨rfl, rfl⟩ := Prod.mk.inj (Except.ok.inj hs)
            exact ⟨ho, h.2⟩
theorem K.process_good (cfg : ECfg Rec) (hl : cfg.Logs) (hb : ∀ s, 0 ≤ cfg.bound s ∧ cfg.tie ≤ cfg.bound s) (x : List ℚ) (y : Int)
    (w : ℚ) (gr : Bool) (P : List ℚ → Prop) (hx : P x) (t : Test) (k k' : K Rec) (b : Nat) (c : Cnt)
    (hbr : t.branch x = .ok (b : Int)) (h : k.Good P t) (hs : k.process cfg x y w gr b = .ok (k', c)) : k'.Good P t := by
  match k with
  | .nil =>
    rw [K.process] at hs
    obtain ⟨rfl, rfl⟩ := Prod.mk.inj (Except.ok.inj hs)
    trivial
  | .cons j n rest =>
    rw [K.process] at hs
    by_cases e : b = j
    · rw [if_pos e] at hs
      cases ht : n.process cfg x y w gr with
      | error e => simp [ht] at hs
      | ok td =>
        obtain ⟨t', d'⟩ := td
        rw [ht] at hs
        obtain ⟨rfl, rfl⟩ := Prod.mk.inj (Except.ok.inj hs)
        exact ⟨N.process_good cfg hl hb x y w gr _ ⟨hx, by rw [hbr, e]⟩ n t' d' h.1 ht, h.2⟩
    · rw [if_neg e] at hs
      cases ht : rest.process cfg x y w gr b with
      | error e => simp [ht] at hs
      | ok td =>
        obtain ⟨rest', d'⟩ := td
        rw [ht] at hs
        obtain ⟨rfl, rfl⟩ := Prod.mk.inj (Except.ok.inj hs)
        exact ⟨h.1, K.process_good cfg hl hb x y w gr P hx t rest rest' b d' hbr h.2 ht⟩
end

mutual
theorem N.modify_good (P : List ℚ → Prop) (t : N Rec) (p : Path) (l' : Leaf Rec) (hl' : l'.obs = []) (h : t.Good P) :
    (t.modify (fun _ => .leaf l') p).Good P := by
  match t, p with
  | t, [] =>
    rw [show t.modify (fun _ => .leaf l') [] = .leaf l' by rw [N.modify]]
    intro e he
    rw [hl'] at he
    simp at he
  | .leaf a, i :: p => exact h
  | .split t s o v kids, i :: p => exact ⟨h.1, K.modify_good P t kids i p l' hl' h.2⟩
theorem K.modify_good (P : List ℚ → Prop) (t : Test) (k : K Rec) (i : Nat) (p : Path) (l' : Leaf Rec) (hl' : l'.obs = [])
    (h : k.Good P t) : (k.modify (fun _ => .leaf l') i p).Good P t := by
  match k with
  | .nil => trivial
  | .cons j n rest =>
    rw [K.modify]
    by_cases e : i = j
    · rw [if_pos e]; exact ⟨N.modify_good _ n p l' hl' h.1, h.2⟩
    · rw [if_neg e]; exact ⟨h.1, K.modify_good P t rest i p l' hl' h.2⟩
end

theorem flips_good (cfg : ECfg Rec) (hl : cfg.Logs) (P : List ℚ → Prop) (qs : List (Path × Bool)) (h : Tree Rec) (r : N Rec)
    (hr : h.root = some r) (hg : r.Good P) : ∃ r', (qs.foldl (flip cfg) h).root = some r' ∧ r'.Good P := by
  induction qs generalizing h r with
  | nil => exact ⟨r, hr, hg⟩
  | cons q qs ih =>
    obtain ⟨r1, h1, h2⟩ : ∃ r1, (flip cfg h q).root = some r1 ∧ r1.Good P := by
      unfold flip
      rw [hr]
      simp only
      cases hgt : r.get q.1 with
      | none => exact ⟨r, hr, hg⟩
      | some nd =>
        cases nd with
        | split t s o v kids => exact ⟨r, hr, hg⟩
        | leaf l =>
          simp only
          by_cases ha : l.active = q.2
          · rw [if_pos ha]; exact ⟨r, hr, hg⟩
          · rw [if_neg ha]
            exact ⟨_, rfl, N.modify_good P r q.1 _ hl.1 hg⟩
    exact ih _ r1 h1 h2

/-- C162 (partial): if the tie threshold never exceeds the Hoeffding bound (a tie threshold
of 0, for instance), then whatever was split, replaced, pruned or deactivated, every
instance in the observers of any node of the tree - leaf or split node - is one that the
tests of the tree send to that node.  Missing (and false, see the violation): larger tie
thresholds, with which a node takes over a new test and keeps its children. -/
theorem C162_routed_partial (cfg : ECfg Rec) (hl : cfg.Logs) (hb : ∀ s, 0 ≤ cfg.bound s ∧ cfg.tie ≤ cfg.bound s)
    (es : List Ev) (h : Tree Rec) (hr : run cfg {} es = .ok h) (r : N Rec) (hroot : h.root = some r)
    (p : Path) (n : N Rec) (hg : r.get p = some n) (e : List ℚ × Int × ℚ) (he : e ∈ n.obs) : r.Sends e.1 p := by
  have main : ∀ (es : List Ev) (h h' : Tree Rec), run cfg h es = .ok h' →
      (∀ r, h.root = some r → r.Good fun _ => True) → ∀ r, h'.root = some r → r.Good fun _ => True := by
    intro es
    induction es with
    | nil =>
      intro h h' hr hg
      have hr : Except.ok h = Except.ok h' := hr
      obtain rfl := Except.ok.inj hr
      exact hg
    | cons e es ih =>
      intro h h' hr hg
      rw [run] at hr
      cases hs : step cfg h e with
      | error err => simp [hs] at hr
      | ok h1 =>
        rw [hs] at hr
        refine ih h1 h' hr ?_
        obtain ⟨r1, d, r2, r3, c, a1, a2, a3, rfl⟩ := step_split cfg h h1 e hs
        have g0 : (h.rooted cfg).Good fun _ => True := by
          rw [Tree.rooted]
          cases h0 : h.root with
          | none => intro e he; trivial
          | some r => exact hg r h0
        have g1 := N.sort_good cfg hl e.x e.y e.w _ trivial _ r1 d g0 a1
        obtain ⟨r2', f1, f2⟩ := flips_good cfg hl _ e.estimate
          { h with root := some r1, actives := (if h.root = none then 1 else h.actives) + d } r1 rfl g1
        rw [a2] at f1
        obtain rfl := Option.some.inj f1
        have g3 := N.process_good cfg hl hb e.x e.y e.w e.growth _ trivial r2 r3 c f2 a3
        obtain ⟨r4, f3, f4⟩ := flips_good cfg hl _ e.enforce
          { (e.estimate.foldl (flip cfg)
              { h with root := some r1, actives := (if h.root = none then 1 else h.actives) + d }) with
            root := some r3,
            decisions := (e.estimate.foldl (flip cfg)
              { h with root := some r1, actives := (if h.root = none then 1 else h.actives) + d }).decisions + c.splits,
            actives := (e.estimate.foldl (flip cfg)
              { h with root := some r1, actives := (if h.root = none then 1 else h.actives) + d }).actives + c.leaves }
          r3 rfl g3
        intro r hr'
        rw [hr'] at f3
        obtain rfl := Option.some.inj f3
        exact f4
  exact (N.good_get _ r (main es {} h hr (fun r h => by cases h) r hroot) p n hg e he).2

/-! ### Violation and example -/

/-- The distinct values of attribute 0 seen, in increasing order: the branches of a
`NominalAttributeMultiwayTest`. -/
def values (o : Rec) : List ℚ := ((o.map fun r => r.1.getD 0 0).dedup).insertionSort (· ≤ ·)

/-- A nominal attribute split into one branch per value seen, as
`NominalAttributeClassObserver` suggests; `tie` is the tie threshold, the bound is 1/20. -/
def nominal (tie : ℚ) : ECfg Rec := demo tie (1/20) fun _ o =>
  [⟨.multi (MultiTest.create 0 (values o)),
    (values o).map fun v => (o.filter fun r => r.1.getD 0 0 = v).foldl (fun s r => bump s r.2.1 r.2.2) [], 1⟩]

/-- The leaf reached by `x`. -/
def leafFor (h : Tree Rec) (x : List ℚ) : Option (Leaf Rec) :=
  match h.root with
  | some (.split t _ _ _ kids) =>
    match t.branch x with
    | .ok (.ofNat b) =>
      match kids.get b [] with
      | some (.leaf l) => some l
      | _ => none
    | _ => none
  | some (.leaf l) => some l
  | none => none

/-- Value 1 is always of class 0 and value 2 of class 1; later value 0 appears, in class 2. -/
def appears : List Ev := [inst [1] 0 10, inst [2] 1 10, inst [1] 0 5, inst [2] 1 5, inst [0] 2 10]

/-- C162 (violated): with a tie threshold above the bound, a node that is re-evaluated takes
over the newest test on its attribute but keeps its children.  Here the appearance of the
value 0 renumbers the branches of a nominal split, so that instances of value 1, of class 0
throughout, are now answered by the leaf that learned the instances of value 2. -/
theorem C162_renumbered_violated :
    ((run (nominal (1/10)) {} (appears.take 4)).toOption.bind fun h => (leafFor h [1]).map Leaf.stats) = some [(0, 15)] ∧
    ((run (nominal (1/10)) {} appears).toOption.bind fun h => (leafFor h [1]).map fun l => (l.stats, l.obs)) =
      some ([(1, 15)], [([2], 1, 5)]) := by decide +kernel

/-- C162: with a tie threshold of 0 the same stream keeps its branches; the hypotheses of
`C162_routed_partial` are met. -/
example : ((run (nominal 0) {} appears).toOption.bind fun h => (leafFor h [1]).map fun l => (l.stats, l.obs)) =
      some ([(0, 15)], [([1], 0, 5)]) ∧
    (nominal 0).Logs ∧ ∀ s, 0 ≤ (nominal 0).bound s ∧ (nominal 0).tie ≤ (nominal 0).bound s := by
  refine ⟨by decide +kernel, ⟨rfl, fun _ _ _ _ => rfl⟩, fun s => ?_⟩
  constructor <;> norm_num [nominal, demo]

end Verif.Trees.EF
