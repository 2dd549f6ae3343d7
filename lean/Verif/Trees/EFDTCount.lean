import Verif.Trees.EFDTProps

/-!
Node counters of the extremely fast decision tree (C161).
-/

namespace Verif.Trees.EF

open Verif.Trees Verif.Trees.HL

variable {O : Type}

/-! ### Specification -/

mutual
/-- Number of split nodes in a tree. -/
def N.splits : N O → Nat
  | .leaf _ => 0
  | .split _ _ _ _ kids => 1 + kids.splits
/-- See `N.splits`. -/
def K.splits : K O → Nat
  | .nil => 0
  | .cons _ t rest => t.splits + rest.splits
end

mutual
/-- The leaves of a tree, left to right. -/
def N.leaves : N O → List (Leaf O)
  | .leaf l => [l]
  | .split _ _ _ _ kids => kids.leaves
/-- See `N.leaves`. -/
def K.leaves : K O → List (Leaf O)
  | .nil => []
  | .cons _ t rest => t.leaves ++ rest.leaves
end

/-- Suggestions for instances with `n` attributes, where a split on attribute `a` always has
`arity a` branches, with one class distribution each. -/
def ECfg.Sound (cfg : ECfg O) (n : Nat) (arity : Int → Nat) : Prop :=
  ∀ s o, ∀ g ∈ cfg.suggest s o, g.test.Ok n (arity (attOf g.test)) ∧ g.dists.length = arity (attOf g.test)

/-- No leaf is deactivated or activated during an instance. -/
def Ev.Unmanaged (e : Ev) : Prop := e.estimate = [] ∧ e.enforce = []

/-! ### Proofs -/

mutual
/-- Every split node has the children `0, …, k-1`, `k` the arity of its attribute. -/
def N.WF (n : Nat) (ar : Int → Nat) : N O → Prop
  | .leaf _ => True
  | .split t _ _ _ kids => t.Ok n (ar (attOf t)) ∧ kids.WFfrom n ar 0 (ar (attOf t))
/-- See `N.WF`. -/
def K.WFfrom (n : Nat) (ar : Int → Nat) : K O → Nat → Nat → Prop
  | .nil, i, k => i = k
  | .cons j t rest, i, k => j = i ∧ t.WF n ar ∧ rest.WFfrom n ar (i + 1) k
end

theorem K.length_WF (n : Nat) (ar : Int → Nat) (k : K O) (i m : Nat) (h : k.WFfrom n ar i m) : i + k.length = m := by
  match k with
  | .nil => simpa [K.length, K.WFfrom] using h
  | .cons j t rest =>
    have := K.length_WF n ar rest (i + 1) m h.2.2
    simp only [K.length]; omega

mutual
theorem N.countNodes_WF (n : Nat) (ar : Int → Nat) (t : N O) (h : t.WF n ar) :
    t.countNodes = ⟨(t.splits : Int), (t.leaves.length : Int)⟩ := by
  match t with
  | .leaf l => rfl
  | .split t s o v kids =>
    have hl := K.length_WF n ar kids 0 _ h.2
    have := K.countNodes_WF n ar kids 0 _ h.2 kids.length (by omega)
    simp only [N.countNodes, this, N.splits, N.leaves]
    simp
theorem K.countNodes_WF (n : Nat) (ar : Int → Nat) (k : K O) (i m : Nat) (h : k.WFfrom n ar i m) (c : Nat) (hc : m ≤ c) :
    k.countNodes c = ⟨(k.splits : Int), (k.leaves.length : Int)⟩ := by
  match k with
  | .nil => rfl
  | .cons j t rest =>
    obtain ⟨rfl, h1, h2⟩ := h
    have hl := K.length_WF n ar rest _ _ h2
    have a := N.countNodes_WF n ar t h1
    have b := K.countNodes_WF n ar rest _ m h2 c hc
    rw [K.countNodes]
    simp only [a, b]
    rw [if_pos (by omega)]
    simp [K.splits, K.leaves]
end

theorem newKids_WF (cfg : ECfg O) (n : Nat) (ar : Int → Nat) (ds : List Stats) (i : Nat) :
    (newKids cfg i ds).WFfrom n ar i (i + ds.length) := by
  induction ds generalizing i with
  | nil => simp [newKids, K.WFfrom]
  | cons d ds ih =>
    refine ⟨rfl, trivial, ?_⟩
    have := ih (i + 1)
    rwa [show i + 1 + ds.length = i + (d :: ds).length by simp; omega] at this

theorem newKids_splits (cfg : ECfg O) (ds : List Stats) (i : Nat) : (newKids cfg i ds).splits = 0 := by
  induction ds generalizing i with
  | nil => rfl
  | cons d ds ih => simp [newKids, K.splits, N.splits, ih]

theorem newKids_leaves (cfg : ECfg O) (ds : List Stats) (i : Nat) :
    (newKids cfg i ds).leaves = ds.map (newLeaf cfg.base true) := by
  induction ds generalizing i with
  | nil => rfl
  | cons d ds ih => simp [newKids, K.leaves, N.leaves, ih]

theorem branch_lt {n k : Nat} {t : Test} (h : t.Ok n k) (x : List ℚ) (hx : x.length = n) (b : Int)
    (hb : t.branch x = .ok b) (h0 : b ≥ 0) : b.toNat < k := by
  rcases Test.branch_ok h x hx with ⟨b', h1, h2⟩ | ⟨m, _, h2⟩
  · rw [hb] at h2
    obtain rfl := Except.ok.inj h2
    simpa using h1
  · rw [hb] at h2
    obtain rfl := Except.ok.inj h2
    omega

mutual
theorem N.sort_count (cfg : ECfg O) (n : Nat) (ar : Int → Nat) (x : List ℚ) (hx : x.length = n) (y : Int) (w : ℚ) (t t' : N O)
    (d : Int) (h : t.WF n ar) (hs : t.sort cfg x y w = .ok (t', d)) :
    d = 0 ∧ t'.WF n ar ∧ t'.splits = t.splits ∧ t'.leaves.map Leaf.active = t.leaves.map Leaf.active := by
  match t with
  | .leaf l =>
    rw [N.sort] at hs
    obtain ⟨rfl, rfl⟩ := Prod.mk.inj (Except.ok.inj hs)
    exact ⟨rfl, trivial, rfl, rfl⟩
  | .split t s o v kids =>
    rw [N.sort] at hs
    cases hb : t.branch x with
    | error e => simp [hb] at hs
    | ok b =>
      rw [hb] at hs
      simp only at hs
      by_cases h0 : b ≥ 0
      · rw [if_pos h0] at hs
        cases hk : kids.sort cfg x y w b.toNat with
        | error e => simp [hk] at hs
        | ok kd =>
          obtain ⟨kids', d'⟩ := kd
          rw [hk] at hs
          obtain ⟨rfl, rfl⟩ := Prod.mk.inj (Except.ok.inj hs)
          obtain ⟨h1, h2, h3, h4⟩ := K.sort_count cfg n ar x hx y w kids kids' b.toNat 0 _ d' h.2
            (by omega) (branch_lt h.1 x hx b hb h0) hk
          exact ⟨h1, ⟨h.1, h2⟩, by simp only [N.splits, h3], by simpa only [N.leaves] using h4⟩
      · rw [if_neg h0] at hs
        obtain ⟨rfl, rfl⟩ := Prod.mk.inj (Except.ok.inj hs)
        exact ⟨rfl, h, rfl, rfl⟩
theorem K.sort_count (cfg : ECfg O) (n : Nat) (ar : Int → Nat) (x : List ℚ) (hx : x.length = n) (y : Int) (w : ℚ) (k k' : K O)
    (b i m : Nat) (d : Int) (h : k.WFfrom n ar i m) (hi : i ≤ b) (hm : b < m) (hs : k.sort cfg x y w b = .ok (k', d)) :
    d = 0 ∧ k'.WFfrom n ar i m ∧ k'.splits = k.splits ∧ k'.leaves.map Leaf.active = k.leaves.map Leaf.active := by
  match k with
  | .nil => simp only [K.WFfrom] at h; omega
  | .cons j t rest =>
    obtain ⟨rfl, h1, h2⟩ := h
    rw [K.sort] at hs
    by_cases e : b = j
    · rw [if_pos e] at hs
      cases ht : t.sort cfg x y w with
      | error e => simp [ht] at hs
      | ok td =>
        obtain ⟨t', d'⟩ := td
        rw [ht] at hs
        obtain ⟨rfl, rfl⟩ := Prod.mk.inj (Except.ok.inj hs)
        obtain ⟨a1, a2, a3, a4⟩ := N.sort_count cfg n ar x hx y w t t' d' h1 ht
        exact ⟨a1, ⟨rfl, a2, h2⟩, by simp only [K.splits, a3], by simp only [K.leaves, List.map_append, a4]⟩
    · rw [if_neg e] at hs
      cases ht : rest.sort cfg x y w b with
      | error e => simp [ht] at hs
      | ok td =>
        obtain ⟨rest', d'⟩ := td
        rw [ht] at hs
        obtain ⟨rfl, rfl⟩ := Prod.mk.inj (Except.ok.inj hs)
        obtain ⟨a1, a2, a3, a4⟩ := K.sort_count cfg n ar x hx y w rest rest' b (j + 1) m d' h2 (by omega) hm ht
        exact ⟨a1, ⟨rfl, h1, a2⟩, by simp only [K.splits, a3], by simp only [K.leaves, List.map_append, a4]⟩
end

theorem newSplit_count (cfg : ECfg O) (n : Nat) (ar : Int → Nat) (hc : cfg.Sound n ar) (g : Sugg) (s s' : Stats) (o o' : O)
    (hg : g ∈ cfg.suggest s o) :
    (newSplit cfg g s' o').WF n ar ∧ (newSplit cfg g s' o').splits = 1 ∧
    (newSplit cfg g s' o').leaves.length = g.dists.length ∧ ∀ l ∈ (newSplit cfg g s' o').leaves, l.active = true := by
  obtain ⟨h1, h2⟩ := hc s o g hg
  refine ⟨⟨h1, ?_⟩, ?_, ?_, ?_⟩
  · have := newKids_WF cfg n ar g.dists 0
    rwa [Nat.zero_add, h2] at this
  · simp [newSplit, N.splits, newKids_splits]
  · simp [newSplit, N.leaves, newKids_leaves]
  · intro l hl
    simp only [newSplit, N.leaves, newKids_leaves, List.mem_map] at hl
    obtain ⟨d, _, rfl⟩ := hl
    rfl

theorem splitOn_mem (cfg : ECfg O) (s : Stats) (o : O) (g : Sugg) (h : splitOn cfg s o = some g) : g ∈ cfg.suggest s o := by
  unfold splitOn at h
  by_cases hp : isPure s = true
  · rw [if_pos hp] at h; cases h
  · rw [if_neg hp] at h
    cases hl : (sortSuggs (cfg.suggest s o)).getLast? with
    | none => simp [hl] at h
    | some b =>
      rw [hl] at h
      simp only at h
      split at h
      · obtain rfl := Option.some.inj h
        exact (best_top _ _ hl).1
      · cases h

/-- What a decision is about. -/
theorem decision_mem (cfg : ECfg O) (t : Test) (s : Stats) (o : O) (v : ℚ) :
    (∀ g, decision cfg t s o v = .ok (.replace g) → g ∈ cfg.suggest s o ∧ attOf g.test ≠ attOf t) ∧
    (∀ t', decision cfg t s o v = .ok (.retest t') → ∃ g ∈ cfg.suggest s o, t' = g.test ∧ attOf t' = attOf t) := by
  unfold decision
  by_cases hd : total s - v ≥ cfg.minReeval
  · rw [if_pos hd]
    unfold reevaluate
    by_cases hp : isPure s = true
    · rw [if_pos hp]
      exact ⟨fun g h => (by cases h), fun t' h => (by cases h)⟩
    · rw [if_neg hp]
      simp only
      cases hl : (sortSuggs (cfg.suggest s o)).getLast? with
      | none => exact ⟨fun g h => (by cases h), fun t' h => (by cases h)⟩
      | some b =>
        have hb := (best_top _ _ hl).1
        simp only
        by_cases hk : b.merit + (cfg.bound s : WithBot ℚ) < (cfg.nullMerit s : WithBot ℚ)
        · rw [if_pos hk]
          exact ⟨fun g h => (by cases h), fun t' h => (by cases h)⟩
        · rw [if_neg hk]
          cases hf : findAttribute (attOf t) (sortSuggs (cfg.suggest s o)) with
          | none => exact ⟨fun g h => (by cases h), fun t' h => (by cases h)⟩
          | some cur =>
            simp only
            by_cases hx : cur.merit + (cfg.bound s : WithBot ℚ) < b.merit ∨ cfg.bound s < cfg.tie
            · rw [if_pos hx]
              by_cases ha : attOf t ≠ attOf b.test
              · rw [if_pos ha]
                refine ⟨fun g h => ?_, fun t' h => (by cases h)⟩
                injection h with h; injection h with h
                subst h
                exact ⟨hb, fun e => ha e.symm⟩
              · rw [if_neg ha]
                refine ⟨fun g h => (by cases h), fun t' h => ?_⟩
                injection h with h; injection h with h
                subst h
                push Not at ha
                exact ⟨b, hb, rfl, ha.symm⟩
            · rw [if_neg hx]
              exact ⟨fun g h => (by cases h), fun t' h => (by cases h)⟩
  · rw [if_neg hd]
    exact ⟨fun g h => (by cases h), fun t' h => (by cases h)⟩

theorem attempt_count (cfg : ECfg O) (n : Nat) (ar : Int → Nat) (hc : cfg.Sound n ar) (g : Bool) (l : Leaf O) :
    (attempt cfg g l).1.WF n ar ∧ ((attempt cfg g l).1.splits : Int) = 0 + (attempt cfg g l).2.splits ∧
    ((attempt cfg g l).1.leaves.length : Int) = 1 + (attempt cfg g l).2.leaves ∧
    (l.active = true → ∀ l' ∈ (attempt cfg g l).1.leaves, l'.active = true) := by
  unfold attempt
  by_cases h : g ∧ l.active ∧ total l.stats - l.last ≥ cfg.base.grace
  · rw [if_pos h]
    cases hs : splitOn cfg l.stats l.obs with
    | some g =>
      obtain ⟨a1, a2, a3, a4⟩ := newSplit_count cfg n ar hc g l.stats l.stats l.obs l.obs (splitOn_mem cfg _ _ g hs)
      exact ⟨a1, by simp [a2], by simp only [a3]; omega, fun _ => a4⟩
    | none => exact ⟨trivial, rfl, rfl, fun ha l' hl' => by simp only [N.leaves, List.mem_singleton] at hl'; subst hl'; exact ha⟩
  · rw [if_neg h]
    exact ⟨trivial, rfl, rfl, fun ha l' hl' => by simp only [N.leaves, List.mem_singleton] at hl'; subst hl'; exact ha⟩

mutual
theorem N.process_count (cfg : ECfg O) (n : Nat) (ar : Int → Nat) (hc : cfg.Sound n ar) (x : List ℚ) (hx : x.length = n) (y : Int)
    (w : ℚ) (gr : Bool) (t t' : N O) (c : Cnt) (h : t.WF n ar) (hs : t.process cfg x y w gr = .ok (t', c)) :
    t'.WF n ar ∧ (t'.splits : Int) = t.splits + c.splits ∧ (t'.leaves.length : Int) = t.leaves.length + c.leaves ∧
    ((∀ l ∈ t.leaves, l.active = true) → ∀ l ∈ t'.leaves, l.active = true) := by
  match t with
  | .leaf l =>
    rw [N.process] at hs
    have hs := Except.ok.inj hs
    have := attempt_count cfg n ar hc gr l
    rw [hs] at this
    exact ⟨this.1, this.2.1, this.2.2.1, fun ha => this.2.2.2 (ha l (by simp [N.leaves]))⟩
  | .split t s o v kids =>
    rw [N.process] at hs
    simp only at hs
    have hcn : (N.split t (bump s y w) (cfg.base.update o x y w) v kids).countNodes =
        ⟨((N.split t s o v kids).splits : Int), ((N.split t s o v kids).leaves.length : Int)⟩ :=
      N.countNodes_WF n ar (N.split t (bump s y w) (cfg.base.update o x y w) v kids) h
    obtain ⟨m1, m2⟩ := decision_mem cfg t (bump s y w) (cfg.base.update o x y w) v
    have key : ∀ t2 : Test, t2.Ok n (ar (attOf t2)) → attOf t2 = attOf t → (match t2.branch x with
        | .error e => (.error e : Except PyErr (N O × Cnt))
        | .ok b =>
          if b ≥ 0 then
            match kids.process cfg x y w gr b.toNat with
            | .error e => .error e
            | .ok (kids', c) => .ok (.split t2 (bump s y w) (cfg.base.update o x y w) v kids', c)
          else .ok (.split t2 (bump s y w) (cfg.base.update o x y w) v kids, ⟨0, 0⟩)) = .ok (t', c) →
        t'.WF n ar ∧ (t'.splits : Int) = (N.split t s o v kids).splits + c.splits ∧
          (t'.leaves.length : Int) = (N.split t s o v kids).leaves.length + c.leaves ∧
          ((∀ l ∈ (N.split t s o v kids).leaves, l.active = true) → ∀ l ∈ t'.leaves, l.active = true) := by
      intro t2 hok hatt h'
      cases hb : t2.branch x with
      | error e => simp [hb] at h'
      | ok b =>
        rw [hb] at h'
        simp only at h'
        by_cases h0 : b ≥ 0
        · rw [if_pos h0] at h'
          cases hk : kids.process cfg x y w gr b.toNat with
          | error e => simp [hk] at h'
          | ok kd =>
            obtain ⟨kids', c'⟩ := kd
            rw [hk] at h'
            obtain ⟨rfl, rfl⟩ := Prod.mk.inj (Except.ok.inj h')
            obtain ⟨a1, a2, a3, a4⟩ := K.process_count cfg n ar hc x hx y w gr kids kids' b.toNat 0 _ c' h.2 hk
            refine ⟨⟨hok, by rw [hatt]; exact a1⟩, ?_, ?_, ?_⟩
            · simp only [N.splits]; push_cast; rw [a2]; ring
            · simp only [N.leaves]; exact a3
            · simp only [N.leaves]; exact a4
        · rw [if_neg h0] at h'
          obtain ⟨rfl, rfl⟩ := Prod.mk.inj (Except.ok.inj h')
          exact ⟨⟨hok, by rw [hatt]; exact h.2⟩, by simp [N.splits], by simp [N.leaves], fun ha => ha⟩
    cases hd : decision cfg t (bump s y w) (cfg.base.update o x y w) v with
    | error e => simp [hd] at hs
    | ok a =>
      rw [hd] at hs
      cases a with
      | kill =>
        simp only [hcn] at hs
        obtain ⟨rfl, rfl⟩ := Prod.mk.inj (Except.ok.inj hs)
        refine ⟨trivial, by simp [killed, N.splits], by simp [killed, N.leaves], ?_⟩
        intro _ l hl
        simp only [killed, N.leaves, List.mem_singleton] at hl
        subst hl; rfl
      | replace g =>
        simp only [hcn] at hs
        obtain ⟨rfl, rfl⟩ := Prod.mk.inj (Except.ok.inj hs)
        obtain ⟨a1, a2, a3, a4⟩ := newSplit_count cfg n ar hc g _ (bump s y w) _ (cfg.base.update o x y w) (m1 g hd).1
        exact ⟨a1, by rw [a2]; push_cast; ring, by rw [a3]; ring, fun _ => a4⟩
      | keep => exact key t h.1 rfl hs
      | retest t2 =>
        obtain ⟨g, hg, rfl, hatt⟩ := m2 t2 hd
        exact key g.test (hc _ _ g hg).1 hatt hs
theorem K.process_count (cfg : ECfg O) (n : Nat) (ar : Int → Nat) (hc : cfg.Sound n ar) (x : List ℚ) (hx : x.length = n) (y : Int)
    (w : ℚ) (gr : Bool) (k k' : K O) (b i m : Nat) (c : Cnt) (h : k.WFfrom n ar i m)
    (hs : k.process cfg x y w gr b = .ok (k', c)) :
    k'.WFfrom n ar i m ∧ (k'.splits : Int) = k.splits + c.splits ∧ (k'.leaves.length : Int) = k.leaves.length + c.leaves ∧
    ((∀ l ∈ k.leaves, l.active = true) → ∀ l ∈ k'.leaves, l.active = true) := by
  match k with
  | .nil =>
    rw [K.process] at hs
    obtain ⟨rfl, rfl⟩ := Prod.mk.inj (Except.ok.inj hs)
    exact ⟨h, rfl, rfl, fun h => h⟩
  | .cons j t rest =>
    obtain ⟨rfl, h1, h2⟩ := h
    rw [K.process] at hs
    by_cases e : b = j
    · rw [if_pos e] at hs
      cases ht : t.process cfg x y w gr with
      | error e => simp [ht] at hs
      | ok td =>
        obtain ⟨t', d'⟩ := td
        rw [ht] at hs
        obtain ⟨rfl, rfl⟩ := Prod.mk.inj (Except.ok.inj hs)
        obtain ⟨a1, a2, a3, a4⟩ := N.process_count cfg n ar hc x hx y w gr t t' d' h1 ht
        refine ⟨⟨rfl, a1, h2⟩, ?_, ?_, ?_⟩
        · simp only [K.splits]; push_cast; rw [a2]; ring
        · simp only [K.leaves, List.length_append]; push_cast; rw [a3]; ring
        · intro ha l hl
          simp only [K.leaves, List.mem_append] at ha hl
          rcases hl with hl | hl
          · exact a4 (fun l' hl' => ha l' (.inl hl')) l hl
          · exact ha l (.inr hl)
    · rw [if_neg e] at hs
      cases ht : rest.process cfg x y w gr b with
      | error e => simp [ht] at hs
      | ok td =>
        obtain ⟨rest', d'⟩ := td
        rw [ht] at hs
        obtain ⟨rfl, rfl⟩ := Prod.mk.inj (Except.ok.inj hs)
        obtain ⟨a1, a2, a3, a4⟩ := K.process_count cfg n ar hc x hx y w gr rest rest' b (j + 1) m d' h2 ht
        refine ⟨⟨rfl, h1, a1⟩, ?_, ?_, ?_⟩
        · simp only [K.splits]; push_cast; rw [a2]; ring
        · simp only [K.leaves, List.length_append]; push_cast; rw [a3]; ring
        · intro ha l hl
          simp only [K.leaves, List.mem_append] at ha hl
          rcases hl with hl | hl
          · exact ha l (.inl hl)
          · exact a4 (fun l' hl' => ha l' (.inr hl')) l hl
end

mutual
theorem N.modify_count (n : Nat) (ar : Int → Nat) (t : N O) (p : Path) (l l' : Leaf O) (h : t.WF n ar) (hg : t.get p = some (.leaf l)) :
    (t.modify (fun _ => .leaf l') p).WF n ar ∧ (t.modify (fun _ => .leaf l') p).splits = t.splits ∧
    (t.modify (fun _ => .leaf l') p).leaves.length = t.leaves.length := by
  match t, p with
  | .leaf a, [] => exact ⟨trivial, rfl, rfl⟩
  | .leaf a, i :: p => simp [N.get] at hg
  | .split t s o v kids, [] => simp [N.get] at hg
  | .split t s o v kids, i :: p =>
    simp only [N.get] at hg
    obtain ⟨a1, a2, a3⟩ := K.modify_count n ar kids i p 0 _ l l' h.2 hg
    exact ⟨⟨h.1, a1⟩, by simp only [N.modify, N.splits, a2], by simpa only [N.modify, N.leaves] using a3⟩
theorem K.modify_count (n : Nat) (ar : Int → Nat) (k : K O) (i : Nat) (p : Path) (a m : Nat) (l l' : Leaf O)
    (h : k.WFfrom n ar a m) (hg : k.get i p = some (.leaf l)) :
    (k.modify (fun _ => .leaf l') i p).WFfrom n ar a m ∧ (k.modify (fun _ => .leaf l') i p).splits = k.splits ∧
    (k.modify (fun _ => .leaf l') i p).leaves.length = k.leaves.length := by
  match k with
  | .nil => simp [K.get] at hg
  | .cons j t rest =>
    obtain ⟨rfl, h1, h2⟩ := h
    rw [K.get] at hg
    rw [K.modify]
    by_cases e : i = j
    · rw [if_pos e] at hg ⊢
      obtain ⟨a1, a2, a3⟩ := N.modify_count n ar t p l l' h1 hg
      exact ⟨⟨rfl, a1, h2⟩, by simp only [K.splits, a2], by simp only [K.leaves, List.length_append, a3]⟩
    · rw [if_neg e] at hg ⊢
      obtain ⟨a1, a2, a3⟩ := K.modify_count n ar rest i p _ _ l l' h2 hg
      exact ⟨⟨rfl, h1, a1⟩, by simp only [K.splits, a2], by simp only [K.leaves, List.length_append, a3]⟩
end

/-- What the counters say. -/
def Tree.Counted (n : Nat) (ar : Int → Nat) (h : Tree O) (r : N O) : Prop :=
  h.root = some r ∧ r.WF n ar ∧ h.decisions = r.splits ∧ h.actives + h.inactives = r.leaves.length

theorem flips_count (cfg : ECfg O) (n : Nat) (ar : Int → Nat) (qs : List (Path × Bool)) (h : Tree O) (r : N O)
    (hc : h.Counted n ar r) : ∃ r', (qs.foldl (flip cfg) h).Counted n ar r' := by
  induction qs generalizing h r with
  | nil => exact ⟨r, hc⟩
  | cons q qs ih =>
    obtain ⟨r1, h1⟩ : ∃ r1, (flip cfg h q).Counted n ar r1 := by
      unfold flip
      rw [hc.1]
      simp only
      cases hg : r.get q.1 with
      | none => exact ⟨r, hc⟩
      | some nd =>
        cases nd with
        | split t s o v kids => exact ⟨r, hc⟩
        | leaf l =>
          simp only
          by_cases ha : l.active = q.2
          · rw [if_pos ha]; exact ⟨r, hc⟩
          · rw [if_neg ha]
            obtain ⟨a1, a2, a3⟩ := N.modify_count n ar r q.1 l (newLeaf cfg.base q.2 l.stats) hc.2.1 hg
            refine ⟨_, rfl, a1, by rw [a2]; exact hc.2.2.1, ?_⟩
            rw [a3, ← hc.2.2.2]
            simp only
            ring
    exact ih _ r1 h1

/-- C161 (partial): if splits on an attribute always have the same number of branches, the
decision node counter is always the number of split nodes, and the active and inactive leaf
counters together are always the number of leaves; without memory management no leaf is
inactive, so each of the three counters is exact.  Missing (and false, see the violations):
the separate leaf counters under memory management; nominal attributes whose number of
branches changes. -/
theorem C161_counters_partial (cfg : ECfg O) (n : Nat) (arity : Int → Nat) (hc : cfg.Sound n arity) (es : List Ev)
    (hx : ∀ e ∈ es, e.x.length = n) (hne : es ≠ []) (h : Tree O) (hr : run cfg {} es = .ok h) :
    ∃ r, h.root = some r ∧ h.decisions = r.splits ∧ h.actives + h.inactives = r.leaves.length ∧
      ((∀ e ∈ es, e.Unmanaged) → h.inactives = 0 ∧ ∀ l ∈ r.leaves, l.active = true) := by
  have stepc : ∀ (h h' : Tree O) (e : Ev), e.x.length = n → step cfg h e = .ok h' →
      (h.root = none ∧ h.decisions = 0 ∧ h.inactives = 0 ∨ ∃ r, h.Counted n arity r) →
      ∃ r', h'.Counted n arity r' ∧ (e.Unmanaged →
        h'.inactives = h.inactives ∧ ((∀ l ∈ (h.rooted cfg).leaves, l.active = true) → ∀ l ∈ r'.leaves, l.active = true)) := by
    intro h h' e hxe hs hinv
    obtain ⟨r1, d, r2, r3, c, a1, a2, a3, rfl⟩ := step_split cfg h h' e hs
    have hroot : (h.rooted cfg).WF n arity ∧ h.decisions = (h.rooted cfg).splits ∧
        (if h.root = none then 1 else h.actives) + h.inactives = (h.rooted cfg).leaves.length := by
      rcases hinv with ⟨h0, h1, h2⟩ | ⟨r, hr⟩
      · rw [Tree.rooted, h0, h1, h2]
        exact ⟨trivial, rfl, rfl⟩
      · have hrt : h.rooted cfg = r := by rw [Tree.rooted, hr.1]; rfl
        rw [hrt, hr.1, if_neg (by simp)]
        exact hr.2
    obtain ⟨rfl, b2, b3, b4⟩ := N.sort_count cfg n arity e.x hxe e.y e.w _ r1 d hroot.1 a1
    have hlen : r1.leaves.length = (h.rooted cfg).leaves.length := by
      have := congrArg List.length b4
      simpa using this
    have hact : (∀ l ∈ (h.rooted cfg).leaves, l.active = true) → ∀ l ∈ r1.leaves, l.active = true := by
      intro ha l hl
      have hm : l.active ∈ r1.leaves.map Leaf.active := List.mem_map_of_mem hl
      rw [b4] at hm
      obtain ⟨l', hl', e'⟩ := List.mem_map.1 hm
      rw [← e']
      exact ha l' hl'
    set h0 : Tree O := { h with root := some r1, actives := (if h.root = none then 1 else h.actives) + 0 } with hh0
    have hcnt0 : h0.Counted n arity r1 := by
      refine ⟨rfl, b2, ?_, ?_⟩
      · rw [hh0, b3]; exact hroot.2.1
      · rw [hh0, hlen, ← hroot.2.2]; simp
    obtain ⟨r2', hcnt1⟩ := flips_count cfg n arity e.estimate h0 r1 hcnt0
    have : r2' = r2 := by
      have := hcnt1.1
      rw [a2] at this
      exact (Option.some.inj this).symm
    subst this
    obtain ⟨p1, p2, p3, p4⟩ := N.process_count cfg n arity hc e.x hxe e.y e.w e.growth r2' r3 c hcnt1.2.1 a3
    have hcnt2 : Tree.Counted n arity { (e.estimate.foldl (flip cfg) h0) with
        root := some r3,
        decisions := (e.estimate.foldl (flip cfg) h0).decisions + c.splits,
        actives := (e.estimate.foldl (flip cfg) h0).actives + c.leaves } r3 := by
      refine ⟨rfl, p1, ?_, ?_⟩
      · rw [p2, ← hcnt1.2.2.1]
      · rw [p3, ← hcnt1.2.2.2]; simp only; ring
    obtain ⟨r4, hcnt3⟩ := flips_count cfg n arity e.enforce _ r3 hcnt2
    refine ⟨r4, hcnt3, ?_⟩
    rintro ⟨u1, u2⟩
    rw [u1] at a2 hcnt3 ⊢
    rw [u2] at hcnt3 ⊢
    have e1 : r3 = r4 := Option.some.inj hcnt3.1
    have e2 : r1 = r2' := Option.some.inj a2
    subst e1 e2
    exact ⟨rfl, fun ha => p4 (hact ha)⟩
  have main : ∀ (es : List Ev) (h h' : Tree O), (∀ e ∈ es, e.x.length = n) → run cfg h es = .ok h' →
      (h.root = none ∧ h.decisions = 0 ∧ h.inactives = 0 ∨ ∃ r, h.Counted n arity r) →
      (es ≠ [] → ∃ r', h'.Counted n arity r') ∧
      ((∀ e ∈ es, e.Unmanaged) → h.inactives = 0 → (∀ l ∈ (h.rooted cfg).leaves, l.active = true) →
        h'.inactives = 0 ∧ ∀ l ∈ (h'.rooted cfg).leaves, l.active = true) := by
    intro es
    induction es with
    | nil =>
      intro h h' _ hr _
      have hr : Except.ok h = Except.ok h' := hr
      obtain rfl := Except.ok.inj hr
      exact ⟨fun h => absurd rfl h, fun _ h1 h2 => ⟨h1, h2⟩⟩
    | cons e es ih =>
      intro h h' hx hr hinv
      rw [run] at hr
      cases hs : step cfg h e with
      | error err => simp [hs] at hr
      | ok h1 =>
        rw [hs] at hr
        obtain ⟨r', c1, c2⟩ := stepc h h1 e (hx e (by simp)) hs hinv
        obtain ⟨i1, i2⟩ := ih h1 h' (fun e' he' => hx e' (by simp [he'])) hr (.inr ⟨r', c1⟩)
        have hrt : h1.rooted cfg = r' := by rw [Tree.rooted, c1.1]; rfl
        constructor
        · intro _
          cases es with
          | nil =>
            have hr : Except.ok h1 = Except.ok h' := hr
            obtain rfl := Except.ok.inj hr
            exact ⟨r', c1⟩
          | cons e' es' => exact i1 (by simp)
        · intro hu h0 ha
          obtain ⟨d1, d2⟩ := c2 (hu e (by simp))
          exact i2 (fun e' he' => hu e' (by simp [he'])) (by rw [d1, h0]) (by rw [hrt]; exact d2 ha)
  obtain ⟨m1, m2⟩ := main es {} h hx hr (.inl ⟨rfl, rfl, rfl⟩)
  obtain ⟨r, hcnt⟩ := m1 hne
  have hrt : h.rooted cfg = r := by rw [Tree.rooted, hcnt.1]; rfl
  refine ⟨r, hcnt.1, hcnt.2.2.1, hcnt.2.2.2, fun hu => ?_⟩
  have := m2 hu rfl (by intro l hl; simp only [Tree.rooted, Option.getD_none, N.leaves, List.mem_singleton] at hl; subst hl; rfl)
  rw [hrt] at this
  exact this

/-- Counters, and the actual numbers of split nodes, active and inactive leaves. -/
def counts (h : Tree Rec) : (Int × Int × Int) × (Nat × Nat × Nat) :=
  ((h.decisions, h.actives, h.inactives),
   match h.root with
   | none => (0, 0, 0)
   | some r => (r.splits, (r.leaves.filter fun l => l.active).length, (r.leaves.filter fun l => !l.active).length))

/-- As `four`, and the memory manager deactivates the left leaf right after the split. -/
def fourManaged : List Ev :=
  [inst [1, 9] 0 10, ⟨[9, 1], 1, 10, true, [], [([0], false)]⟩, inst [1, 1] 1 10, inst [9, 9] 0 10]

/-- C161 (violated): replacing a subtree subtracts all its leaves from the active counter,
inactive ones included, and never touches the inactive counter.  Here the tree ends with
two active leaves and no inactive one; the counters say one and one. -/
theorem C161_inactive_violated :
    ((run changing {} (fourManaged.take 3)).toOption.map counts) = some ((1, 1, 1), (1, 1, 1)) ∧
    ((run changing {} fourManaged).toOption.map counts) = some ((1, 1, 1), (1, 2, 0)) := by decide +kernel

/-- A nominal attribute, first split in two, then with one branch per value, then useless. -/
def widening : ECfg Rec := demo 1 (1/2) fun s _ =>
  if total s < 40 then [⟨.nom ⟨0, 1⟩, [[], []], 1⟩]
  else [⟨.multi (MultiTest.create 0 [0, 1, 2, 3]), [[], [], [], []], if total s < 60 then 1 else ⊥⟩]

/-- Five instances; the fourth is the first to have a branch beyond the two existing ones. -/
def five : List Ev := [inst [1] 0 10, inst [2] 1 10, inst [1] 0 20, inst [3] 1 10, inst [1] 0 10]

/-- C161 (violated): `count_nodes` looks for the children `0, …, n_children - 1`; when a
two-way nominal test has been replaced by one branch per value, children with larger ids
can exist, and they stay in the active counter when the subtree is pruned.  Here the tree
ends as a single leaf; the counter says two. -/
theorem C161_hidden_child_violated :
    ((run widening {} (five.take 4)).toOption.map counts) = some ((1, 3, 0), (1, 3, 0)) ∧
    ((run widening {} five).toOption.map counts) = some ((0, 2, 0), (0, 1, 0)) := by decide +kernel

/-- C161: without memory management the counters are exact. -/
example : ((run changing {} four).toOption.map counts) = some ((1, 2, 0), (1, 2, 0)) := by decide +kernel

/-- The hypotheses of `C161_counters_partial` hold for `changing`: two attributes, two
branches each. -/
example : changing.Sound 2 (fun _ => 2) := by
  intro s o g hg
  simp only [changing, demo, List.mem_cons, List.not_mem_nil, or_false] at hg
  rcases hg with rfl | rfl <;> exact ⟨⟨by simp, by simp, rfl⟩, rfl⟩

end Verif.Trees.EF
