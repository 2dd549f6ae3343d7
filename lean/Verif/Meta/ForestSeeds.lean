import Verif.Common
import Mathlib.Data.List.GetD
import Mathlib.Data.List.Induction
import Mathlib.Tactic.Linarith

/-!
# Which random numbers the trees of an adaptive random forest draw (C213, C214)

The objects that carry generators and what happens to them: construction, `reset`,
`new_instance`, warnings and drifts. What the trees do with the numbers is in
`Verif.Trees.ARFTree` and `Verif.Meta.Forest`.

Simplified: generators are objects on a heap, number 0 is numpy's global one. All draws of the trees
are of one kind (`tree`: one `choice(n_features, max_features)` of a classifier tree, one
`randint(0, 4294967295)` of a regression tree), those of the forest of another (`own`:
`poisson(lambda)`). When they take place is arbitrary.
-/

namespace Verif.Meta.Seeds

variable {G V : Type}

/-- A pseudo random generator: `RandomState(seed)`, a draw of a tree, a draw of the forest. -/
structure Rng (G V : Type) where
  seeded : Nat → G
  tree : G → V × G
  own : G → V × G

/-- The first `k` values a generator gives to trees. -/
def Rng.stream (R : Rng G V) : G → Nat → List V
  | _, 0 => []
  | g, k + 1 => (R.tree g).1 :: R.stream (R.tree g).2 k

/-- The argument `random_state`: `None`, an integer, or a generator object. -/
inductive Seed where
  | none
  | int (s : Nat)
  | gen (r : Nat)

/-- `check_random_state`, utils/validation.py 7-29: the generator to use and the heap. -/
def check (R : Rng G V) (h : List G) : Seed → Nat × List G
  | .none => (0, h)
  | .int s => (h.length, h ++ [R.seeded s])
  | .gen r => (r, h)

/-- The attributes `random_state` and `_random_state` of a tree. -/
structure Tree where
  seed : Seed
  ref : Nat

/-- The constructors, trees/arf_hoeffding_tree.py 109-110, arf_hoeffding_tree_regressor.py 93-94. -/
def newTree (R : Rng G V) (h : List G) (s : Seed) : Tree × List G :=
  (⟨s, (check R h s).1⟩, (check R h s).2)

/-- `reset`, arf_hoeffding_tree.py 140-142, arf_hoeffding_tree_regressor.py 120-122. -/
def Tree.reset (R : Rng G V) (h : List G) (t : Tree) : Tree × List G :=
  (⟨t.seed, (check R h t.seed).1⟩, (check R h t.seed).2)

/-- Classifier or regressor. -/
inductive Flavour where
  | classifier
  | regressor

/-- `new_instance`: the classifier hands over its generator, arf_hoeffding_tree.py 159; the
regressor its seed, arf_hoeffding_tree_regressor.py 140. -/
def Tree.newInstance (R : Rng G V) (h : List G) (fl : Flavour) (t : Tree) : Tree × List G :=
  match fl with
  | .classifier => newTree R h (.gen t.ref)
  | .regressor => newTree R h t.seed

/-- A member: its tree and the tree of its background learner. -/
structure Mem where
  fg : Tree
  bg : Option Tree

/-- The forest: all generators, its own generator, the members. -/
structure Forest (G : Type) where
  heap : List G
  ref : Nat
  mems : List Mem

/-- Construction of the trees, one after the other. -/
def plant (R : Rng G V) : List G → List Seed → List Mem × List G
  | h, [] => ([], h)
  | h, s :: l =>
    let t := newTree R h s
    let r := plant R t.2 l
    (⟨t.1, none⟩ :: r.1, r.2)

/-- A new classifier forest with its `n` trees, meta/adaptive_random_forests.py 254-255 and
435-454: every tree is given the seed of the forest. `h` are the generators that exist. -/
def initC (R : Rng G V) (h : List G) (s : Seed) (n : Nat) : Forest G :=
  let c := check R h s
  let p := plant R c.2 (List.replicate n s)
  ⟨p.2, c.1, p.1⟩

/-- The generator after `k` values for trees. -/
def Rng.after (R : Rng G V) : G → Nat → G
  | g, 0 => g
  | g, k + 1 => R.after (R.tree g).2 k

/-- A new regression forest, adaptive_random_forest_regressor.py 355-379: the forest's generator
gives every tree a seed of its own (`seedOf`: the value of `randint`). -/
def initR (R : Rng G V) (seedOf : V → Nat) (h : List G) (s : Seed) (n : Nat) : Option (Forest G) :=
  let c := check R h s
  match c.2[c.1]? with
  | none => none
  | some g =>
    let p := plant R (c.2.set c.1 (R.after g n)) ((R.stream g n).map fun v => .int (seedOf v))
    some ⟨p.2, c.1, p.1⟩

/-- What happens to the generators during training: the forest draws (adaptive_random_forests.py
326), a tree of member `i` draws, member `i` gets a warning or a drift. -/
inductive Ev where
  | own
  | fg (i : Nat)
  | bg (i : Nat)
  | warn (i : Nat)
  | drift (i : Nat)
  deriving DecidableEq

/-- Who drew (`none`: the forest), from which generator, what. -/
structure Entry (V : Type) where
  who : Option Nat
  from_ : Nat
  value : V

/-- One draw from generator `r`. -/
def draw (f : Forest G) (who : Option Nat) (r : Nat) (d : G → V × G) : Forest G × List (Entry V) :=
  match f.heap[r]? with
  | none => (f, [])
  | some g => ({ f with heap := f.heap.set r (d g).2 }, [⟨who, r, (d g).1⟩])

/-- One event. `warn`: adaptive_random_forests.py 587-594 (regressor: 599-611). `drift`: lines
556-566 (regressor: 546-558). -/
def step (R : Rng G V) (fl : Flavour) (f : Forest G) : Ev → Forest G × List (Entry V)
  | .own => draw f none f.ref R.own
  | .fg i =>
    match f.mems[i]? with
    | none => (f, [])
    | some m => draw f (some i) m.fg.ref R.tree
  | .bg i =>
    match f.mems[i]? with
    | none => (f, [])
    | some m => match m.bg with
      | none => (f, [])
      | some b => draw f (some i) b.ref R.tree
  | .warn i =>
    match f.mems[i]? with
    | none => (f, [])
    | some m =>
      let t := m.fg.newInstance R f.heap fl
      ({ f with heap := t.2, mems := f.mems.set i ⟨m.fg, some t.1⟩ }, [])
  | .drift i =>
    match f.mems[i]? with
    | none => (f, [])
    | some m => match m.bg with
      | some b => ({ f with mems := f.mems.set i ⟨b, none⟩ }, [])
      | none =>
        let t := m.fg.reset R f.heap
        ({ f with heap := t.2, mems := f.mems.set i ⟨t.1, none⟩ }, [])

/-- A sequence of events; the log of the draws. -/
def run (R : Rng G V) (fl : Flavour) : Forest G → List Ev → Forest G × List (Entry V)
  | f, [] => (f, [])
  | f, e :: es =>
    let r := step R fl f e
    let q := run R fl r.1 es
    (q.1, r.2 ++ q.2)

/-! ### Specification -/

/-- The values drawn from generator `r`. -/
def fromGen (log : List (Entry V)) (r : Nat) : List V := (log.filter fun e => e.from_ = r).map Entry.value

/-- The values drawn by member `i`. -/
def byMember (log : List (Entry V)) (i : Nat) : List V := (log.filter fun e => e.who = some i).map Entry.value

/-! ### Proofs -/

theorem stream_snoc (R : Rng G V) (g : G) (k : Nat) : R.stream g (k + 1) = R.stream g k ++ [(R.tree (R.after g k)).1] := by
  induction k generalizing g with
  | zero => rfl
  | succ k ih => rw [Rng.stream, ih]; rfl

theorem after_succ (R : Rng G V) (g : G) (k : Nat) : R.after g (k + 1) = (R.tree (R.after g k)).2 := by
  induction k generalizing g with
  | zero => rfl
  | succ k ih => rw [Rng.after, ih]; rfl

theorem run_append (R : Rng G V) (fl : Flavour) (f : Forest G) (a b : List Ev) :
    run R fl f (a ++ b) = ((run R fl (run R fl f a).1 b).1, (run R fl f a).2 ++ (run R fl (run R fl f a).1 b).2) := by
  induction a generalizing f with
  | nil => rfl
  | cons e a ih => simp only [List.cons_append, run, ih, List.append_assoc]

/-- Ownership. Member `i` is made from the seed `seeds i`; generator `r` belongs to `owner r`;
`0 ..` are generators of the forest or of others. -/
structure Inv (R : Rng G V) (fl : Flavour) (seeds : Nat → Nat) (owner : Nat → Option Nat) (f : Forest G) (log : List (Entry V)) :
    Prop where
  fgSeed : ∀ (i : Nat) (m : Mem), f.mems[i]? = some m → m.fg.seed = Seed.int (seeds i) ∨ (∃ _ : fl = .classifier, m.fg.seed = Seed.gen m.fg.ref)
  bgSeed : ∀ (i : Nat) (m : Mem) (b : Tree), f.mems[i]? = some m → m.bg = some b → b.seed = Seed.int (seeds i) ∨ (∃ _ : fl = .classifier, b.seed = Seed.gen b.ref)
  fgOwn : ∀ (i : Nat) (m : Mem), f.mems[i]? = some m → m.fg.ref < f.heap.length ∧ owner m.fg.ref = some i
  bgOwn : ∀ (i : Nat) (m : Mem) (b : Tree), f.mems[i]? = some m → m.bg = some b → b.ref < f.heap.length ∧ owner b.ref = some i
  apart : fl = .regressor → ∀ (i : Nat) (m : Mem) (b : Tree), f.mems[i]? = some m → m.bg = some b → b.ref ≠ m.fg.ref
  forest : f.ref < f.heap.length ∧ owner f.ref = none
  new : ∀ r : Nat, f.heap.length ≤ r → fromGen log r = []
  tag : ∀ e ∈ log, e.who = owner e.from_ ∧ e.from_ < f.heap.length
  state : ∀ (r i : Nat) (g : G), owner r = some i → f.heap[r]? = some g →
    fromGen log r = R.stream (R.seeded (seeds i)) (fromGen log r).length ∧ g = R.after (R.seeded (seeds i)) (fromGen log r).length

theorem fromGen_append (a b : List (Entry V)) (r : Nat) : fromGen (a ++ b) r = fromGen a r ++ fromGen b r := by
  simp [fromGen]

theorem byMember_append (a b : List (Entry V)) (i : Nat) : byMember (a ++ b) i = byMember a i ++ byMember b i := by
  simp [byMember]

/-- A draw by a tree from a generator of its member. -/
theorem inv_draw (R : Rng G V) (fl : Flavour) (seeds : Nat → Nat) (owner : Nat → Option Nat) (f : Forest G) (log : List (Entry V))
    (h : Inv R fl seeds owner f log) (i r : Nat) (hr : r < f.heap.length) (ho : owner r = some i) :
    Inv R fl seeds owner (draw f (some i) r R.tree).1 (log ++ (draw f (some i) r R.tree).2) := by
  obtain ⟨g, hg⟩ : ∃ g, f.heap[r]? = some g := ⟨_, List.getElem?_eq_getElem hr⟩
  unfold draw
  rw [hg]
  simp only
  refine ⟨h.fgSeed, h.bgSeed, ?_, ?_, ?_, ?_, ?_, ?_, ?_⟩
  · simpa using h.fgOwn
  · simpa using h.bgOwn
  · exact h.apart
  · simpa using h.forest
  · intro r' hr'
    rw [List.length_set] at hr'
    rw [fromGen_append, h.new r' hr']
    have : r ≠ r' := by omega
    simp [fromGen, this]
  · intro e he
    rcases List.mem_append.1 he with he | he
    · simpa using h.tag e he
    · rw [List.mem_singleton] at he
      subst he
      exact ⟨ho.symm, by simpa using hr⟩
  · intro r' i' g' ho' hg'
    by_cases e : r = r'
    · subst e
      rw [ho] at ho'
      cases ho'
      rw [List.getElem?_set_self hr] at hg'
      cases hg'
      obtain ⟨h1, h2⟩ := h.state r i g ho hg
      have hf : fromGen (log ++ [(⟨some i, r, (R.tree g).1⟩ : Entry V)]) r = fromGen log r ++ [(R.tree g).1] := by
        rw [fromGen_append]; simp [fromGen]
      rw [hf, List.length_append, List.length_singleton, stream_snoc, after_succ, ← h1, ← h2]
      exact ⟨rfl, rfl⟩
    · rw [List.getElem?_set_ne e] at hg'
      have hf : fromGen (log ++ [(⟨some i, r, (R.tree g).1⟩ : Entry V)]) r' = fromGen log r' := by
        rw [fromGen_append]; simp [fromGen, e]
      rw [hf]
      exact h.state r' i' g' ho' hg'

/-- A draw by the forest. -/
theorem inv_own (R : Rng G V) (fl : Flavour) (seeds : Nat → Nat) (owner : Nat → Option Nat) (f : Forest G) (log : List (Entry V))
    (h : Inv R fl seeds owner f log) :
    Inv R fl seeds owner (draw f none f.ref R.own).1 (log ++ (draw f none f.ref R.own).2) := by
  obtain ⟨hr, ho⟩ := h.forest
  obtain ⟨g, hg⟩ : ∃ g, f.heap[f.ref]? = some g := ⟨_, List.getElem?_eq_getElem hr⟩
  unfold draw
  rw [hg]
  simp only
  refine ⟨h.fgSeed, h.bgSeed, ?_, ?_, ?_, ?_, ?_, ?_, ?_⟩
  · simpa using h.fgOwn
  · simpa using h.bgOwn
  · exact h.apart
  · simpa using h.forest
  · intro r' hr'
    rw [List.length_set] at hr'
    rw [fromGen_append, h.new r' hr']
    have : f.ref ≠ r' := by omega
    simp [fromGen, this]
  · intro e he
    rcases List.mem_append.1 he with he | he
    · simpa using h.tag e he
    · rw [List.mem_singleton] at he
      subst he
      exact ⟨ho.symm, by simpa using hr⟩
  · intro r' i' g' ho' hg'
    have e : f.ref ≠ r' := by
      rintro rfl
      rw [ho] at ho'; cases ho'
    rw [List.getElem?_set_ne e] at hg'
    have hf : fromGen (log ++ [(⟨none, f.ref, (R.own g).1⟩ : Entry V)]) r' = fromGen log r' := by
      rw [fromGen_append]; simp [fromGen, e]
    rw [hf]
    exact h.state r' i' g' ho' hg'

/-- Replacing the trees of one member without a new generator. -/
theorem inv_set (R : Rng G V) (fl : Flavour) (seeds : Nat → Nat) (owner : Nat → Option Nat) (f : Forest G) (log : List (Entry V))
    (h : Inv R fl seeds owner f log) (i : Nat) (m : Mem) 
    (h1 : m.fg.seed = .int (seeds i) ∨ (∃ _ : fl = .classifier, m.fg.seed = .gen m.fg.ref))
    (h2 : ∀ b, m.bg = some b → b.seed = .int (seeds i) ∨ (∃ _ : fl = .classifier, b.seed = .gen b.ref))
    (h3 : m.fg.ref < f.heap.length ∧ owner m.fg.ref = some i)
    (h4 : ∀ b, m.bg = some b → b.ref < f.heap.length ∧ owner b.ref = some i)
    (h5 : fl = .regressor → ∀ b, m.bg = some b → b.ref ≠ m.fg.ref) :
    Inv R fl seeds owner { f with mems := f.mems.set i m } log := by
  have key : ∀ j m', (f.mems.set i m)[j]? = some m' → (j = i ∧ m' = m) ∨ f.mems[j]? = some m' := by
    intro j m' hj
    by_cases e : i = j
    · subst e
      left
      by_cases hl : i < f.mems.length
      · rw [List.getElem?_set_self hl] at hj; cases hj; exact ⟨rfl, rfl⟩
      · rw [List.getElem?_eq_none (by simp; omega)] at hj; cases hj
    · rw [List.getElem?_set_ne e] at hj
      exact .inr hj
  refine ⟨?_, ?_, ?_, ?_, ?_, h.forest, h.new, h.tag, h.state⟩
  · intro j m' hj
    rcases key j m' hj with ⟨rfl, rfl⟩ | hj
    · exact h1
    · exact h.fgSeed j m' hj
  · intro j m' b hj hb
    rcases key j m' hj with ⟨rfl, rfl⟩ | hj
    · exact h2 b hb
    · exact h.bgSeed j m' b hj hb
  · intro j m' hj
    rcases key j m' hj with ⟨rfl, rfl⟩ | hj
    · exact h3
    · exact h.fgOwn j m' hj
  · intro j m' b hj hb
    rcases key j m' hj with ⟨rfl, rfl⟩ | hj
    · exact h4 b hb
    · exact h.bgOwn j m' b hj hb
  · intro hfl j m' b hj hb
    rcases key j m' hj with ⟨rfl, rfl⟩ | hj
    · exact h5 hfl b hb
    · exact h.apart hfl j m' b hj hb

/-- A new generator for member `i`. -/
theorem inv_alloc (R : Rng G V) (fl : Flavour) (seeds : Nat → Nat) (owner : Nat → Option Nat) (f : Forest G) (log : List (Entry V))
    (h : Inv R fl seeds owner f log) (i : Nat) :
    Inv R fl seeds (fun r => if r = f.heap.length then some i else owner r)
      { f with heap := f.heap ++ [R.seeded (seeds i)] } log := by
  have hlt : ∀ r, r < f.heap.length → (if r = f.heap.length then some i else owner r) = owner r := by
    intro r hr
    rw [if_neg (by omega)]
  refine ⟨h.fgSeed, h.bgSeed, ?_, ?_, ?_, ?_, ?_, ?_, ?_⟩
  · intro j m hj
    obtain ⟨a, b⟩ := h.fgOwn j m hj
    exact ⟨by simp; omega, by rw [hlt _ a, b]⟩
  · intro j m b' hj hb
    obtain ⟨a, b⟩ := h.bgOwn j m b' hj hb
    exact ⟨by simp; omega, by rw [hlt _ a, b]⟩
  · exact h.apart
  · obtain ⟨a, b⟩ := h.forest
    exact ⟨by simp; omega, by
      show (if f.ref = f.heap.length then some i else owner f.ref) = none
      rw [hlt _ a, b]⟩
  · intro r hr
    simp only [List.length_append, List.length_singleton] at hr
    exact h.new r (by omega)
  · intro e he
    obtain ⟨a, b⟩ := h.tag e he
    exact ⟨by rw [hlt _ b, a], by simp; omega⟩
  · intro r j g ho hg
    by_cases e : r = f.heap.length
    · subst e
      simp only [if_true, Option.some.injEq] at ho
      subst ho
      simp only [List.getElem?_append_right (le_refl _), Nat.sub_self, List.getElem?_cons_zero, Option.some.injEq] at hg
      subst hg
      rw [h.new _ (le_refl _)]
      exact ⟨rfl, rfl⟩
    · rw [if_neg e] at ho
      have hr : r < f.heap.length := by
        by_contra hc
        rw [List.getElem?_eq_none (by simp; omega)] at hg
        cases hg
      rw [List.getElem?_append_left hr] at hg
      exact h.state r j g ho hg

theorem inv_step (R : Rng G V) (fl : Flavour) (seeds : Nat → Nat) (owner : Nat → Option Nat) (f : Forest G) (log : List (Entry V))
    (h : Inv R fl seeds owner f log) (e : Ev) :
    ∃ owner', Inv R fl seeds owner' (step R fl f e).1 (log ++ (step R fl f e).2) := by
  cases e with
  | own => exact ⟨owner, inv_own R fl seeds owner f log h⟩
  | fg i =>
    simp only [step]
    cases hm : f.mems[i]? with
    | none => exact ⟨owner, by simpa using h⟩
    | some m =>
      obtain ⟨a, b⟩ := h.fgOwn i m hm
      exact ⟨owner, inv_draw R fl seeds owner f log h i _ a b⟩
  | bg i =>
    simp only [step]
    cases hm : f.mems[i]? with
    | none => exact ⟨owner, by simpa using h⟩
    | some m =>
      simp only
      cases hb : m.bg with
      | none => exact ⟨owner, by simpa using h⟩
      | some t =>
        obtain ⟨a, b⟩ := h.bgOwn i m t hm hb
        exact ⟨owner, inv_draw R fl seeds owner f log h i _ a b⟩
  | warn i =>
    simp only [step]
    cases hm : f.mems[i]? with
    | none => exact ⟨owner, by simpa using h⟩
    | some m =>
      simp only [List.append_nil]
      cases fl with
      | classifier =>
        refine ⟨owner, inv_set R .classifier seeds owner f log h i _ (h.fgSeed i m hm) ?_ (h.fgOwn i m hm) ?_ (by intro hc; cases hc)⟩
        · intro b hb
          cases hb
          exact .inr ⟨rfl, rfl⟩
        · intro b hb
          cases hb
          exact h.fgOwn i m hm
      | regressor =>
        rcases h.fgSeed i m hm with hs | ⟨hc, _⟩
        · refine ⟨fun r => if r = f.heap.length then some i else owner r, ?_⟩
          simp only [Tree.newInstance, newTree, hs, check]
          have h' := inv_alloc R .regressor seeds owner f log h i
          obtain ⟨a, b⟩ := h.fgOwn i m hm
          refine inv_set R .regressor seeds _ _ log h' i _ (.inl hs) ?_ ⟨by simp; omega, ?_⟩ ?_ ?_
          · intro b hb
            cases hb
            exact .inl rfl
          · show (if m.fg.ref = f.heap.length then some i else owner m.fg.ref) = some i
            rw [b, ite_self]
          · intro b hb
            cases hb
            exact ⟨by simp, by simp⟩
          · intro _ b hb
            cases hb
            show f.heap.length ≠ m.fg.ref
            omega
        · cases hc
  | drift i =>
    simp only [step]
    cases hm : f.mems[i]? with
    | none => exact ⟨owner, by simpa using h⟩
    | some m =>
      simp only
      cases hb : m.bg with
      | some b =>
        simp only [List.append_nil]
        exact ⟨owner, inv_set R fl seeds owner f log h i _ (h.bgSeed i m b hm hb) (fun _ hb' => nomatch hb')
          (h.bgOwn i m b hm hb) (fun _ hb' => nomatch hb') (fun _ _ hb' => nomatch hb')⟩
      | none =>
        simp only [List.append_nil]
        rcases h.fgSeed i m hm with hs | ⟨hc, hs⟩
        · refine ⟨fun r => if r = f.heap.length then some i else owner r, ?_⟩
          simp only [Tree.reset, hs, check]
          have h' := inv_alloc R fl seeds owner f log h i
          exact inv_set R fl seeds _ _ log h' i _ (.inl rfl) (fun _ hb' => nomatch hb')
            ⟨by simp, by simp⟩ (fun _ hb' => nomatch hb') (fun _ _ hb' => nomatch hb')
        · refine ⟨owner, ?_⟩
          simp only [Tree.reset, hs, check]
          exact inv_set R fl seeds owner f log h i _ (.inr ⟨hc, rfl⟩) (fun _ hb' => nomatch hb')
            (h.fgOwn i m hm) (fun _ hb' => nomatch hb') (fun _ _ hb' => nomatch hb')

theorem inv_run (R : Rng G V) (fl : Flavour) (seeds : Nat → Nat) (evs : List Ev) (f : Forest G) (log : List (Entry V))
    (owner : Nat → Option Nat) (h : Inv R fl seeds owner f log) :
    ∃ owner', Inv R fl seeds owner' (run R fl f evs).1 (log ++ (run R fl f evs).2) := by
  induction evs generalizing f log owner with
  | nil => exact ⟨owner, by simpa [run] using h⟩
  | cons e evs ih =>
    obtain ⟨o', h'⟩ := inv_step R fl seeds owner f log h e
    obtain ⟨o'', h''⟩ := ih _ _ o' h'
    exact ⟨o'', by simpa only [run, List.append_assoc] using h''⟩

/-- Where trees made from integer seeds get their generators. -/
theorem plant_int (R : Rng G V) (l : List Nat) (h : List G) :
    (plant R h (l.map Seed.int)).2 = h ++ l.map R.seeded ∧
    ∀ (i : Nat) (m : Mem), (plant R h (l.map Seed.int)).1[i]? = some m → ∃ s : Nat, l[i]? = some s ∧ m = ⟨⟨.int s, h.length + i⟩, none⟩ := by
  induction l generalizing h with
  | nil => exact ⟨by simp [plant], by intro i m hm; simp [plant] at hm⟩
  | cons s l ih =>
    obtain ⟨h1, h2⟩ := ih (h ++ [R.seeded s])
    simp only [List.map_cons, plant, newTree, check]
    refine ⟨by rw [h1]; simp, ?_⟩
    intro i m hm
    cases i with
    | zero => simp only [List.getElem?_cons_zero, Option.some.injEq] at hm; exact ⟨s, by simp, hm.symm⟩
    | succ i =>
      simp only [List.getElem?_cons_succ] at hm
      obtain ⟨s', h3, h4⟩ := h2 i m hm
      refine ⟨s', by simpa using h3, ?_⟩
      rw [h4]
      congr 2
      simp only [List.length_append, List.length_singleton]
      omega

theorem plant_length (R : Rng G V) (l : List Seed) (h : List G) : (plant R h l).1.length = l.length := by
  induction l generalizing h with
  | nil => rfl
  | cons s l ih => simp only [plant, List.length_cons, ih]

/-- The invariant at the start: `l` are the seeds of the trees, the forest draws from a generator that
existed before. -/
theorem inv_plant (R : Rng G V) (fl : Flavour) (l : List Nat) (h : List G) (ref : Nat) (hr : ref < h.length) :
    Inv R fl (fun i => l.getD i 0) (fun r => if r < h.length then none else some (r - h.length))
      ⟨(plant R h (l.map Seed.int)).2, ref, (plant R h (l.map Seed.int)).1⟩ [] := by
  obtain ⟨h1, h2⟩ := plant_int R l h
  have key : ∀ (i : Nat) (m : Mem), (plant R h (l.map Seed.int)).1[i]? = some m → i < l.length ∧ m = ⟨⟨.int (l.getD i 0), h.length + i⟩, none⟩ := by
    intro i m hm
    obtain ⟨s, hs, rfl⟩ := h2 i m hm
    obtain ⟨hi, hs'⟩ := List.getElem?_eq_some_iff.1 hs
    refine ⟨hi, ?_⟩
    rw [List.getD_eq_getElem?_getD, hs]
    rfl
  refine ⟨?_, ?_, ?_, ?_, ?_, ?_, ?_, ?_, ?_⟩
  · intro i m hm
    obtain ⟨_, rfl⟩ := key i m hm
    exact .inl rfl
  · intro i m b hm hb
    obtain ⟨_, rfl⟩ := key i m hm
    cases hb
  · intro i m hm
    obtain ⟨hi, rfl⟩ := key i m hm
    refine ⟨?_, ?_⟩
    · simp only [h1, List.length_append, List.length_map]; omega
    · simp
  · intro i m b hm hb
    obtain ⟨_, rfl⟩ := key i m hm
    cases hb
  · intro _ i m b hm hb
    obtain ⟨_, rfl⟩ := key i m hm
    cases hb
  · refine ⟨?_, ?_⟩
    · simp only [h1, List.length_append, List.length_map]; omega
    · simp [hr]
  · intro r _; rfl
  · intro e he; cases he
  · intro r i g ho hg
    refine ⟨rfl, ?_⟩
    by_cases hlt : r < h.length
    · simp [hlt] at ho
    · simp only [if_neg hlt, Option.some.injEq] at ho
      subst ho
      simp only [h1] at hg
      rw [List.getElem?_append_right (by omega), List.getElem?_map] at hg
      show g = R.seeded _
      obtain ⟨s, hs, rfl⟩ := Option.map_eq_some_iff.1 hg
      rw [List.getD_eq_getElem?_getD, hs]
      rfl

theorem run_mems_length (R : Rng G V) (fl : Flavour) (evs : List Ev) (f : Forest G) :
    (run R fl f evs).1.mems.length = f.mems.length := by
  have h1 : ∀ f : Forest G, ∀ e, (step R fl f e).1.mems.length = f.mems.length := by
    intro f e
    cases e <;> simp only [step, draw] <;> split <;> (try rfl) <;> (try split) <;> (try rfl) <;> (try split) <;>
      simp
  induction evs generalizing f with
  | nil => rfl
  | cons e evs ih => simp only [run, ih, h1]

/-- A classifier forest made with an integer seed. -/
theorem initC_int (R : Rng G V) (h : List G) (s n : Nat) :
    initC R h (.int s) n = ⟨(plant R (h ++ [R.seeded s]) ((List.replicate n s).map Seed.int)).2, h.length,
      (plant R (h ++ [R.seeded s]) ((List.replicate n s).map Seed.int)).1⟩ ∧
    ∃ owner, Inv R .classifier (fun _ => s) owner (initC R h (.int s) n) [] := by
  have e : initC R h (.int s) n = ⟨(plant R (h ++ [R.seeded s]) ((List.replicate n s).map Seed.int)).2, h.length,
      (plant R (h ++ [R.seeded s]) ((List.replicate n s).map Seed.int)).1⟩ := by
    simp [initC, check, List.map_replicate]
  refine ⟨e, ?_⟩
  have hi := inv_plant R .classifier (List.replicate n s) (h ++ [R.seeded s]) h.length (by simp)
  rw [← e] at hi
  have hlen : (initC R h (.int s) n).mems.length = n := by rw [e]; simp [plant_length]
  have hget : ∀ i, i < n → (List.replicate n s).getD i 0 = s := by
    intro i hi
    rw [List.getD_eq_getElem?_getD, List.getElem?_replicate, if_pos hi]; rfl
  have hmem : ∀ (i : Nat) (m : Mem), (initC R h (.int s) n).mems[i]? = some m → i < n := by
    intro i m hm
    obtain ⟨hlt, _⟩ := List.getElem?_eq_some_iff.1 hm
    omega
  refine ⟨fun r => if r < (h ++ [R.seeded s]).length then none else some (r - (h ++ [R.seeded s]).length),
    ?_, ?_, hi.fgOwn, hi.bgOwn, hi.apart, hi.forest, hi.new, hi.tag, ?_⟩
  · intro i m hm
    have := hi.fgSeed i m hm
    rwa [hget i (hmem i m hm)] at this
  · intro i m b hm hb
    have := hi.bgSeed i m b hm hb
    rwa [hget i (hmem i m hm)] at this
  · intro r i g ho hg
    have := hi.state r i g ho hg
    have hr : r < (h ++ [R.seeded s]).length + n := by
      obtain ⟨hlt, _⟩ := List.getElem?_eq_some_iff.1 hg
      rw [e] at hlt
      simp only [(plant_int R _ _).1, List.length_append, List.length_map, List.length_replicate, List.length_singleton] at hlt
      simpa using hlt
    have hin : i < n := by
      by_cases hc : r < (h ++ [R.seeded s]).length
      · rw [if_pos hc] at ho; cases ho
      · rw [if_neg hc] at ho
        cases ho
        omega
    rwa [hget i hin] at this

/-- Without a drift, a member of a classifier forest stays with one generator. -/
theorem one_generator (R : Rng G V) (i r : Nat) (evs : List Ev) (hd : Ev.drift i ∉ evs) (f : Forest G)
    (h : ∀ m : Mem, f.mems[i]? = some m → m.fg.ref = r ∧ ∀ b : Tree, m.bg = some b → b.ref = r) :
    ∀ e ∈ (run R .classifier f evs).2, e.who = some i → e.from_ = r := by
  induction evs generalizing f with
  | nil => intro e he; cases he
  | cons ev evs ih =>
    simp only [List.mem_cons, not_or] at hd
    have key : (∀ m : Mem, (step R .classifier f ev).1.mems[i]? = some m → m.fg.ref = r ∧ ∀ b : Tree, m.bg = some b → b.ref = r) ∧
        ∀ e ∈ (step R .classifier f ev).2, e.who = some i → e.from_ = r := by
      have hdr : ∀ (who : Option Nat) (q : Nat) (d : G → V × G), (draw f who q d).1.mems = f.mems := by
        intro who q d; unfold draw; split <;> rfl
      have hdl : ∀ (who : Option Nat) (q : Nat) (d : G → V × G), ∀ e ∈ (draw f who q d).2, e.who = who ∧ e.from_ = q := by
        intro who q d e he
        unfold draw at he
        split at he
        · cases he
        · rw [List.mem_singleton] at he; subst he; exact ⟨rfl, rfl⟩
      cases ev with
      | own =>
        simp only [step]
        refine ⟨by rw [hdr]; exact h, fun e he hw => ?_⟩
        rw [(hdl _ _ _ e he).1] at hw; cases hw
      | fg j =>
        simp only [step]
        cases hm : f.mems[j]? with
        | none => exact ⟨h, fun e he => by cases he⟩
        | some m =>
          simp only
          refine ⟨by rw [hdr]; exact h, fun e he hw => ?_⟩
          obtain ⟨a, b⟩ := hdl _ _ _ e he
          rw [a] at hw; cases hw
          rw [b]; exact (h m hm).1
      | bg j =>
        simp only [step]
        cases hm : f.mems[j]? with
        | none => exact ⟨h, fun e he => by cases he⟩
        | some m =>
          simp only
          cases hb : m.bg with
          | none => exact ⟨h, fun e he => by cases he⟩
          | some t =>
            simp only
            refine ⟨by rw [hdr]; exact h, fun e he hw => ?_⟩
            obtain ⟨a, b⟩ := hdl _ _ _ e he
            rw [a] at hw; cases hw
            rw [b]; exact (h m hm).2 t hb
      | warn j =>
        simp only [step]
        cases hm : f.mems[j]? with
        | none => exact ⟨h, fun e he => by cases he⟩
        | some m =>
          simp only [Tree.newInstance, newTree, check]
          refine ⟨fun m' hm' => ?_, fun e he => by cases he⟩
          by_cases e : j = i
          · subst e
            obtain ⟨hl, _⟩ := List.getElem?_eq_some_iff.1 hm
            rw [List.getElem?_set_self hl] at hm'
            cases hm'
            refine ⟨(h m hm).1, fun b hb => ?_⟩
            cases hb
            exact (h m hm).1
          · rw [List.getElem?_set_ne e] at hm'
            exact h m' hm'
      | drift j =>
        have e : j ≠ i := by rintro rfl; exact hd.1 rfl
        simp only [step]
        cases hm : f.mems[j]? with
        | none => exact ⟨h, fun e he => by cases he⟩
        | some m =>
          simp only
          cases hb : m.bg with
          | none =>
            refine ⟨fun m' hm' => ?_, fun e he => by cases he⟩
            simp only [List.getElem?_set_ne e] at hm'
            exact h m' hm'
          | some t =>
            refine ⟨fun m' hm' => ?_, fun e he => by cases he⟩
            simp only [List.getElem?_set_ne e] at hm'
            exact h m' hm'
    intro e he hw
    simp only [run, List.mem_append] at he
    rcases he with he | he
    · exact key.2 e he hw
    · exact ih hd.2 _ key.1 e he hw

/-- C213 (violated): all trees of a classifier forest with an integer seed draw the same
subsets of features in the same order, the first values of one stream, as long as their
members have no drift: any two members agree on as many subsets as both have drawn. -/
theorem C213_same_subsets_violated (R : Rng G V) (h : List G) (s n : Nat) (evs : List Ev) (i : Nat)
    (hd : Ev.drift i ∉ evs) :
    byMember (run R .classifier (initC R h (.int s) n) evs).2 i =
      R.stream (R.seeded s) (byMember (run R .classifier (initC R h (.int s) n) evs).2 i).length := by
  obtain ⟨e0, owner, hinv⟩ := initC_int R h s n
  obtain ⟨o', hinv'⟩ := inv_run R .classifier (fun _ => s) evs _ [] owner hinv
  simp only [List.nil_append] at hinv'
  cases hm : (initC R h (.int s) n).mems[i]? with
  | none =>
    have : ∀ e ∈ (run R .classifier (initC R h (.int s) n) evs).2, e.who = some i → e.from_ = 0 ∧ False := by
      intro e he hw
      have h1 := one_generator R i e.from_ evs hd (initC R h (.int s) n) (by intro m hm'; rw [hm] at hm'; cases hm') e he hw
      have h2 := one_generator R i (e.from_ + 1) evs hd (initC R h (.int s) n) (by intro m hm'; rw [hm] at hm'; cases hm') e he hw
      omega
    have : byMember (run R .classifier (initC R h (.int s) n) evs).2 i = [] := by
      unfold byMember
      rw [List.map_eq_nil_iff, List.filter_eq_nil_iff]
      intro e he hw
      exact (this e he (by simpa using hw)).2
    rw [this]
    rfl
  | some m =>
    have hbg : m.bg = none := by
      rw [e0] at hm
      obtain ⟨_, _, rfl⟩ := (plant_int R _ _).2 i m hm
      rfl
    have hone := one_generator R i m.fg.ref evs hd (initC R h (.int s) n) (by
      intro m' hm'
      rw [hm] at hm'; cases hm'
      exact ⟨rfl, fun b hb => by rw [hbg] at hb; cases hb⟩)
    generalize hlog : (run R .classifier (initC R h (.int s) n) evs).2 = log at *
    by_cases hne : byMember log i = []
    · rw [hne]; rfl
    · obtain ⟨e, he⟩ : ∃ e, e ∈ log.filter fun e => e.who = some i := by
        apply List.exists_mem_of_ne_nil
        intro hc
        apply hne
        unfold byMember
        rw [hc]; rfl
      rw [List.mem_filter] at he
      have hw : e.who = some i := by simpa using he.2
      have hown : o' m.fg.ref = some i := by
        rw [← hw, (hinv'.tag e he.1).1, hone e he.1 hw]
      have hlt := (hinv'.tag e he.1).2
      rw [hone e he.1 hw] at hlt
      have hsame : byMember log i = fromGen log m.fg.ref := by
        unfold byMember fromGen
        congr 1
        apply List.filter_congr
        intro e' he'
        rw [Bool.eq_iff_iff, decide_eq_true_eq, decide_eq_true_eq]
        constructor
        · exact hone e' he'
        · intro hf
          rw [(hinv'.tag e' he').1, hf, hown]
      rw [hsame]
      exact (hinv'.state m.fg.ref i _ hown (List.getElem?_eq_getElem hlt)).1

/-- C213 (violated): with drifts, what the trees of any member have drawn from the
generator they use now is the beginning of that same stream. -/
theorem C213_same_stream_violated (R : Rng G V) (h : List G) (s n : Nat) (evs : List Ev) (i : Nat) (m : Mem)
    (hm : (run R .classifier (initC R h (.int s) n) evs).1.mems[i]? = some m) :
    let log := (run R .classifier (initC R h (.int s) n) evs).2
    fromGen log m.fg.ref = R.stream (R.seeded s) (fromGen log m.fg.ref).length ∧
    ∀ e ∈ log, e.from_ = m.fg.ref → e.who = some i := by
  obtain ⟨e0, owner, hinv⟩ := initC_int R h s n
  obtain ⟨o', hinv'⟩ := inv_run R .classifier (fun _ => s) evs _ [] owner hinv
  simp only [List.nil_append] at hinv'
  obtain ⟨hlt, hown⟩ := hinv'.fgOwn i m hm
  refine ⟨(hinv'.state m.fg.ref i _ hown (List.getElem?_eq_getElem hlt)).1, fun e he hf => ?_⟩
  rw [(hinv'.tag e he).1, hf, hown]

/-! #### One generator for all -/

/-- What one generator answers to a sequence of draws (`true`: by a tree). -/
def Rng.replay (R : Rng G V) : G → List Bool → List V
  | _, [] => []
  | g, b :: l => (if b then R.tree g else R.own g).1 :: R.replay (if b then R.tree g else R.own g).2 l

/-- All objects use generator `r`. -/
def AllUse (r : Nat) (s : Seed) (f : Forest G) : Prop :=
  f.ref = r ∧ ∀ m ∈ f.mems, (m.fg.ref = r ∧ (m.fg.seed = s ∨ m.fg.seed = .gen r)) ∧
    ∀ b : Tree, m.bg = some b → b.ref = r ∧ (b.seed = s ∨ b.seed = .gen r)

theorem shared_step (R : Rng G V) (r : Nat) (s : Seed) (hs : ∀ h : List G, check R h s = (r, h)) (f : Forest G) (g : G)
    (hg : f.heap[r]? = some g) (ha : AllUse r s f) (e : Ev) :
    AllUse r s (step R .classifier f e).1 ∧
    ((step R .classifier f e).2 = [] ∧ (step R .classifier f e).1.heap = f.heap ∨
      ∃ who, (step R .classifier f e).2 = [⟨who, r, (if who.isSome then R.tree g else R.own g).1⟩] ∧
        (step R .classifier f e).1.heap = f.heap.set r (if who.isSome then R.tree g else R.own g).2) := by
  obtain ⟨h1, h2⟩ := ha
  have hc : ∀ sd : Seed, sd = s ∨ sd = .gen r → ∀ h : List G, check R h sd = (r, h) := by
    rintro sd (rfl | rfl) h
    · exact hs h
    · rfl
  have hdraw : ∀ (who : Option Nat) (d : G → V × G), draw f who r d = ({ f with heap := f.heap.set r (d g).2 }, [⟨who, r, (d g).1⟩]) := by
    intro who d; unfold draw; rw [hg]
  have hset : ∀ (i : Nat) (m : Mem), ((m.fg.ref = r ∧ (m.fg.seed = s ∨ m.fg.seed = .gen r)) ∧
      ∀ b : Tree, m.bg = some b → b.ref = r ∧ (b.seed = s ∨ b.seed = .gen r)) → ∀ m' ∈ f.mems.set i m,
      (m'.fg.ref = r ∧ (m'.fg.seed = s ∨ m'.fg.seed = .gen r)) ∧
      ∀ b : Tree, m'.bg = some b → b.ref = r ∧ (b.seed = s ∨ b.seed = .gen r) := by
    intro i m hm m' hm'
    rcases List.mem_or_eq_of_mem_set hm' with hm' | rfl
    · exact h2 m' hm'
    · exact hm
  cases e with
  | own =>
    simp only [step]
    rw [h1, hdraw]
    exact ⟨⟨h1, h2⟩, .inr ⟨none, rfl, rfl⟩⟩
  | fg i =>
    simp only [step]
    cases hm : f.mems[i]? with
    | none => exact ⟨⟨h1, h2⟩, .inl ⟨rfl, rfl⟩⟩
    | some m =>
      simp only [(h2 m (List.mem_of_getElem? hm)).1.1, hdraw]
      exact ⟨⟨h1, h2⟩, .inr ⟨some i, rfl, rfl⟩⟩
  | bg i =>
    simp only [step]
    cases hm : f.mems[i]? with
    | none => exact ⟨⟨h1, h2⟩, .inl ⟨rfl, rfl⟩⟩
    | some m =>
      simp only
      cases hb : m.bg with
      | none => exact ⟨⟨h1, h2⟩, .inl ⟨rfl, rfl⟩⟩
      | some b =>
        simp only [((h2 m (List.mem_of_getElem? hm)).2 b hb).1, hdraw]
        exact ⟨⟨h1, h2⟩, .inr ⟨some i, rfl, rfl⟩⟩
  | warn i =>
    simp only [step]
    cases hm : f.mems[i]? with
    | none => exact ⟨⟨h1, h2⟩, .inl ⟨rfl, rfl⟩⟩
    | some m =>
      obtain ⟨a, b⟩ := h2 m (List.mem_of_getElem? hm)
      refine ⟨⟨h1, hset i _ ⟨a, fun t ht => ?_⟩⟩, .inl ⟨rfl, rfl⟩⟩
      cases ht
      exact ⟨a.1, .inr (by show Seed.gen m.fg.ref = _; rw [a.1])⟩
  | drift i =>
    simp only [step]
    cases hm : f.mems[i]? with
    | none => exact ⟨⟨h1, h2⟩, .inl ⟨rfl, rfl⟩⟩
    | some m =>
      obtain ⟨a, b⟩ := h2 m (List.mem_of_getElem? hm)
      simp only
      cases hb : m.bg with
      | some t => exact ⟨⟨h1, hset i _ ⟨b t hb, fun _ ht => nomatch ht⟩⟩, .inl ⟨rfl, rfl⟩⟩
      | none =>
        simp only [Tree.reset, hc _ a.2]
        exact ⟨⟨h1, hset i _ ⟨⟨rfl, a.2⟩, fun _ ht => nomatch ht⟩⟩, .inl ⟨trivial, trivial⟩⟩

theorem plant_shared (R : Rng G V) (r : Nat) (s : Seed) (hs : ∀ h : List G, check R h s = (r, h)) (n : Nat) (h : List G) :
    plant R h (List.replicate n s) = (List.replicate n ⟨⟨s, r⟩, none⟩, h) := by
  induction n with
  | zero => rfl
  | succ n ih => simp only [List.replicate_succ, plant, newTree, hs, ih]

/-- C213, partial: without a seed, or when given a generator, the forest and all its trees, also the later
ones, draw one after the other from the same generator, so no two draws are the same by
construction. -/
theorem C213_shared_partial (R : Rng G V) (h : List G) (s : Seed) (r n : Nat) (g : G)
    (hs : s = .none ∧ r = 0 ∨ s = .gen r) (hg : h[r]? = some g) (evs : List Ev) :
    let log := (run R .classifier (initC R h s n) evs).2
    log.map Entry.value = R.replay g (log.map fun e => e.who.isSome) := by
  have hc : ∀ h : List G, check R h s = (r, h) := by
    rcases hs with ⟨rfl, rfl⟩ | rfl <;> intro h <;> rfl
  have key : ∀ (evs : List Ev) (f : Forest G) (g : G), f.heap[r]? = some g → AllUse r s f →
      (run R .classifier f evs).2.map Entry.value =
        R.replay g ((run R .classifier f evs).2.map fun e => e.who.isSome) := by
    intro evs
    induction evs with
    | nil => intro f g _ _; rfl
    | cons e evs ih =>
      intro f g hg ha
      obtain ⟨h1, h2⟩ := shared_step R r s hc f g hg ha e
      simp only [run]
      rcases h2 with ⟨h2, h3⟩ | ⟨who, h2, h3⟩
      · rw [h2]
        exact ih _ g (by rw [h3]; exact hg) h1
      · rw [h2]
        have hlt := (List.getElem?_eq_some_iff.1 hg).1
        have := ih _ _ (by rw [h3]; exact List.getElem?_set_self hlt) h1
        simp only [List.singleton_append, List.map_cons, Rng.replay]
        rw [this]
  apply key
  · simpa only [initC, hc, plant_shared R r s hc] using hg
  · simp only [initC, hc, plant_shared R r s hc]
    refine ⟨rfl, fun m hm => ?_⟩
    rw [List.eq_of_mem_replicate hm]
    exact ⟨⟨rfl, .inl rfl⟩, fun _ hb => nomatch hb⟩

/-! #### Regression forests -/

theorem stream_length (R : Rng G V) (g : G) (k : Nat) : (R.stream g k).length = k := by
  induction k generalizing g with
  | zero => rfl
  | succ k ih => simp [Rng.stream, ih]

theorem initR_inv (R : Rng G V) (seedOf : V → Nat) (h : List G) (s : Seed) (n : Nat) (f : Forest G)
    (hf : initR R seedOf h s n = some f) :
    ∃ g, (check R h s).2[(check R h s).1]? = some g ∧
      f = ⟨(plant R ((check R h s).2.set (check R h s).1 (R.after g n)) (((R.stream g n).map seedOf).map Seed.int)).2, (check R h s).1,
        (plant R ((check R h s).2.set (check R h s).1 (R.after g n)) (((R.stream g n).map seedOf).map Seed.int)).1⟩ ∧
      ∃ owner, Inv R .regressor (fun i => ((R.stream g n).map seedOf).getD i 0) owner f [] := by
  unfold initR at hf
  simp only at hf
  cases hg : (check R h s).2[(check R h s).1]? with
  | none => rw [hg] at hf; cases hf
  | some g =>
    rw [hg] at hf
    simp only [Option.some.injEq] at hf
    have hl : (check R h s).1 < ((check R h s).2.set (check R h s).1 (R.after g n)).length := by
      rw [List.length_set]; exact (List.getElem?_eq_some_iff.1 hg).1
    have e : f = ⟨(plant R ((check R h s).2.set (check R h s).1 (R.after g n)) (((R.stream g n).map seedOf).map Seed.int)).2, (check R h s).1,
        (plant R ((check R h s).2.set (check R h s).1 (R.after g n)) (((R.stream g n).map seedOf).map Seed.int)).1⟩ := by
      rw [← hf, List.map_map]; rfl
    refine ⟨g, rfl, e, ?_⟩
    rw [e]
    exact ⟨_, inv_plant R .regressor ((R.stream g n).map seedOf) _ _ hl⟩

/-- C214, partial: every tree of a new regression forest has its own seed, the next value of the forest's
generator, and a new generator made from it. -/
theorem C214_own_seeds_partial (R : Rng G V) (seedOf : V → Nat) (h : List G) (s : Seed) (n : Nat) (f : Forest G)
    (hf : initR R seedOf h s n = some f) :
    f.mems.length = n ∧ ∃ g, (check R h s).2[(check R h s).1]? = some g ∧
      (∀ (i : Nat) (m : Mem), f.mems[i]? = some m → ∃ v, (R.stream g n)[i]? = some v ∧ m.fg.seed = .int (seedOf v) ∧
        f.heap[m.fg.ref]? = some (R.seeded (seedOf v)) ∧ m.bg = none) ∧
      (∀ (i j : Nat) (m m' : Mem), f.mems[i]? = some m → f.mems[j]? = some m' → m.fg.ref = m'.fg.ref → i = j) := by
  obtain ⟨g, hg, e, owner, hinv⟩ := initR_inv R seedOf h s n f hf
  refine ⟨by rw [e]; simp [plant_length, stream_length], g, hg, ?_, ?_⟩
  · intro i m hm
    have hm' := hm
    rw [e] at hm'
    obtain ⟨sd, h1, h2⟩ := (plant_int R _ _).2 i m hm'
    obtain ⟨v, h3, h4⟩ := Option.map_eq_some_iff.1 (by rwa [List.getElem?_map] at h1)
    obtain ⟨hlt, hown⟩ := hinv.fgOwn i m hm
    have hst := (hinv.state _ i _ hown (List.getElem?_eq_getElem hlt)).2
    refine ⟨v, h3, by rw [h2, h4], ?_, by rw [h2]⟩
    rw [List.getElem?_eq_getElem hlt, hst, List.getD_eq_getElem?_getD, h1, h4]
    rfl
  · intro i j m m' hm hm' hr
    have h1 := (hinv.fgOwn i m hm).2
    have h2 := (hinv.fgOwn j m' hm').2
    rw [hr, h2] at h1
    cases h1
    rfl

/-- C214 (violated): at any time the tree of a member, and the tree in its background, have
drawn the first values of the same stream, that of the member's seed, each from a generator of
its own: a tree that takes over, or is reset, repeats the random choices of its predecessors. -/
theorem C214_replay_violated (R : Rng G V) (seedOf : V → Nat) (h : List G) (s : Seed) (n : Nat) (f : Forest G)
    (hf : initR R seedOf h s n = some f) (evs : List Ev) (i : Nat) (m0 m : Mem) (hm0 : f.mems[i]? = some m0)
    (hm : (run R .regressor f evs).1.mems[i]? = some m) :
    let log := (run R .regressor f evs).2
    ∃ sd, m0.fg.seed = .int sd ∧
      fromGen log m.fg.ref = R.stream (R.seeded sd) (fromGen log m.fg.ref).length ∧
      ∀ b : Tree, m.bg = some b → b.ref ≠ m.fg.ref ∧
        fromGen log b.ref = R.stream (R.seeded sd) (fromGen log b.ref).length := by
  obtain ⟨g, hg, e, owner, hinv⟩ := initR_inv R seedOf h s n f hf
  obtain ⟨o', hinv'⟩ := inv_run R .regressor _ evs f [] owner hinv
  simp only [List.nil_append] at hinv'
  have hs : m0.fg.seed = .int (((R.stream g n).map seedOf).getD i 0) := by
    rcases hinv.fgSeed i m0 hm0 with h | ⟨hc, _⟩
    · exact h
    · cases hc
  obtain ⟨hlt, hown⟩ := hinv'.fgOwn i m hm
  refine ⟨_, hs, (hinv'.state m.fg.ref i _ hown (List.getElem?_eq_getElem hlt)).1, fun b hb => ?_⟩
  obtain ⟨hlt', hown'⟩ := hinv'.bgOwn i m b hm hb
  exact ⟨hinv'.apart rfl i m b hm hb, (hinv'.state b.ref i _ hown' (List.getElem?_eq_getElem hlt')).1⟩

/-! #### Examples -/

/-- A small generator. -/
def toyRng : Rng Nat Nat := ⟨fun s => s, fun g => (g % 7, (g * 5 + 3) % 31), fun g => (g % 2, (g * 3 + 1) % 31)⟩

/-- Two trees of a classifier forest with seed 4: both draw 4, 2, 4; without a seed they share a generator. -/
example :
    let evs := [Ev.own, .fg 0, .own, .fg 1, .fg 0, .warn 0, .bg 0, .fg 1, .fg 1]
    byMember (run toyRng .classifier (initC toyRng [9] (.int 4) 2) evs).2 0 = [4, 2, 4] ∧
    byMember (run toyRng .classifier (initC toyRng [9] (.int 4) 2) evs).2 1 = [4, 2, 4] ∧
    byMember (run toyRng .classifier (initC toyRng [9] .none 2) evs).2 0 = [0, 0, 4] ∧
    byMember (run toyRng .classifier (initC toyRng [9] .none 2) evs).2 1 = [6, 6, 0] := by
  decide +kernel

/-- A regression forest: the trees have different seeds, but the background tree repeats the
choices of the tree it is to replace. -/
example : ∃ f, initR toyRng (fun v => v + 10) [9] (.int 4) 2 = some f ∧
    (run toyRng .regressor f [.fg 0, .fg 1, .fg 0, .warn 0, .bg 0, .bg 0, .drift 0]).2.map (fun e => (e.who, e.value)) =
      [(some 0, 0), (some 1, 5), (some 0, 4), (some 0, 0), (some 0, 4)] := by
  refine ⟨_, rfl, ?_⟩
  decide +kernel

end Verif.Meta.Seeds
