import Verif.Streams.GeneratorProps
import Mathlib.Algebra.Order.Field.Basic
import Mathlib.Data.List.GetD

/-!
Model of `data/random_tree_generator.py`: a random decision tree labels random
samples with numeric features and one-hot encoded categorical features.
-/

namespace Verif.Streams.RTree

open Verif.Streams.Gen

/-- The constructor's parameters (`random_tree_generator.py` 106-121). -/
structure Cfg where
  nClasses : Nat
  nNum : Nat
  nCat : Nat
  /-- `n_categories_per_cat_feature`; the model takes it to be positive where it
  matters (with zero, line 343 raises at the first sample). -/
  k : Nat
  maxDepth : Nat
  minLeaf : Nat
  fraction : ℚ

/-- `Node` (363-385): a leaf, a numeric split or a categorical split. -/
inductive T where
  | leaf (label : Nat)
  | num (att : Nat) (value : ℚ) (lt ge : T)
  | nom (att : Nat) (children : List T)

/-- `random_state.randint(0, n)` raises for `n = 0`. -/
def randintE {ρ : Type} (g : Rng ρ) (n : Nat) (r : ρ) : Except PyErr (Nat × ρ) :=
  if n = 0 then .error .valueError else .ok (g.randint n r)

/-- Running an action a number of times (the loop 244-248). -/
def repeatE {ρ α : Type} (f : ρ → Except PyErr (α × ρ)) : Nat → ρ → Except PyErr (List α × ρ)
  | 0, r => .ok ([], r)
  | n + 1, r =>
    match f r with
    | .error e => .error e
    | .ok (x, r1) =>
      match repeatE f n r1 with
      | .error e => .error e
      | .ok (xs, r2) => .ok (x :: xs, r2)

/-- A leaf with a random class (214-216). -/
def mkLeaf {ρ : Type} (g : Rng ρ) (c : Cfg) (r : ρ) : Except PyErr (T × ρ) :=
  match randintE g c.nClasses r with
  | .error e => .error e
  | .ok (y, r1) => .ok (.leaf y, r1)

/-- `_generate_random_tree_node` (165-250). The first argument is
`max_tree_depth - current_depth`; the random number of line 213 is only drawn
when the depth test before it does not decide. -/
def gen {ρ : Type} (g : Rng ρ) (c : Cfg) :
    Nat → Nat → List Nat → List ℚ → List ℚ → ρ → Except PyErr (T × ρ)
  | 0, _, _, _, _, r => mkLeaf g c r
  | rem + 1, depth, cands, mins, maxs, r =>
    let (stop, r1) : Bool × ρ :=
      if depth ≥ c.minLeaf then
        let (u, r') := g.rand r
        (decide (c.fraction ≥ 1 - u), r')
      else (false, r)
    if stop then mkLeaf g c r1
    else
      match randintE g cands.length r1 with
      | .error e => .error e
      | .ok (chosen, r2) =>
        if chosen < c.nNum then
          let lo := mins.getD chosen 0
          let hi := maxs.getD chosen 0
          let (u, r3) := g.rand r2
          let v := (hi - lo) * u + lo
          match gen g c rem (depth + 1) cands mins (maxs.set chosen v) r3 with
          | .error e => .error e
          | .ok (l, r4) =>
            match gen g c rem (depth + 1) cands (mins.set chosen v) maxs r4 with
            | .error e => .error e
            | .ok (rt, r5) => .ok (.num chosen v l rt, r5)
        else
          let att := cands.getD chosen 0
          match repeatE (gen g c rem (depth + 1) (cands.erase att) mins maxs) c.k r2 with
          | .error e => .error e
          | .ok (cs, r3) => .ok (.nom att cs, r3)

/-- `_generate_random_tree` (139-163). -/
def tree {ρ : Type} (g : Rng ρ) (c : Cfg) (r : ρ) : Except PyErr (T × ρ) :=
  gen g c c.maxDepth 0 (List.range (c.nNum + c.nCat)) (List.replicate c.nNum 0)
    (List.replicate c.nNum 1) r

/-- `__get_integer_nominal_attribute_representation` (286-316). -/
def category (c : Cfg) (att : Nat) (x : List ℚ) : Option Nat :=
  let start := c.nNum + (att - c.nNum) * c.k
  (List.range c.k).find? (fun i => decide (x[start + i]? = some 1))

mutual
/-- `_classify_instance` (252-284). A missing category would index the children
with `None`. -/
def classify (c : Cfg) : T → List ℚ → Except PyErr Nat
  | .leaf y, _ => .ok y
  | .num att v l r, x =>
    match x[att]? with
    | none => .error .indexError
    | some a => if a < v then classify c l x else classify c r x
  | .nom att cs, x =>
    match category c att x with
    | none => .error .typeError
    | some i => classifyNth c cs i x
/-- `node.children[i]`, then the recursive call (280-284). -/
def classifyNth (c : Cfg) : List T → Nat → List ℚ → Except PyErr Nat
  | [], _, _ => .error .indexError
  | t :: _, 0, x => classify c t x
  | _ :: ts, i + 1, x => classifyNth c ts i x
end

/-- The numeric features of a sample (340-341). -/
def drawNum {ρ : Type} (g : Rng ρ) : Nat → ρ → List ℚ × ρ
  | 0, r => ([], r)
  | n + 1, r =>
    let (u, r1) := g.rand r
    let (xs, r2) := drawNum g n r1
    (u :: xs, r2)

/-- The block of one categorical feature (345-349). -/
def oneHot (k aux : Nat) : List ℚ := (List.range k).map (fun i => if aux = i then 1 else 0)

/-- The categorical features of a sample (343-349). -/
def drawCat {ρ : Type} (g : Rng ρ) (k : Nat) : Nat → ρ → List ℚ × ρ
  | 0, r => ([], r)
  | n + 1, r =>
    let (aux, r1) := g.randint k r
    let (xs, r2) := drawCat g k n r1
    (oneHot k aux ++ xs, r2)

/-- One sample of `next_sample` (339-351). -/
def sample {ρ : Type} (g : Rng ρ) (c : Cfg) (t : T) (r : ρ) :
    Except PyErr ((List ℚ × Nat) × ρ) :=
  let (xs, r1) := drawNum g c.nNum r
  let (cs, r2) := drawCat g c.k c.nCat r1
  match classify c t (xs ++ cs) with
  | .error e => .error e
  | .ok y => .ok ((xs ++ cs, y), r2)

/-! ### Specification -/

/-- What is promised of a node at some depth whose cell is the box
`mins`..`maxs` and which may still test the categorical features `cats`: leaves
are at a permitted depth and carry a class, a numeric threshold lies inside the
cell, a categorical feature is tested at most once on a path and has one child
per category. -/
inductive WF (c : Cfg) : Nat → List Nat → List ℚ → List ℚ → T → Prop
  | leaf {depth cats mins maxs} (y : Nat) : y < c.nClasses →
      depth ≤ c.maxDepth → (c.minLeaf ≤ depth ∨ depth = c.maxDepth) →
      WF c depth cats mins maxs (.leaf y)
  | num {depth cats mins maxs} (att : Nat) (v lo hi : ℚ) (l r : T) : att < c.nNum →
      mins[att]? = some lo → maxs[att]? = some hi → lo ≤ v → v ≤ hi →
      WF c (depth + 1) cats mins (maxs.set att v) l →
      WF c (depth + 1) cats (mins.set att v) maxs r →
      WF c depth cats mins maxs (.num att v l r)
  | nom {depth cats mins maxs} (att : Nat) (cs : List T) : att ∈ cats →
      cs.length = c.k → (∀ t ∈ cs, WF c (depth + 1) (cats.erase att) mins maxs t) →
      WF c depth cats mins maxs (.nom att cs)

theorem mkLeaf_ok {ρ : Type} (g : Rng ρ) (hg : Uniform g) (c : Cfg) (hc : 0 < c.nClasses) (r : ρ) :
    ∃ y r', y < c.nClasses ∧ mkLeaf g c r = .ok (.leaf y, r') := by
  refine ⟨(g.randint c.nClasses r).1, (g.randint c.nClasses r).2, hg.randint _ _ hc, ?_⟩
  simp only [mkLeaf, randintE]
  rw [if_neg (by omega)]

theorem repeatE_ok {ρ α : Type} (f : ρ → Except PyErr (α × ρ)) (P : α → Prop)
    (hf : ∀ r, ∃ x r', f r = .ok (x, r') ∧ P x) (n : Nat) (r : ρ) :
    ∃ xs r', repeatE f n r = .ok (xs, r') ∧ xs.length = n ∧ ∀ x ∈ xs, P x := by
  induction n generalizing r with
  | zero => exact ⟨[], r, rfl, rfl, by simp⟩
  | succ n ih =>
    obtain ⟨x, r1, h1, hp⟩ := hf r
    obtain ⟨xs, r2, h2, hl, hps⟩ := ih r1
    refine ⟨x :: xs, r2, by simp only [repeatE, h1, h2], by simp [hl], ?_⟩
    intro y hy
    rcases List.mem_cons.mp hy with h | h
    · rw [h]; exact hp
    · exact hps y h

/-- The box bounds are in order. -/
def Box (c : Cfg) (mins maxs : List ℚ) : Prop :=
  mins.length = c.nNum ∧ maxs.length = c.nNum ∧
    ∀ i < c.nNum, mins.getD i 0 ≤ maxs.getD i 0

theorem getD_set {α : Type} (l : List α) (i j : Nat) (v d : α) :
    (l.set i v).getD j d = if i = j ∧ j < l.length then v else l.getD j d := by
  rw [List.getD_eq_getElem?_getD, List.getD_eq_getElem?_getD, List.getElem?_set]
  by_cases h : i = j
  · subst h
    by_cases hl : i < l.length
    · simp [hl]
    · simp [hl]
  · simp [h]

theorem gen_wf {ρ : Type} (g : Rng ρ) (hg : Uniform g) (c : Cfg) (hc : 0 < c.nClasses)
    (hnum : 0 < c.nNum) (rem depth : Nat) (hrem : depth + rem = c.maxDepth) (cats : List Nat)
    (hcats : ∀ a ∈ cats, c.nNum ≤ a) (mins maxs : List ℚ) (hb : Box c mins maxs) (r : ρ) :
    ∃ t r', gen g c rem depth (List.range c.nNum ++ cats) mins maxs r = .ok (t, r') ∧
      WF c depth cats mins maxs t := by
  induction rem generalizing depth cats mins maxs r with
  | zero =>
    obtain ⟨y, r', hy, he⟩ := mkLeaf_ok g hg c hc r
    exact ⟨_, r', by simp only [gen]; exact he, .leaf y hy (by omega) (.inr (by omega))⟩
  | succ rem ih =>
    -- the leaf decision
    obtain ⟨stop, r1, hstop, hmin⟩ : ∃ (stop : Bool) (r1 : ρ),
        (if depth ≥ c.minLeaf then
          (decide (c.fraction ≥ 1 - (g.rand r).1), (g.rand r).2) else (false, r)) = (stop, r1) ∧
        (stop = true → c.minLeaf ≤ depth) := by
      by_cases hd : depth ≥ c.minLeaf
      · rw [if_pos hd]; exact ⟨_, _, rfl, fun _ => hd⟩
      · rw [if_neg hd]; exact ⟨_, _, rfl, by simp⟩
    cases stop with
    | true =>
      obtain ⟨y, r', hy, he⟩ := mkLeaf_ok g hg c hc r1
      refine ⟨_, r', ?_, .leaf y hy (by omega) (.inl (hmin rfl))⟩
      simp only [gen, hstop, if_true]; exact he
    | false =>
      have hlen : (List.range c.nNum ++ cats).length ≠ 0 := by simp; omega
      have hch := hg.randint (List.range c.nNum ++ cats).length r1 (by omega)
      obtain ⟨chosen, r2, hr⟩ : ∃ chosen r2,
          g.randint (List.range c.nNum ++ cats).length r1 = (chosen, r2) := ⟨_, _, rfl⟩
      rw [hr] at hch
      simp only at hch
      by_cases hn : chosen < c.nNum
      · obtain ⟨hb1, hb2, hb3⟩ := hb
        have hlo : mins[chosen]? = some (mins.getD chosen 0) := by
          rw [List.getElem?_eq_getElem (by omega), List.getD_eq_getElem _ _ (by omega)]
        have hhi : maxs[chosen]? = some (maxs.getD chosen 0) := by
          rw [List.getElem?_eq_getElem (by omega), List.getD_eq_getElem _ _ (by omega)]
        have hle := hb3 chosen hn
        have hu := hg.rand r2
        obtain ⟨v, hv⟩ : ∃ v, (maxs.getD chosen 0 - mins.getD chosen 0) * (g.rand r2).1 +
            mins.getD chosen 0 = v := ⟨_, rfl⟩
        have hv1 : mins.getD chosen 0 ≤ v := by rw [← hv]; nlinarith
        have hv2 : v ≤ maxs.getD chosen 0 := by rw [← hv]; nlinarith
        obtain ⟨l, r4, hl, wl⟩ := ih (depth + 1) (by omega) cats hcats mins (maxs.set chosen v)
          ⟨hb1, by simpa using hb2, fun i hi => by
            rw [getD_set]
            by_cases h : chosen = i ∧ i < maxs.length
            · rw [if_pos h, ← h.1]; exact hv1
            · rw [if_neg h]; exact hb3 i hi⟩ (g.rand r2).2
        obtain ⟨rt, r5, hrt, wr⟩ := ih (depth + 1) (by omega) cats hcats (mins.set chosen v) maxs
          ⟨by simpa using hb1, hb2, fun i hi => by
            rw [getD_set]
            by_cases h : chosen = i ∧ i < mins.length
            · rw [if_pos h, ← h.1]; exact hv2
            · rw [if_neg h]; exact hb3 i hi⟩ r4
        refine ⟨.num chosen v l rt, r5, ?_, .num chosen v _ _ l rt hn hlo hhi hv1 hv2 wl wr⟩
        simp only [gen, hstop, Bool.false_eq_true, if_false, randintE]
        rw [if_neg hlen]
        simp only [hr]
        rw [if_pos hn]
        simp only [hv, hl, hrt]
      · obtain ⟨att, ha⟩ : ∃ att, (List.range c.nNum ++ cats).getD chosen 0 = att := ⟨_, rfl⟩
        have hatt : att ∈ cats := by
          rw [List.getD_append_right _ _ _ _ (by simpa using hn)] at ha
          have hlt : chosen - (List.range c.nNum).length < cats.length := by
            simp at hch ⊢; omega
          rw [List.getD_eq_getElem _ _ hlt] at ha
          rw [← ha]; exact List.getElem_mem hlt
        have hnot : att ∉ List.range c.nNum := by
          have := hcats att hatt
          simp; omega
        have herase : (List.range c.nNum ++ cats).erase att = List.range c.nNum ++ cats.erase att :=
          List.erase_append_right _ hnot
        obtain ⟨cs, r3, hcs, hl, hw⟩ := repeatE_ok
          (gen g c rem (depth + 1) (List.range c.nNum ++ cats.erase att) mins maxs)
          (WF c (depth + 1) (cats.erase att) mins maxs)
          (fun r => ih (depth + 1) (by omega) (cats.erase att)
            (fun a h => hcats a (List.mem_of_mem_erase h)) mins maxs hb r) c.k r2
        refine ⟨.nom att cs, r3, ?_, .nom att cs hatt hl hw⟩
        simp only [gen, hstop, Bool.false_eq_true, if_false, randintE]
        rw [if_neg hlen]
        simp only [hr]
        rw [if_neg hn]
        simp only [ha, herase, hcs]

/-! ### Classification -/

/-- A feature vector as `next_sample` builds them: numeric features, then one
one-hot block per categorical feature. -/
def Encoded (c : Cfg) (x : List ℚ) : Prop :=
  ∃ (nums : List ℚ) (cat : List Nat), nums.length = c.nNum ∧ cat.length = c.nCat ∧
    (∀ a ∈ cat, a < c.k) ∧ x = nums ++ cat.flatMap (oneHot c.k)

theorem length_oneHot (k a : Nat) : (oneHot k a).length = k := by simp [oneHot]

theorem flatMap_get (k : Nat) (cat : List Nat) (j i a : Nat) (hj : cat[j]? = some a) (hi : i < k) :
    (cat.flatMap (oneHot k))[j * k + i]? = some (if a = i then 1 else 0) := by
  induction cat generalizing j with
  | nil => simp at hj
  | cons b cat ih =>
    rw [List.flatMap_cons]
    cases j with
    | zero =>
      simp only [List.getElem?_cons_zero, Option.some.injEq] at hj
      subst hj
      rw [List.getElem?_append_left (by rw [length_oneHot]; omega)]
      simp [oneHot, hi]
    | succ j =>
      rw [List.getElem?_append_right (by rw [length_oneHot, Nat.succ_mul]; omega), length_oneHot]
      have : (j + 1) * k + i - k = j * k + i := by rw [Nat.succ_mul]; omega
      rw [this]
      exact ih j (by simpa using hj)

theorem category_ok (c : Cfg) (x : List ℚ) (hx : Encoded c x) (att : Nat) (h1 : c.nNum ≤ att)
    (h2 : att < c.nNum + c.nCat) : ∃ i < c.k, category c att x = some i := by
  obtain ⟨nums, cat, hn, hl, hk, rfl⟩ := hx
  have hj : cat[att - c.nNum]? = some cat[att - c.nNum] := List.getElem?_eq_getElem (by omega)
  have ha := hk cat[att - c.nNum] (List.getElem_mem (by omega))
  have hget : ∀ i < c.k, (nums ++ cat.flatMap (oneHot c.k))[c.nNum + (att - c.nNum) * c.k + i]? =
      some (if cat[att - c.nNum] = i then 1 else 0) := by
    intro i hi
    rw [List.getElem?_append_right (by omega)]
    have : c.nNum + (att - c.nNum) * c.k + i - nums.length = (att - c.nNum) * c.k + i := by omega
    rw [this]
    exact flatMap_get c.k cat _ i _ hj hi
  have hsome : ((List.range c.k).find? (fun i => decide
      ((nums ++ cat.flatMap (oneHot c.k))[c.nNum + (att - c.nNum) * c.k + i]? = some 1))).isSome := by
    rw [List.find?_isSome]
    refine ⟨cat[att - c.nNum], List.mem_range.mpr ha, ?_⟩
    rw [hget _ ha]; simp
  obtain ⟨i, hi⟩ := Option.isSome_iff_exists.mp hsome
  exact ⟨i, List.mem_range.mp (List.mem_of_find?_eq_some hi), hi⟩

theorem classifyNth_eq (c : Cfg) (ts : List T) (i : Nat) (t : T) (x : List ℚ)
    (h : ts[i]? = some t) : classifyNth c ts i x = classify c t x := by
  induction ts generalizing i with
  | nil => simp at h
  | cons a ts ih =>
    cases i with
    | zero =>
      simp only [List.getElem?_cons_zero, Option.some.injEq] at h
      rw [classifyNth, h]
    | succ i => rw [classifyNth]; exact ih i (by simpa using h)

theorem classify_ok (c : Cfg) (x : List ℚ) (hx : Encoded c x) {depth : Nat} {cats : List Nat}
    {mins maxs : List ℚ} {t : T} (h : WF c depth cats mins maxs t)
    (hcats : ∀ a ∈ cats, c.nNum ≤ a ∧ a < c.nNum + c.nCat) :
    ∃ y < c.nClasses, classify c t x = .ok y := by
  induction h with
  | leaf y hy => exact ⟨y, hy, by rw [classify]⟩
  | num att v lo hi l r ha _ _ _ _ _ _ ihl ihr =>
    obtain ⟨nums, cat, hn, _, _, hx'⟩ := hx
    obtain ⟨w, hg⟩ : ∃ w, x[att]? = some w :=
      ⟨_, List.getElem?_eq_getElem (by rw [hx', List.length_append]; omega)⟩
    rw [classify, hg]
    simp only
    by_cases hv : w < v
    · rw [if_pos hv]; exact ihl hcats
    · rw [if_neg hv]; exact ihr hcats
  | nom att cs ha hl _ ih =>
    obtain ⟨h1, h2⟩ := hcats att ha
    obtain ⟨i, hi, hcat⟩ := category_ok c x hx att h1 h2
    have hg : cs[i]? = some cs[i] := List.getElem?_eq_getElem (by omega)
    rw [classify, hcat]
    simp only
    rw [classifyNth_eq c cs i _ x hg]
    exact ih _ (List.getElem_mem (by omega))
      (fun a h => hcats a (List.mem_of_mem_erase h))

theorem drawNum_spec {ρ : Type} (g : Rng ρ) (hg : Uniform g) (n : Nat) (r : ρ) :
    (drawNum g n r).1.length = n ∧ ∀ v ∈ (drawNum g n r).1, 0 ≤ v ∧ v < 1 := by
  induction n generalizing r with
  | zero => simp [drawNum]
  | succ n ih =>
    obtain ⟨h1, h2⟩ := ih (g.rand r).2
    simp only [drawNum]
    refine ⟨by simp [h1], fun v hv => ?_⟩
    rcases List.mem_cons.mp hv with h | h
    · rw [h]; exact hg.rand r
    · exact h2 v h

theorem drawCat_spec {ρ : Type} (g : Rng ρ) (hg : Uniform g) (k : Nat) (hk : 0 < k) (n : Nat)
    (r : ρ) : ∃ cat : List Nat, cat.length = n ∧ (∀ a ∈ cat, a < k) ∧
      (drawCat g k n r).1 = cat.flatMap (oneHot k) := by
  induction n generalizing r with
  | zero => exact ⟨[], rfl, by simp, rfl⟩
  | succ n ih =>
    obtain ⟨cat, h1, h2, h3⟩ := ih (g.randint k r).2
    refine ⟨(g.randint k r).1 :: cat, by simp [h1], ?_, by simp [drawCat, h3]⟩
    intro a ha
    rcases List.mem_cons.mp ha with h | h
    · rw [h]; exact hg.randint k r hk
    · exact h2 a h

/-- **C92** With at least one numeric feature, constructing the generator always
succeeds and gives a tree as described by its parameters: every leaf holds one
of the classes at a depth between `min_leaf_depth` and `max_tree_depth`, every
threshold lies in the cell of its node and no categorical feature is tested twice
on a path. -/
theorem C92_tree_well_formed {ρ : Type} (g : Rng ρ) (hg : Uniform g) (c : Cfg)
    (hc : 0 < c.nClasses) (hnum : 0 < c.nNum) (r : ρ) :
    ∃ t r', tree g c r = .ok (t, r') ∧
      WF c 0 ((List.range c.nCat).map (c.nNum + ·)) (List.replicate c.nNum 0)
        (List.replicate c.nNum 1) t := by
  have hr : List.range (c.nNum + c.nCat) =
      List.range c.nNum ++ (List.range c.nCat).map (c.nNum + ·) := List.range_add
  unfold tree
  rw [hr]
  apply gen_wf g hg c hc hnum c.maxDepth 0 (by omega)
  · intro a ha
    rw [List.mem_map] at ha
    obtain ⟨b, _, rfl⟩ := ha
    omega
  · refine ⟨by simp, by simp, ?_⟩
    intro i hi
    rw [List.getD_eq_getElem _ _ (by simpa using hi), List.getD_eq_getElem _ _ (by simpa using hi)]
    simp

/-- **C92** Every sample then has numeric features in [0, 1), one category per
categorical feature, and a label among the classes; drawing it never raises. -/
theorem C92_samples_labelled {ρ : Type} (g : Rng ρ) (hg : Uniform g) (c : Cfg)
    (hc : 0 < c.nClasses) (hnum : 0 < c.nNum) (hk : 0 < c.k) (rt r : ρ) :
    ∃ t rt', tree g c rt = .ok (t, rt') ∧
      ∃ x y r', sample g c t r = .ok ((x, y), r') ∧ y < c.nClasses ∧ Encoded c x ∧
        x.length = c.nNum + c.nCat * c.k ∧ (∀ v ∈ x.take c.nNum, 0 ≤ v ∧ v < 1) ∧
        classify c t x = .ok y := by
  obtain ⟨t, rt', ht, hwf⟩ := C92_tree_well_formed g hg c hc hnum rt
  refine ⟨t, rt', ht, ?_⟩
  obtain ⟨hl, hv⟩ := drawNum_spec g hg c.nNum r
  obtain ⟨cat, h1, h2, h3⟩ := drawCat_spec g hg c.k hk c.nCat (drawNum g c.nNum r).2
  have hx : Encoded c ((drawNum g c.nNum r).1 ++ (drawCat g c.k c.nCat (drawNum g c.nNum r).2).1) :=
    ⟨_, cat, hl, h1, h2, by rw [h3]⟩
  obtain ⟨y, hy, he⟩ := classify_ok c _ hx hwf (by
    intro a ha
    rw [List.mem_map] at ha
    obtain ⟨b, hb, rfl⟩ := ha
    have := List.mem_range.mp hb
    omega)
  refine ⟨_, y, (drawCat g c.k c.nCat (drawNum g c.nNum r).2).2, ?_, hy, hx, ?_, ?_, he⟩
  · simp only [sample, he]
  · rw [List.length_append, hl, h3, List.length_flatMap]
    simp only [length_oneHot]
    rw [← h1]
    simp
  · intro v hv'
    rw [List.take_append_of_le_length (by omega), List.take_of_length_le (by omega)] at hv'
    exact hv v hv'

theorem gen_fails {ρ : Type} (g : Rng ρ) (hg : Uniform g) (c : Cfg) (hnum : c.nNum = 0) (hk : 0 < c.k)
    (rem depth : Nat) (cands : List Nat) (hrem : cands.length < rem)
    (hmin : depth + cands.length < c.minLeaf) (mins maxs : List ℚ) (r : ρ) :
    gen g c rem depth cands mins maxs r = .error .valueError := by
  induction rem generalizing depth cands mins maxs r with
  | zero => omega
  | succ rem ih =>
    simp only [gen]
    rw [if_neg (show ¬ depth ≥ c.minLeaf by omega)]
    simp only [Bool.false_eq_true, if_false, randintE]
    by_cases h0 : cands.length = 0
    · rw [if_pos h0]
    · rw [if_neg h0]
      simp only
      rw [if_neg (by omega)]
      have hlt := hg.randint cands.length r (by omega)
      have hmem : cands.getD (g.randint cands.length r).1 0 ∈ cands := by
        rw [List.getD_eq_getElem _ _ hlt]; exact List.getElem_mem hlt
      have hle := List.length_erase_of_mem hmem
      obtain ⟨k, hk'⟩ : ∃ k, c.k = k + 1 := ⟨c.k - 1, by omega⟩
      rw [hk']
      simp only [repeatE]
      have ihh := ih (depth + 1) (cands.erase (cands.getD (g.randint cands.length r).1 0))
        (by rw [hle]; omega) (by rw [hle]; omega) mins maxs (g.randint cands.length r).2
      rw [ihh]

/-- **C92** Without numeric features construction raises `ValueError` whenever
leaves are only allowed deeper than the number of categorical features: all
features are used up on a path and none is left to choose from. -/
theorem C92_no_numeric_features_violated {ρ : Type} (g : Rng ρ) (hg : Uniform g) (c : Cfg)
    (hnum : c.nNum = 0) (hk : 0 < c.k) (h1 : c.nCat < c.maxDepth) (h2 : c.nCat < c.minLeaf) (r : ρ) :
    tree g c r = .error .valueError := by
  unfold tree
  apply gen_fails g hg c hnum hk
  · simp [hnum]; omega
  · simp [hnum]; omega

/-! ### Non-vacuity -/

example : (∃ t r, tree counter ⟨2, 1, 1, 2, 2, 1, 1 / 10⟩ 0 = .ok (t, r)) ∧
    tree counter ⟨2, 0, 1, 2, 3, 2, 1 / 10⟩ 0 = .error .valueError := by
  constructor
  · obtain ⟨t, r, h, _⟩ := C92_tree_well_formed counter uniform_counter ⟨2, 1, 1, 2, 2, 1, 1 / 10⟩
      (by decide) (by decide) 0
    exact ⟨t, r, h⟩
  · exact C92_no_numeric_features_violated counter uniform_counter _ rfl (by decide) (by decide)
      (by decide) 0

end Verif.Streams.RTree
