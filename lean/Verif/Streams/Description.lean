import Verif.Common
import Mathlib.Data.Rat.Defs
import Mathlib.Data.List.Nodup
import Mathlib.Data.List.Range

/-!
What the generators say about their samples (C274), and what becomes of the samples of
AGRAWALGenerator when its features are renamed (C275).
-/

namespace Verif.Streams.Description

/-! ### Model -/

/-- Names of features and targets: a literal, or a literal followed by the decimal form of
one or two indices (`"att_num_" + str(i)`, `"att_nom_" + str(i) + "_val" + str(j)`). -/
inductive Name where
  | lit (s : List Char)
  | attNum (i : Nat)
  | attNom (i j : Nat)
  | attIdx (i : Nat)
  | target (i : Nat)
  deriving DecidableEq

/-- The generators with the constructor parameters that decide the shape of the samples. -/
inductive Which where
  | agrawal
  | anomalySine
  | hyperplane (n : Nat)
  | led (noise : Bool)
  | mixed
  | multilabel (n targets : Nat)
  | rbf (classes n : Nat)
  | randomTree (classes cat num perCat : Nat)
  | regression (n targets : Nat)
  | sea
  | sine (noise : Bool)
  | stagger
  | waveform (noise : Bool)

/-- The attributes set by `Stream.__init__` (base_stream.py 19-33) and the constructors. -/
structure Info where
  nTargets : Nat := 0
  nFeatures : Nat := 0
  nNum : Nat := 0
  nCat : Nat := 0
  nClasses : Nat := 0
  catIdx : List Nat := []
  featureNames : Option (List Name) := none
  targetNames : Option (List Name) := none

/-- `["att_num_" + str(i) for i in range(n)]`. -/
def attNums (n : Nat) : List Name := (List.range n).map .attNum

/-- The loop over categories (random_tree_generator.py 127-130). -/
def treeNames (num cat perCat : Nat) : List Name :=
  (List.range cat).foldl (fun acc i => (List.range perCat).foldl (fun acc j => acc ++ [Name.attNom i j]) acc)
    (attNums num)

/-- `AGRAWALGenerator.feature_names` (agrawal_generator.py 112-113). -/
def agrawalNames : List Name :=
  [.lit "salary".toList, .lit "commission".toList, .lit "age".toList, .lit "elevel".toList, .lit "car".toList,
   .lit "zipcode".toList, .lit "hvalue".toList, .lit "hyears".toList, .lit "loan".toList]

/-- The constructors: agrawal_generator.py 102-113, anomaly_sine_generator.py 68-72,
hyper_plane_generator.py 65-80, led_generator.py 106-119, mixed_generator.py 88-98,
multilabel_generator.py 93-112, random_rbf_generator.py 98-108, random_tree_generator.py
113-130, regression_generator.py 120-141, sea_generator.py 109-118, sine_generator.py
102-113, stagger_generator.py 88-97, waveform_generator.py 98-107. -/
def describe : Which → Info
  | .agrawal =>
    { nNum := 6, nCat := 3, nFeatures := 6 + 3, nClasses := 2, nTargets := 1,
      targetNames := some [.lit "target".toList], featureNames := some agrawalNames }
  | .anomalySine =>
    { nFeatures := 2, nTargets := 1, nNum := 2, targetNames := some [.lit "anomaly".toList],
      featureNames := some ((List.range 2).map .attIdx) }
  | .hyperplane n =>
    { nNum := n, nFeatures := n, nClasses := 2, nTargets := 1, targetNames := some [.target 0],
      featureNames := some (attNums n) }
  | .led noise =>
    let n := if noise then 24 else 7
    { nCat := n, nFeatures := n, nTargets := 1, nClasses := 10, featureNames := some (attNums n) }
  | .mixed =>
    { nCat := 2, nNum := 2, nFeatures := 2 + 2, catIdx := [0, 1], nClasses := 2, nTargets := 1,
      targetNames := some [.target 0], featureNames := some (attNums 4) }
  | .multilabel n t =>
    { nFeatures := n, nTargets := t, nClasses := 2, nNum := n, targetNames := some ((List.range t).map .target),
      featureNames := some (attNums n) }
  | .rbf c n =>
    { nClasses := c, nTargets := 1, nFeatures := n, nNum := n, targetNames := some [.target 0],
      featureNames := some (attNums n) }
  | .randomTree c cat num per =>
    { nClasses := c, nTargets := 1, nNum := num, nCat := cat, nFeatures := num + cat * per,
      targetNames := some [.lit "class".toList], featureNames := some (treeNames num cat per) }
  | .regression n t =>
    { nFeatures := n, nTargets := t, nNum := n, targetNames := some ((List.range t).map .target),
      featureNames := some (attNums n) }
  | .sea =>
    { nNum := 3, nFeatures := 3, nClasses := 2, nTargets := 1, targetNames := some [.target 0],
      featureNames := some (attNums 3) }
  | .sine noise =>
    let n := if noise then 4 else 2
    { nNum := n, nFeatures := n, nClasses := 2, nTargets := 1, targetNames := some [.target 0],
      featureNames := some (attNums n) }
  | .stagger =>
    { nCat := 3, nFeatures := 3, nClasses := 2, nTargets := 1, targetNames := some [.target 0],
      featureNames := some [.lit "size".toList, .lit "color".toList, .lit "shape".toList] }
  | .waveform noise =>
    let n := if noise then 40 else 21
    { nNum := n, nFeatures := n, nClasses := 3, nTargets := 1, targetNames := some [.target 0],
      featureNames := some (attNums n) }

/-! ### Specification -/

/-- A column of the samples holds numbers, or the code of a category (or one flag of it). -/
inductive Column where
  | num
  | cat
  deriving DecidableEq

/-- The columns that `next_sample` fills, as the class documentation has them. -/
def columns : Which → List Column
  | .agrawal => [.num, .num, .num, .cat, .cat, .cat, .num, .num, .num]
  | .anomalySine => [.num, .num]
  | .hyperplane n | .multilabel n _ | .rbf _ n | .regression n _ => List.replicate n .num
  | .led noise => List.replicate (if noise then 24 else 7) .cat
  | .mixed => [.cat, .cat, .num, .num]
  | .randomTree _ cat num per => List.replicate num .num ++ List.replicate (cat * per) .cat
  | .sea => [.num, .num, .num]
  | .sine noise => List.replicate (if noise then 4 else 2) .num
  | .stagger => [.cat, .cat, .cat]
  | .waveform noise => List.replicate (if noise then 40 else 21) .num

/-- How many targets a sample has. -/
def targets : Which → Nat
  | .multilabel _ t | .regression _ t => t
  | _ => 1

/-- Which columns are categorical. -/
def catColumns (w : Which) : List Nat :=
  (List.range (columns w).length).filter fun i => (columns w)[i]? == some Column.cat

/-- One name for each of `n` things, no name twice. -/
def Named (names : Option (List Name)) (n : Nat) : Prop :=
  ∃ l, names = some l ∧ l.length = n ∧ l.Nodup

/-! ### Proofs -/

theorem attNums_nodup (n : Nat) : (attNums n).Nodup :=
  List.nodup_range.map fun a b h => by injection h

theorem named_attNums (n : Nat) : Named (some (attNums n)) n :=
  ⟨_, rfl, by simp [attNums], attNums_nodup n⟩

theorem inner (i m : Nat) (acc : List Name) :
    (List.range m).foldl (fun acc j => acc ++ [Name.attNom i j]) acc = acc ++ (List.range m).map (Name.attNom i) := by
  induction m with
  | zero => simp
  | succ m ih => rw [List.range_succ, List.foldl_append, ih]; simp

theorem treeNames_eq (num cat per : Nat) :
    treeNames num cat per = attNums num ++ (List.range cat).flatMap fun i => (List.range per).map (Name.attNom i) := by
  unfold treeNames
  simp only [inner]
  induction cat with
  | zero => simp
  | succ c ih => rw [List.range_succ, List.foldl_append, ih]; simp

theorem treeNames_named (num cat per : Nat) : Named (some (treeNames num cat per)) (num + cat * per) := by
  refine ⟨_, rfl, ?_, ?_⟩
  · rw [treeNames_eq]
    simp [attNums, List.length_flatMap]
  · rw [treeNames_eq, List.nodup_append]
    refine ⟨attNums_nodup num, ?_, ?_⟩
    · rw [List.nodup_flatMap]
      refine ⟨fun i _ => List.nodup_range.map fun a b h => by injection h, ?_⟩
      apply List.nodup_range.imp
      intro a b hab x hx hy
      obtain ⟨j, _, rfl⟩ := List.mem_map.mp hx
      obtain ⟨k, _, hk⟩ := List.mem_map.mp hy
      injection hk with h1 _
      exact hab h1.symm
    · intro x hx y hy
      obtain ⟨j, _, rfl⟩ := List.mem_map.mp hx
      obtain ⟨i, _, hi⟩ := List.mem_flatMap.mp hy
      obtain ⟨k, _, rfl⟩ := List.mem_map.mp hi
      intro h; cases h

/-- C274 (partial): for every generator and every choice of its parameters, `n_features` is
the width of the samples, `feature_names` has one name for each column and none twice, and
`n_targets` is the number of targets. -/
theorem C274_features_partial (w : Which) :
    (describe w).nFeatures = (columns w).length ∧ Named (describe w).featureNames (columns w).length ∧
    (describe w).nTargets = targets w := by
  cases w with
  | agrawal => exact ⟨rfl, ⟨_, rfl, rfl, by decide +kernel⟩, rfl⟩
  | anomalySine => exact ⟨rfl, ⟨_, rfl, rfl, by decide +kernel⟩, rfl⟩
  | hyperplane n => exact ⟨by simp [describe, columns], by simpa [columns, describe] using named_attNums n, rfl⟩
  | led b => cases b <;> exact ⟨rfl, named_attNums _, rfl⟩
  | mixed => exact ⟨rfl, named_attNums 4, rfl⟩
  | multilabel n t => exact ⟨by simp [describe, columns], by simpa [columns, describe] using named_attNums n, rfl⟩
  | rbf c n => exact ⟨by simp [describe, columns], by simpa [columns, describe] using named_attNums n, rfl⟩
  | randomTree c cat num per =>
    exact ⟨by simp [describe, columns], by simpa [columns, describe] using treeNames_named num cat per, rfl⟩
  | regression n t => exact ⟨by simp [describe, columns], by simpa [columns, describe] using named_attNums n, rfl⟩
  | sea => exact ⟨rfl, named_attNums 3, rfl⟩
  | sine b => cases b <;> exact ⟨rfl, named_attNums _, rfl⟩
  | stagger => exact ⟨rfl, ⟨_, rfl, rfl, by decide +kernel⟩, rfl⟩
  | waveform b => cases b <;> exact ⟨rfl, named_attNums _, rfl⟩

-- A tree with two numeric features and one categorical feature of three values.
example : (describe (.randomTree 2 1 2 3)).featureNames =
    some [.attNum 0, .attNum 1, .attNom 0 0, .attNom 0 1, .attNom 0 2] := by decide +kernel

theorem count_replicate_other (n : Nat) (a b : Column) (h : a ≠ b) : (List.replicate n a).count b = 0 := by
  rw [List.count_replicate]
  simp [h]

/-- C274 (partial): apart from RandomTreeGenerator, `n_num_features` and `n_cat_features`
count the numeric and the categorical columns; there the first does. -/
theorem C274_counts_partial (w : Which) :
    (describe w).nNum = (columns w).count .num ∧
    ((∀ c cat num per, w ≠ .randomTree c cat num per) → (describe w).nCat = (columns w).count .cat) := by
  cases w with
  | agrawal => exact ⟨rfl, fun _ => rfl⟩
  | anomalySine => exact ⟨rfl, fun _ => rfl⟩
  | hyperplane n => exact ⟨by simp [describe, columns], fun _ => by simp [describe, columns, List.count_replicate]⟩
  | led b => cases b <;> exact ⟨rfl, fun _ => rfl⟩
  | mixed => exact ⟨rfl, fun _ => rfl⟩
  | multilabel n t => exact ⟨by simp [describe, columns], fun _ => by simp [describe, columns, List.count_replicate]⟩
  | rbf c n => exact ⟨by simp [describe, columns], fun _ => by simp [describe, columns, List.count_replicate]⟩
  | randomTree c cat num per =>
    exact ⟨by simp [describe, columns, List.count_replicate], fun h => absurd rfl (h c cat num per)⟩
  | regression n t => exact ⟨by simp [describe, columns], fun _ => by simp [describe, columns, List.count_replicate]⟩
  | sea => exact ⟨rfl, fun _ => rfl⟩
  | sine b => cases b <;> exact ⟨rfl, fun _ => rfl⟩
  | stagger => exact ⟨rfl, fun _ => rfl⟩
  | waveform b => cases b <;> exact ⟨rfl, fun _ => rfl⟩

/-- C274 (violated): of the generators with categorical columns, only MixedGenerator lists
them in `cat_features_idx`; in all others the list is empty. -/
theorem C274_cat_features_idx_violated (w : Which) (hc : Column.cat ∈ columns w) :
    ((describe w).catIdx = catColumns w ↔ w = .mixed) ∧ (w ≠ .mixed → (describe w).catIdx = []) := by
  have ne : catColumns w ≠ [] := by
    obtain ⟨i, hi, h⟩ := List.getElem_of_mem hc
    have : i ∈ catColumns w := by
      simp only [catColumns, List.mem_filter, List.mem_range]
      exact ⟨hi, by rw [List.getElem?_eq_getElem hi, h]; rfl⟩
    intro e
    rw [e] at this
    cases this
  cases w with
  | mixed => exact ⟨⟨fun _ => rfl, fun _ => by decide +kernel⟩, fun h => absurd rfl h⟩
  | agrawal => exact ⟨⟨fun h => absurd h.symm ne, fun h => by cases h⟩, fun _ => rfl⟩
  | anomalySine => exact ⟨⟨fun h => absurd h.symm ne, fun h => by cases h⟩, fun _ => rfl⟩
  | hyperplane n => exact ⟨⟨fun h => absurd h.symm ne, fun h => by cases h⟩, fun _ => rfl⟩
  | led b => exact ⟨⟨fun h => absurd h.symm ne, fun h => by cases h⟩, fun _ => rfl⟩
  | multilabel n t => exact ⟨⟨fun h => absurd h.symm ne, fun h => by cases h⟩, fun _ => rfl⟩
  | rbf c n => exact ⟨⟨fun h => absurd h.symm ne, fun h => by cases h⟩, fun _ => rfl⟩
  | randomTree c cat num per => exact ⟨⟨fun h => absurd h.symm ne, fun h => by cases h⟩, fun _ => rfl⟩
  | regression n t => exact ⟨⟨fun h => absurd h.symm ne, fun h => by cases h⟩, fun _ => rfl⟩
  | sea => exact ⟨⟨fun h => absurd h.symm ne, fun h => by cases h⟩, fun _ => rfl⟩
  | sine b => exact ⟨⟨fun h => absurd h.symm ne, fun h => by cases h⟩, fun _ => rfl⟩
  | stagger => exact ⟨⟨fun h => absurd h.symm ne, fun h => by cases h⟩, fun _ => rfl⟩
  | waveform b => exact ⟨⟨fun h => absurd h.symm ne, fun h => by cases h⟩, fun _ => rfl⟩

-- AGRAWALGenerator has categorical columns, the fourth to the sixth.
example : Column.cat ∈ columns .agrawal ∧ catColumns .agrawal = [3, 4, 5] := by decide +kernel

/-- C274 (violated): LEDGenerator has one target and no target names; a RandomTreeGenerator
with categorical features of two or more values counts fewer features by kind than it has
columns; AnomalySineGenerator labels its samples 0 and 1 and reports no classes. -/
theorem C274_descriptions_violated :
    (∀ b, (describe (.led b)).nTargets = 1 ∧ (describe (.led b)).targetNames = none) ∧
    (∀ c cat num per, 0 < cat → 2 ≤ per →
      (describe (.randomTree c cat num per)).nNum + (describe (.randomTree c cat num per)).nCat <
        (columns (.randomTree c cat num per)).length) ∧
    (describe .anomalySine).nClasses = 0 := by
  refine ⟨fun b => ⟨rfl, rfl⟩, ?_, rfl⟩
  intro c cat num per hc hp
  simp only [describe, columns, List.length_append, List.length_replicate]
  have : cat * 2 ≤ cat * per := Nat.mul_le_mul_left _ hp
  omega

/-- C274 (partial): apart from LEDGenerator, `target_names` has one name for each target and
none twice. -/
theorem C274_targets_partial (w : Which) (h : ∀ b, w ≠ .led b) : Named (describe w).targetNames (targets w) := by
  have hr : ∀ t, Named (some ((List.range t).map Name.target)) t := fun t =>
    ⟨_, rfl, by simp, List.nodup_range.map fun a b h => by injection h⟩
  cases w with
  | led b => exact absurd rfl (h b)
  | multilabel n t => exact hr t
  | regression n t => exact hr t
  | agrawal => exact ⟨_, rfl, rfl, List.nodup_singleton _⟩
  | anomalySine => exact ⟨_, rfl, rfl, List.nodup_singleton _⟩
  | hyperplane n => exact ⟨_, rfl, rfl, List.nodup_singleton _⟩
  | mixed => exact ⟨_, rfl, rfl, List.nodup_singleton _⟩
  | rbf c n => exact ⟨_, rfl, rfl, List.nodup_singleton _⟩
  | randomTree c cat num per => exact ⟨_, rfl, rfl, List.nodup_singleton _⟩
  | sea => exact ⟨_, rfl, rfl, List.nodup_singleton _⟩
  | sine b => exact ⟨_, rfl, rfl, List.nodup_singleton _⟩
  | stagger => exact ⟨_, rfl, rfl, List.nodup_singleton _⟩
  | waveform b => exact ⟨_, rfl, rfl, List.nodup_singleton _⟩

/-- C274 (partial): numbered target names are numbered by position, from 0. -/
theorem C274_numbered_partial (w : Which) (l : List Name) (h : (describe w).targetNames = some l) (i k : Nat)
    (hk : l[i]? = some (.target k)) : k = i := by
  have one : ∀ l : List Name, l = [Name.target 0] → l[i]? = some (.target k) → k = i := by
    rintro l rfl hk
    cases i with
    | zero => injection hk with q; injection q with q; exact q.symm
    | succ i => cases hk
  have lit : ∀ (c : List Char) (l : List Name), l = [Name.lit c] → l[i]? = some (.target k) → k = i := by
    rintro c l rfl hk
    cases i with
    | zero => injection hk with q; cases q
    | succ i => cases hk
  have many : ∀ (t : Nat) (l : List Name), l = (List.range t).map Name.target → l[i]? = some (.target k) → k = i := by
    rintro t l rfl hk
    rw [List.getElem?_map] at hk
    by_cases hi : i < t
    · rw [List.getElem?_range hi] at hk
      injection hk with q; injection q with q; exact q.symm
    · rw [List.getElem?_eq_none (by simpa using hi)] at hk
      cases hk
  cases w with
  | led b => cases h
  | multilabel n t => exact many t l (Option.some.inj h).symm hk
  | regression n t => exact many t l (Option.some.inj h).symm hk
  | agrawal => exact lit _ l (Option.some.inj h).symm hk
  | anomalySine => exact lit _ l (Option.some.inj h).symm hk
  | randomTree c cat num per => exact lit _ l (Option.some.inj h).symm hk
  | hyperplane n => exact one l (Option.some.inj h).symm hk
  | mixed => exact one l (Option.some.inj h).symm hk
  | rbf c n => exact one l (Option.some.inj h).symm hk
  | sea => exact one l (Option.some.inj h).symm hk
  | sine b => exact one l (Option.some.inj h).symm hk
  | stagger => exact one l (Option.some.inj h).symm hk
  | waveform b => exact one l (Option.some.inj h).symm hk

example : (describe (.regression 4 3)).targetNames = some [.target 0, .target 1, .target 2] := rfl

/-! ### Renaming the features of AGRAWALGenerator -/

/-- The local variables of one turn of the loop (agrawal_generator.py 231-266). -/
structure Person where
  salary : ℚ
  commission : ℚ
  age : ℚ
  elevel : ℚ
  car : ℚ
  zipcode : ℚ
  hvalue : ℚ
  hyears : ℚ
  loan : ℚ

/-- `eval(name)` for a name that is one of the nine variables; any other name is taken to be
bound to nothing (so not `i`, `j`, `group`, a builtin or an expression). -/
def Person.eval (p : Person) (n : Name) : Except PyErr ℚ :=
  if n = .lit "salary".toList then .ok p.salary
  else if n = .lit "commission".toList then .ok p.commission
  else if n = .lit "age".toList then .ok p.age
  else if n = .lit "elevel".toList then .ok p.elevel
  else if n = .lit "car".toList then .ok p.car
  else if n = .lit "zipcode".toList then .ok p.zipcode
  else if n = .lit "hvalue".toList then .ok p.hvalue
  else if n = .lit "hyears".toList then .ok p.hyears
  else if n = .lit "loan".toList then .ok p.loan
  else .error .nameError

/-- `data[j, i] = eval(self.feature_names[i])` for `i` from `i` on, `k` times
(agrawal_generator.py 268-269). -/
def fill (names : List Name) (p : Person) : Nat → Nat → Except PyErr (List ℚ)
  | _, 0 => .ok []
  | i, k + 1 =>
    match names[i]? with
    | none => .error .indexError
    | some n =>
      match p.eval n with
      | .error e => .error e
      | .ok v =>
        match fill names p (i + 1) k with
        | .error e => .error e
        | .ok vs => .ok (v :: vs)

/-- The features of one sample (agrawal_generator.py 268-269). -/
def agrawalRow (names : List Name) (p : Person) : Except PyErr (List ℚ) := fill names p 0 9

/-- Specification: the nine features in the order of the documentation. -/
def Person.row (p : Person) : List ℚ :=
  [p.salary, p.commission, p.age, p.elevel, p.car, p.zipcode, p.hvalue, p.hyears, p.loan]

theorem eval_known (p : Person) (i : Nat) (h : i < 9) (n : Name) (v : ℚ) (hn : agrawalNames[i]? = some n)
    (hv : p.row[i]? = some v) : p.eval n = .ok v := by
  have : i = 0 ∨ i = 1 ∨ i = 2 ∨ i = 3 ∨ i = 4 ∨ i = 5 ∨ i = 6 ∨ i = 7 ∨ i = 8 := by omega
  rcases this with rfl | rfl | rfl | rfl | rfl | rfl | rfl | rfl | rfl <;>
    (cases hn; cases hv; simp [Person.eval])

theorem eval_unknown (p : Person) (n : Name) (h : n ∉ agrawalNames) : p.eval n = .error .nameError := by
  simp only [agrawalNames, List.mem_cons, List.not_mem_nil, or_false, not_or] at h
  obtain ⟨h1, h2, h3, h4, h5, h6, h7, h8, h9⟩ := h
  simp only [Person.eval, if_neg h1, if_neg h2, if_neg h3, if_neg h4, if_neg h5, if_neg h6, if_neg h7, if_neg h8,
    if_neg h9]

theorem fill_ok (names : List Name) (p : Person) (f : Nat → ℚ) (k i : Nat)
    (h : ∀ j, i ≤ j → j < i + k → ∃ n, names[j]? = some n ∧ p.eval n = .ok (f j)) :
    fill names p i k = .ok ((List.range' i k).map f) := by
  induction k generalizing i with
  | zero => rfl
  | succ k ih =>
    obtain ⟨n, hn, he⟩ := h i (Nat.le_refl i) (by omega)
    have := ih (i + 1) fun j h1 h2 => h j (by omega) (by omega)
    simp only [fill, hn, he, this, List.range'_succ, List.map_cons]

/-- C275 (partial): with the names given by the constructor, and as well with any names
added behind them, the columns are the nine features in the documented order. -/
theorem C275_default_names_partial (p : Person) (more : List Name) :
    agrawalRow (agrawalNames ++ more) p = .ok p.row := by
  have := fill_ok (agrawalNames ++ more) p (fun j => p.row.getD j 0) 9 0 (by
    intro j _ hj
    have hl : j < agrawalNames.length := by simp only [agrawalNames, List.length_cons, List.length_nil]; omega
    have hl2 : j < p.row.length := by simp only [Person.row, List.length_cons, List.length_nil]; omega
    refine ⟨agrawalNames[j], ?_, ?_⟩
    · rw [List.getElem?_append_left hl]; exact List.getElem?_eq_getElem hl
    · apply eval_known p j (by omega)
      · exact List.getElem?_eq_getElem hl
      · rw [List.getD_eq_getElem?_getD, List.getElem?_eq_getElem hl2]; rfl)
  rw [agrawalRow, this]
  rfl

/-- C275 (violated): the names decide which value a column holds. If the columns are named
`agrawalNames[π 0], agrawalNames[π 1], …`, column `i` holds feature `π i`. -/
theorem C275_reordered_violated (p : Person) (π : List Nat) (hl : π.length = 9) (hr : ∀ i ∈ π, i < 9) :
    agrawalRow (π.map fun i => agrawalNames.getD i (.lit [])) p = .ok (π.map fun i => p.row.getD i 0) := by
  have := fill_ok (π.map fun i => agrawalNames.getD i (.lit [])) p (fun j => p.row.getD (π.getD j 0) 0) 9 0 (by
    intro j _ hj
    have hj : j < π.length := by omega
    have h9 : π[j] < 9 := hr _ (List.getElem_mem hj)
    have hl : π[j] < agrawalNames.length := by simp only [agrawalNames, List.length_cons, List.length_nil]; omega
    have hl2 : π[j] < p.row.length := by simp only [Person.row, List.length_cons, List.length_nil]; omega
    refine ⟨agrawalNames[π[j]], ?_, ?_⟩
    · rw [List.getElem?_map, List.getElem?_eq_getElem hj, Option.map_some, List.getD_eq_getElem?_getD,
        List.getElem?_eq_getElem hl]
      rfl
    · have e : π.getD j 0 = π[j] := by rw [List.getD_eq_getElem?_getD, List.getElem?_eq_getElem hj]; rfl
      rw [e]
      apply eval_known p π[j] h9
      · exact List.getElem?_eq_getElem hl
      · rw [List.getD_eq_getElem?_getD, List.getElem?_eq_getElem hl2]; rfl)
  rw [agrawalRow, this]
  congr 1
  apply List.ext_getElem
  · simp [hl]
  · intro i h1 h2
    simp only [List.length_map, List.length_range'] at h1
    simp only [List.getElem_map, List.getElem_range']
    have e : π.getD (0 + 1 * i) 0 = π[i]'(by omega) := by
      rw [Nat.zero_add, Nat.one_mul, List.getD_eq_getElem?_getD, List.getElem?_eq_getElem (by omega)]; rfl
    rw [e]

-- The names of the first two columns exchanged: the columns change places too.
example : ([1, 0, 2, 3, 4, 5, 6, 7, 8] : List Nat).length = 9 ∧ ∀ i ∈ [1, 0, 2, 3, 4, 5, 6, 7, 8], i < 9 := by decide

theorem fill_unknown (names : List Name) (p : Person) (k i : Nat)
    (h : ∃ j n, i ≤ j ∧ j < i + k ∧ names[j]? = some n ∧ n ∉ agrawalNames) :
    fill names p i k = .error .nameError := by
  induction k generalizing i with
  | zero => obtain ⟨j, n, h1, h2, _⟩ := h; omega
  | succ k ih =>
    obtain ⟨j, n, h1, h2, h3, h4⟩ := h
    have hi : i < names.length := by
      obtain ⟨hj, _⟩ := List.getElem?_eq_some_iff.mp h3
      omega
    simp only [fill, List.getElem?_eq_getElem hi]
    by_cases hij : i = j
    · subst hij
      rw [List.getElem?_eq_getElem hi] at h3
      have h3 := Option.some.inj h3
      rw [h3, eval_unknown p n h4]
    · rw [ih (i + 1) ⟨j, n, by omega, by omega, h3, h4⟩]
      cases he : p.eval names[i] with
      | ok v => rfl
      | error e =>
        have : e = .nameError := by
          by_cases hm : names[i] ∈ agrawalNames
          · obtain ⟨a, ha, hb⟩ := List.getElem_of_mem hm
            have ha9 : a < 9 := by simpa only [agrawalNames, List.length_cons, List.length_nil] using ha
            have hl2 : a < p.row.length := by simp only [Person.row, List.length_cons, List.length_nil]; omega
            rw [eval_known p a ha9 names[i] p.row[a] (by rw [List.getElem?_eq_getElem ha, hb])
              (List.getElem?_eq_getElem hl2)] at he
            cases he
          · rw [eval_unknown p _ hm] at he
            injection he with he
            exact he.symm
        rw [this]

/-- C275 (violated): a name of one's own for any of the nine columns makes `next_sample`
raise `NameError`. -/
theorem C275_own_name_violated (p : Person) (names : List Name) (j : Nat) (hj : j < 9) (n : Name)
    (hn : names[j]? = some n) (hnew : n ∉ agrawalNames) : agrawalRow names p = .error .nameError :=
  fill_unknown names p 9 0 ⟨j, n, by omega, by omega, hn, hnew⟩

-- "income" for "salary".
example : (Name.lit "income".toList :: agrawalNames.drop 1)[0]? = some (.lit "income".toList) ∧
    Name.lit "income".toList ∉ agrawalNames := by decide +kernel

end Verif.Streams.Description
