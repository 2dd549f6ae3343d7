import Verif.Streams.DataStreamProps
import Mathlib.Data.List.Sort
import Mathlib.Data.List.Dedup
import Mathlib.Data.List.Perm.Subperm
import Mathlib.Algebra.Order.Field.Rat

/-!
What `DataStream` and `FileStream` know about the table they load: `_load_data`, `_load_X_y`, `check_data_consistency`,
`_get_target_values` and `get_info` of `data/data_stream.py`, `_load_data` and `get_target_values` of `data/file_stream.py`; C258.

Simplifications: a column is integer, floating point or neither (`object`), a missing value is `none`; integer
columns of different width and booleans are left out. Reading the CSV file is left out.
-/

namespace Verif.Streams.Loading

open Verif Verif.Streams

/-- Type of a column of a data frame. -/
inductive DType
  | int | float | object
  deriving DecidableEq, Repr

/-- A column: name, type, values. -/
structure Column where
  name : String
  dtype : DType
  vals : List (Option ℚ)
  deriving DecidableEq

/-- `check_data_consistency`, data_stream.py 439-451 (the warning is left out). -/
def check (allowNan : Bool) (cols : List Column) : Except PyErr Unit :=
  if cols.any (fun c => c.dtype = .object) then .error .valueError
  else if cols.any (fun c => c.vals.any fun v => v = none) && !allowNan then .error .valueError
  else .ok ()

/-- `np.unique(...).tolist()` for numbers. -/
def unique (l : List ℚ) : List ℚ := l.dedup.insertionSort (· ≤ ·)

/-- The values of integer columns. -/
def nums (c : Column) : List ℚ := c.vals.filterMap id

/-- What is known about the targets: the values of every target, or that they are numbers, and how many. -/
inductive Targets
  | classes (nClasses : Nat) (values : List (List ℚ))
  | numbers (n : Nat)
  deriving DecidableEq

/-- The attributes of the stream. -/
structure Info where
  nSamples : Nat
  nFeatures : Nat
  nCat : Nat
  nNum : Int
  nTargets : Nat
  targets : Targets
  deriving DecidableEq

/-- `.values` of the target columns is an integer array. -/
def isInt (ycols : List Column) : Bool := ycols ≠ [] && ycols.all fun c => c.dtype = .int

/-- `_get_target_values`, data_stream.py 408-415, with 321-325; file_stream.py 214-219, 309-315. -/
def targetInfo (nTargets : Nat) (ycols : List Column) : Except PyErr Targets :=
  if isInt ycols then
    if nTargets = 1 then .ok (.classes (unique (ycols.flatMap nums)).length [unique (ycols.flatMap nums)])
    else if ycols.length < nTargets then .error .indexError
    else .ok (.classes (unique (ycols.flatMap nums)).length ((ycols.take nTargets).map fun c => unique (nums c)))
  else .ok (.numbers nTargets)

/-- `max(self.cat_features_idx)`. -/
def maxIdx : List Int → Int
  | [] => 0
  | i :: l => l.foldl max i

/-- Features and targets together, data_stream.py 267-289, 311-327; file_stream.py 203-219. -/
def describe (rows : Nat) (nFeatures : Nat) (cat : List Int) (nTargets : Nat) (ycols : List Column) : Except PyErr Info :=
  if cat ≠ [] ∧ ¬ maxIdx cat < nFeatures then .error .indexError
  else
    match targetInfo nTargets ycols with
    | .error e => .error e
    | .ok t => .ok ⟨rows, nFeatures, cat.length, (nFeatures : Int) - cat.length, nTargets, t⟩

/-- Number of rows of a data frame. -/
def height : List Column → Nat
  | [] => 0
  | c :: _ => c.vals.length

/-- `_load_data`, data_stream.py 291-327, file_stream.py 182-219. -/
def loadTable (allowNan : Bool) (t : Int) (n : Nat) (cat : List Int) (cols : List Column) : Except PyErr Info :=
  match check allowNan cols with
  | .error e => .error e
  | .ok _ => describe (height cols) (featureCols t n (cols.map Column.name) cols).length cat n (targetCols t n cols)

/-- `DataStream(X, y)`: data_stream.py 66-73 and `_load_X_y`, 260-289. -/
def loadXy (allowNan : Bool) (cat : List Int) (xcols ycols : List Column) : Except PyErr Info :=
  if height ycols ≠ height xcols then .error .valueError
  else
    match check allowNan ycols with
    | .error e => .error e
    | .ok _ =>
      match check allowNan xcols with
      | .error e => .error e
      | .ok _ => describe (height xcols) xcols.length cat ycols.length ycols

/-- `get_info`, data_stream.py 417-420, without the categorical features and name. -/
def info (targetIdx : Int) (nTargets : Nat) : String :=
  s!"DataStream(n_targets={targetIdx}, target_idx={nTargets}"

/-- A table made of a floating point array, data_stream.py 164-165: all columns have the type of the array. -/
def ofFloats (names : List String) (cols : List (List ℚ)) : List Column :=
  List.zipWith (fun n c => ⟨n, .float, c.map some⟩) names cols

/-! ### Specification -/

/-- `l` lists the values of `vs`, each once, in order. -/
def Lists (l vs : List ℚ) : Prop := l.Pairwise (· < ·) ∧ ∀ v, v ∈ l ↔ v ∈ vs

/-- The attributes describe the targets `ycols` and a table of `nf` features with categorical ones `cat`. -/
def Describes (i : Info) (rows nf : Nat) (cat : List Int) (ycols : List Column) : Prop :=
  i.nSamples = rows ∧ i.nFeatures = nf ∧ i.nTargets = ycols.length ∧ i.nCat = cat.length ∧ 0 ≤ i.nNum ∧ (i.nCat : Int) + i.nNum = nf ∧
  ((∀ c ∈ ycols, c.dtype = .int) → ∃ k vs, i.targets = .classes k vs ∧ vs.length = ycols.length ∧
      (∀ (j : Nat) c l, ycols[j]? = some c → vs[j]? = some l → Lists l (nums c)) ∧
      ∃ all, Lists all (ycols.flatMap nums) ∧ k = all.length) ∧
  ((∃ c ∈ ycols, c.dtype ≠ .int) → i.targets = .numbers ycols.length)

/-- Categorical features are given once each, by their position among the features. -/
def ValidCat (nf : Nat) (cat : List Int) : Prop := cat.Nodup ∧ ∀ c ∈ cat, 0 ≤ c ∧ c < nf

/-- The table may be used. -/
def Numeric (allowNan : Bool) (cols : List Column) : Prop :=
  (∀ c ∈ cols, c.dtype ≠ .object) ∧ (allowNan = false → ∀ c ∈ cols, ∀ v ∈ c.vals, v ≠ none)

/-! ### Proofs -/

theorem unique_lists (l : List ℚ) : Lists (unique l) l := by
  constructor
  · have h1 : (unique l).Pairwise (· ≤ ·) := List.pairwise_insertionSort _ _
    have h2 : (unique l).Nodup := (List.perm_insertionSort (· ≤ ·) l.dedup).nodup_iff.2 (List.nodup_dedup l)
    exact (h1.and h2).imp fun h => lt_of_le_of_ne h.1 h.2
  · intro v
    unfold unique
    rw [List.mem_insertionSort, List.mem_dedup]

theorem check_ok (allowNan : Bool) (cols : List Column) : check allowNan cols = .ok () ↔ Numeric allowNan cols := by
  unfold check Numeric
  by_cases h1 : cols.any (fun c => c.dtype = .object) = true
  · rw [if_pos h1]
    simp only [List.any_eq_true, decide_eq_true_eq] at h1
    obtain ⟨c, hc, e⟩ := h1
    constructor
    · intro h; cases h
    · intro h; exact absurd e (h.1 c hc)
  · rw [if_neg h1]
    have h1' : ∀ c ∈ cols, c.dtype ≠ .object := by
      intro c hc e
      exact h1 (List.any_eq_true.2 ⟨c, hc, by simpa using e⟩)
    by_cases h2 : (cols.any (fun c => c.vals.any fun v => v = none) && !allowNan) = true
    · rw [if_pos h2]
      simp only [Bool.and_eq_true, List.any_eq_true, decide_eq_true_eq, Bool.not_eq_true'] at h2
      obtain ⟨⟨c, hc, v, hv, e⟩, ha⟩ := h2
      constructor
      · intro h; cases h
      · intro h; exact absurd e (h.2 ha c hc v hv)
    · rw [if_neg h2]
      refine ⟨fun _ => ⟨h1', fun ha c hc v hv e => h2 ?_⟩, fun _ => rfl⟩
      rw [ha]
      simp only [Bool.not_false, Bool.and_true]
      exact List.any_eq_true.2 ⟨c, hc, List.any_eq_true.2 ⟨v, hv, by simpa using e⟩⟩

theorem check_error (allowNan : Bool) (cols : List Column) (h : ¬ Numeric allowNan cols) : check allowNan cols = .error .valueError := by
  have := mt (check_ok allowNan cols).1 h
  unfold check at this ⊢
  by_cases h1 : cols.any (fun c => c.dtype = .object) = true
  · rw [if_pos h1]
  · rw [if_neg h1] at this ⊢
    by_cases h2 : (cols.any (fun c => c.vals.any fun v => v = none) && !allowNan) = true
    · rw [if_pos h2]
    · rw [if_neg h2] at this; exact absurd rfl this

theorem maxIdx_lt (cat : List Int) (hne : cat ≠ []) (n : Int) : maxIdx cat < n ↔ ∀ c ∈ cat, c < n := by
  cases cat with
  | nil => exact absurd rfl hne
  | cons i l =>
    simp only [maxIdx]
    clear hne
    induction l generalizing i with
    | nil => simp
    | cons j l ih =>
      rw [List.foldl_cons, ih]
      simp only [List.mem_cons, forall_eq_or_imp, max_lt_iff, and_assoc]

theorem validCat_length (nf : Nat) (cat : List Int) (h : ValidCat nf cat) : cat.length ≤ nf := by
  have : (cat.map Int.toNat).Nodup := by
    rw [List.nodup_map_iff_inj_on h.1]
    intro x hx y hy e
    have := h.2 x hx; have := h.2 y hy; omega
  have h2 : (cat.map Int.toNat).length ≤ (List.range nf).length := by
    apply List.Subperm.length_le
    apply List.subperm_of_subset this
    intro x hx
    obtain ⟨c, hc, rfl⟩ := List.mem_map.1 hx
    have := h.2 c hc
    rw [List.mem_range]; omega
  simpa using h2

theorem describe_ok (rows nf : Nat) (cat : List Int) (ycols : List Column) (hy : ycols ≠ []) (hc : ValidCat nf cat) :
    ∃ i, describe rows nf cat ycols.length ycols = .ok i ∧ Describes i rows nf cat ycols := by
  have hcat : ¬ (cat ≠ [] ∧ ¬ maxIdx cat < nf) := by
    rintro ⟨hne, h⟩
    exact h ((maxIdx_lt cat hne nf).2 fun c h => (hc.2 c h).2)
  have hlen := validCat_length nf cat hc
  unfold describe
  rw [if_neg hcat]
  by_cases hi : ∀ c ∈ ycols, c.dtype = .int
  · have hint : isInt ycols = true := by
      unfold isInt
      simp only [Bool.and_eq_true, decide_eq_true_eq, List.all_eq_true]
      exact ⟨hy, hi⟩
    unfold targetInfo
    rw [if_pos hint]
    by_cases h1 : ycols.length = 1
    · rw [if_pos h1]
      refine ⟨_, rfl, rfl, rfl, rfl, rfl, by simp only; omega, by simp only; omega, fun _ => ⟨_, _, rfl, by simp [h1], ?_, ?_⟩, ?_⟩
      · intro j c l hj hl
        obtain ⟨d, rfl⟩ := List.length_eq_one_iff.1 h1
        cases j with
        | zero =>
          simp at hj hl
          subst hj hl
          exact unique_lists _
        | succ j => simp at hj
      · exact ⟨_, unique_lists _, rfl⟩
      · rintro ⟨c, hc, e⟩; exact absurd (hi c hc) e
    · rw [if_neg h1, if_neg (lt_irrefl _)]
      refine ⟨_, rfl, rfl, rfl, rfl, rfl, by simp only; omega, by simp only; omega, fun _ => ⟨_, _, rfl, by simp, ?_, ?_⟩, ?_⟩
      · intro j c l hj hl
        rw [List.take_length, List.getElem?_map, hj] at hl
        cases hl
        exact unique_lists _
      · exact ⟨_, unique_lists _, rfl⟩
      · rintro ⟨c, hc, e⟩; exact absurd (hi c hc) e
  · have hint : ¬ isInt ycols = true := by
      unfold isInt
      simp only [Bool.and_eq_true, decide_eq_true_eq, List.all_eq_true]
      exact fun h => hi h.2
    unfold targetInfo
    rw [if_neg hint]
    exact ⟨_, rfl, rfl, rfl, rfl, rfl, by simp only; omega, by simp only; omega, fun h => absurd h hi, fun _ => rfl⟩

/-- C258 (what holds): a table of numbers with distinct column names, targets inside the table and categorical features given
once each loads, and the attributes of the stream describe it. -/
theorem C258_table_partial (allowNan : Bool) (t : Int) (n : Nat) (cat : List Int) (cols : List Column)
    (hnum : Numeric allowNan cols) (hnames : (cols.map Column.name).Nodup) (hn : 0 < n)
    (ht : (0 ≤ t ∧ t + n ≤ cols.length) ∨ (t < 0 ∧ t + n ≤ 0 ∧ -(cols.length : Int) ≤ t))
    (hc : ValidCat (cols.length - n) cat) :
    ∃ (i : Info) (p : Nat), loadTable allowNan t n cat cols = .ok i ∧ (p : Int) = (if t < 0 then cols.length + t else t) ∧
      Describes i (height cols) (cols.length - n) cat ((cols.drop p).take n) := by
  obtain ⟨p, h1, h2, h3, h4⟩ := C51_columns_split t n (cols.map Column.name) cols (by simp) hnames hn (by simpa using ht)
  rw [List.length_map] at h1 h2
  have hlen : ((cols.drop p).take n).length = n := by
    rw [List.length_take, List.length_drop]; omega
  have hf : (featureCols t n (cols.map Column.name) cols).length = cols.length - n := by
    rw [h4, List.length_append, List.length_take, List.length_drop]; omega
  obtain ⟨i, hi1, hi2⟩ := describe_ok (height cols) (cols.length - n) cat ((cols.drop p).take n)
    (List.ne_nil_of_length_pos (by omega)) hc
  refine ⟨i, p, ?_, h1, hi2⟩
  unfold loadTable
  rw [(check_ok _ _).2 hnum]
  simp only
  rw [hf, h3, ← hi1, hlen]

/-- C258 (what holds): the same for features and targets given apart. -/
theorem C258_apart_partial (allowNan : Bool) (cat : List Int) (xcols ycols : List Column) (hx : Numeric allowNan xcols)
    (hy : Numeric allowNan ycols) (hne : ycols ≠ []) (hrows : height ycols = height xcols) (hc : ValidCat xcols.length cat) :
    ∃ i, loadXy allowNan cat xcols ycols = .ok i ∧ Describes i (height xcols) xcols.length cat ycols := by
  obtain ⟨i, hi1, hi2⟩ := describe_ok (height xcols) xcols.length cat ycols hne hc
  refine ⟨i, ?_, hi2⟩
  unfold loadXy
  rw [if_neg (by simpa using hrows), (check_ok _ _).2 hy, (check_ok _ _).2 hx]
  exact hi1

/-- C258 (what holds): other tables are rejected: text or missing values, different numbers of rows, a categorical feature beyond
the last feature. -/
theorem C258_rejected_partial (allowNan : Bool) (t : Int) (n : Nat) (cat : List Int) (cols xcols ycols : List Column) :
    (¬ Numeric allowNan cols → loadTable allowNan t n cat cols = .error .valueError) ∧
    (height ycols ≠ height xcols ∨ ¬ Numeric allowNan ycols ∨ ¬ Numeric allowNan xcols → loadXy allowNan cat xcols ycols = .error .valueError) ∧
    (Numeric allowNan xcols → Numeric allowNan ycols → height ycols = height xcols → (∃ c ∈ cat, (xcols.length : Int) ≤ c) →
      loadXy allowNan cat xcols ycols = .error .indexError) := by
  refine ⟨fun h => ?_, fun h => ?_, fun hx hy hr ⟨c, hc, hle⟩ => ?_⟩
  · unfold loadTable; rw [check_error _ _ h]
  · unfold loadXy
    by_cases h1 : height ycols ≠ height xcols
    · rw [if_pos h1]
    · rw [if_neg h1]
      by_cases h2 : Numeric allowNan ycols
      · rw [(check_ok _ _).2 h2]
        simp only
        rcases h with h | h | h
        · exact absurd h h1
        · exact absurd h2 h
        · rw [check_error _ _ h]
      · rw [check_error _ _ h2]
  · unfold loadXy
    rw [if_neg (by simpa using hr), (check_ok _ _).2 hy, (check_ok _ _).2 hx]
    simp only
    unfold describe
    rw [if_pos]
    have hne : cat ≠ [] := List.ne_nil_of_mem hc
    refine ⟨hne, fun h => ?_⟩
    have := (maxIdx_lt cat hne _).1 h c hc
    omega

/-- A table of two features and two targets, the first feature is categorical. -/
example : (loadTable false (-2) 2 [0] [⟨"a", .int, [some 0, some 1, some 1]⟩, ⟨"b", .float, [some (1 / 2), some 3, some 4]⟩,
      ⟨"u", .int, [some 1, some 0, some 1]⟩, ⟨"v", .int, [some 7, some 7, some 5]⟩]).toOption =
    some ⟨3, 2, 1, 1, 2, .classes 4 [[0, 1], [5, 7]]⟩ := by decide +kernel

/-- C258 (violated): the target column of a floating point array is taken as numbers for regression, even if it holds class labels
only; the same labels as integers are classes. -/
theorem C258_float_array_violated (names : List String) (cols : List (List ℚ)) (hlen : names.length = cols.length) (h2 : 2 ≤ cols.length)
    (hnd : names.Nodup) :
    ∃ i, loadTable false (-1) 1 [] (ofFloats names cols) = .ok i ∧ i.targets = .numbers 1 := by
  have hl : (ofFloats names cols).length = cols.length := by simp [ofFloats, hlen]
  have hfl : ∀ c ∈ ofFloats names cols, c.dtype = .float ∧ ∀ v ∈ c.vals, v ≠ none := by
    intro c hc
    unfold ofFloats at hc
    obtain ⟨k, hk⟩ := List.getElem?_of_mem hc
    rw [List.getElem?_zipWith] at hk
    cases h2 : names[k]? with
    | none => rw [h2] at hk; simp at hk
    | some l =>
      cases h3 : cols[k]? with
      | none => rw [h2, h3] at hk; simp at hk
      | some d =>
        rw [h2, h3] at hk
        simp at hk
        subst hk
        exact ⟨rfl, by simp⟩
  have hnames : (ofFloats names cols).map Column.name = names := by
    unfold ofFloats
    rw [List.map_zipWith]
    apply List.ext_getElem?
    intro k
    rw [List.getElem?_zipWith]
    by_cases hk : k < names.length
    · rw [List.getElem?_eq_getElem hk, List.getElem?_eq_getElem (hlen ▸ hk)]
    · rw [List.getElem?_eq_none (l := names) (by omega)]
  obtain ⟨i, p, h3, h4, h5⟩ := C258_table_partial false (-1) 1 [] (ofFloats names cols)
    ⟨fun c hc e => (by rw [(hfl c hc).1] at e; cases e), fun _ c hc => (hfl c hc).2⟩ (by rw [hnames]; exact hnd) one_pos
    (.inr ⟨by omega, by omega, by omega⟩) ⟨List.nodup_nil, by simp⟩
  refine ⟨i, h3, ?_⟩
  rw [if_pos (by omega)] at h4
  have hlen1 : (((ofFloats names cols).drop p).take 1).length = 1 := by
    rw [List.length_take, List.length_drop]; omega
  obtain ⟨d, hd⟩ := List.length_eq_one_iff.1 hlen1
  have := h5.2.2.2.2.2.2.2 ⟨d, by rw [hd]; simp, by
    have : d ∈ ofFloats names cols := by
      apply List.mem_of_mem_drop (i := p)
      apply List.mem_of_mem_take (i := 1)
      rw [hd]; simp
    rw [(hfl d this).1]; decide⟩
  rw [this, hlen1]

/-- C258 (violated): negative positions of categorical features are accepted and counted, without meaning a feature. -/
theorem C258_negative_violated : (loadXy false [-1, -5] [⟨"a", .int, [some 0]⟩, ⟨"b", .int, [some 0]⟩, ⟨"c", .int, [some 0]⟩] [⟨"y", .int, [some 1]⟩]).toOption =
    some ⟨1, 3, 2, 1, 1, .classes 1 [[1]]⟩ := by decide +kernel

/-- C258 (violated): repeated ones are counted twice, there may be fewer than zero numeric features. -/
theorem C258_repeated_violated : (loadXy false [0, 0] [⟨"a", .int, [some 0]⟩] [⟨"y", .int, [some 1]⟩]).toOption =
    some ⟨1, 1, 2, -1, 1, .classes 1 [[1]]⟩ := by decide +kernel

/-- C258 (violated): `get_info` of `DataStream` shows the target index as number of targets and the reverse. -/
theorem C258_info_violated : info (-1) 1 = "DataStream(n_targets=-1, target_idx=1" := by decide +kernel

end Verif.Streams.Loading
