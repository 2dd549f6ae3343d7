import Verif.Trees.MTRUnits
import Mathlib.Data.Fin.SuccPred

/-!
C202 (splits) and C205: the split criterion of the multi-target trees.
-/

namespace Verif.Trees.MT

variable {T : Nat}

/-! ### Specification -/

/-- Sum over the targets. -/
def overTargets (f : Fin T → ℚ) : ℚ := ((List.finRange T).map f).sum

/-- Statistics of rows of weight 1. -/
def rowsStat (rows : List (V T)) : VStat T :=
  ⟨rows.length, fun j => (rows.map fun y => y j).sum, fun j => (rows.map fun y => y j ^ 2).sum⟩

/-- Sum of squared deviations of target `j` from its mean. -/
def deviation (rows : List (V T)) (j : Fin T) : ℚ :=
  (rows.map fun y => (y j - (rows.map fun y => y j).sum / rows.length) ^ 2).sum

/-- All targets multiplied by the same number. -/
def common (c : ℚ) (hc : 0 < c) (b : V T) : Units T := ⟨fun _ => c, b, fun _ => hc⟩

/-! ### Proofs -/

theorem foldl_sub {α : Type} (f : α → ℚ) (l : List α) (a : ℚ) : l.foldl (fun r d => r - f d) a = a - (l.map f).sum := by
  induction l generalizing a with
  | nil => simp
  | cons d l ih => rw [List.foldl_cons, ih, List.map_cons, List.sum_cons]; ring

theorem merit_eq (pre : VStat T) (post : List (VStat T)) : merit pre post =
    if post.all fun d => d.n ≥ 5 then clusterVar pre - (post.map fun d => d.n / pre.n * clusterVar d).sum else 0 := by
  unfold merit
  rw [foldl_sub]

theorem clusterVar_units (u : Units T) (c : ℚ) (hu : ∀ j, u.a j = c) (s : VStat T) (hn : s.n ≠ 0) :
    clusterVar (u.stat s) = c * c * clusterVar s := by
  unfold clusterVar
  have : ((List.finRange T).map fun j => ((u.stat s).q j - (u.stat s).s j * (u.stat s).s j / (u.stat s).n) / ((u.stat s).n - 1)) =
      (List.finRange T).map fun j => c * c * ((s.q j - s.s j * s.s j / s.n) / (s.n - 1)) := by
    refine List.map_congr_left fun j _ => ?_
    have h : (u.stat s).q j - (u.stat s).s j * (u.stat s).s j / (u.stat s).n = c * c * (s.q j - s.s j * s.s j / s.n) := by
      simp only [Units.stat, hu]
      field_simp
      ring
    rw [h, mul_div_assoc]
    rfl
  rw [this, List.sum_map_mul_left, mul_div_assoc]

theorem merit_units (u : Units T) (c : ℚ) (hu : ∀ j, u.a j = c) (pre : VStat T) (hp : pre.n ≠ 0) (post : List (VStat T)) :
    merit (u.stat pre) (post.map u.stat) = c * c * merit pre post := by
  rw [merit_eq, merit_eq]
  have hall : ((post.map u.stat).all fun d => d.n ≥ 5) = post.all fun d => d.n ≥ 5 := by
    rw [List.all_map]; rfl
  rw [hall]
  by_cases h : (post.all fun d => d.n ≥ 5) = true
  · rw [if_pos h, if_pos h, clusterVar_units u c hu pre hp, List.map_map]
    have : post.map ((fun d => d.n / (u.stat pre).n * clusterVar d) ∘ u.stat) =
        post.map fun d => c * c * (d.n / pre.n * clusterVar d) := by
      refine List.map_congr_left fun d hd => ?_
      have hd5 : d.n ≥ 5 := by simpa using List.all_eq_true.mp h d hd
      simp only [Function.comp]
      rw [clusterVar_units u c hu d (by intro h0; rw [h0] at hd5; exact absurd hd5 (by decide +kernel))]
      show d.n / pre.n * (c * c * clusterVar d) = _
      ring
    rw [this, List.sum_map_mul_left]
    ring
  · rw [if_neg h, if_neg h, mul_zero]

/-- C202: expressing all targets in the same other unit, and moving their origins, does not change which of
two splits of a leaf has the larger merit. -/
theorem C202_common_unit_partial (c : ℚ) (hc : 0 < c) (b : V T) (pre : VStat T) (hp : pre.n ≠ 0) (p q : List (VStat T)) :
    merit ((common c hc b).stat pre) (p.map (common c hc b).stat) < merit ((common c hc b).stat pre) (q.map (common c hc b).stat) ↔
      merit pre p < merit pre q := by
  rw [merit_units _ c (fun _ => rfl) pre hp, merit_units _ c (fun _ => rfl) pre hp]
  exact mul_lt_mul_iff_right₀ (mul_pos hc hc)

/-- Ten rows: the first target separates the first five from the others, the second target alternates. -/
def tenRows : List (V 2) :=
  [![0, 0], ![0, 1], ![0, 0], ![0, 1], ![0, 0], ![1, 1], ![1, 0], ![1, 1], ![1, 0], ![1, 1]]

/-- The split of the first five from the others. -/
def byFirst : List (VStat 2) := [rowsStat (tenRows.take 5), rowsStat (tenRows.drop 5)]

/-- The split by the second target. -/
def bySecond : List (VStat 2) :=
  [rowsStat (tenRows.filter fun y => y 1 = 0), rowsStat (tenRows.filter fun y => y 1 = 1)]

/-- The first target in units twice as small, or the second. -/
def double (first : Bool) : Units 2 :=
  ⟨if first then ![2, 1] else ![1, 2], ![0, 0], by cases first <;> decide +kernel⟩

/-- C202: which split has the larger merit depends on the unit of a single target. -/
theorem C202_splits_violated :
    merit ((double true).stat (rowsStat tenRows)) (bySecond.map (double true).stat) <
      merit ((double true).stat (rowsStat tenRows)) (byFirst.map (double true).stat) ∧
    merit ((double false).stat (rowsStat tenRows)) (byFirst.map (double false).stat) <
      merit ((double false).stat (rowsStat tenRows)) (bySecond.map (double false).stat) := by
  decide +kernel

/-! ### C205 -/

/-- C205: not splitting has merit 0. -/
theorem C205_no_split (pre : VStat T) (hp : pre.n ≠ 0) : merit pre [pre] = 0 := by
  rw [merit_eq]
  by_cases h : ([pre].all fun d => d.n ≥ 5) = true
  · rw [if_pos h]
    simp only [List.map_cons, List.map_nil, List.sum_cons, List.sum_nil, div_self hp]
    ring
  · rw [if_neg h]

/-- C205: a split with a branch of weight below 5 has merit 0. -/
theorem C205_small_branch (pre d : VStat T) (post : List (VStat T)) (hd : d ∈ post) (hn : d.n < 5) : merit pre post = 0 := by
  rw [merit_eq, if_neg]
  intro h
  have : d.n ≥ 5 := by simpa using List.all_eq_true.mp h d hd
  exact absurd this (not_le.mpr hn)

theorem sum_sq (rows : List (V T)) (j : Fin T) (hr : rows ≠ []) :
    deviation rows j = (rowsStat rows).q j - (rowsStat rows).s j * (rowsStat rows).s j / (rowsStat rows).n := by
  have hk : ∀ (l : List (V T)) (m : ℚ), (l.map fun y => (y j - m) ^ 2).sum =
      (l.map fun y => y j ^ 2).sum - 2 * m * (l.map fun y => y j).sum + m ^ 2 * l.length := by
    intro l m
    induction l with
    | nil => simp
    | cons y l ih =>
      simp only [List.map_cons, List.sum_cons, ih, List.length_cons, Nat.cast_add, Nat.cast_one]
      ring
  have hn : (rows.length : ℚ) ≠ 0 := by
    have : rows.length ≠ 0 := by intro h; exact hr (List.length_eq_zero_iff.mp h)
    exact_mod_cast this
  unfold deviation
  rw [hk]
  simp only [rowsStat]
  field_simp
  ring

theorem deviation_nonneg (rows : List (V T)) (j : Fin T) : 0 ≤ deviation rows j := by
  unfold deviation
  refine List.sum_nonneg ?_
  simp only [List.mem_map]
  rintro _ ⟨y, -, rfl⟩
  exact sq_nonneg _

theorem clusterVar_rows (rows : List (V T)) (hr : rows ≠ []) :
    clusterVar (rowsStat rows) = overTargets (deviation rows) / (rows.length - 1) / T := by
  have hd : ∀ (g : Fin T → ℚ) (c : ℚ), ((List.finRange T).map fun j => g j / c).sum = ((List.finRange T).map g).sum / c := by
    intro g c
    induction List.finRange T with
    | nil => simp
    | cons a l ih => simp only [List.map_cons, List.sum_cons, ih]; ring
  unfold clusterVar overTargets
  congr 1
  rw [← hd]
  congr 1
  refine List.map_congr_left fun j _ => ?_
  rw [sum_sq rows j hr]
  rfl

/-- C205: for the rows of a leaf and a partition of them into branches of at least five rows each, the merit
times the number of targets is the sum of the sample variances (divisor `N - 1`) of the targets
minus the weighted mean of those of the branches. -/
theorem C205_merit (rows : List (V T)) (parts : List (List (V T))) (hT : 0 < T) (hr : rows ≠ [])
    (hparts : ∀ p ∈ parts, 5 ≤ p.length) :
    merit (rowsStat rows) (parts.map rowsStat) * T =
      overTargets (fun j => deviation rows j / (rows.length - 1)) -
        (parts.map fun p => p.length / rows.length * overTargets fun j => deviation p j / (p.length - 1)).sum := by
  have hT' : (T : ℚ) ≠ 0 := by exact_mod_cast hT.ne'
  have hd : ∀ (g : Fin T → ℚ) (c : ℚ), overTargets (fun j => g j / c) = overTargets g / c := by
    intro g c
    unfold overTargets
    induction List.finRange T with
    | nil => simp
    | cons a l ih => simp only [List.map_cons, List.sum_cons, ih]; ring
  rw [merit_eq, if_pos (by
    rw [List.all_map, List.all_eq_true]
    intro p hp
    have := hparts p hp
    simp only [Function.comp, rowsStat, decide_eq_true_eq, ge_iff_le]
    exact_mod_cast this)]
  rw [List.map_map, clusterVar_rows rows hr, sub_mul, div_mul_cancel₀ _ hT', hd, ← List.sum_map_mul_right]
  congr 2
  refine List.map_congr_left fun p hp => ?_
  have hp0 : p ≠ [] := by rintro rfl; have := hparts [] hp; simp at this
  simp only [Function.comp]
  rw [clusterVar_rows p hp0, hd]
  simp only [rowsStat]
  field_simp

/-- C205: a split that tells nothing apart (two halves with the same values) has a negative merit, as soon as
some target varies: it looks worse than no split. -/
theorem C205_useless (rows : List (V T)) (hT : 0 < T) (h5 : 5 ≤ rows.length) (j : Fin T) (hj : deviation rows j ≠ 0) :
    merit (rowsStat (rows ++ rows)) [rowsStat rows, rowsStat rows] < 0 := by
  have hr : rows ≠ [] := by rintro rfl; simp at h5
  have hT' : (0 : ℚ) < T := by exact_mod_cast hT
  have hn : (5 : ℚ) ≤ rows.length := by exact_mod_cast h5
  have h := C205_merit (rows ++ rows) [rows, rows] hT (by simp [hr]) (by simp [h5])
  have hdev : ∀ j, deviation (rows ++ rows) j = 2 * deviation rows j := by
    intro j
    unfold deviation
    have : ((rows ++ rows).map fun y => y j).sum / ((rows ++ rows).length : ℚ) = (rows.map fun y => y j).sum / rows.length := by
      rw [List.map_append, List.sum_append, List.length_append, Nat.cast_add]
      field_simp
    rw [this, List.map_append, List.sum_append]
    ring
  have hpos : 0 < overTargets (deviation rows) := by
    unfold overTargets
    have h0 : 0 < deviation rows j := lt_of_le_of_ne (deviation_nonneg rows j) (Ne.symm hj)
    refine lt_of_lt_of_le h0 (List.single_le_sum ?_ _ (List.mem_map_of_mem (List.mem_finRange j)))
    simp only [List.mem_map]
    rintro _ ⟨i, -, rfl⟩
    exact deviation_nonneg rows i
  have hd : ∀ (g : Fin T → ℚ) (c : ℚ), overTargets (fun j => g j / c) = overTargets g / c := by
    intro g c
    unfold overTargets
    induction List.finRange T with
    | nil => simp
    | cons a l ih => simp only [List.map_cons, List.sum_cons, ih]; ring
  have hm : ∀ (g : Fin T → ℚ) (c : ℚ), overTargets (fun j => c * g j) = c * overTargets g := by
    intro g c
    unfold overTargets
    rw [List.sum_map_mul_left]
  simp only [hdev] at h
  rw [hd (fun j => 2 * deviation rows j), hm] at h
  simp only [List.map_cons, List.map_nil, List.sum_cons, List.sum_nil, List.length_append, Nat.cast_add, hd] at h
  generalize (rows.length : ℚ) = n at h hn
  generalize overTargets (deviation rows) = D at h hpos
  have key : 2 * D / (n + n - 1) - (n / (n + n) * (D / (n - 1)) + (n / (n + n) * (D / (n - 1)) + 0)) < 0 := by
    have h1 : n - 1 ≠ 0 := by intro h; linarith
    have h2 : n + n - 1 ≠ 0 := by intro h; linarith
    have h3 : n ≠ 0 := by intro h; linarith
    have : 2 * D / (n + n - 1) - (n / (n + n) * (D / (n - 1)) + (n / (n + n) * (D / (n - 1)) + 0)) =
        -(D / ((n + n - 1) * (n - 1))) := by
      rw [show n + n = 2 * n by ring] at *
      field_simp
      ring
    rw [this, neg_lt_zero]
    exact div_pos hpos (mul_pos (by linarith) (by linarith))
  rw [← h] at key
  by_contra hneg
  exact absurd key (not_lt.mpr (mul_nonneg (not_lt.mp hneg) hT'.le))

example : merit (rowsStat tenRows) byFirst = 23 / 180 ∧ merit (rowsStat tenRows) bySecond = 23 / 180 := by decide +kernel

example : deviation [![(0 : ℚ)], ![1], ![0], ![1], ![0]] 0 ≠ 0 := by decide +kernel

end Verif.Trees.MT
