import Mathlib.Data.Real.Sqrt
import Mathlib.Data.Rat.Sqrt
import Mathlib.Algebra.BigOperators.Ring.List
import Mathlib.Tactic.Linarith
import Mathlib.Tactic.Positivity
import Mathlib.Algebra.Order.Field.Basic
import Mathlib.Tactic.FieldSimp
import Mathlib.Tactic.Ring

/-!
The drift detector input of the Hoeffding adaptive tree regressor (C208): `get_normalized_error`,
trees/_nodes/hatr_nodes.py 242-270.

Numbers come from any ordered field (ℚ in the examples and in the model of the tree, ℝ below);
`math.sqrt` is a parameter.
-/

namespace Verif.Trees.HRA

variable {F : Type} [Field F] [LinearOrder F] [IsStrictOrderedRing F]

/-- The attributes `_n`, `_pM` (= `_M`) and `_pS` (= `_S`) of a node. -/
structure Welford (F : Type) where
  n : Nat
  m : F
  s : F
  deriving DecidableEq

/-- A node before its first error: hatr_nodes.py 33 and 174 set `_n`; `_pM` and `_pS` do not exist
yet (and are not read). -/
def Welford.new : Welford F := ⟨0, 0, 0⟩

/-- `get_normalized_error`, hatr_nodes.py 242-270, as a function of `drift_input` (243): the value
returned and the new attributes of the node. -/
def normError (sqrt : F → F) (w : Welford F) (d : F) : F × Welford F :=
  if w.n + 1 = 1 then (0, ⟨1, d, 0⟩)
  else
    let n : F := ((w.n + 1 : Nat) : F)
    let m := w.m + (d - w.m) / n
    let s := w.s + (d - w.m) * (d - m)
    let sd := sqrt (s / (n - 1))
    let z := if sd > 0 then (d - m) / sd else 0
    ((z + 3) / 6, ⟨w.n + 1, m, s⟩)

/-- The values that a node returns for a sequence of errors, with its attributes afterwards. -/
def feed (sqrt : F → F) (w : Welford F) : List F → List F × Welford F
  | [] => ([], w)
  | d :: ds =>
    let r := normError sqrt w d
    let rest := feed sqrt r.2 ds
    (r.1 :: rest.1, rest.2)

/-! ### Specification -/

/-- Mean of a list of errors. -/
def avg (ds : List F) : F := ds.sum / ds.length

/-- Sum of the squared deviations from the mean. -/
def sqDev (ds : List F) : F := (ds.map fun d => (d - avg ds) ^ 2).sum

/-- `sqrt` is a square root of every non-negative number. -/
def IsSqrt (sqrt : F → F) : Prop := ∀ v, 0 ≤ v → 0 ≤ sqrt v ∧ sqrt v * sqrt v = v

/-- The value for the last of the errors `ds ++ [d]`: its standard score in the sample of all
errors so far, mapped from [-3, 3] to [0, 1]. -/
def score (sqrt : F → F) (ds : List F) (d : F) : F :=
  let all := ds ++ [d]
  let sd := sqrt (sqDev all / ((all.length : F) - 1))
  (if sd > 0 then (d - avg all) / sd else 0) / 6 + 1 / 2

/-! ### Welford's recurrence -/

theorem sum_sq (m : F) (ds : List F) :
    (ds.map fun d => (d - m) ^ 2).sum = (ds.map fun d => d ^ 2).sum - 2 * m * ds.sum + ds.length * m ^ 2 := by
  induction ds with
  | nil => simp
  | cons d ds ih =>
    simp only [List.map_cons, List.sum_cons, ih, List.length_cons, Nat.cast_add, Nat.cast_one]
    ring

theorem sqDev_eq (ds : List F) (h : ds ≠ []) :
    sqDev ds = (ds.map fun d => d ^ 2).sum - ds.sum ^ 2 / ds.length := by
  have : (ds.length : F) ≠ 0 := by
    have := List.length_pos_of_ne_nil h
    exact_mod_cast this.ne'
  rw [sqDev, sum_sq, avg]
  field_simp
  ring

theorem sqDev_nonneg (ds : List F) : 0 ≤ sqDev ds := by
  unfold sqDev
  generalize avg ds = m
  induction ds with
  | nil => simp
  | cons d ds ih =>
    simp only [List.map_cons, List.sum_cons]
    have := sq_nonneg (d - m)
    linarith

/-- The attributes after the errors `ds`. -/
def Tracks (w : Welford F) (ds : List F) : Prop :=
  w.n = ds.length ∧ (ds ≠ [] → w.m = avg ds ∧ w.s = sqDev ds)

theorem tracks_step (sqrt : F → F) (w : Welford F) (ds : List F) (h : Tracks w ds) (d : F) :
    Tracks (normError sqrt w d).2 (ds ++ [d]) := by
  obtain ⟨h1, h2⟩ := h
  by_cases he : ds = []
  · subst he
    simp only [List.length_nil] at h1
    rw [normError, if_pos (by omega)]
    exact ⟨by simp, fun _ => ⟨by simp [avg], by simp [sqDev, avg]⟩⟩
  · obtain ⟨hm, hs⟩ := h2 he
    have hpos := List.length_pos_of_ne_nil he
    have hk : (ds.length : F) ≠ 0 := by exact_mod_cast hpos.ne'
    have hk1 : (ds.length : F) + 1 ≠ 0 := by exact_mod_cast (Nat.succ_ne_zero ds.length)
    have e1 : w.m + (d - w.m) / ((w.n + 1 : Nat) : F) = avg (ds ++ [d]) := by
      rw [hm, h1]
      simp only [avg, List.sum_append, List.sum_singleton, List.length_append, List.length_singleton, Nat.cast_add,
        Nat.cast_one]
      field_simp
      ring
    rw [normError, if_neg (by omega)]
    refine ⟨by simp [h1], fun _ => ⟨e1, ?_⟩⟩
    show w.s + (d - w.m) * (d - (w.m + (d - w.m) / ((w.n + 1 : Nat) : F))) = _
    rw [hs, sqDev_eq ds he, sqDev_eq (ds ++ [d]) (by simp), hm, h1]
    simp only [avg, List.map_append, List.map_cons, List.map_nil, List.sum_append, List.sum_singleton, List.length_append,
      List.length_singleton, Nat.cast_add, Nat.cast_one]
    field_simp
    ring

theorem value_step (sqrt : F → F) (w : Welford F) (ds : List F) (h : Tracks w ds) (d : F) (he : ds ≠ []) :
    (normError sqrt w d).1 = score sqrt ds d := by
  obtain ⟨t1, t2⟩ := tracks_step sqrt w ds h d
  obtain ⟨t3, t4⟩ := t2 (by simp)
  obtain ⟨h1, -⟩ := h
  have hpos := List.length_pos_of_ne_nil he
  rw [normError, if_neg (by omega)] at t3 t4 ⊢
  simp only at t3 t4 ⊢
  rw [t4, t3, score]
  simp only [h1, List.length_append, List.length_singleton]
  ring

theorem feed_tracks (sqrt : F → F) : ∀ (ds : List F) (w : Welford F) (ds0 : List F), Tracks w ds0 →
    Tracks (feed sqrt w ds).2 (ds0 ++ ds)
  | [], w, ds0, h => by simpa [feed] using h
  | d :: ds, w, ds0, h => by
    have := feed_tracks sqrt ds _ _ (tracks_step sqrt w ds0 h d)
    simpa [feed] using this

theorem feed_append (sqrt : F → F) : ∀ (ds es : List F) (w : Welford F),
    feed sqrt w (ds ++ es) = ((feed sqrt w ds).1 ++ (feed sqrt (feed sqrt w ds).2 es).1, (feed sqrt (feed sqrt w ds).2 es).2)
  | [], es, w => by simp [feed]
  | d :: ds, es, w => by simp [feed, feed_append sqrt ds es]

theorem feed_length (sqrt : F → F) : ∀ (ds : List F) (w : Welford F), (feed sqrt w ds).1.length = ds.length
  | [], w => rfl
  | d :: ds, w => by simp [feed, feed_length sqrt ds]

theorem feed_last (sqrt : F → F) (ds : List F) (d : F) (es : List F) :
    (feed sqrt Welford.new (ds ++ d :: es)).1[ds.length]? =
      some (if ds = [] then 0 else score sqrt ds d) := by
  have ht : Tracks (feed sqrt Welford.new ds).2 ds := by
    have := feed_tracks sqrt ds Welford.new [] ⟨rfl, fun h => absurd rfl h⟩
    simpa using this
  rw [feed_append]
  simp only [feed]
  rw [List.getElem?_append_right (by rw [feed_length]), feed_length]
  simp only [Nat.sub_self, List.getElem?_cons_zero, Option.some.injEq]
  by_cases he : ds = []
  · subst he
    simp [feed, normError, Welford.new]
  · rw [if_neg he]
    exact value_step sqrt _ ds ht d he

/-- C208: whatever errors a node has seen, it keeps their number, their mean and their sum of squared
deviations; the first error is reported to the detector as 0, and every later one as its standard
score among all errors of the node so far, mapped linearly from [-3, 3] to [0, 1] (as 1/2 if they
are all equal). -/
theorem C208_standard_score (sqrt : F → F) (errs : List F) :
    (errs ≠ [] → (feed sqrt Welford.new errs).2 = ⟨errs.length, avg errs, sqDev errs⟩) ∧
    (feed sqrt Welford.new errs).1.length = errs.length ∧
    ∀ ds d es, errs = ds ++ d :: es →
      (feed sqrt Welford.new errs).1[ds.length]? = some (if ds = [] then 0 else score sqrt ds d) := by
  refine ⟨fun he => ?_, feed_length sqrt errs _, fun ds d es h => ?_⟩
  · have := feed_tracks sqrt errs Welford.new [] ⟨rfl, fun h => absurd rfl h⟩
    simp only [List.nil_append] at this
    obtain ⟨t1, t2⟩ := this
    obtain ⟨t3, t4⟩ := t2 he
    cases hw : (feed sqrt Welford.new errs).2 with
    | mk n m s =>
      rw [hw] at t1 t3 t4
      simp only at t1 t3 t4
      rw [t1, t3, t4]
  · subst h
    exact feed_last sqrt ds d es

/-! ### The range -/

/-- The squared deviation of the newest error is at most the fraction `(n-1)/n` of all. -/
theorem last_dev (ds : List F) (d : F) (he : ds ≠ []) :
    (d - avg (ds ++ [d])) ^ 2 * (ds.length + 1) ≤ sqDev (ds ++ [d]) * ds.length := by
  have hpos := List.length_pos_of_ne_nil he
  have hk : (0 : F) < ds.length := by exact_mod_cast hpos
  have h0 := sqDev_nonneg ds
  have key : sqDev (ds ++ [d]) * ds.length = sqDev ds * ds.length + (d - avg (ds ++ [d])) ^ 2 * (ds.length + 1) := by
    rw [sqDev_eq ds he, sqDev_eq (ds ++ [d]) (by simp)]
    simp only [avg, List.map_append, List.map_cons, List.map_nil, List.sum_append, List.sum_singleton, List.length_append,
      List.length_singleton, Nat.cast_add, Nat.cast_one]
    have hk1 : (ds.length : F) + 1 ≠ 0 := by positivity
    field_simp
    ring
  rw [key]
  have := mul_nonneg h0 hk.le
  linarith

theorem score_range (sqrt : F → F) (hq : IsSqrt sqrt) (ds : List F) (d : F) (he : ds ≠ []) :
    (0 ≤ score sqrt ds d ∧ score sqrt ds d ≤ 1) ↔
      (d - avg (ds ++ [d])) ^ 2 * ds.length ≤ 9 * sqDev (ds ++ [d]) := by
  have hpos := List.length_pos_of_ne_nil he
  have hk : (0 : F) < ds.length := by exact_mod_cast hpos
  have hlen : (((ds ++ [d]).length : Nat) : F) - 1 = ds.length := by simp
  have hv : 0 ≤ sqDev (ds ++ [d]) / ds.length := div_nonneg (sqDev_nonneg _) hk.le
  obtain ⟨q1, q2⟩ := hq _ hv
  unfold score
  simp only [hlen]
  generalize hsd : sqrt (sqDev (ds ++ [d]) / ds.length) = sd at *
  have hS : sqDev (ds ++ [d]) = sd * sd * ds.length := by rw [q2]; field_simp
  have hl := last_dev ds d he
  rw [hS] at hl ⊢
  generalize hz : d - avg (ds ++ [d]) = z at *
  by_cases hp : sd > 0
  · rw [if_pos hp]
    constructor
    · rintro ⟨a, b⟩
      have a' : -3 ≤ z / sd := by linarith
      have b' : z / sd ≤ 3 := by linarith
      rw [le_div_iff₀ hp] at a'
      rw [div_le_iff₀ hp] at b'
      have : z ^ 2 ≤ 9 * (sd * sd) := by nlinarith
      nlinarith
    · intro hle
      have : z ^ 2 ≤ (3 * sd) ^ 2 := by
        have : z ^ 2 * ds.length ≤ (3 * sd) ^ 2 * ds.length := by nlinarith
        exact le_of_mul_le_mul_right this hk
      have := abs_le_of_sq_le_sq' this (by linarith)
      have a' : -3 ≤ z / sd := by rw [le_div_iff₀ hp]; linarith [this.1]
      have b' : z / sd ≤ 3 := by rw [div_le_iff₀ hp]; exact this.2
      constructor <;> linarith
  · have h0 : sd = 0 := le_antisymm (not_lt.mp hp) q1
    rw [if_neg hp]
    subst h0
    refine ⟨fun _ => ?_, fun _ => by norm_num⟩
    have : z ^ 2 * (ds.length + 1) ≤ 0 := by simpa using hl
    have hz0 : z ^ 2 * ds.length ≤ z ^ 2 * (ds.length + 1) := by nlinarith [sq_nonneg z]
    linarith

/-- C208 (partial): the value reported for an error lies between 0 and 1, as ADWIN wants it, exactly
if the error is within three standard deviations of the mean of the errors so far; this holds for the
first ten errors of a node whatever they are.  Missing (and false, see the violation): later errors. -/
theorem C208_range_partial (sqrt : F → F) (hq : IsSqrt sqrt) (ds : List F) (d : F) (es : List F) :
    ∃ v, (feed sqrt Welford.new (ds ++ d :: es)).1[ds.length]? = some v ∧
      (0 ≤ v ∧ v ≤ 1 ↔ (d - avg (ds ++ [d])) ^ 2 * ds.length ≤ 9 * sqDev (ds ++ [d])) ∧
      (ds.length < 10 → 0 ≤ v ∧ v ≤ 1) := by
  refine ⟨_, feed_last sqrt ds d es, ?_⟩
  by_cases he : ds = []
  · subst he
    refine ⟨?_, fun _ => by simp⟩
    simp [avg, sqDev]
  · rw [if_neg he]
    refine ⟨score_range sqrt hq ds d he, fun hlt => (score_range sqrt hq ds d he).mpr ?_⟩
    have hpos := List.length_pos_of_ne_nil he
    have hl := last_dev ds d he
    have h0 := sqDev_nonneg (ds ++ [d])
    have hk : (0 : F) < ds.length := by exact_mod_cast hpos
    -- `k² ≤ 9 (k + 1)` for `k ≤ 9`
    have hkk : (ds.length : F) * ds.length ≤ 9 * (ds.length + 1) := by
      have : ds.length * ds.length ≤ 9 * (ds.length + 1) := by
        have : ds.length ≤ 9 := by omega
        nlinarith
      exact_mod_cast this
    have h1 : (0 : F) < ds.length + 1 := by linarith
    refine le_of_mul_le_mul_right ?_ h1
    calc (d - avg (ds ++ [d])) ^ 2 * ds.length * (ds.length + 1)
        = (d - avg (ds ++ [d])) ^ 2 * (ds.length + 1) * ds.length := by ring
      _ ≤ sqDev (ds ++ [d]) * ds.length * ds.length := mul_le_mul_of_nonneg_right hl hk.le
      _ = sqDev (ds ++ [d]) * (ds.length * ds.length) := by ring
      _ ≤ sqDev (ds ++ [d]) * (9 * (ds.length + 1)) := mul_le_mul_of_nonneg_left hkk h0
      _ = 9 * sqDev (ds ++ [d]) * (ds.length + 1) := by ring

theorem outlier_avg (k : Nat) (a b : F) :
    avg (List.replicate k a ++ [b]) = (k * a + b) / (k + 1) := by
  simp [avg]

theorem outlier_dev (k : Nat) (a b : F) :
    sqDev (List.replicate k a ++ [b]) = (b - a) ^ 2 * k / (k + 1) := by
  have hk : (k : F) + 1 ≠ 0 := by positivity
  rw [sqDev_eq _ (by simp)]
  simp only [List.map_append, List.map_replicate, List.map_cons, List.map_nil, List.sum_append, List.sum_replicate,
    List.sum_singleton, List.length_append, List.length_replicate, List.length_singleton, nsmul_eq_mul, Nat.cast_add,
    Nat.cast_one]
  field_simp
  ring

/-- C208 (violated): after ten or more equal errors, a larger error is reported as a value above 1, and
a smaller one as a value below 0. -/
theorem C208_outlier_violated (sqrt : F → F) (hq : IsSqrt sqrt) (k : Nat) (hk : 10 ≤ k) (a b : F) :
    ∃ v, (feed sqrt Welford.new (List.replicate k a ++ [b])).1[k]? = some v ∧
      (a < b → 1 < v) ∧ (b < a → v < 0) := by
  have hne : List.replicate k a ≠ [] := by
    intro h
    have := congrArg List.length h
    simp at this
    omega
  have hlast := feed_last sqrt (List.replicate k a) b []
  simp only [List.length_replicate] at hlast
  rw [if_neg hne] at hlast
  refine ⟨_, hlast, ?_⟩
  have hkF : (10 : F) ≤ k := by exact_mod_cast hk
  have hk1 : (0 : F) < k + 1 := by linarith
  have hlen : (((List.replicate k a ++ [b]).length : Nat) : F) - 1 = k := by simp
  have hv : (0 : F) ≤ (b - a) ^ 2 / (k + 1) := div_nonneg (sq_nonneg _) hk1.le
  have hvar : sqDev (List.replicate k a ++ [b]) / (k : F) = (b - a) ^ 2 / (k + 1) := by
    rw [outlier_dev]
    have : (k : F) ≠ 0 := by linarith
    field_simp
  obtain ⟨q1, q2⟩ := hq _ hv
  unfold score
  simp only [hlen, hvar, outlier_avg]
  generalize hsd : sqrt ((b - a) ^ 2 / (k + 1)) = sd at *
  have hz : b - (k * a + b) / (k + 1) = (b - a) * k / (k + 1) := by
    field_simp
    ring
  rw [hz]
  -- `sd² (k+1) = (b-a)²`
  have hsq : sd * sd * (k + 1) = (b - a) ^ 2 := by rw [q2]; field_simp
  have hposd : a ≠ b → sd > 0 := by
    intro h
    rcases q1.lt_or_eq with h' | h'
    · exact h'
    · exfalso
      rw [← h'] at hsq
      have : (b - a) ^ 2 = 0 := by rw [← hsq]; ring
      have : b - a = 0 := by simpa using this
      exact h (by linarith)
  have hgap : ∀ c : F, 0 < c → c ^ 2 = sd * sd * (k + 1) → 0 < sd → 3 * sd < c * k / (k + 1) := by
    intro c hc hc2 hs
    rw [lt_div_iff₀ hk1]
    have h9 : (9 : F) * (k + 1) < k * k := by nlinarith
    have hsq2 : (3 * sd * (k + 1)) ^ 2 < (c * k) ^ 2 := by
      have : (3 * sd * (k + 1)) ^ 2 = (sd * sd * (k + 1)) * (9 * (k + 1)) := by ring
      rw [this, mul_pow, hc2]
      have hpos : 0 < sd * sd * ((k : F) + 1) := by positivity
      nlinarith
    exact lt_of_pow_lt_pow_left₀ 2 (by positivity) hsq2
  constructor
  · intro hab
    have hs := hposd (ne_of_lt hab)
    rw [if_pos hs]
    have := hgap (b - a) (by linarith) hsq.symm hs
    have h3 : 3 < (b - a) * k / (k + 1) / sd := by rw [lt_div_iff₀ hs]; exact this
    linarith
  · intro hab
    have hs := hposd (ne_of_gt hab)
    rw [if_pos hs]
    have := hgap (a - b) (by linarith) (by rw [hsq]; ring) hs
    have h3 : 3 < (a - b) * k / (k + 1) / sd := by rw [lt_div_iff₀ hs]; exact this
    have : (b - a) * k / (k + 1) / sd = -((a - b) * k / (k + 1) / sd) := by ring
    rw [this]
    linarith

/-! ### Independence of the unit of the target -/

theorem avg_scale (c : F) (ds : List F) : avg (ds.map (c * ·)) = c * avg ds := by
  have : (ds.map (c * ·)).sum = c * ds.sum := by
    induction ds with
    | nil => simp
    | cons d ds ih => simp only [List.map_cons, List.sum_cons, ih]; ring
  rw [avg, avg, this, List.length_map]
  ring

theorem sqDev_scale (c : F) (ds : List F) : sqDev (ds.map (c * ·)) = c ^ 2 * sqDev ds := by
  unfold sqDev
  rw [avg_scale, List.map_map]
  have : ((fun d => (d - c * avg ds) ^ 2) ∘ fun x => c * x) = fun d => c ^ 2 * (d - avg ds) ^ 2 := by
    funext d
    simp only [Function.comp]
    ring
  rw [this, List.sum_map_mul_left]

/-- C208: the values reported do not depend on the unit of the target: multiplying all errors by a
positive number changes none of them. -/
theorem C208_unit_free (sqrt : F → F) (hq : IsSqrt sqrt) (c : F) (hc : 0 < c) (errs : List F) :
    (feed sqrt Welford.new (errs.map (c * ·))).1 = (feed sqrt Welford.new errs).1 := by
  refine List.ext_getElem? fun i => ?_
  by_cases hi : i < errs.length
  · obtain ⟨ds, d, es, rfl, rfl⟩ : ∃ ds d es, errs = ds ++ d :: es ∧ i = ds.length :=
      ⟨errs.take i, errs[i], errs.drop (i + 1), by simp, by simp; omega⟩
    have h2 := feed_last sqrt (ds.map (c * ·)) (c * d) (es.map (c * ·))
    rw [List.length_map] at h2
    rw [List.map_append, List.map_cons, h2, feed_last]
    simp only [List.map_eq_nil_iff]
    by_cases he : ds = []
    · simp [he]
    · rw [if_neg he, if_neg he]
      have hmap : ds.map (c * ·) ++ [c * d] = (ds ++ [d]).map (c * ·) := by simp
      simp only [score, hmap, avg_scale, sqDev_scale, List.length_map, Option.some.injEq]
      have hpos := List.length_pos_of_ne_nil he
      have hk : (0 : F) < ds.length := by exact_mod_cast hpos
      have hlen : (((ds ++ [d]).length : Nat) : F) - 1 = ds.length := by simp
      rw [hlen]
      have hv : 0 ≤ sqDev (ds ++ [d]) / (ds.length : F) := div_nonneg (sqDev_nonneg _) hk.le
      have hv' : 0 ≤ c ^ 2 * sqDev (ds ++ [d]) / (ds.length : F) :=
        div_nonneg (mul_nonneg (sq_nonneg c) (sqDev_nonneg _)) hk.le
      obtain ⟨q1, q2⟩ := hq _ hv
      obtain ⟨r1, r2⟩ := hq _ hv'
      have hr : sqrt (c ^ 2 * sqDev (ds ++ [d]) / (ds.length : F)) = c * sqrt (sqDev (ds ++ [d]) / (ds.length : F)) := by
        have : (sqrt (c ^ 2 * sqDev (ds ++ [d]) / (ds.length : F))) ^ 2 =
            (c * sqrt (sqDev (ds ++ [d]) / (ds.length : F))) ^ 2 := by
          rw [mul_pow, sq, sq (sqrt (sqDev _ / _)), r2, q2]
          ring
        exact (pow_left_inj₀ r1 (mul_nonneg hc.le q1) two_ne_zero).mp this
      rw [hr]
      by_cases hp : sqrt (sqDev (ds ++ [d]) / (ds.length : F)) > 0
      · rw [if_pos hp, if_pos (mul_pos hc hp)]
        have := hp.ne'
        have := hc.ne'
        field_simp
      · rw [if_neg hp, if_neg (fun h => hp ((mul_pos_iff_of_pos_left hc).mp h))]
  · rw [List.getElem?_eq_none (by rw [feed_length, List.length_map]; omega),
      List.getElem?_eq_none (by rw [feed_length]; omega)]

/-! ### Examples -/

/-- The real square root is one. -/
theorem real_isSqrt : IsSqrt Real.sqrt := fun v hv => ⟨Real.sqrt_nonneg v, Real.mul_self_sqrt hv⟩

/-- Equal errors are reported as 1/2; after three errors 0, the error 2 is 3/2 standard deviations
above the mean 1/2. -/
example : (feed (F := ℚ) Rat.sqrt Welford.new [2, 2, 2]).1 = [0, 1 / 2, 1 / 2] ∧
    (feed (F := ℚ) Rat.sqrt Welford.new [0, 0, 0, 2]).1 = [0, 1 / 2, 1 / 2, 3 / 4] ∧
    (feed (F := ℚ) Rat.sqrt Welford.new [1, 3, 8]).2 = ⟨3, 4, 26⟩ := by decide +kernel

example : ∃ v, (feed Real.sqrt Welford.new (List.replicate 10 (0 : ℝ) ++ [1])).1[10]? = some v ∧ 1 < v := by
  obtain ⟨v, h1, h2, -⟩ := C208_outlier_violated Real.sqrt real_isSqrt 10 (by norm_num) 0 1
  exact ⟨v, h1, h2 one_pos⟩

end Verif.Trees.HRA
