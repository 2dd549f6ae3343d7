import Verif.Meta.ForestRegRun
import Mathlib.Algebra.Order.BigOperators.Ring.List
import Mathlib.Tactic.Positivity
import Mathlib.Tactic.IntervalCases
import Mathlib.Data.Rat.Floor

/-!
Theorems about `AdaptiveRandomForestRegressor`; C143 (range), C144, C145, and an example for
C142 and C143.
-/

namespace Verif.Meta.ForestReg

section field

variable {F : Type} [Field F] [LinearOrder F] [IsStrictOrderedRing F]

/-! ### C143: the range of the detectors' inputs -/

theorem sqDev_nonneg (l : List F) : 0 ≤ sqDev l := by
  unfold sqDev
  apply List.sum_nonneg
  intro v hv
  rw [List.mem_map] at hv
  obtain ⟨x, _, rfl⟩ := hv
  exact mul_self_nonneg _

theorem sqDev_snoc (l : List F) (x : F) (hl : l ≠ []) :
    (l.length : F) * sqDev (l ++ [x]) =
      l.length * sqDev l + (l.length + 1) * ((x - avg (l ++ [x])) * (x - avg (l ++ [x]))) := by
  have hlen : (l.length : F) ≠ 0 := by
    have : l.length ≠ 0 := by simpa using hl
    exact_mod_cast this
  have hl1 : ((l.length : F) + 1) ≠ 0 := by exact_mod_cast Nat.succ_ne_zero l.length
  rw [sqDev_eq l hl, sqDev_eq _ (by simp)]
  simp only [avg, List.sum_append, List.sum_singleton, List.length_append, List.length_singleton, List.map_append,
    List.map_singleton]
  push_cast
  field_simp
  ring

/-- C143, partial: the first ten inputs after a restart are between 0 and 1. -/
theorem C143_range_partial (sqrt : F → F) (hsq : ∀ v, 0 ≤ v → 0 ≤ sqrt v ∧ sqrt v * sqrt v = v) (l : List F) (x : F)
    (hl : l.length < 10) : 0 ≤ scaled sqrt l x ∧ scaled sqrt l x ≤ 1 := by
  unfold scaled
  by_cases h0 : l = []
  · simp [h0]
  · simp only [if_neg h0]
    have hn : 0 < l.length := List.length_pos_of_ne_nil h0
    have hnF : (0 : F) < l.length := by exact_mod_cast hn
    have hn9 : (l.length : F) ≤ 9 := by exact_mod_cast (by omega : l.length ≤ 9)
    set S := sqDev (l ++ [x]) with hS
    have hSn : 0 ≤ S := sqDev_nonneg _
    obtain ⟨g1, g2⟩ := hsq (S / l.length) (div_nonneg hSn hnF.le)
    set sd := sqrt (S / l.length)
    by_cases hsd : sd > 0
    · rw [if_pos hsd]
      set d := x - avg (l ++ [x]) with hd
      have h1 := sqDev_snoc l x h0
      rw [← hS, ← hd] at h1
      have h2 : 0 ≤ (l.length : F) * sqDev l := mul_nonneg hnF.le (sqDev_nonneg _)
      have h3 : sd * sd * l.length = S := by rw [g2]; field_simp
      have h4 : (l.length + 1) * (d * d) ≤ (l.length : F) * l.length * (sd * sd) := by
        have : (l.length : F) * S = (l.length : F) * l.length * (sd * sd) := by rw [← h3]; ring
        rw [← this, h1]; linarith
      have h5 : d * d ≤ (3 * sd) * (3 * sd) := by
        have hss : 0 ≤ sd * sd := mul_self_nonneg _
        have hpos : (0 : F) < l.length + 1 := by linarith
        have : (l.length : F) * l.length ≤ 9 * (l.length + 1) := by nlinarith
        have h6 : (l.length + 1) * (d * d) ≤ (l.length + 1) * (9 * (sd * sd)) := by nlinarith
        have := le_of_mul_le_mul_left h6 hpos
        linarith
      have h6 : |d| ≤ 3 * sd := abs_le_of_sq_le_sq (by rw [sq, sq]; exact h5) (by linarith)
      rw [abs_le] at h6
      have h7 : d / sd ≤ 3 := by rw [div_le_iff₀ hsd]; exact h6.2
      have h8 : -3 ≤ d / sd := by rw [le_div_iff₀ hsd]; linarith [h6.1]
      constructor
      · apply div_nonneg <;> linarith
      · rw [div_le_one (by norm_num)]; linarith
    · rw [if_neg hsd]
      norm_num

theorem sum_replicate_zero (n : Nat) : (List.replicate n (0 : F)).sum = 0 := by simp

/-- C143 fails: the inputs are not bounded; a value that differs from all before can lead to
an input above any bound. -/
theorem C143_unbounded_violated (sqrt : F → F) (hsq : ∀ v, 0 ≤ v → sqrt (v * v) = v) (k : Nat) (hk : 2 ≤ k) :
    scaled sqrt (List.replicate (k * k - 1) 0) 1 = (((k : F) * k - 1) / k + 3) / 6 := by
  have hk4 : 4 ≤ k * k := Nat.mul_le_mul hk hk
  have hkF : (0 : F) < k := by exact_mod_cast (by omega : 0 < k)
  have hk2 : (2 : F) ≤ k := by exact_mod_cast hk
  have hne : List.replicate (k * k - 1) (0 : F) ≠ [] := by simp; omega
  have hlen : (((k * k - 1 : Nat)) : F) = (k : F) * k - 1 := by
    rw [Nat.cast_sub (by omega)]; push_cast; ring
  have hpos : (0 : F) < (k : F) * k - 1 := by nlinarith
  have havg : avg (List.replicate (k * k - 1) (0 : F) ++ [1]) = 1 / ((k : F) * k) := by
    simp only [avg, List.sum_append, sum_replicate_zero, List.sum_singleton, List.length_append, List.length_replicate,
      List.length_singleton]
    rw [Nat.sub_add_cancel (by omega)]
    push_cast
    ring
  have hdev : sqDev (List.replicate (k * k - 1) (0 : F) ++ [1]) / ((k : F) * k - 1) = 1 / k * (1 / k) := by
    rw [sqDev_eq _ (by simp)]
    simp only [List.map_append, List.map_replicate, mul_zero, List.map_singleton, List.sum_append, sum_replicate_zero,
      List.sum_singleton, List.length_append, List.length_replicate, List.length_singleton]
    rw [Nat.sub_add_cancel (by omega)]
    push_cast
    have := hpos.ne'
    rw [div_eq_iff this]
    field_simp
    ring
  unfold scaled
  simp only [if_neg hne, List.length_replicate, hlen, hdev, havg]
  rw [hsq _ (by positivity), if_pos (by positivity)]
  field_simp

/-- C143 fails: of a constant monitored value the first input is 0 and the second one 1/2. -/
theorem C143_constant_violated (sqrt : F → F) (hsq : sqrt 0 = 0) (x : F) :
    scaled sqrt [] x = 0 ∧ scaled sqrt [x] x = 1 / 2 := by
  have hs : sqDev ([x] ++ [x]) = 0 := by
    simp only [sqDev, avg, List.cons_append, List.nil_append, List.map_cons, List.map_nil, List.sum_cons, List.sum_nil,
      List.length_cons, List.length_nil]
    norm_num
  refine ⟨by simp [scaled], ?_⟩
  unfold scaled
  simp only [hs]
  norm_num [hsq]

example : scaled (fun v : ℚ => if v = 1 / 16 then 1 / 4 else 0) (List.replicate 15 0) 1 = 9 / 8 := by decide +kernel

/-! ### C144 -/

theorem sum_const_sub (ms : List (F × F)) (c : F) :
    (ms.map fun m => c - m.1).sum = ms.length * c - (ms.map Prod.fst).sum := by
  induction ms with
  | nil => simp
  | cons m ms ih =>
    simp only [List.map_cons, List.sum_cons, List.length_cons, ih]
    push_cast; ring

/-- Weight of a member with error `e` among `n` members with errors of sum `total`. -/
def weight (total : F) (n : Nat) (e : F) : F := (total - e) / ((n - 1) * total)

theorem errors_nonneg (v : Vote) (evals : List (F × F)) : 0 ≤ getError v evals := by
  unfold getError
  have h1 : 0 ≤ (evals.map fun e => |e.1 - e.2|).sum := by
    apply List.sum_nonneg
    intro x hx
    rw [List.mem_map] at hx
    obtain ⟨e, _, rfl⟩ := hx
    exact abs_nonneg _
  have h2 : 0 ≤ (evals.map fun e => (e.1 - e.2) * (e.1 - e.2)).sum := by
    apply List.sum_nonneg
    intro x hx
    rw [List.mem_map] at hx
    obtain ⟨e, _, rfl⟩ := hx
    exact mul_self_nonneg _
  split
  · exact le_refl _
  · split <;> positivity

/-- What one judged sample contributes to the error of a member. -/
def loss (v : Vote) (y p : F) : F :=
  match v with
  | .mae => max (y - p) (p - y)
  | _ => y ^ 2 - 2 * y * p + p ^ 2

/-- C144, partial: the error of a member is 0 as long as it was never judged, and then the mean of the
absolute or squared distances between target and prediction: every judged sample counts once. -/
theorem C144_error_partial (v : Vote) (evals : List (F × F)) (y p : F) :
    getError v ([] : List (F × F)) = 0 ∧
    getError v (evals ++ [(y, p)]) * (evals.length + 1) = getError v evals * evals.length + loss v y p := by
  have hmul : ∀ (c : F × F → F) (l : List (F × F)),
      (if l.length = 0 then 0 else (l.map c).sum / l.length) * (l.length : F) = (l.map c).sum := by
    intro c l
    by_cases h : l.length = 0
    · have : l = [] := List.length_eq_zero_iff.1 h
      subst this; simp
    · rw [if_neg h]
      have : (l.length : F) ≠ 0 := by exact_mod_cast h
      field_simp
  refine ⟨by simp [getError], ?_⟩
  have hlen : ((evals ++ [(y, p)]).length : F) = evals.length + 1 := by simp
  rw [← hlen]
  have habs : |y - p| = max (y - p) (p - y) := by
    show max (y - p) (-(y - p)) = _
    rw [neg_sub]
  cases v with
  | mae =>
    simp only [getError, hmul]
    simp only [loss, List.map_append, List.sum_append, List.map_cons, List.map_nil, List.sum_cons,
      List.sum_nil, add_zero, habs]
  | mse =>
    simp only [getError, hmul]
    simp only [loss, List.map_append, List.sum_append, List.map_cons, List.map_nil, List.sum_cons,
      List.sum_nil, add_zero]
    ring
  | none =>
    simp only [getError, hmul]
    simp only [loss, List.map_append, List.sum_append, List.map_cons, List.map_nil, List.sum_cons,
      List.sum_nil, add_zero]
    ring

/-- C144, partial: with at least two members, not all without error, the forest predicts an
average of the members' predictions with weights that are not negative, sum up to 1 and are
larger for smaller errors. -/
theorem C144_weighted_partial (v : Vote) (hv : v ≠ .none) (ms : List (F × F)) (hn : 2 ≤ ms.length)
    (he : ∀ m ∈ ms, 0 ≤ m.1) (hp : ∃ m ∈ ms, 0 < m.1) :
    ∃ w : F → F, (∀ m ∈ ms, 0 ≤ w m.1) ∧ (ms.map fun m => w m.1).sum = 1 ∧ (∀ a b, a < b → w b < w a) ∧
      aggregate false v ms = some (ms.map fun m => w m.1 * m.2).sum := by
  set total := (ms.map Prod.fst).sum with htot
  have hle : ∀ m ∈ ms, m.1 ≤ total := by
    intro m hm
    apply List.single_le_sum
    · intro x hx
      rw [List.mem_map] at hx
      obtain ⟨m', hm', rfl⟩ := hx
      exact he m' hm'
    · exact List.mem_map_of_mem hm
  have hpos : 0 < total := by
    obtain ⟨m, hm, hm0⟩ := hp
    exact lt_of_lt_of_le hm0 (hle m hm)
  have hn1 : (0 : F) < (ms.length : F) - 1 := by
    have : (2 : F) ≤ ms.length := by exact_mod_cast hn
    linarith
  have ht : (ms.map fun m => total - m.1).sum = ((ms.length : F) - 1) * total := by
    rw [sum_const_sub, ← htot]; ring
  have htp : (0 : F) < ((ms.length : F) - 1) * total := mul_pos hn1 hpos
  have hdiv : ∀ l : List F, ∀ c : F, (l.map fun x => x / c).sum = l.sum / c := by
    intro l c
    simp only [div_eq_mul_inv]
    rw [List.sum_map_mul_right, List.map_id']
  have hsum1 : (ms.map fun m => weight total ms.length m.1).sum = 1 := by
    have : (ms.map fun m => weight total ms.length m.1) =
        (ms.map fun m => total - m.1).map fun w => w / (((ms.length : F) - 1) * total) := by
      rw [List.map_map]; rfl
    rw [this, hdiv, ht, div_self htp.ne']
  refine ⟨weight total ms.length, ?_, hsum1, ?_, ?_⟩
  · intro m hm
    exact div_nonneg (by linarith [hle m hm]) htp.le
  · intro a b hab
    unfold weight
    rw [div_lt_div_iff_of_pos_right htp]
    linarith
  · have hws : ((ms.map fun m => total - m.1).map fun w => w / (((ms.length : F) - 1) * total)) =
        ms.map fun m => weight total ms.length m.1 := by
      rw [List.map_map]; rfl
    have hz : ∀ l : List (F × F), (((l.map fun m => weight total ms.length m.1).zip (l.map Prod.snd)).map fun q => q.1 * q.2) =
        l.map fun m => weight total ms.length m.1 * m.2 := by
      intro l
      induction l with
      | nil => rfl
      | cons a l ih => simp only [List.map_cons, List.zip_cons_cons, ih]
    unfold aggregate
    cases v with
    | none => exact absurd rfl hv
    | mse =>
      simp only [Bool.false_eq_true, if_false, ← htot, ne_eq, hpos.ne', not_false_eq_true, if_true, ht, htp.ne', hws,
        hsum1, div_one, hz]
    | mae =>
      simp only [Bool.false_eq_true, if_false, ← htot, ne_eq, hpos.ne', not_false_eq_true, if_true, ht, htp.ne', hws,
        hsum1, div_one, hz]

/-- C144, partial: without weights, or if no member has an error, the forest predicts the
mean. -/
theorem C144_plain_partial (v : Vote) (ms : List (F × F)) (hn : ms ≠ []) (hv : v = .none ∨ ∀ m ∈ ms, m.1 = 0) :
    aggregate false v ms = some ((ms.map Prod.snd).sum / ms.length) := by
  have hm : meanOf (ms.map Prod.snd) = some ((ms.map Prod.snd).sum / ms.length) := by
    unfold meanOf
    rw [if_neg (by simpa using hn), List.length_map]
  unfold aggregate
  rcases hv with rfl | hv
  · simpa using hm
  · have h0 : (ms.map Prod.fst).sum = 0 := by
      apply List.sum_eq_zero
      intro x hx
      rw [List.mem_map] at hx
      obtain ⟨m, hm, rfl⟩ := hx
      exact hv m hm
    cases v <;> simp [h0, hm]

/-- C144, partial: the prediction lies between the members' predictions. -/
theorem C144_between_partial (v : Vote) (ms : List (F × F)) (lo hi : F) (hn : 2 ≤ ms.length) (he : ∀ m ∈ ms, 0 ≤ m.1)
    (hb : ∀ m ∈ ms, lo ≤ m.2 ∧ m.2 ≤ hi) : ∃ p, aggregate false v ms = some p ∧ lo ≤ p ∧ p ≤ hi := by
  have hmul : ∀ (l : List (F × F)) (w : F × F → F) (c : F), (l.map fun m => w m * c).sum = (l.map w).sum * c := by
    intro l w c
    induction l with
    | nil => simp
    | cons a l ih => simp only [List.map_cons, List.sum_cons, ih]; ring
  by_cases hc : v = .none ∨ ∀ m ∈ ms, m.1 = 0
  · have hne : ms ≠ [] := by intro h; rw [h] at hn; simp at hn
    have hpos : (0 : F) < ms.length := by exact_mod_cast (by omega : 0 < ms.length)
    refine ⟨_, C144_plain_partial v ms hne hc, ?_, ?_⟩
    · rw [le_div_iff₀ hpos]
      have := List.sum_le_sum (l := ms) (f := fun _ => lo) (g := Prod.snd) fun m hm => (hb m hm).1
      simp only [List.map_const', List.sum_replicate, nsmul_eq_mul] at this
      linarith
    · rw [div_le_iff₀ hpos]
      have := List.sum_le_sum (l := ms) (f := Prod.snd) (g := fun _ => hi) fun m hm => (hb m hm).2
      simp only [List.map_const', List.sum_replicate, nsmul_eq_mul] at this
      linarith
  · rw [not_or] at hc
    obtain ⟨hc1, hc2⟩ := hc
    have hp : ∃ m ∈ ms, 0 < m.1 := by
      by_contra hcon
      apply hc2
      intro m hm
      by_contra h0
      exact hcon ⟨m, hm, lt_of_le_of_ne (he m hm) (Ne.symm h0)⟩
    obtain ⟨w, w1, w2, -, w4⟩ := C144_weighted_partial v hc1 ms hn he hp
    refine ⟨_, w4, ?_, ?_⟩
    · have := List.sum_le_sum (l := ms) (f := fun m => w m.1 * lo) (g := fun m => w m.1 * m.2)
        fun m hm => mul_le_mul_of_nonneg_left (hb m hm).1 (w1 m hm)
      rw [hmul ms (fun m => w m.1), w2, one_mul] at this
      exact this
    · have := List.sum_le_sum (l := ms) (f := fun m => w m.1 * m.2) (g := fun m => w m.1 * hi)
        fun m hm => mul_le_mul_of_nonneg_left (hb m hm).2 (w1 m hm)
      rw [hmul ms (fun m => w m.1), w2, one_mul] at this
      exact this

theorem sorted_count (s : List F) (hs : s.Pairwise (· ≤ ·)) (m : F) (i : Nat) (hi : i < s.length) :
    (s[i] ≤ m → i + 1 ≤ (s.filter fun x => x ≤ m).length) ∧
    (m ≤ s[i] → s.length - i ≤ (s.filter fun x => m ≤ x).length) := by
  constructor
  · intro h
    have h1 : (s.take (i + 1)).filter (fun x => decide (x ≤ m)) = s.take (i + 1) := by
      rw [List.filter_eq_self]
      intro a ha
      obtain ⟨j, hj, rfl⟩ := List.getElem_of_mem ha
      rw [List.length_take] at hj
      rw [List.getElem_take]
      simp only [decide_eq_true_eq]
      rcases Nat.lt_or_ge j i with hji | hji
      · exact le_trans (List.pairwise_iff_getElem.1 hs j i (by omega) hi hji) h
      · have : j = i := by omega
        subst this; exact h
    calc i + 1 = (s.take (i + 1)).length := by rw [List.length_take]; omega
      _ = ((s.take (i + 1)).filter (fun x => decide (x ≤ m))).length := by rw [h1]
      _ ≤ _ := ((List.take_sublist (i + 1) s).filter _).length_le
  · intro h
    have h1 : (s.drop i).filter (fun x => decide (m ≤ x)) = s.drop i := by
      rw [List.filter_eq_self]
      intro a ha
      obtain ⟨j, hj, rfl⟩ := List.getElem_of_mem ha
      rw [List.length_drop] at hj
      rw [List.getElem_drop]
      simp only [decide_eq_true_eq]
      rcases Nat.eq_zero_or_pos j with h0 | h0
      · subst h0; simpa using h
      · exact le_trans h (List.pairwise_iff_getElem.1 hs i (i + j) hi (by omega) (by omega))
    calc s.length - i = (s.drop i).length := by rw [List.length_drop]
      _ = ((s.drop i).filter (fun x => decide (m ≤ x))).length := by rw [h1]
      _ ≤ _ := ((List.drop_sublist i s).filter _).length_le

/-- C144, partial: with the median, at least half of the members' predictions are not larger
and at least half not smaller than the prediction of the forest. -/
theorem C144_median_partial (v : Vote) (ms : List (F × F)) (hn : ms ≠ []) :
    ∃ p, aggregate true v ms = some p ∧ ms.length ≤ 2 * (ms.filter fun m => m.2 ≤ p).length ∧
      ms.length ≤ 2 * (ms.filter fun m => p ≤ m.2).length := by
  set s := (ms.map Prod.snd).insertionSort (· ≤ ·) with hs
  have hlen : s.length = ms.length := by rw [hs, List.length_insertionSort, List.length_map]
  have hpos : 0 < ms.length := List.length_pos_of_ne_nil hn
  have hsort : s.Pairwise (· ≤ ·) := List.pairwise_insertionSort _ _
  have hperm : s.Perm (ms.map Prod.snd) := List.perm_insertionSort _ _
  have hcount : ∀ f : F → Bool, (s.filter f).length = (ms.filter fun m => f m.2).length := by
    intro f
    rw [(hperm.filter f).length_eq, List.filter_map, List.length_map]
    rfl
  have hagg : aggregate true v ms = medianOf (ms.map Prod.snd) := by simp [aggregate]
  rw [hagg]
  unfold medianOf
  simp only [← hs, hlen]
  rw [if_neg (by omega)]
  by_cases hodd : ms.length % 2 = 1
  · rw [if_pos hodd]
    have hi : ms.length / 2 < s.length := by omega
    refine ⟨_, rfl, ?_, ?_⟩
    · have := (sorted_count s hsort (s.getD (ms.length / 2) 0) _ hi).1 (by rw [List.getD_eq_getElem _ _ hi])
      rw [hcount] at this
      omega
    · have := (sorted_count s hsort (s.getD (ms.length / 2) 0) _ hi).2 (by rw [List.getD_eq_getElem _ _ hi])
      rw [hcount] at this
      omega
  · rw [if_neg hodd]
    have hi : ms.length / 2 < s.length := by omega
    have hj : ms.length / 2 - 1 < s.length := by omega
    have hle : s.getD (ms.length / 2 - 1) 0 ≤ s.getD (ms.length / 2) 0 := by
      rw [List.getD_eq_getElem _ _ hi, List.getD_eq_getElem _ _ hj]
      exact List.pairwise_iff_getElem.1 hsort _ _ hj hi (by omega)
    set p := (s.getD (ms.length / 2 - 1) 0 + s.getD (ms.length / 2) 0) / 2 with hp
    have hp1 : s.getD (ms.length / 2 - 1) 0 ≤ p := by rw [hp, le_div_iff₀ (by norm_num)]; linarith
    have hp2 : p ≤ s.getD (ms.length / 2) 0 := by rw [hp, div_le_iff₀ (by norm_num)]; linarith
    refine ⟨p, rfl, ?_, ?_⟩
    · have := (sorted_count s hsort p _ hj).1 (by rw [← List.getD_eq_getElem _ 0 hj]; exact hp1)
      rw [hcount] at this
      omega
    · have := (sorted_count s hsort p _ hi).2 (by rw [← List.getD_eq_getElem _ 0 hi]; exact hp2)
      rw [hcount] at this
      omega

/-- C144 fails: a forest of one tree that ever made an error predicts nan. -/
theorem C144_single_violated (v : Vote) (hv : v ≠ .none) (e p : F) (he : e ≠ 0) : aggregate false v [(e, p)] = none := by
  unfold aggregate
  cases v with
  | none => exact absurd rfl hv
  | mse => simp [he]
  | mae => simp [he]

/-- C144 fails: a member that was never judged (an untrained tree after a drift) has error 0
and the largest weight; of two members it alone determines the prediction. -/
theorem C144_unjudged_violated (v : Vote) (hv : v ≠ .none) (e p q : F) (he : 0 < e) :
    aggregate false v [(getError v [], p), (e, q)] = some p := by
  have h0 : getError v ([] : List (F × F)) = 0 := by simp [getError]
  unfold aggregate
  have := he.ne'
  cases v with
  | none => exact absurd rfl hv
  | mse => simp [h0, this]
  | mae => simp [h0, this]

example : aggregate false .mse [((1 : ℚ), 10), (3, 20), (0, 40)] = some (105 / 4) ∧
    aggregate true .mse [((1 : ℚ), 10), (3, 20), (0, 40), (1, 22)] = some 21 := by decide +kernel

end field

/-! ### C145 -/

/-- C145, partial: if the value is accepted, between 1 and all features are considered, as
the parameter says: a number as it is, a negative number subtracted from `n`, a share of `n`
rounded down, `None` for all. -/
theorem C145_max_features_partial (rs rl : Int) (p : Forest.MaxF) (n : Nat) (hn : 1 ≤ n) (k : Int)
    (h : setMaxF rs rl p n = .ok k) :
    1 ≤ k ∧ k ≤ n ∧
    (∀ j : Int, p = .int j → (1 ≤ j → j ≤ n → k = j) ∧ (n < j → k = n) ∧ (j < 0 → -n < j → k = n + j) ∧
      (j = 0 → k = 1) ∧ (j ≤ -n → k = 1)) ∧
    (∀ f : ℚ, p = .float f → 0 < f ∧ f ≤ 1 ∧ (1 ≤ f * n → (k : ℚ) ≤ f * n ∧ f * n < k + 1) ∧ (f * n < 1 → k = 1)) ∧
    (p = .none → k = n) ∧ (p = .auto → 1 ≤ rs → rs ≤ n → k = rs) ∧ (p = .log2 → 1 ≤ rl → rl ≤ n → k = rl) := by
  have clip : ∀ m : Int, k = (let m : Int := if m < 0 then m + n else m
      let m : Int := if m ≤ 0 then 1 else m
      if m > n then (n : Int) else m) →
      1 ≤ k ∧ k ≤ n ∧ (1 ≤ m → m ≤ n → k = m) ∧ (n < m → k = n) ∧ (m < 0 → -n < m → k = n + m) ∧ (m = 0 → k = 1) ∧
      (m ≤ -n → k = 1) := by
    intro m hk
    simp only at hk
    split at hk <;> rename_i h1 <;> split at hk <;> rename_i h2 <;> split at hk <;> rename_i h3 <;>
      refine ⟨?_, ?_, ?_, ?_, ?_, ?_, ?_⟩ <;> omega
  cases p with
  | auto =>
    obtain ⟨c1, c2, c3, c4, c5, c6, c7⟩ := clip rs (by simpa [setMaxF, Except.map] using h.symm)
    exact ⟨c1, c2, (fun _ hp => nomatch hp), (fun _ hp => nomatch hp), (fun hp => nomatch hp), fun _ => c3,
      (fun hp => nomatch hp)⟩
  | log2 =>
    obtain ⟨c1, c2, c3, c4, c5, c6, c7⟩ := clip rl (by simpa [setMaxF, Except.map] using h.symm)
    exact ⟨c1, c2, (fun _ hp => nomatch hp), (fun _ hp => nomatch hp), (fun hp => nomatch hp), (fun hp => nomatch hp),
      fun _ => c3⟩
  | none =>
    obtain ⟨c1, c2, c3, c4, c5, c6, c7⟩ := clip n (by simpa [setMaxF, Except.map] using h.symm)
    exact ⟨c1, c2, (fun _ hp => nomatch hp), (fun _ hp => nomatch hp), fun _ => c3 (by omega) (le_refl _),
      (fun hp => nomatch hp), (fun hp => nomatch hp)⟩
  | int j =>
    obtain ⟨c1, c2, c3, c4, c5, c6, c7⟩ := clip j (by simpa [setMaxF, Except.map] using h.symm)
    refine ⟨c1, c2, ?_, (fun _ hp => nomatch hp), (fun hp => nomatch hp), (fun hp => nomatch hp), (fun hp => nomatch hp)⟩
    intro j' hj'
    cases hj'
    exact ⟨c3, c4, c5, c6, c7⟩
  | float f =>
    unfold setMaxF at h
    by_cases hf : f ≤ 0 ∨ f > 1
    · simp [hf, Except.map] at h
    · have hf' := hf
      rw [not_or, not_le, not_lt] at hf'
      obtain ⟨f1, f2⟩ := hf'
      obtain ⟨c1, c2, c3, c4, c5, c6, c7⟩ := clip ⌊f * n⌋ (by simpa [hf, Except.map] using h.symm)
      refine ⟨c1, c2, (fun _ hp => nomatch hp), ?_, (fun hp => nomatch hp), (fun hp => nomatch hp),
        (fun hp => nomatch hp)⟩
      intro f' hff
      cases hff
      have hnq : (0 : ℚ) < n := by exact_mod_cast hn
      refine ⟨f1, f2, fun h1 => ?_, fun h1 => ?_⟩
      · have g1 : 1 ≤ ⌊f * n⌋ := Int.le_floor.2 (by simpa using h1)
        have g2 : ⌊f * n⌋ ≤ n := by
          have : ((⌊f * n⌋ : Int) : ℚ) ≤ n := le_trans (Int.floor_le _) (by nlinarith)
          exact_mod_cast this
        rw [c3 g1 g2]
        exact ⟨Int.floor_le _, Int.lt_floor_add_one _⟩
      · apply c6
        rw [Int.floor_eq_iff]
        constructor
        · simpa using (mul_pos f1 hnq).le
        · simpa using h1

/-- C145: exactly shares outside (0, 1] are refused. -/
theorem C145_refused_partial (rs rl : Int) (p : Forest.MaxF) (n : Nat) :
    setMaxF rs rl p n = .error .valueError ↔ ∃ f, p = .float f ∧ ¬ (0 < f ∧ f ≤ 1) := by
  cases p with
  | float f =>
    by_cases hf : f ≤ 0 ∨ f > 1
    · simp only [setMaxF, if_pos hf, Except.map, true_iff]
      exact ⟨f, rfl, fun ⟨a, b⟩ => by rcases hf with h | h <;> linarith⟩
    · simp only [setMaxF, if_neg hf, Except.map]
      refine ⟨(fun h => nomatch h), ?_⟩
      rintro ⟨f', hf', hn⟩
      cases hf'
      rw [not_or, not_le, not_lt] at hf
      exact absurd hf hn
  | _ =>
    simp only [setMaxF, Except.map]
    exact ⟨(fun h => nomatch h), fun ⟨_, h, _⟩ => nomatch h⟩

/-- C145 fails: after `reset` one feature is considered at a split, whatever the parameter. -/
theorem C145_reset_violated (rs rl : Nat → Int) (p : Forest.MaxF) (n n' : Nat) (k : Int) (hn : 1 ≤ n')
    (h : setMaxF (rs n) (rl n) p n = .ok k) :
    maxRun rs rl p [.build n, .reset, .build n'] = .ok [k, 1] := by
  have h' : setMaxF (rs n') (rl n') (.int 0) n' = .ok 1 := by
    have : ¬ ((1 : Int) > n') := by omega
    simp [setMaxF, Except.map, this]
  have e1 : maxCall rs rl p (.build n) = .ok (.int k, some k) := by simp [maxCall, h, Except.map]
  have e2 : maxCall rs rl (.int k) .reset = .ok (.int 0, none) := rfl
  have e3 : maxCall rs rl (.int 0) (.build n') = .ok (.int 1, some 1) := by simp [maxCall, h', Except.map]
  simp only [maxRun, e1, e2, e3, bind, Except.bind, pure, Except.pure, Option.toList]
  rfl

example : (maxRun (fun _ => 3) (fun _ => 3) .none [.build 9, .reset, .build 9]).toOption = some [9, 1] ∧
    (maxRun (fun _ => 3) (fun _ => 3) (.float (1 / 2)) [.build 9]).toOption = some [4] := by decide +kernel

/-! ### An example run -/

/-- Trees that predict the last target they learned; detectors that report a change at every
third value (drift) or whenever a value is above 1/2 (warning). -/
def demoEnv : Env ℚ Nat (List ℚ) (Bool × Nat) Nat where
  blank _ := []
  train _ s t := s.2.1 :: t
  predict t _ := t.headD 0
  newDrift := some (true, 0)
  newWarn := some (false, 0)
  add d v := if d.1 then ((true, d.2 + 1), decide (d.2 + 1 = 3)) else ((false, d.2), decide (v > 1 / 2))
  resetD d := (d.1, 0)
  crit := .mae
  sqrt v := if v = 1 / 2 then 7 / 10 else if v = 49 / 2 then 5 else 0

/-- Two members, the second one without training at the second instance. -/
def demoDraw (t i : Nat) : Forest.Draw Nat := ⟨if t = 2 ∧ i = 1 then 0 else 1, 0, 0, 0, 0⟩

/-- The members after the calls: tree, evaluator, time of creation, counters. -/
def demoRun (l : List ℚ) : Option (List ((List ℚ × List (ℚ × ℚ)) × Nat × Nat × Nat)) :=
  ((run demoEnv 2 (fun i => i) demoDraw [.ask, .fit (l.map fun y => (0, y))] init).ensemble).map fun ms =>
    ms.map fun m => ((m.tree, m.evals), m.created, m.nDrift, m.nWarn)

/-- The first member drifts at 3 without warning, the second one at 4 with a warning at 3. -/
example : demoRun [1, 1, 9, 7] =
    some [(([7], [(7, 0)]), 3, 1, 0), (([7], [(7, 0)]), 3, 1, 1)] := by decide +kernel

theorem demo_reset : ResetOk demoEnv := by
  have h : ∀ (b : Bool) l n, (fed demoEnv (b, n) l).1 = b := by
    intro b l
    induction l with
    | nil => intro n; rfl
    | cons v l ih =>
      intro n
      have : fed demoEnv (b, n) (v :: l) = fed demoEnv (demoEnv.add (b, n) v).1 l := rfl
      rw [this]
      cases b <;> exact ih _
  constructor
  · intro d hd l
    have : d = (true, 0) := by simpa [demoEnv] using hd.symm
    subst this
    show ((fed demoEnv (true, 0) l).1, 0) = _
    rw [h]
  · intro d hd l
    have : d = (false, 0) := by simpa [demoEnv] using hd.symm
    subst this
    show ((fed demoEnv (false, 0) l).1, 0) = _
    rw [h]

end Verif.Meta.ForestReg
