import Verif.Adwin.CutTest

/-!
C291: ADWIN (drift_detection/adwin.py) fed with `c + x` or `c - x` in place of `x`.
-/

namespace Verif.Adwin

/-! ### Specification -/

/-- The same calls with `f x` in place of each value `x`. -/
def Op.onValue (f : ℚ → ℚ) : Op → Op
  | .add v => .add (f v)
  | .check => .check
  | .setClock c => .setClock c
  | .reset => .reset

/-! ### The moved state -/

/-- A bucket of `2 ^ i` elements. -/
def moveB (a c : ℚ) (i : Nat) (b : Bucket) : Bucket := ⟨a * b.total + c * 2 ^ i, b.var⟩

/-- The rows from row `i` on. -/
def moveRows (a c : ℚ) : Nat → List (List Bucket) → List (List Bucket)
  | _, [] => []
  | i, row :: rows => row.map (moveB a c i) :: moveRows a c (i + 1) rows

/-- The state. -/
def moveS (a c : ℚ) (s : State) : State := { s with rows := moveRows a c 0 s.rows, total := a * s.total + c * s.width }

variable {a c : ℚ}

theorem sq_diff (ha : a * a = 1) (x y : ℚ) : (a * x - a * y) * (a * x - a * y) = (x - y) * (x - y) := by
  have : (a * x - a * y) * (a * x - a * y) = a * a * ((x - y) * (x - y)) := by ring
  rw [this, ha, one_mul]

theorem sq_move (ha : a * a = 1) (k x y p q : ℚ) (hx : x = a * p + c) (hy : y = a * q + c) :
    k * (x - y) * (x - y) = k * (p - q) * (p - q) := by
  rw [hx, hy, mul_assoc, mul_assoc, show a * p + c - (a * q + c) = a * p - a * q by ring, sq_diff ha]

theorem merge_move (ha : a * a = 1) (i : Nat) (b0 b1 : Bucket) :
    merge i (moveB a c i b0) (moveB a c i b1) = moveB a c (i + 1) (merge i b0 b1) := by
  have hne : ((2 : ℚ) ^ i) ≠ 0 := by positivity
  unfold merge moveB
  simp only [Bucket.mk.injEq, Nat.cast_pow, Nat.cast_ofNat]
  refine ⟨by ring, ?_⟩
  have e0 : (a * b0.total + c * 2 ^ i) / 2 ^ i = a * (b0.total / 2 ^ i) + c := by field_simp
  have e1 : (a * b1.total + c * 2 ^ i) / 2 ^ i = a * (b1.total / 2 ^ i) + c := by field_simp
  rw [e0, e1, show ∀ p q : ℚ, a * p + c - (a * q + c) = a * p - a * q from fun p q => by ring, sq_diff ha]

theorem insert_move (i : Nat) (row : List Bucket) (b : Bucket) :
    insertBucket (row.map (moveB a c i)) (moveB a c i b) = (insertBucket row b).map (List.map (moveB a c i)) := by
  unfold insertBucket
  rw [List.length_map]
  split
  · simp [Except.map]
  · rfl

theorem compress_move (ha : a * a = 1) : ∀ (n i : Nat) (rows : List (List Bucket)), rows.length ≤ n →
    compressFrom i (moveRows a c i rows) = (compressFrom i rows).map fun r => (moveRows a c i r.1, r.2) := by
  intro n
  induction n with
  | zero =>
    intro i rows h
    rw [List.eq_nil_of_length_eq_zero (Nat.le_zero.mp h)]
    simp [compressFrom, moveRows, Except.map]
  | succ n ih =>
    intro i rows h
    cases rows with
    | nil => simp [compressFrom, moveRows, Except.map]
    | cons row rest =>
      simp only [moveRows]
      rw [compressFrom.eq_def i (row.map _ :: _), compressFrom.eq_def i (row :: rest)]
      simp only [List.length_map]
      by_cases hl : row.length = maxBuckets + 1
      · rw [if_pos hl, if_pos hl]
        cases row with
        | nil => rfl
        | cons b0 row =>
          cases row with
          | nil => rfl
          | cons b1 row' =>
            cases rest with
            | nil =>
              simp only [List.map_cons, moveRows]
              rw [merge_move ha]
              rfl
            | cons next rest' =>
              simp only [List.map_cons, moveRows]
              rw [merge_move ha, insert_move]
              cases hi : insertBucket next (merge i b0 b1) with
              | error e => rfl
              | ok next' =>
                simp only [Except.map, bind, Except.bind, List.length_map]
                by_cases h5 : next'.length ≤ maxBuckets
                · rw [if_pos h5, if_pos h5]; rfl
                · rw [if_neg h5, if_neg h5]
                  have := ih (i + 1) (next' :: rest') (by simpa using h)
                  simp only [moveRows] at this
                  rw [this]
                  cases compressFrom (i + 1) (next' :: rest') with
                  | error e => rfl
                  | ok r => rfl
      · rw [if_neg hl, if_neg hl]; rfl

theorem add_move (ha : a * a = 1) (s : State) (v : ℚ) :
    addElement (moveS a c s) (a * v + c) = (addElement s v).map (moveS a c) := by
  unfold addElement moveS
  simp only
  cases hr : s.rows with
  | nil => rfl
  | cons first rest =>
    simp only [moveRows]
    have e1 : insertBucket (first.map (moveB a c 0)) ⟨a * v + c, 0⟩ = (insertBucket first ⟨v, 0⟩).map (List.map (moveB a c 0)) := by
      rw [← insert_move]
      simp [moveB]
    rw [e1]
    cases hi : insertBucket first ⟨v, 0⟩ with
    | error e => rfl
    | ok first' =>
      simp only [Except.map, bind, Except.bind]
      have := compress_move (c := c) ha _ 0 (first' :: rest) le_rfl
      simp only [moveRows] at this
      rw [this]
      cases hcf : compressFrom 0 (first' :: rest) with
      | error e => rfl
      | ok r =>
        simp only [Except.map, pure, Except.pure, Except.ok.injEq, State.mk.injEq, true_and]
        refine ⟨by push_cast; ring, ?_, trivial⟩
        congr 1
        by_cases hw : s.width + 1 > 1
        · rw [if_pos hw, if_pos hw]
          congr 1
          have hne : (s.width : ℚ) ≠ 0 := by
            have : 0 < s.width := by omega
            exact_mod_cast this.ne'
          have e : ((s.width + 1 : Nat) : ℚ) - 1 = s.width := by push_cast; ring
          rw [e]
          refine sq_move (c := c) ha _ _ _ _ _ rfl ?_
          field_simp
        · rw [if_neg hw, if_neg hw]

theorem moveRows_append : ∀ (i : Nat) (xs ys : List (List Bucket)),
    moveRows a c i (xs ++ ys) = moveRows a c i xs ++ moveRows a c (i + xs.length) ys := by
  intro i xs ys
  induction xs generalizing i with
  | nil => simp [moveRows]
  | cons x xs ih =>
    simp only [List.cons_append, moveRows, ih, List.length_cons]
    rw [show i + 1 + xs.length = i + (xs.length + 1) by omega]

theorem delete_move (ha : a * a = 1) (s : State) (hl : s.lastBucketRow + 1 = s.rows.length) :
    deleteElement (moveS a c s) = (deleteElement s).map (moveS a c) := by
  obtain ⟨rows, row, hr⟩ : ∃ rows row, s.rows = rows ++ [row] := by
    rcases List.eq_nil_or_concat s.rows with h | ⟨x, y, h⟩
    · rw [h] at hl; simp at hl
    · exact ⟨x, y, by simpa using h⟩
  have hlen : s.lastBucketRow = rows.length := by rw [hr] at hl; simpa using hl
  unfold deleteElement moveS
  simp only
  rw [hr, moveRows_append, Nat.zero_add, ← hlen]
  simp only [moveRows, List.getLast?_concat, List.dropLast_concat]
  cases row with
  | nil => rfl
  | cons b row' =>
    simp only [List.map_cons]
    by_cases hw : s.width ≤ bucketSize s.lastBucketRow
    · rw [if_pos hw, if_pos hw]; rfl
    · rw [if_neg hw, if_neg hw]
      have hcast : ((s.width - bucketSize s.lastBucketRow : Nat) : ℚ) = (s.width : ℚ) - (bucketSize s.lastBucketRow : Nat) :=
        Nat.cast_sub (by omega)
      have hpos : (0 : ℚ) < (s.width : ℚ) - (bucketSize s.lastBucketRow : Nat) := by
        rw [← hcast]
        have : 0 < s.width - bucketSize s.lastBucketRow := by omega
        exact_mod_cast this
      simp only [Except.map, Except.ok.injEq, State.mk.injEq, List.length_map, true_and, moveB]
      refine ⟨?_, ?_, ?_, trivial⟩
      · split
        · rfl
        · rw [moveRows_append, Nat.zero_add, ← hlen]; rfl
      · rw [hcast]; push_cast; ring
      · congr 2
        congr 1
        have hn : ((bucketSize s.lastBucketRow : Nat) : ℚ) ≠ 0 := by positivity
        refine sq_move (c := c) ha _ _ _ _ _ ?_ ?_
        · push_cast; push_cast at hn; field_simp
        · have := hpos.ne'
          push_cast at this ⊢
          field_simp
          ring

theorem visited_move : ∀ (i : Nat) (rows : List (List Bucket)),
    visited i (moveRows a c i rows) = (visited i rows).map fun p => (p.1, a * p.2 + c * 2 ^ p.1) := by
  intro i rows
  induction rows generalizing i with
  | nil => rfl
  | cons row rows ih =>
    simp only [moveRows, visited, ih, List.map_append, ← List.map_dropLast, List.map_map]
    rfl

/-- The test does not notice the move. -/
def Blind (a c : ℚ) (cut : Cut) : Prop := ∀ (W n0 n1 : Nat) (u0 u1 V : ℚ), 0 < n0 → 0 < n1 →
  cut W n0 n1 (a * u0 + c * n0) (a * u1 + c * n1) V = cut W n0 n1 u0 u1 V

theorem scan_move (cut : Cut) (hcut : Blind a c cut) (W : Nat) (V : ℚ) : ∀ (l : List (Nat × ℚ)) (n0 n1 : Nat) (u0 u1 : ℚ),
    scan cut W V n0 n1 (a * u0 + c * n0) (a * u1 + c * n1) (l.map fun p => (p.1, a * p.2 + c * 2 ^ p.1)) =
      scan cut W V n0 n1 u0 u1 l := by
  intro l
  induction l with
  | nil => intro n0 n1 u0 u1; rfl
  | cons p l ih =>
    intro n0 n1 u0 u1
    obtain ⟨i, t⟩ := p
    simp only [List.map_cons]
    rw [scan, scan]
    by_cases hn : n1 ≤ bucketSize i
    · rw [if_pos hn, if_pos hn]
    · rw [if_neg hn, if_neg hn]
      have e0 : a * u0 + c * n0 + (a * t + c * 2 ^ i) = a * (u0 + t) + c * ((n0 + bucketSize i : Nat) : ℚ) := by push_cast; ring
      have e1 : a * u1 + c * n1 - (a * t + c * 2 ^ i) = a * (u1 - t) + c * ((n1 - bucketSize i : Nat) : ℚ) := by
        rw [Nat.cast_sub (by omega)]; push_cast; ring
      rw [e0, e1, ih, hcut _ _ _ _ _ _ (by have : 0 < bucketSize i := Nat.two_pow_pos i
                                           omega) (by omega)]

theorem reduce_move (ha : a * a = 1) (cut : Cut) (hcut : Blind a c cut) : ∀ (fuel : Nat) (ch : Bool) (s : State) (w : List ℚ),
    Inv s w → 0 < s.width →
    reduce cut fuel ch (moveS a c s) = (reduce cut fuel ch s).map (Except.map fun r => (r.1, moveS a c r.2)) := by
  intro fuel
  induction fuel with
  | zero => intro ch s w _ _; rfl
  | succ fuel ih =>
    intro ch s w h hw
    have hsc : scan cut (moveS a c s).width ((moveS a c s).variance / (moveS a c s).width) 0 (moveS a c s).width 0
        (moveS a c s).total (visited 0 (moveS a c s).rows) =
        scan cut s.width (s.variance / s.width) 0 s.width 0 s.total (visited 0 s.rows) := by
      have := scan_move cut hcut s.width (s.variance / s.width) (visited 0 s.rows) 0 s.width 0 s.total
      rw [← visited_move] at this
      simpa [moveS] using this
    rw [reduce, hsc, reduce, delete_move ha s h.last]
    have hs := not_shape_of_empty h hw
    obtain ⟨ps, hr, hc⟩ := h.runs
    obtain ⟨v1, l, hl, v2, v3⟩ := visited_spec _ _ _ hs hr
    rw [hc, ← h.width] at v1 v2
    have hll : l = s.lastBucketRow := by have := h.last; omega
    rw [Nat.zero_add, hll] at v2 v3
    rcases scan_spec cut s.width (s.variance / s.width) (visited 0 s.rows) 0 s.width 0 s.total v1 with
      ⟨e, k⟩ | ⟨e, pre, post, k1, k2, k3, k4, _⟩
    · rw [e]; rfl
    · rw [e]
      rw [Nat.zero_add] at k3
      have hvs : vsize pre ≤ vsize (visited 0 s.rows) := by rw [k1, vsize_append]; omega
      have h5 : 5 + 2 ^ s.lastBucketRow ≤ s.width := by
        rcases v3 with ⟨t, rest, e3⟩ | e3
        · have : 2 ^ s.lastBucketRow ≤ vsize pre := by
            cases pre with
            | nil => exact absurd rfl k2
            | cons x pre =>
              rw [e3] at k1
              simp only [List.cons_append, List.cons.injEq] at k1
              rw [← k1.1]; simp [vsize]
          omega
        · omega
      obtain ⟨s1, r1, w1, d1, d2, d3, d4, d5, d6, d7, d8⟩ := delete_ok h hs (by omega)
      have hw1 : s1.width + 2 ^ s.lastBucketRow = s.width := by
        rw [d4.width, h.width, d2, List.length_append, d3]; omega
      rw [d1]
      exact ih true s1 w1 d4 (by omega)

theorem check_move (ha : a * a = 1) (cut : Cut) (hcut : Blind a c cut) (fuel : Nat) (s : State) (w : List ℚ) (h : Inv s w) :
    detectedChange cut fuel (moveS a c s) = (detectedChange cut fuel s).map (Except.map fun r => (r.1, moveS a c r.2)) := by
  have h1 : Inv { s with time := s.time + 1 } w := ⟨h.runs, h.width, h.total, h.var, h.shape, h.last⟩
  unfold detectedChange
  have e : { moveS a c s with time := (moveS a c s).time + 1 } = moveS a c { s with time := s.time + 1 } := rfl
  simp only [e]
  have e1 : (moveS a c s).clock = s.clock := rfl
  have e2 : (moveS a c s).time = s.time := rfl
  have e3 : (moveS a c s).width = s.width := rfl
  rw [e1, e2, e3]
  by_cases h0 : s.clock = 0
  · rw [if_pos h0, if_pos h0]; rfl
  · rw [if_neg h0, if_neg h0]
    by_cases hc : (s.time + 1) % s.clock = 0 ∧ s.width > 10
    · rw [if_pos hc, if_pos hc, reduce_move ha cut hcut fuel false _ w h1 (by have := hc.2; simp only; omega)]
      cases reduce cut fuel false { s with time := s.time + 1 } with
      | none => rfl
      | some x =>
        cases x with
        | error e => rfl
        | ok r => rfl
    · rw [if_neg hc, if_neg hc]; rfl

theorem step_move (ha : a * a = 1) (cut : Cut) (hcut : Blind a c cut) (s : State) (w : List ℚ) (h : Inv s w) (op : Op) :
    step cut (moveS a c s) (op.onValue fun x => a * x + c) = (step cut s op).map (Except.map fun r => (r.1, moveS a c r.2)) := by
  cases op with
  | add v =>
    simp only [Op.onValue, step, add_move ha, Option.map]
    cases addElement s v <;> rfl
  | check => exact check_move ha cut hcut _ s w h
  | setClock k => rfl
  | reset =>
    simp only [Op.onValue, step, Option.map, Except.map]
    have : moveS a c init = init := by simp [moveS, init, moveRows]
    rw [this]

theorem run_move (ha : a * a = 1) (cut : Cut) (hcut : Blind a c cut) : ∀ (ops : List Op) (s : State) (w : List ℚ) (acc : List Bool),
    ClockOK ops → Inv s w → 0 < s.clock →
    run cut (ops.map (Op.onValue fun x => a * x + c)) (moveS a c s) = (run cut ops s).map (Except.map (moveS a c)) ∧
      answers cut (ops.map (Op.onValue fun x => a * x + c)) (moveS a c s) acc = answers cut ops s acc := by
  intro ops
  induction ops with
  | nil => intro s w acc _ _ _; exact ⟨rfl, rfl⟩
  | cons op ops ih =>
    intro s w acc hok h hc
    have hok' : ClockOK ops := fun c hm => hok c (List.mem_cons_of_mem _ hm)
    have hstep := step_move ha cut hcut s w h op
    have hnext : ∃ b s1 w1, step cut s op = some (.ok (b, s1)) ∧ Inv s1 w1 ∧ 0 < s1.clock := by
      cases op with
      | add v =>
        obtain ⟨s1, e, h1, hc1, _, hv1⟩ := add_ok h v
        exact ⟨false, s1, _, by simp only [step, e, Except.map], h1, by omega⟩
      | check =>
        obtain ⟨b, s1, w1, r, e, hw, h1, hc1, _⟩ := check_ok cut h hc (s.width + 1) (by omega)
        exact ⟨b, s1, w1, e, h1, by omega⟩
      | setClock k => exact ⟨false, _, w, rfl, ⟨h.runs, h.width, h.total, h.var, h.shape, h.last⟩, hok k (by simp)⟩
      | reset => exact ⟨false, init, [], rfl, inv_init, by simp [init]⟩
    obtain ⟨b, s1, w1, e, h1, hc1⟩ := hnext
    rw [e] at hstep
    simp only [List.map_cons, run, answers, hstep, e, Option.map, Except.map]
    refine ⟨(ih s1 w1 acc hok' h1 hc1).1, ?_⟩
    cases op with
    | add v => exact (ih s1 w1 acc hok' h1 hc1).2
    | check => exact (ih s1 w1 (acc ++ [b]) hok' h1 hc1).2
    | setClock k => exact (ih s1 w1 acc hok' h1 hc1).2
    | reset => exact (ih s1 w1 [] hok' h1 hc1).2

theorem realCut_blind (ha : a * a = 1) (delta : ℝ) : Blind a c (realCut delta) := by
  intro W n0 n1 u0 u1 V h0 h1
  unfold realCut
  congr 1
  have hn0 : (n0 : ℝ) ≠ 0 := by exact_mod_cast h0.ne'
  have hn1 : (n1 : ℝ) ≠ 0 := by exact_mod_cast h1.ne'
  have haR : |(a : ℝ)| = 1 := by
    have : (a : ℝ) * a = 1 := by exact_mod_cast ha
    have h2 : |(a : ℝ)| * |(a : ℝ)| = 1 := by rw [abs_mul_abs_self, this]
    nlinarith [abs_nonneg (a : ℝ)]
  have e : (((a * u0 + c * n0 : ℚ) : ℝ) / n0 - ((a * u1 + c * n1 : ℚ) : ℝ) / n1) = a * ((u0 : ℝ) / n0 - (u1 : ℝ) / n1) := by
    push_cast
    field_simp
    ring
  rw [e, abs_mul, haR, one_mul]

theorem moved (ha : a * a = 1) (delta : ℝ) (ops : List Op) (hok : ClockOK ops) :
    ∃ s s', run (realCut delta) ops init = some (.ok s) ∧
      run (realCut delta) (ops.map (Op.onValue fun x => a * x + c)) init = some (.ok s') ∧
      answers (realCut delta) (ops.map (Op.onValue fun x => a * x + c)) init [] = answers (realCut delta) ops init [] ∧
      s'.width = s.width ∧ s'.nDetections = s.nDetections ∧ s'.change = s.change ∧ varianceProp s' = varianceProp s ∧
      (0 < s.width → estimation s' = a * estimation s + c) := by
  obtain ⟨s, w, e, _⟩ := reach (realCut delta) ops hok
  obtain ⟨h1, h2⟩ := run_move (c := c) ha (realCut delta) (realCut_blind ha delta) ops init [] [] hok inv_init (by simp [init])
  have hi : moveS a c init = init := by simp [moveS, init, moveRows]
  rw [hi] at h1 h2
  rw [e] at h1
  refine ⟨s, moveS a c s, e, h1, h2, rfl, rfl, rfl, rfl, fun hw => ?_⟩
  have hne : (s.width : ℚ) ≠ 0 := by exact_mod_cast hw.ne'
  have e1 : estimation (moveS a c s) = (a * s.total + c * s.width) / s.width := if_neg hw.ne'
  have e2 : estimation s = s.total / s.width := if_neg hw.ne'
  rw [e1, e2]
  field_simp

/-- **C291**: if every value is raised by `c`, all checks answer as before, the window has the same length and
variance, and its mean is raised by `c`. -/
theorem C291_shift (delta : ℝ) (c : ℚ) (ops : List Op) (hok : ClockOK ops) :
    ∃ s s', run (realCut delta) ops init = some (.ok s) ∧
      run (realCut delta) (ops.map (Op.onValue fun x => x + c)) init = some (.ok s') ∧
      answers (realCut delta) (ops.map (Op.onValue fun x => x + c)) init [] = answers (realCut delta) ops init [] ∧
      s'.width = s.width ∧ s'.nDetections = s.nDetections ∧ s'.change = s.change ∧ varianceProp s' = varianceProp s ∧
      (0 < s.width → estimation s' = estimation s + c) := by
  have := moved (a := 1) (c := c) (by norm_num) delta ops hok
  simpa only [one_mul] using this

/-- **C291**: if the hits are fed instead of the errors (`c - x` for `x`), all checks answer as before, the window has
the same length and variance, and its mean is `c` minus the former mean. -/
theorem C291_mirror (delta : ℝ) (c : ℚ) (ops : List Op) (hok : ClockOK ops) :
    ∃ s s', run (realCut delta) ops init = some (.ok s) ∧
      run (realCut delta) (ops.map (Op.onValue fun x => c - x)) init = some (.ok s') ∧
      answers (realCut delta) (ops.map (Op.onValue fun x => c - x)) init [] = answers (realCut delta) ops init [] ∧
      s'.width = s.width ∧ s'.nDetections = s.nDetections ∧ s'.change = s.change ∧ varianceProp s' = varianceProp s ∧
      (0 < s.width → estimation s' = c - estimation s) := by
  have := moved (a := -1) (c := c) (by norm_num) delta ops hok
  have e : ∀ x : ℚ, -1 * x + c = c - x := fun x => by ring
  simpa only [e] using this

/-! ### The unit -/

theorem mean_bounds (a : List ℚ) (lo hi : ℚ) (hl : 0 < a.length) (h : ∀ x ∈ a, lo ≤ x ∧ x ≤ hi) : lo ≤ mean a ∧ mean a ≤ hi := by
  have hp : (0 : ℚ) < a.length := by exact_mod_cast hl
  have key : ∀ l : List ℚ, (∀ x ∈ l, lo ≤ x ∧ x ≤ hi) → lo * l.length ≤ l.sum ∧ l.sum ≤ hi * l.length := by
    intro l
    induction l with
    | nil => simp
    | cons x l ih =>
      intro h
      obtain ⟨i1, i2⟩ := ih fun y hy => h y (List.mem_cons_of_mem _ hy)
      obtain ⟨x1, x2⟩ := h x (by simp)
      simp only [List.sum_cons, List.length_cons]
      push_cast
      constructor <;> linarith
  obtain ⟨k1, k2⟩ := key a h
  rw [mean, le_div_iff₀ hp, div_le_iff₀ hp]
  exact ⟨k1, k2⟩

theorem threshold_large (delta : ℝ) (hd : 0 < delta) (hd1 : delta ≤ 1/2) (W n0 n1 : Nat) (hW : 10 < W) (h0 : 5 ≤ n0) (h1 : 5 ≤ n1)
    (hs : n0 + n1 = W) (V : ℝ) : 8 / (3 * (W : ℝ)) ≤ threshold delta W n0 n1 V := by
  have h11 : (11 : ℝ) ≤ W := by exact_mod_cast hW
  have hlog : 1 ≤ Real.log W := by
    rw [← Real.log_exp 1]
    refine Real.log_le_log (Real.exp_pos 1) ?_
    linarith [Real.exp_one_lt_d9]
  have hdd : 1 ≤ Real.log (2 * Real.log W / delta) := by
    rw [← Real.log_exp 1]
    refine Real.log_le_log (Real.exp_pos 1) ?_
    rw [le_div_iff₀ hd]
    nlinarith [Real.exp_one_lt_d9, Real.exp_pos 1]
  have hm0 : (0 : ℝ) < (n0 : ℝ) - 5 + 1 := by
    have : (5 : ℝ) ≤ n0 := by exact_mod_cast h0
    linarith
  have hm1 : (0 : ℝ) < (n1 : ℝ) - 5 + 1 := by
    have : (5 : ℝ) ≤ n1 := by exact_mod_cast h1
    linarith
  have hsum : (n0 : ℝ) + n1 = W := by exact_mod_cast hs
  have hm : 4 / (W : ℝ) ≤ 1 / ((n0 : ℝ) - 5 + 1) + 1 / ((n1 : ℝ) - 5 + 1) := by
    rw [div_add_div _ _ hm0.ne' hm1.ne', div_le_div_iff₀ (by linarith) (by positivity)]
    nlinarith [sq_nonneg ((n0 : ℝ) - n1)]
  unfold threshold
  simp only
  have hsq := Real.sqrt_nonneg (2 * (1 / ((n0 : ℝ) - 5 + 1) + 1 / ((n1 : ℝ) - 5 + 1)) * V * Real.log (2 * Real.log W / delta))
  have hfac : 8 / (3 * (W : ℝ)) = 1 * 2 / 3 * 1 * (4 / (W : ℝ)) := by field_simp; norm_num
  have : 1 * 2 / 3 * 1 * (4 / (W : ℝ)) ≤ 1 * 2 / 3 * Real.log (2 * Real.log W / delta) * (1 / ((n0 : ℝ) - 5 + 1) + 1 / ((n1 : ℝ) - 5 + 1)) := by
    have h4 : (0 : ℝ) ≤ 4 / (W : ℝ) := by positivity
    refine mul_le_mul ?_ hm h4 ?_
    · linarith
    · positivity
  linarith

/-- **C291**: a stream of at most `N` values, all within an interval of length `8 / (3 N)`, raises no alarm, whatever
happens inside the interval: a change is noticed only if the values are large enough in their unit. -/
theorem C291_small_unit (delta : ℝ) (hd : 0 < delta) (hd1 : delta ≤ 1/2) (N : Nat) (lo hi : ℚ) (ops : List Op) (hok : ClockOK ops)
    (hN : (added ops []).length ≤ N) (hx : ∀ v, Op.add v ∈ ops → lo ≤ v ∧ v ≤ hi) (hr : (hi - lo) * (3 * N) ≤ 8) :
    ∃ s, run (realCut delta) ops init = some (.ok s) ∧
      ∃ s', detectedChange (realCut delta) (s.width + 1) s = some (.ok (false, s')) := by
  obtain ⟨s, w, e, hw, _, b, s', q, h⟩ := C280_alarm_partial delta ops hok
  refine ⟨s, e, s', ?_⟩
  cases b with
  | false => exact q
  | true =>
    obtain ⟨hlen, v, _, a, c, hp, d1, d2, d3⟩ := h rfl
    have hall : ∀ y ∈ a ++ c, lo ≤ y ∧ y ≤ hi := fun y hy => by
      rcases added_mem _ _ _ (hw.subset (hp.subset hy)) with h1 | h1
      · cases h1
      · exact hx _ h1
    have ha := mean_bounds a lo hi (by omega) (fun y hy => hall y (List.mem_append_left _ hy))
    have hc := mean_bounds c lo hi (by omega) (fun y hy => hall y (List.mem_append_right _ hy))
    have hl := hp.length_eq
    rw [List.length_append] at hl
    have hwN : w.length ≤ N := le_trans hw.length_le hN
    have ht := threshold_large delta hd hd1 (a.length + c.length) a.length c.length (by omega) d1 d2 rfl (v : ℚ)
    have hab : |((mean a : ℚ) : ℝ) - ((mean c : ℚ) : ℝ)| ≤ ((hi - lo : ℚ) : ℝ) := by
      have : |mean a - mean c| ≤ hi - lo := by rw [abs_le]; constructor <;> linarith [ha.1, ha.2, hc.1, hc.2]
      exact_mod_cast this
    have hW : (0 : ℝ) < ((a.length + c.length : Nat) : ℝ) := by
      have : 0 < a.length + c.length := by omega
      exact_mod_cast this
    have hWN : ((a.length + c.length : Nat) : ℝ) ≤ N := by
      have : a.length + c.length ≤ N := by omega
      exact_mod_cast this
    have hle : ((hi - lo : ℚ) : ℝ) ≤ 8 / (3 * ((a.length + c.length : Nat) : ℝ)) := by
      rw [le_div_iff₀ (by positivity)]
      have h1 : ((hi - lo : ℚ) : ℝ) * (3 * N) ≤ 8 := by exact_mod_cast hr
      have h0 : (0 : ℝ) ≤ ((hi - lo : ℚ) : ℝ) := le_trans (abs_nonneg _) hab
      nlinarith
    linarith

/-- **C291**: the unit matters.  The 96 values of `flicker` (zeros and ones) raise an alarm with the default `delta`, the
same values divided by 100 do not. -/
theorem C291_unit_matters :
    (∃ s s', run (realCut (1 / 500)) (watched flicker) init = some (.ok s) ∧
      detectedChange (realCut (1 / 500)) (s.width + 1) s = some (.ok (true, s'))) ∧
    ∃ s s', run (realCut (1 / 500)) (watched (flicker.map fun x => x / 100)) init = some (.ok s) ∧
      detectedChange (realCut (1 / 500)) (s.width + 1) s = some (.ok (false, s')) := by
  constructor
  · obtain ⟨s, s', h1, _, _, h2, _⟩ := C280_false_alarm_violated
    exact ⟨s, s', h1, h2⟩
  · obtain ⟨s, h1, s', h2⟩ := C291_small_unit (1 / 500) (by norm_num) (by norm_num) 96 0 (1 / 100)
      (watched (flicker.map fun x => x / 100)) (watched_clock _) (by decide +kernel) (fun v hv => by
        have h : (watched (flicker.map fun x => x / 100)).all (fun o => match o with | .add v => decide (0 ≤ v ∧ v ≤ 1 / 100) | _ => true) = true := by
          decide +kernel
        have := List.all_eq_true.mp h _ hv
        simpa using this) (by norm_num)
    exact ⟨s, s', h1, h2⟩

/-- Non-vacuity of `C291_mirror`: errors and hits. -/
example : (watched flicker).map (Op.onValue fun x => 1 - x) = watched (flicker.map fun x => 1 - x) ∧ ClockOK (watched flicker) := by
  refine ⟨?_, watched_clock _⟩
  have : ∀ l : List ℚ, (watched l).map (Op.onValue fun x => 1 - x) = watched (l.map fun x => 1 - x) := by
    intro l
    induction l with
    | nil => rfl
    | cons v l ih =>
      cases l with
      | nil => rfl
      | cons w l => simp only [watched, List.map_cons, Op.onValue] at ih ⊢; rw [ih]
  exact this _

end Verif.Adwin
