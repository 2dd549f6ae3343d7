import Verif.Common
import Mathlib.Data.Rat.Floor
import Mathlib.Algebra.Order.Field.Rat

/-!
C273: the attribute `has_noise` of LEDGenerator, LEDGeneratorDrift, WaveformGenerator and
SineGenerator, set after construction.

The constructors derive `n_features` from `has_noise` once; `next_sample` looks at both.
What one sample draws is given: the values of the relevant features, those of the noise
features and the class (how they are drawn is modelled in `LED.lean`, `Waveform.lean` and
`Generators.lean`).
-/

namespace Verif.Streams.Switches

/-! ### Model -/

/-- What a generator draws for one sample. -/
structure Draw where
  relevant : Nat → ℚ
  noise : Nat → ℚ
  cls : Nat

/-- Which generator; the drifting LED generator with the columns `_numberAttribute`. -/
inductive Kind where
  | led
  | ledDrift (cols : List Nat)
  | waveform
  | sine

/-- `_NUM_BASE_ATTRIBUTES` (led_generator.py 88, waveform_generator.py 86, sine_generator.py 86). -/
def Kind.base : Kind → Nat
  | .led | .ledDrift _ => 7
  | .waveform => 21
  | .sine => 2

/-- `_TOTAL_ATTRIBUTES_INCLUDING_NOISE` (led_generator.py 89, waveform_generator.py 87,
sine_generator.py 87). -/
def Kind.total : Kind → Nat
  | .led | .ledDrift _ => 24
  | .waveform => 40
  | .sine => 4

/-- The attributes of a generator that count here. -/
structure Gen where
  kind : Kind
  nFeatures : Nat
  hasNoise : Bool

/-- The constructors (led_generator.py 105-118, waveform_generator.py 97-105,
sine_generator.py 100-111). -/
def construct (k : Kind) (noise : Bool) : Gen := ⟨k, if noise then k.total else k.base, noise⟩

/-- The setter of `has_noise` for a boolean (led_generator.py 161-173,
waveform_generator.py 123-135, sine_generator.py 181-193). -/
def Gen.setNoise (g : Gen) (b : Bool) : Gen := { g with hasNoise := b }

/-- Assignments `data[j, i] = v` in order; a column past the end raises. -/
def write : List (Nat × ℚ) → List ℚ → Except PyErr (List ℚ)
  | [], row => .ok row
  | (i, v) :: ws, row => if i < row.length then write ws (row.set i v) else .error .indexError

/-- The assignments for one sample (led_generator.py 206-214, led_generator_drift.py 124-132,
waveform_generator.py 178-186, sine_generator.py 246-254), with the width of the row, whose
last column the waveform generator uses for the class. -/
def Gen.writes (g : Gen) (d : Draw) : List (Nat × ℚ) :=
  let k := g.kind
  let rel := (List.range k.base).map fun i => (i, d.relevant i)
  let extra := if g.hasNoise then (List.range' k.base (k.total - k.base)).map fun i => (i, d.noise i) else []
  match k with
  | .led => rel ++ extra
  | .ledDrift cols => (rel ++ extra).map fun w => (cols.getD w.1 0, w.2)
  | .waveform => rel ++ extra ++ [(g.nFeatures + 1 - 1, (d.cls : ℚ))]
  | .sine => rel ++ extra ++ [(if g.hasNoise then 4 else 2, (d.cls : ℚ))]

/-- One sample: a row of zeros with `n_features + 1` columns, the assignments, the features
`data[:, :n_features]`, and the label: the class drawn for the LED generators
(led_generator.py 199-217), the integer part of the last column for the others
(waveform_generator.py 187-188, sine_generator.py 256-257). -/
def Gen.sample (g : Gen) (d : Draw) : Except PyErr (List ℚ × Int) :=
  match write (g.writes d) (List.replicate (g.nFeatures + 1) 0) with
  | .error e => .error e
  | .ok row => .ok (row.take g.nFeatures, match g.kind with
    | .led | .ledDrift _ => (d.cls : Int)
    | .waveform | .sine => (row.getD g.nFeatures 0).floor)

/-- `next_sample(batch_size)`, given the draws for its samples. -/
def Gen.nextSample (g : Gen) : List Draw → Except PyErr (List (List ℚ × Int))
  | [] => .ok []
  | d :: ds =>
    match g.sample d with
    | .error e => .error e
    | .ok s =>
      match g.nextSample ds with
      | .error e => .error e
      | .ok rest => .ok (s :: rest)

/-! ### Specification -/

/-- The features of a sample without and with noise features. -/
def features (base total : Nat) (noise : Bool) (d : Draw) : List ℚ :=
  (List.range (if noise then total else base)).map fun i => if i < base then d.relevant i else d.noise i

/-! ### Proofs -/

theorem write_error (ws : List (Nat × ℚ)) (row : List ℚ) (h : ∃ w ∈ ws, row.length ≤ w.1) :
    write ws row = .error .indexError := by
  induction ws generalizing row with
  | nil => obtain ⟨w, hw, _⟩ := h; cases hw
  | cons w ws ih =>
    obtain ⟨i, v⟩ := w
    simp only [write]
    by_cases hi : i < row.length
    · rw [if_pos hi]
      apply ih
      obtain ⟨w, hw, hl⟩ := h
      rcases List.mem_cons.mp hw with rfl | hw
      · simp only at hl; omega
      · exact ⟨w, hw, by simpa using hl⟩
    · rw [if_neg hi]

theorem nextSample_ok (g : Gen) (f : Draw → List ℚ × Int) (h : ∀ d, g.sample d = .ok (f d)) (ds : List Draw) :
    g.nextSample ds = .ok (ds.map f) := by
  induction ds with
  | nil => rfl
  | cons d ds ih => simp only [Gen.nextSample, h d, ih, List.map_cons]

theorem nextSample_error (g : Gen) (e : PyErr) (h : ∀ d, g.sample d = .error e) (ds : List Draw) (hd : ds ≠ []) :
    g.nextSample ds = .error e := by
  cases ds with
  | nil => exact absurd rfl hd
  | cons d ds => simp only [Gen.nextSample, h d]

theorem write_append (a b : List (Nat × ℚ)) (row r : List ℚ) (h : write a row = .ok r) :
    write (a ++ b) row = write b r := by
  induction a generalizing row with
  | nil => simp only [write, Except.ok.injEq] at h; rw [← h]; rfl
  | cons w a ih =>
    obtain ⟨i, v⟩ := w
    simp only [write, List.cons_append] at h ⊢
    by_cases hi : i < row.length
    · rw [if_pos hi] at h ⊢; exact ih _ h
    · rw [if_neg hi] at h; cases h

theorem write_run (f : Nat → ℚ) (n : Nat) (pre : List ℚ) (m : Nat) :
    write ((List.range' pre.length n).map fun i => (i, f i)) (pre ++ List.replicate (n + m) 0) =
      .ok (pre ++ (List.range' pre.length n).map f ++ List.replicate m 0) := by
  induction n generalizing pre with
  | zero => simp [write]
  | succ n ih =>
    rw [List.range'_succ, List.map_cons, write, if_pos (by simp)]
    have h1 : (pre ++ List.replicate (n + 1 + m) (0 : ℚ)).set pre.length (f pre.length) =
        (pre ++ [f pre.length]) ++ List.replicate (n + m) 0 := by
      rw [show n + 1 + m = (n + m) + 1 by omega, List.replicate_succ]
      simp
    have h2 := ih (pre ++ [f pre.length])
    rw [List.length_append, List.length_singleton] at h2
    rw [h1, h2]
    simp

/-- The part of a row that the relevant features and the noise features take. -/
def filled (base total : Nat) (noise : Bool) (d : Draw) : List ℚ :=
  (List.range base).map d.relevant ++ (if noise then (List.range' base (total - base)).map d.noise else [])

theorem write_filled (base total : Nat) (noise : Bool) (d : Draw) (m : Nat) (tail : List (Nat × ℚ)) :
    write (((List.range base).map fun i => (i, d.relevant i)) ++
        (if noise then (List.range' base (total - base)).map fun i => (i, d.noise i) else []) ++ tail)
      (List.replicate ((base + if noise then total - base else 0) + m) 0) =
      write tail (filled base total noise d ++ List.replicate m 0) := by
  have h1 : ∀ m, write ((List.range base).map fun i => (i, d.relevant i)) (List.replicate (base + m) 0) =
      .ok ((List.range base).map d.relevant ++ List.replicate m 0) := by
    intro m
    have := write_run d.relevant base [] m
    simpa [List.range_eq_range'] using this
  apply write_append
  cases noise with
  | false =>
    simp only [Bool.false_eq_true, if_false, List.append_nil, Nat.add_zero, filled]
    exact h1 m
  | true =>
    simp only [if_true, filled]
    rw [Nat.add_assoc, write_append _ _ _ _ (h1 _)]
    have := write_run d.noise (total - base) ((List.range base).map d.relevant) m
    rwa [List.length_map, List.length_range] at this

theorem filled_eq (base total : Nat) (h : base ≤ total) (noise : Bool) (d : Draw) :
    filled base total noise d = features base total noise d := by
  have h1 : (List.range base).map d.relevant =
      (List.range base).map fun i => if i < base then d.relevant i else d.noise i := by
    apply List.map_congr_left
    intro i hi
    rw [if_pos (List.mem_range.mp hi)]
  cases noise with
  | false => simp only [filled, features, Bool.false_eq_true, if_false, List.append_nil, h1]
  | true =>
    have h2 : (List.range' base (total - base)).map d.noise =
        (List.range' base (total - base)).map fun i => if i < base then d.relevant i else d.noise i := by
      apply List.map_congr_left
      intro i hi
      rw [List.mem_range'_1] at hi
      rw [if_neg (by omega)]
    simp only [filled, features, if_true]
    rw [h1, h2, ← List.map_append]
    congr 1
    rw [List.range_eq_range', List.range_eq_range']
    have := List.range'_append (s := 0) (m := base) (n := total - base) (step := 1)
    simp only [Nat.one_mul, Nat.zero_add] at this
    rw [this, Nat.add_sub_cancel' h]

theorem filled_length (base total : Nat) (noise : Bool) (d : Draw) :
    (filled base total noise d).length = base + if noise then total - base else 0 := by
  cases noise <;> simp [filled]

theorem floor_nat (c : Nat) : ((c : ℚ)).floor = (c : Int) := by
  rw [← Int.cast_natCast, Rat.floor_intCast]

theorem set_last (l : List ℚ) (v : ℚ) : (l ++ List.replicate 1 0).set l.length v = l ++ [v] := by
  simp

theorem last_col (l : List ℚ) (v : ℚ) : write [(l.length, v)] (l ++ List.replicate 1 0) = .ok (l ++ [v]) := by
  simp only [write]
  rw [if_pos (by simp), set_last]

theorem sample_row (g : Gen) (d : Draw) (row : List ℚ)
    (h : write (g.writes d) (List.replicate (g.nFeatures + 1) 0) = .ok row) :
    g.sample d = .ok (row.take g.nFeatures, match g.kind with
      | .led | .ledDrift _ => (d.cls : Int)
      | .waveform | .sine => (row.getD g.nFeatures 0).floor) := by
  simp only [Gen.sample, h]

theorem led_same (b : Bool) (d : Draw) : (construct .led b).sample d = .ok (features 7 24 b d, (d.cls : Int)) := by
  have h := write_filled 7 24 b d 1 []
  have hl := filled_length 7 24 b d
  have hn : (construct .led b).nFeatures = 7 + if b then 24 - 7 else 0 := by cases b <;> rfl
  rw [List.append_nil] at h
  have hw : write ((construct .led b).writes d) (List.replicate ((construct .led b).nFeatures + 1) 0) =
      .ok (filled 7 24 b d ++ List.replicate 1 0) := by rw [hn]; exact h
  rw [sample_row _ _ _ hw, hn, ← hl, List.take_left, filled_eq 7 24 (by omega)]
  rfl

theorem waveform_same (b : Bool) (d : Draw) :
    (construct .waveform b).sample d = .ok (features 21 40 b d, (d.cls : Int)) := by
  have hl := filled_length 21 40 b d
  have hn : (construct .waveform b).nFeatures = (filled 21 40 b d).length := by rw [hl]; cases b <;> rfl
  have h := write_filled 21 40 b d 1 [((filled 21 40 b d).length, (d.cls : ℚ))]
  rw [last_col] at h
  have hw : write ((construct .waveform b).writes d) (List.replicate ((construct .waveform b).nFeatures + 1) 0) =
      .ok (filled 21 40 b d ++ [(d.cls : ℚ)]) := by
    rw [← h]
    simp only [Gen.writes, hn, hl]
    rfl
  rw [sample_row _ _ _ hw, hn, List.take_left, ← filled_eq 21 40 (by omega)]
  simp [construct, floor_nat]

theorem sine_same (b : Bool) (d : Draw) :
    (construct .sine b).sample d = .ok (features 2 4 b d, (d.cls : Int)) := by
  rw [← floor_nat d.cls]
  cases b <;> rfl

/-- C273 (partial): however often `has_noise` is set, if in the end it has the value given
to the constructor, the generators yield the samples of that value: the relevant features,
the noise features if asked for, and the class as label. -/
theorem C273_same_value_partial (b : Bool) (settings : List Bool) (hs : (b :: settings).getLast? = some b)
    (ds : List Draw) :
    ((settings.foldl Gen.setNoise (construct .led b)).nextSample ds =
      .ok (ds.map fun d => (features 7 24 b d, (d.cls : Int)))) ∧
    ((settings.foldl Gen.setNoise (construct .waveform b)).nextSample ds =
      .ok (ds.map fun d => (features 21 40 b d, (d.cls : Int)))) ∧
    ((settings.foldl Gen.setNoise (construct .sine b)).nextSample ds =
      .ok (ds.map fun d => (features 2 4 b d, (d.cls : Int)))) := by
  have key : ∀ (l : List Bool) (g : Gen) (x : Bool), (x :: l).getLast? = some b → g.hasNoise = x →
      l.foldl Gen.setNoise g = { g with hasNoise := b } := by
    intro l
    induction l with
    | nil =>
      intro g x hx hg
      simp only [List.getLast?_singleton, Option.some.injEq] at hx
      rw [List.foldl_nil, ← hx, ← hg]
    | cons y l ih =>
      intro g x hx hg
      rw [List.foldl_cons, ih (g.setNoise y) y (by rwa [List.getLast?_cons_cons] at hx) rfl]
      rfl
  refine ⟨?_, ?_, ?_⟩
  · rw [key settings (construct .led b) b hs rfl]
    exact nextSample_ok _ _ (led_same b) ds
  · rw [key settings (construct .waveform b) b hs rfl]
    exact nextSample_ok _ _ (waveform_same b) ds
  · rw [key settings (construct .sine b) b hs rfl]
    exact nextSample_ok _ _ (sine_same b) ds

-- A history that meets the hypothesis: on, off, on again.
example : (true :: [false, true]).getLast? = some true := rfl

/-- C273 (violated): switching noise features on after construction makes every call of
`next_sample` for at least one sample raise `IndexError`. -/
theorem C273_switch_on_violated (k : Kind) (hk : ∀ cols, k = .ledDrift cols → ∃ i, i < 24 ∧ 8 ≤ cols.getD i 0)
    (ds : List Draw) (hd : ds ≠ []) :
    ((construct k false).setNoise true).nextSample ds = .error .indexError := by
  apply nextSample_error _ _ _ _ hd
  intro d
  have : write (((construct k false).setNoise true).writes d)
      (List.replicate (((construct k false).setNoise true).nFeatures + 1) 0) = .error .indexError := by
    apply write_error
    cases k with
    | led => exact ⟨(8, d.noise 8), by simp [Gen.writes, construct, Gen.setNoise, Kind.base, Kind.total],
        by simp [construct, Gen.setNoise, Kind.base]⟩
    | ledDrift cols =>
      obtain ⟨i, hi, h8⟩ := hk cols rfl
      by_cases h7 : i < 7
      · refine ⟨(cols.getD i 0, d.relevant i), ?_, by simpa [construct, Gen.setNoise, Kind.base] using h8⟩
        simp only [Gen.writes, construct, Gen.setNoise, Kind.base, List.mem_map, List.mem_append]
        exact ⟨(i, d.relevant i), .inl ⟨i, by simpa using h7, rfl⟩, rfl⟩
      · refine ⟨(cols.getD i 0, d.noise i), ?_, by simpa [construct, Gen.setNoise, Kind.base] using h8⟩
        simp only [Gen.writes, construct, Gen.setNoise, Kind.base, Kind.total, List.mem_map, List.mem_append, if_true]
        refine ⟨(i, d.noise i), .inr ⟨i, ?_, rfl⟩, rfl⟩
        rw [List.mem_range'_1]; omega
    | waveform => exact ⟨(22, d.noise 22), by simp [Gen.writes, construct, Gen.setNoise, Kind.base, Kind.total],
        by simp [construct, Gen.setNoise, Kind.base]⟩
    | sine => exact ⟨(3, d.noise 3), by simp [Gen.writes, construct, Gen.setNoise, Kind.base, Kind.total],
        by simp [construct, Gen.setNoise, Kind.base]⟩
  simp only [Gen.sample, this]

-- The columns of a drifting LED generator that drifts no feature meet the hypothesis.
example : ∃ i, i < 24 ∧ 8 ≤ (List.range 24).getD i 0 := ⟨8, by decide, by decide⟩

/-- C273 (violated): switching the noise features of a SineGenerator off after construction
makes all its labels 0, and the class becomes the third feature. -/
theorem C273_sine_off_violated (ds : List Draw) :
    ((construct .sine true).setNoise false).nextSample ds =
      .ok (ds.map fun d => ([d.relevant 0, d.relevant 1, (d.cls : ℚ), 0], 0)) := by
  apply nextSample_ok
  intro d
  rfl

/-- C273 (violated): switching the noise features of a LEDGenerator or WaveformGenerator off
after construction leaves them in the samples, all 0. -/
theorem C273_off_violated (ds : List Draw) :
    (((construct .led true).setNoise false).nextSample ds =
      .ok (ds.map fun d => ((List.range 7).map d.relevant ++ List.replicate 17 0, (d.cls : Int)))) ∧
    (((construct .waveform true).setNoise false).nextSample ds =
      .ok (ds.map fun d => ((List.range 21).map d.relevant ++ List.replicate 19 0, (d.cls : Int)))) := by
  constructor
  · apply nextSample_ok
    intro d
    have h := write_filled 7 24 false d 18 []
    rw [List.append_nil] at h
    have hw : write (((construct .led true).setNoise false).writes d) (List.replicate (24 + 1) 0) =
        .ok ((List.range 7).map d.relevant ++ List.replicate 17 0 ++ [0]) := by
      refine Eq.trans (b := write [] (filled 7 24 false d ++ List.replicate 18 0)) h ?_
      simp only [write, filled, Bool.false_eq_true, if_false, List.append_nil, List.append_assoc]
      rfl
    have hn : ((construct .led true).setNoise false).nFeatures = 24 := rfl
    rw [sample_row _ _ _ hw, hn, List.take_left' (by simp)]
    rfl
  · apply nextSample_ok
    intro d
    have h := write_filled 21 40 false d 20 [(40, (d.cls : ℚ))]
    have e : filled 21 40 false d ++ List.replicate 20 0 =
        ((List.range 21).map d.relevant ++ List.replicate 19 0) ++ List.replicate 1 0 := by
      simp only [filled, Bool.false_eq_true, if_false, List.append_nil, List.append_assoc,
        List.replicate_append_replicate]
    have hlen : ((List.range 21).map d.relevant ++ List.replicate 19 (0 : ℚ)).length = 40 := by simp
    have hl := last_col ((List.range 21).map d.relevant ++ List.replicate 19 0) (d.cls : ℚ)
    rw [hlen] at hl
    rw [e, hl] at h
    have hw : write (((construct .waveform true).setNoise false).writes d) (List.replicate (40 + 1) 0) =
        .ok ((List.range 21).map d.relevant ++ List.replicate 19 0 ++ [(d.cls : ℚ)]) := h
    have hn : ((construct .waveform true).setNoise false).nFeatures = 40 := rfl
    rw [sample_row _ _ _ hw, hn, List.take_left' hlen, List.getD_eq_getElem?_getD, List.getElem?_append_right (by rw [hlen]), hlen]
    simp [construct, Gen.setNoise, floor_nat]

end Verif.Streams.Switches
