import Verif.Streams.GeneratorProps
import Mathlib.Data.List.Nodup
import Mathlib.Data.List.Perm.Subperm
import Mathlib.Combinatorics.Pigeonhole
import Mathlib.Tactic.IntervalCases

/-!
Model of `data/led_generator.py` and `data/led_generator_drift.py`.

The random source is that of the other generators (`Gen.Rng`). Rows are lists
of the digits 0 and 1.
-/

namespace Verif.Streams.LED

open Verif.Streams.Gen

/-- `_ORIGINAL_INSTANCES` (`led_generator.py` 90-99). -/
def original : List (List Nat) :=
  [[1, 1, 1, 0, 1, 1, 1],
   [0, 0, 1, 0, 0, 1, 0],
   [1, 0, 1, 1, 1, 0, 1],
   [1, 0, 1, 1, 0, 1, 1],
   [0, 1, 1, 1, 0, 1, 0],
   [1, 1, 0, 1, 0, 1, 1],
   [1, 1, 0, 1, 1, 1, 1],
   [1, 0, 1, 0, 0, 1, 0],
   [1, 1, 1, 1, 1, 1, 1],
   [1, 1, 1, 1, 0, 1, 1]]

/-- The noise decision for one segment (`led_generator.py` 207-210). -/
def bit (noise u : ℚ) (b : Nat) : Nat :=
  if 1 / 100 + u ≤ noise then (if b = 0 then 1 else 0) else b

/-- The loop over the seven segments (206-210). -/
def drawBits {ρ : Type} (g : Rng ρ) (noise : ℚ) : List Nat → ρ → List Nat × ρ
  | [], r => ([], r)
  | b :: bs, r =>
    let (u, r1) := g.rand r
    let (xs, r2) := drawBits g noise bs r1
    (bit noise u b :: xs, r2)

/-- The loop over the irrelevant attributes (212-214). -/
def drawInts {ρ : Type} (g : Rng ρ) : Nat → ρ → List Nat × ρ
  | 0, r => ([], r)
  | n + 1, r =>
    let (k, r1) := g.randint 2 r
    let (xs, r2) := drawInts g n r1
    (k :: xs, r2)

/-- The attribute values of one sample in their original order, with the digit
(202-214; the same in `led_generator_drift.py` 121-132). -/
def attributes {ρ : Type} (g : Rng ρ) (noise : ℚ) (hasNoise : Bool) (r : ρ) :
    (List Nat × Nat) × ρ :=
  let (digit, r1) := g.randint 10 r
  let (bits, r2) := drawBits g noise (original.getD digit []) r1
  if hasNoise then
    let (ints, r3) := drawInts g 17 r2
    ((bits ++ ints, digit), r3)
  else ((bits, digit), r2)

/-- `LEDGenerator.next_sample` for one sample (201-218): columns are in the
original order. -/
def nextLED {ρ : Type} (g : Rng ρ) (noise : ℚ) (hasNoise : Bool) (r : ρ) :
    (List Nat × Nat) × ρ := attributes g noise hasNoise r

/-! ### C84: what the noise parameter does -/

theorem length_drawBits {ρ : Type} (g : Rng ρ) (noise : ℚ) (bs : List Nat) (r : ρ) :
    (drawBits g noise bs r).1.length = bs.length := by
  induction bs generalizing r with
  | nil => rfl
  | cons b bs ih => simp [drawBits, ih]

theorem drawBits_clean {ρ : Type} (g : Rng ρ) (hg : Uniform g) (noise : ℚ) (hn : noise < 1 / 100)
    (bs : List Nat) (r : ρ) : (drawBits g noise bs r).1 = bs := by
  induction bs generalizing r with
  | nil => rfl
  | cons b bs ih =>
    have h := (hg.rand r).1
    simp only [drawBits, ih, bit]
    rw [if_neg (by linarith)]

theorem length_drawInts {ρ : Type} (g : Rng ρ) (n : Nat) (r : ρ) :
    (drawInts g n r).1.length = n := by
  induction n generalizing r with
  | zero => rfl
  | succ n ih => simp [drawInts, ih]

theorem length_attributes {ρ : Type} (g : Rng ρ) (hg : Uniform g) (noise : ℚ) (hasNoise : Bool)
    (r : ρ) : (attributes g noise hasNoise r).1.1.length = if hasNoise then 24 else 7 := by
  have hlen : ∀ d, d < 10 → (original.getD d []).length = 7 := by decide
  have h7 := hlen _ (hg.randint 10 r (by norm_num))
  cases hasNoise with
  | false =>
    simp only [attributes, Bool.false_eq_true, if_false]
    rw [length_drawBits, h7]
  | true =>
    simp only [attributes, if_true]
    rw [List.length_append, length_drawBits, length_drawInts, h7]

theorem noise_free {ρ : Type} (g : Rng ρ) (hg : Uniform g) (hasNoise : Bool) (r : ρ) :
    ∃ (x : List Nat) (y : Nat) (r' : ρ), nextLED g 0 hasNoise r = ((x, y), r') ∧
      y < 10 ∧ x.take 7 = original.getD y [] ∧
      x.length = (if hasNoise then 24 else 7) ∧
      ∀ z, z < 10 → x.take 7 = original.getD z [] → z = y := by
  have hd := hg.randint 10 r (by norm_num)
  have hlen : ∀ d, d < 10 → (original.getD d []).length = 7 := by decide
  have hinj : ∀ d, d < 10 → ∀ e, e < 10 → original.getD d [] = original.getD e [] → e = d := by
    decide
  have hb := drawBits_clean g hg 0 (by norm_num) (original.getD (g.randint 10 r).1 [])
    (g.randint 10 r).2
  have h7 := hlen _ hd
  cases hasNoise with
  | false =>
    refine ⟨_, _, _, by simp only [nextLED, attributes, Bool.false_eq_true, if_false]; rfl,
      hd, ?_, ?_, ?_⟩
    · rw [hb, List.take_of_length_le (by omega)]
    · rw [hb, h7]; rfl
    · intro z hz h
      rw [hb, List.take_of_length_le (by omega)] at h
      exact hinj _ hd _ hz h
  | true =>
    refine ⟨_, _, _, by simp only [nextLED, attributes, if_true]; rfl, hd, ?_, ?_, ?_⟩
    · rw [hb, List.take_append_of_le_length (by omega), List.take_of_length_le (by omega)]
    · rw [hb, List.length_append, length_drawInts, h7]; rfl
    · intro z hz h
      rw [hb, List.take_append_of_le_length (by omega), List.take_of_length_le (by omega)] at h
      exact hinj _ hd _ hz h

/-- A seven-segment display: the digits that light the top, upper left, upper right,
middle, lower left, lower right and bottom segment. -/
def segments : List (List Nat) :=
  [[0, 2, 3, 5, 6, 7, 8, 9], [0, 4, 5, 6, 8, 9], [0, 1, 2, 3, 4, 7, 8, 9], [2, 3, 4, 5, 6, 8, 9],
   [0, 2, 6, 8], [0, 1, 3, 4, 5, 6, 7, 8, 9], [0, 2, 3, 5, 6, 8, 9]]

/-- The display of a digit: 1 for a segment that is lit. -/
def display (d : Nat) : List Nat := segments.map fun s => if d ∈ s then 1 else 0

/-- **C84** Without noise the first seven attributes are the segments of the
digit, so they determine the label; a noisy generator emits 24 attributes, any
other seven. -/
theorem C84_noise_free {ρ : Type} (g : Rng ρ) (hg : Uniform g) (hasNoise : Bool) (r : ρ) :
    ∃ (x : List Nat) (y : Nat) (r' : ρ), nextLED g 0 hasNoise r = ((x, y), r') ∧
      y < 10 ∧ x.take 7 = display y ∧
      x.length = (if hasNoise then 24 else 7) ∧
      ∀ z, z < 10 → x.take 7 = display z → z = y := by
  have hdisp : ∀ d, d < 10 → original.getD d [] = display d := by decide
  obtain ⟨x, y, r', h1, h2, h3, h4, h5⟩ := noise_free g hg hasNoise r
  exact ⟨x, y, r', h1, h2, by rw [h3, hdisp y h2], h4, fun z hz h => h5 z hz (by rw [h, hdisp z hz])⟩

/-- **C84** A segment is inverted exactly when the uniform random number is at
most `noise_percentage - 0.01`. -/
theorem C84_inverted_iff_partial (noise u : ℚ) (b : Nat) (hb : b < 2) :
    bit noise u b = 1 - b ↔ u ≤ noise - 1 / 100 := by
  unfold bit
  by_cases h : 1 / 100 + u ≤ noise
  · rw [if_pos h]
    have : u ≤ noise - 1 / 100 := by linarith
    simp only [this, iff_true]
    interval_cases b <;> rfl
  · rw [if_neg h]
    have : ¬ u ≤ noise - 1 / 100 := fun h' => h (by linarith)
    simp only [this, iff_false]
    omega

/-- **C84** So a positive noise percentage below one percent inverts nothing, and
with `noise_percentage = 1.0` a segment whose random number exceeds 0.99 is
left as it is. -/
theorem C84_noise_percentage_violated :
    (∀ noise u : ℚ, 0 < noise → noise < 1 / 100 → 0 ≤ u → ∀ b, bit noise u b = b) ∧
    (∀ u : ℚ, 99 / 100 < u → u < 1 → ∀ b, bit 1 u b = b) := by
  constructor
  · intro noise u _ h hu b
    unfold bit; rw [if_neg (by linarith)]
  · intro u h _ b
    unfold bit; rw [if_neg (by linarith)]

example : bit (1 / 2) (1 / 4) 0 = 1 ∧ bit (1 / 2) (3 / 4) 0 = 0 := by decide +kernel

/-! ### C85: moving the relevant attributes -/

/-- The loop building `_numberAttribute` from the drawn `random_int` and
`offset` (`led_generator_drift.py` 84-94). -/
def attrMap (n r o : Nat) : List Nat :=
  (List.range n).foldl (fun a i =>
    let v1 := (i + r) % 7
    let v2 := 7 + (i + o) % 17
    (a.set v1 v2).set v2 v1) (List.range 24)

/-- The constructor (77-96): the class attribute `_numberAttribute` is rewritten
in place, whatever it was before. Returns the array and the random state after
the draws (the generator's own state is then re-seeded at line 96). -/
def construct {ρ : Type} (g : Rng ρ) (hasNoise : Bool) (nDrift : Nat) (r : ρ) : List Nat :=
  if hasNoise ∧ nDrift > 0 then
    let (k, r1) := g.randint 7 r
    let (o, _) := g.randint 17 r1
    attrMap nDrift k o
  else List.range 24

/-- The writes `data[j, self._numberAttribute[i]] = v` of one row (124-132);
a column past the end raises. -/
def writeRow : List (Nat × Nat) → List Nat → Except PyErr (List Nat)
  | [], row => .ok row
  | (col, v) :: rest, row =>
    if col < row.length then writeRow rest (row.set col v) else .error .indexError

/-- One row of `LEDGeneratorDrift.next_sample` (117-136) with the current class
attribute `a`: zeros of length `n_features + 1`, the writes, the slice
`[:n_features]`. -/
def driftRow (a : List Nat) (attrs : List Nat) : Except PyErr (List Nat) :=
  (writeRow (a.zip attrs) (List.replicate (attrs.length + 1) 0)).map (·.take attrs.length)

/-- `next_sample` of the drifting generator for one sample. -/
def nextDrift {ρ : Type} (g : Rng ρ) (a : List Nat) (noise : ℚ) (hasNoise : Bool) (r : ρ) :
    Except PyErr (List Nat × Nat) :=
  let ((attrs, digit), _) := attributes g noise hasNoise r
  (driftRow a attrs).map (fun x => (x, digit))

theorem attrMap_succ (n r o : Nat) :
    attrMap (n + 1) r o =
      ((attrMap n r o).set ((n + r) % 7) (7 + (n + o) % 17)).set (7 + (n + o) % 17)
        ((n + r) % 7) := by
  unfold attrMap
  rw [show List.range (n + 1) = List.range n ++ [n] from List.range_succ, List.foldl_append]
  rfl

theorem length_attrMap (n r o : Nat) : (attrMap n r o).length = 24 := by
  induction n with
  | zero => rfl
  | succ n ih => rw [attrMap_succ]; simp [ih]

theorem attrMap_get_succ (n r o j : Nat) (hj : j < 24) :
    (attrMap (n + 1) r o)[j]? = if j = 7 + (n + o) % 17 then some ((n + r) % 7)
      else if j = (n + r) % 7 then some (7 + (n + o) % 17) else (attrMap n r o)[j]? := by
  rw [attrMap_succ, List.getElem?_set, List.getElem?_set, List.length_set, length_attrMap]
  by_cases h1 : 7 + (n + o) % 17 = j
  · rw [if_pos h1, if_pos (by omega), if_pos h1.symm]
  · rw [if_neg h1, if_neg (c := j = 7 + (n + o) % 17) (fun h => h1 h.symm)]
    by_cases h2 : (n + r) % 7 = j
    · rw [if_pos h2, if_pos (by omega), if_pos h2.symm]
    · rw [if_neg h2, if_neg (c := j = (n + r) % 7) (fun h => h2 h.symm)]

/-- Invariant of the loop while at most seven attributes move. -/
theorem attrMap_inv (n r o : Nat) (hn : n ≤ 7) :
    (∀ i < n, (attrMap n r o)[(i + r) % 7]? = some (7 + (i + o) % 17) ∧
      (attrMap n r o)[7 + (i + o) % 17]? = some ((i + r) % 7)) ∧
    (∀ j < 24, (∀ i < n, j ≠ (i + r) % 7 ∧ j ≠ 7 + (i + o) % 17) →
      (attrMap n r o)[j]? = some j) := by
  induction n with
  | zero =>
    refine ⟨by intro i h; omega, ?_⟩
    intro j hj _
    simp [attrMap, hj]
  | succ n ih =>
    obtain ⟨h1, h2⟩ := ih (by omega)
    refine ⟨?_, ?_⟩
    · intro i hi
      by_cases hin : i = n
      · subst hin
        refine ⟨?_, ?_⟩
        · rw [attrMap_get_succ _ _ _ _ (by omega), if_neg (by omega), if_pos rfl]
        · rw [attrMap_get_succ _ _ _ _ (by omega), if_pos rfl]
      · obtain ⟨ha, hb⟩ := h1 i (by omega)
        refine ⟨?_, ?_⟩
        · rw [attrMap_get_succ _ _ _ _ (by omega), if_neg (by omega), if_neg (by omega), ha]
        · rw [attrMap_get_succ _ _ _ _ (by omega), if_neg (by omega), if_neg (by omega), hb]
    · intro j hj hne
      have hlast := hne n (by omega)
      rw [attrMap_get_succ _ _ _ _ hj, if_neg hlast.2, if_neg hlast.1]
      exact h2 j hj (fun i hi => hne i (by omega))

theorem attrMap_involution (n r o : Nat) (hn : n ≤ 7) (j : Nat) (hj : j < 24) :
    ∃ k < 24, (attrMap n r o)[j]? = some k ∧ (attrMap n r o)[k]? = some j := by
  obtain ⟨h1, h2⟩ := attrMap_inv n r o hn
  by_cases h : ∃ i < n, j = (i + r) % 7 ∨ j = 7 + (i + o) % 17
  · obtain ⟨i, hi, h | h⟩ := h
    · exact ⟨7 + (i + o) % 17, by omega, by rw [h]; exact (h1 i hi).1, by rw [h]; exact (h1 i hi).2⟩
    · exact ⟨(i + r) % 7, by omega, by rw [h]; exact (h1 i hi).2, by rw [h]; exact (h1 i hi).1⟩
  · refine ⟨j, hj, ?_, ?_⟩ <;>
    · apply h2 j hj
      intro i hi
      refine ⟨fun hh => h ⟨i, hi, .inl hh⟩, fun hh => h ⟨i, hi, .inr hh⟩⟩

theorem attrMap_subset (n r o : Nat) (hn : n ≤ 7) : (List.range 24) ⊆ attrMap n r o := by
  intro j hj
  obtain ⟨k, _, _, h⟩ := attrMap_involution n r o hn j (List.mem_range.mp hj)
  exact List.mem_of_getElem? h

theorem attrMap_perm (n r o : Nat) (hn : n ≤ 7) : (attrMap n r o).Perm (List.range 24) := by
  have hs := List.subperm_of_subset List.nodup_range (attrMap_subset n r o hn)
  exact (hs.perm_of_length_le (by rw [length_attrMap]; simp)).symm

/-- Writing distinct columns: column `a[i]` holds `v[i]`, others keep their value. -/
theorem writeRow_spec (ps : List (Nat × Nat)) (row : List Nat)
    (hnd : (ps.map Prod.fst).Nodup) (hlt : ∀ p ∈ ps, p.1 < row.length) :
    ∃ out, writeRow ps row = .ok out ∧ out.length = row.length ∧
      (∀ p ∈ ps, out[p.1]? = some p.2) ∧
      (∀ j, j ∉ ps.map Prod.fst → out[j]? = row[j]?) := by
  induction ps generalizing row with
  | nil => exact ⟨row, rfl, rfl, by simp, by simp⟩
  | cons p rest ih =>
    obtain ⟨c, v⟩ := p
    rw [List.map_cons, List.nodup_cons] at hnd
    have hc := hlt (c, v) (by simp)
    simp only at hc
    obtain ⟨out, ho, hl, hw, hk⟩ := ih (row.set c v) hnd.2
      (fun p hp => by rw [List.length_set]; exact hlt p (by simp [hp]))
    refine ⟨out, ?_, by simpa using hl, ?_, ?_⟩
    · simp only [writeRow]; rw [if_pos hc]; exact ho
    · intro p hp
      rcases List.mem_cons.mp hp with h | h
      · subst h
        rw [hk c hnd.1, List.getElem?_set, if_pos rfl, if_pos hc]
      · exact hw p h
    · intro j hj
      rw [List.map_cons, List.mem_cons, not_or] at hj
      rw [hk j hj.2, List.getElem?_set, if_neg (fun h => hj.1 h.symm)]

/-- **C85** Moving at most seven attributes permutes the 24 columns: the row
never raises, and column `map[i]` of it is attribute `i` of the undrifted
sample, for a rearrangement `map` of all columns that exchanges `n` relevant
columns with `n` irrelevant ones. -/
theorem C85_columns_permuted {ρ : Type} (g : Rng ρ) (hg : Uniform g) (n : Nat) (hn : n ≤ 7) (rc : ρ)
    (noise : ℚ) (r : ρ) (attrs : List Nat) (digit : Nat) (r' : ρ)
    (ha : attributes g noise true r = ((attrs, digit), r')) :
    ∃ (map x : List Nat), map.Perm (List.range 24) ∧
      nextDrift g (construct g true n rc) noise true r = .ok (x, digit) ∧
      x.length = 24 ∧
      (∀ i < 24, ∃ c < 24, map[i]? = some c ∧ map[c]? = some i ∧ x[c]? = attrs[i]?) ∧
      ((List.range 7).filter (fun i => map[i]? != some i)).length = n := by
  have h24 : attrs.length = 24 := by
    have := length_attributes g hg noise true r
    rw [ha] at this; simpa using this
  obtain ⟨k, o, hc⟩ : ∃ k o, construct g true n rc = attrMap n k o := by
    unfold construct
    by_cases h0 : n > 0
    · rw [if_pos ⟨rfl, h0⟩]; exact ⟨_, _, rfl⟩
    · rw [if_neg (fun h => h0 h.2)]
      have : n = 0 := by omega
      subst this; exact ⟨0, 0, rfl⟩
  refine ⟨attrMap n k o, ?_⟩
  have hperm := attrMap_perm n k o hn
  have hlen := length_attrMap n k o
  have hfst : ((attrMap n k o).zip attrs).map Prod.fst = attrMap n k o := by
    rw [List.map_fst_zip]; omega
  obtain ⟨out, ho, hl, hw, _⟩ := writeRow_spec ((attrMap n k o).zip attrs)
    (List.replicate (attrs.length + 1) 0)
    (by rw [hfst]; exact hperm.nodup_iff.mpr List.nodup_range)
    (by
      intro p hp
      have : p.1 ∈ attrMap n k o := by rw [← hfst]; exact List.mem_map_of_mem hp
      have := List.mem_range.mp (hperm.mem_iff.mp this)
      rw [List.length_replicate]; omega)
  rw [List.length_replicate, h24] at hl
  rw [h24] at ho
  refine ⟨out.take 24, hperm, ?_, by simp [hl], ?_, ?_⟩
  · simp only [nextDrift, hc, ha, driftRow, ho, h24, Except.map]
  · intro i hi
    obtain ⟨c, hc24, h1, h2⟩ := attrMap_involution n k o hn i hi
    refine ⟨c, hc24, h1, h2, ?_⟩
    obtain ⟨v, hv⟩ : ∃ v, attrs[i]? = some v := by
      rw [List.getElem?_eq_getElem (by omega)]; exact ⟨_, rfl⟩
    have hmem : (c, v) ∈ (attrMap n k o).zip attrs := by
      apply List.mem_of_getElem? (i := i)
      rw [List.getElem?_zip_eq_some]
      exact ⟨h1, hv⟩
    rw [List.getElem?_take_of_lt hc24, hw (c, v) hmem, hv]
  · obtain ⟨h1, h2⟩ := attrMap_inv n k o hn
    have hset : (List.range 7).filter (fun i => (attrMap n k o)[i]? != some i) =
        (List.range 7).filter (fun j => decide (∃ i < n, j = (i + k) % 7)) := by
      apply List.filter_congr
      intro j hj
      have hj7 := List.mem_range.mp hj
      by_cases h : ∃ i < n, j = (i + k) % 7
      · obtain ⟨i, hi, hji⟩ := h
        have hx : (attrMap n k o)[j]? = some (7 + (i + o) % 17) := by rw [hji]; exact (h1 i hi).1
        rw [hx]
        have hd : decide (∃ i < n, j = (i + k) % 7) = true := decide_eq_true ⟨i, hi, hji⟩
        rw [hd]
        simp only [bne_iff_ne, ne_eq, Option.some.injEq]
        omega
      · have hx : (attrMap n k o)[j]? = some j := h2 j (by omega) (fun i hi =>
          ⟨fun hh => h ⟨i, hi, hh⟩, by omega⟩)
        rw [hx]
        simp [h]
    rw [hset]
    have hmod : ∀ j, decide (∃ i < n, j = (i + k) % 7) = decide (∃ i < n, j = (i + k % 7) % 7) := by
      intro j; congr 1; simp
    simp only [hmod]
    have hk7 : k % 7 < 7 := Nat.mod_lt _ (by norm_num)
    generalize k % 7 = m at hk7
    interval_cases n <;> interval_cases m <;> decide +kernel

/-- The positions of moved irrelevant attributes hold relevant columns. -/
theorem attrMap_moved (n r o : Nat) :
    ∀ i < n, ∃ c < 7, (attrMap n r o)[7 + (i + o) % 17]? = some c := by
  induction n with
  | zero => intro i h; omega
  | succ n ih =>
    intro i hi
    rw [attrMap_get_succ _ _ _ _ (by omega)]
    by_cases h : 7 + (i + o) % 17 = 7 + (n + o) % 17
    · rw [if_pos h]; exact ⟨(n + r) % 7, by omega, rfl⟩
    · rw [if_neg h, if_neg (by omega)]
      exact ih i (by
        by_cases hin : i = n
        · subst hin; exact absurd rfl h
        · omega)

/-- Writing keeps columns that are not mentioned. -/
theorem writeRow_untouched (ps : List (Nat × Nat)) (row out : List Nat) (j : Nat)
    (hj : j ∉ ps.map Prod.fst) (h : writeRow ps row = .ok out) : out[j]? = row[j]? := by
  induction ps generalizing row with
  | nil => simp only [writeRow, Except.ok.injEq] at h; rw [h]
  | cons p rest ih =>
    obtain ⟨c, v⟩ := p
    rw [List.map_cons, List.mem_cons, not_or] at hj
    simp only [writeRow] at h
    by_cases hc : c < row.length
    · rw [if_pos hc] at h
      rw [ih _ hj.2 h, List.getElem?_set, if_neg (fun hh => hj.1 hh.symm)]
    · rw [if_neg hc] at h; cases h

/-- **C85** Moving eight or more attributes never gives a permutation of the
columns: some column is written by no attribute and is 0 in every sample. -/
theorem C85_more_than_seven_violated (n k o : Nat) (hn : 8 ≤ n) :
    ∃ j < 24, j ∉ attrMap n k o ∧
      ∀ attrs x, attrs.length = 24 → driftRow (attrMap n k o) attrs = .ok x → x[j]? = some 0 := by
  have hlen := length_attrMap n k o
  have hnd : ¬ (attrMap n k o).Nodup := by
    intro hnd
    have hm := attrMap_moved n k o
    choose! f hf using hm
    have hcard : (Finset.range 7).card < (Finset.range 8).card := by simp
    have hmaps : ∀ i ∈ Finset.range 8, f i ∈ Finset.range 7 := by
      intro i hi
      rw [Finset.mem_range] at hi ⊢
      exact (hf i (by omega)).1
    obtain ⟨a, ha, b, hb, hab, hfab⟩ :=
      Finset.exists_ne_map_eq_of_card_lt_of_maps_to hcard hmaps
    rw [Finset.mem_range] at ha hb
    have h1 := (hf a (by omega)).2
    have h2 := (hf b (by omega)).2
    rw [← hfab] at h2
    have := (List.getElem?_inj (by rw [hlen]; omega) hnd).mp (h1.trans h2.symm)
    omega
  have hex : ∃ j < 24, j ∉ attrMap n k o := by
    by_contra hcon
    push Not at hcon
    have hs := List.subperm_of_subset List.nodup_range
      (fun j hj => hcon j (List.mem_range.mp hj) : List.range 24 ⊆ attrMap n k o)
    exact hnd ((hs.perm_of_length_le (by rw [hlen]; simp)).nodup_iff.mp List.nodup_range)
  obtain ⟨j, hj, hnot⟩ := hex
  refine ⟨j, hj, hnot, ?_⟩
  intro attrs x h24 hx
  unfold driftRow at hx
  cases hw : writeRow ((attrMap n k o).zip attrs) (List.replicate (attrs.length + 1) 0) with
  | error e => rw [hw] at hx; cases hx
  | ok out =>
    rw [hw] at hx
    simp only [Except.map, Except.ok.injEq] at hx
    rw [← hx, h24, List.getElem?_take_of_lt hj,
      writeRow_untouched _ _ _ j (by rw [List.map_fst_zip (by omega)]; exact hnot) hw,
      List.getElem?_replicate, if_pos (by omega)]

/-! ### C86: generators share the column map -/

/-- **C86** The map is a class attribute: what an existing generator returns is
determined by the generator that was *constructed last*. In particular a
noise-free generator with seven attributes raises `IndexError` after a noisy
drifting one was constructed whose map sends a segment past column 7. -/
theorem C86_shared_map_violated {ρ : Type} (g : Rng ρ) (hg : Uniform g) (n : Nat) (rc : ρ)
    (noise : ℚ) (r : ρ) (i c : Nat) (hi : i < 7) (hc : 7 < c)
    (hmap : (construct g true n rc)[i]? = some c) :
    (∃ x y, nextDrift g (construct g false 0 rc) noise false r = .ok (x, y)) ∧
    nextDrift g (construct g true n rc) noise false r = .error .indexError := by
  obtain ⟨attrs, digit, r', hat⟩ : ∃ attrs digit r',
      attributes g noise false r = ((attrs, digit), r') := ⟨_, _, _, rfl⟩
  have h7 : attrs.length = 7 := by
    have := length_attributes g hg noise false r
    rw [hat] at this; simpa using this
  constructor
  · have hcon : construct g false 0 rc = List.range 24 := by simp [construct]
    obtain ⟨a0, a1, a2, a3, a4, a5, a6, rfl⟩ : ∃ a0 a1 a2 a3 a4 a5 a6,
        attrs = [a0, a1, a2, a3, a4, a5, a6] := by
      match attrs, h7 with
      | [a0, a1, a2, a3, a4, a5, a6], _ => exact ⟨a0, a1, a2, a3, a4, a5, a6, rfl⟩
    refine ⟨[a0, a1, a2, a3, a4, a5, a6], digit, ?_⟩
    simp only [nextDrift, hat, hcon, driftRow, Except.map]
    rfl
  · have hmem : ∃ v, (c, v) ∈ (construct g true n rc).zip attrs := by
      refine ⟨attrs[i], ?_⟩
      apply List.mem_of_getElem? (i := i)
      rw [List.getElem?_zip_eq_some]
      exact ⟨hmap, List.getElem?_eq_getElem (by omega)⟩
    obtain ⟨v, hv⟩ := hmem
    have key : ∀ (ps : List (Nat × Nat)) (row : List Nat), (c, v) ∈ ps → row.length ≤ c →
        writeRow ps row = .error .indexError := by
      intro ps
      induction ps with
      | nil => intro row h; simp at h
      | cons p rest ih =>
        intro row h hr
        obtain ⟨c', v'⟩ := p
        simp only [writeRow]
        by_cases hc' : c' < row.length
        · rw [if_pos hc']
          rcases List.mem_cons.mp h with h | h
          · simp only [Prod.mk.injEq] at h; omega
          · exact ih _ h (by simpa using hr)
        · rw [if_neg hc']
    simp only [nextDrift, hat, driftRow,
      key _ (List.replicate (attrs.length + 1) 0) hv (by rw [List.length_replicate]; omega)]
    rfl

/-- **C86** Constructing generators without moved attributes restores the identity
map, which is the one an undrifted generator was built with. -/
theorem C86_undrifted_partial {ρ : Type} (g : Rng ρ) (hasNoise hasNoise' : Bool) (n n' : Nat)
    (rc rc' : ρ) (h : ¬(hasNoise = true ∧ 0 < n)) (h' : ¬(hasNoise' = true ∧ 0 < n'))
    (noise : ℚ) (r : ρ) :
    nextDrift g (construct g hasNoise' n' rc') noise hasNoise r =
      nextDrift g (construct g hasNoise n rc) noise hasNoise r := by
  unfold construct
  rw [if_neg h, if_neg h']

/-! ### Non-vacuity -/

example : attrMap 2 0 0 = [7, 8, 2, 3, 4, 5, 6, 0, 1] ++ (List.range 24).drop 9 := by
  decide +kernel

/-- A run of the drifting generator with two moved attributes. -/
example : ∃ x y, nextDrift counter (construct counter true 2 3) 0 true 4 = .ok (x, y) ∧
    y = 4 ∧ x.length = 24 := by
  refine ⟨_, _, rfl, ?_, ?_⟩ <;> decide +kernel

/-- The hypotheses of C86 are met by the counter source. -/
example : Uniform counter ∧ (construct counter true 2 3)[3]? = some 11 :=
  ⟨uniform_counter, by decide +kernel⟩

end Verif.Streams.LED
