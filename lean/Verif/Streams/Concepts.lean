import Verif.Streams.GeneratorProps
import Mathlib.Tactic.Tauto

/-!
C105 (the labels follow the documented concepts and the features stay in the
documented ranges), C106 (AGRAWAL function 4), C107 (SEA label noise).

The concepts are written here a second time, from the class documentation and
not from the classification functions of the model.
-/

namespace Verif.Streams.Gen

/-- Every emitted sample is what `post` makes of some drawn features and their class. -/
theorem nextBatch_origin {ρ φ : Type} (g : Generator ρ φ) (balance : Bool) (fuel : Nat) :
    ∀ (n : Nat) (nz : Bool) (r : ρ) (out : List (φ × Nat)) (nz' : Bool) (r' : ρ),
    nextBatch g balance fuel n nz r = some (out, nz', r') →
    ∀ p ∈ out, ∃ q s, p = (g.post (g.draw q).1 (g.cls (g.draw q).1) s).1 := by
  intro n
  induction n with
  | zero =>
    intro nz r out nz' r' h
    simp only [nextBatch, Option.some.injEq, Prod.mk.injEq] at h
    intro p hp; rw [← h.1] at hp; simp at hp
  | succ n ih =>
    intro nz r out nz' r' h
    simp only [nextBatch] at h
    cases hr : rejection g.draw g.cls balance fuel nz r with
    | none => rw [hr] at h; simp at h
    | some q =>
      obtain ⟨f, c, nz1, r1⟩ := q
      rw [hr] at h
      obtain ⟨e1, ⟨q, e2⟩, _⟩ := rejection_spec _ _ _ _ _ _ _ _ _ _ hr
      simp only at h
      cases hn : nextBatch g balance fuel n nz1 (g.post f c r1).2 with
      | none => rw [hn] at h; simp at h
      | some w =>
        obtain ⟨rest, nz2, r3⟩ := w
        rw [hn] at h
        simp only [Option.some.injEq, Prod.mk.injEq] at h
        obtain ⟨h1, _, _⟩ := h
        subst h1
        intro p hp
        rcases List.mem_cons.mp hp with e | e
        · exact ⟨q, r1, by rw [e, e2, e1]⟩
        · exact ih _ _ _ _ _ hn p e

theorem nextBatches_origin {ρ φ : Type} (g : Generator ρ φ) (balance : Bool) (fuel : Nat) :
    ∀ (bs : List Nat) (nz : Bool) (r : ρ) (out : List (φ × Nat)) (nz' : Bool) (r' : ρ),
    nextBatches g balance fuel bs nz r = some (out, nz', r') →
    ∀ p ∈ out, ∃ q s, p = (g.post (g.draw q).1 (g.cls (g.draw q).1) s).1 := by
  intro bs
  induction bs with
  | nil =>
    intro nz r out nz' r' h
    simp only [nextBatches, Option.some.injEq, Prod.mk.injEq] at h
    intro p hp; rw [← h.1] at hp; simp at hp
  | cons b bs ih =>
    intro nz r out nz' r' h
    simp only [nextBatches] at h
    cases hb : nextBatch g balance fuel b nz r with
    | none => rw [hb] at h; simp at h
    | some q =>
      obtain ⟨o1, nz1, r1⟩ := q
      rw [hb] at h
      simp only at h
      cases hn : nextBatches g balance fuel bs nz1 r1 with
      | none => rw [hn] at h; simp at h
      | some q =>
        obtain ⟨rest, nz2, r3⟩ := q
        rw [hn] at h
        simp only [Option.some.injEq, Prod.mk.injEq] at h
        obtain ⟨h1, _, _⟩ := h
        subst h1
        intro p hp
        rcases List.mem_append.mp hp with e | e
        · exact nextBatch_origin g balance fuel _ _ _ _ _ _ hb p e
        · exact ih _ _ _ _ _ hn p e

/-! ### Specifications, from the class documentation -/

/-- SEA: function `k` gives 0 exactly for points on or below the line. -/
structure SeaConcept (k : Fin 4) (att1 att2 : ℚ) (label : Nat) : Prop where
  binary : label = 0 ∨ label = 1
  f0 : k = 0 → (label = 0 ↔ att1 + att2 ≤ 8)
  f1 : k = 1 → (label = 0 ↔ att1 + att2 ≤ 9)
  f2 : k = 2 → (label = 0 ↔ att1 + att2 ≤ 7)
  f3 : k = 3 → (label = 0 ↔ att1 + att2 ≤ 95 / 10)

/-- STAGGER: size 0 small, 1 medium, 2 large; colour 0 red, 1 blue, 2 green;
shape 0 circle, 1 square, 2 triangle. -/
structure StaggerConcept (k : Fin 3) (size colour shape label : Nat) : Prop where
  binary : label = 0 ∨ label = 1
  f0 : k = 0 → (label = 1 ↔ size = 0 ∧ colour = 0)
  f1 : k = 1 → (label = 1 ↔ colour = 2 ∨ shape = 0)
  f2 : k = 2 → (label = 1 ↔ size = 1 ∨ size = 2)

/-- Sine: `y` is the first attribute, `x` the second; 1 below the curve. -/
structure SineConcept (sin1 sin3 : ℚ → ℚ) (k : Fin 4) (y x : ℚ) (label : Nat) : Prop where
  binary : label = 0 ∨ label = 1
  f0 : k = 0 → (label = 1 ↔ y < sin1 x)
  f1 : k = 1 → (label = 0 ↔ y < sin1 x)
  f2 : k = 2 → (label = 1 ↔ y < 5 / 10 + 3 / 10 * sin3 x)
  f3 : k = 3 → (label = 0 ↔ y < 5 / 10 + 3 / 10 * sin3 x)

/-- Mixed: at least two of `v`, `w` and "below the curve" hold. -/
structure MixedConcept (sin3 : ℚ → ℚ) (k : Fin 2) (v w : Nat) (x y : ℚ) (label : Nat) : Prop where
  binary : label = 0 ∨ label = 1
  f0 : k = 0 → (label = 0 ↔
    2 ≤ (if v = 1 then 1 else 0) + (if w = 1 then 1 else 0) +
      (if y < 5 / 10 + 3 / 10 * sin3 x then 1 else 0))
  f1 : k = 1 → (label = 1 ↔
    2 ≤ (if v = 1 then 1 else 0) + (if w = 1 then 1 else 0) +
      (if y < 5 / 10 + 3 / 10 * sin3 x then 1 else 0))

/-- The age groups of AGRAWAL. -/
inductive AgeGroup | young | middle | old
  deriving DecidableEq

/-- `g` is the age group of somebody aged `age`. -/
def ageIn (age : ℚ) : AgeGroup → Prop
  | .young => age < 40
  | .middle => 40 ≤ age ∧ age < 60
  | .old => 60 ≤ age

/-- The income bands, in thousands, of the three age groups. -/
def band2 : AgeGroup → ℚ × ℚ
  | .young => (50, 100)
  | .middle => (75, 125)
  | .old => (25, 75)

/-- Lowest and highest education level of the three age groups. -/
def levels : AgeGroup → Nat × Nat
  | .young => (0, 1)
  | .middle => (1, 3)
  | .old => (2, 4)

/-- The bands of function 3, for people with and without the group's education. -/
def band4 : AgeGroup → Bool → ℚ × ℚ
  | .young, true => (25, 75)
  | .young, false => (50, 100)
  | .middle, true => (50, 100)
  | .middle, false => (75, 125)
  | .old, true => (50, 100)
  | .old, false => (25, 75)

def within (x : ℚ) (b : ℚ × ℚ) : Prop := b.1 * 1000 ≤ x ∧ x ≤ b.2 * 1000

/-- House equity counts only from twenty years on, a tenth of the value per year. -/
def equity (a : Agrawal) : ℚ := a.hvalue * (max (a.hyears - 20) 0) / 10

/-- AGRAWAL functions other than 4 (for 4 see C106). -/
structure AgrawalConcept (k : Fin 10) (a : Agrawal) (label : Nat) : Prop where
  binary : label = 0 ∨ label = 1
  f0 : k = 0 → (label = 0 ↔ ¬ ageIn a.age .middle)
  f1 : k = 1 → ∀ g, ageIn a.age g → (label = 0 ↔ within a.salary (band2 g))
  f2 : k = 2 → ∀ g, ageIn a.age g → (label = 0 ↔ (levels g).1 ≤ a.elevel ∧ a.elevel ≤ (levels g).2)
  f3 : k = 3 → ∀ g, ageIn a.age g → (label = 0 ↔
    within a.salary (band4 g (decide ((levels g).1 ≤ a.elevel ∧ a.elevel ≤ (levels g).2))))
  f5 : k = 5 → ∀ g, ageIn a.age g → (label = 0 ↔ within (a.salary + a.commission) (band2 g))
  f6 : k = 6 → (label = 0 ↔ 1 < 2 / 3 * (a.salary + a.commission) - a.loan / 5 - 20000)
  f7 : k = 7 → (label = 0 ↔ 1 < 2 / 3 * (a.salary + a.commission) - 5000 * a.elevel - 20000)
  f8 : k = 8 →
    (label = 0 ↔ 1 < 2 / 3 * (a.salary + a.commission) - 5000 * a.elevel - a.loan / 5 - 10000)
  f9 : k = 9 →
    (label = 0 ↔ 1 < 2 / 3 * (a.salary + a.commission) - 5000 * a.elevel + equity a / 5 - 10000)

/-! ### The model meets them -/

theorem ite01 {p : Prop} [Decidable p] : ((if p then 0 else 1 : Nat) = 0 ∨ (if p then 0 else 1 : Nat) = 1) ∧
    (((if p then 0 else 1 : Nat) = 0) ↔ p) ∧ (((if p then 1 else 0 : Nat) = 1) ↔ p) ∧
    ((if p then 1 else 0 : Nat) = 0 ∨ (if p then 1 else 0 : Nat) = 1) := by
  by_cases h : p <;> simp [h]

theorem seaClass_concept (k : Fin 4) (f : ℚ × ℚ × ℚ) : SeaConcept k f.1 f.2.1 (seaClass k f) := by
  unfold seaClass
  refine ⟨ite01.1, ?_, ?_, ?_, ?_⟩ <;> rintro rfl <;> rw [ite01.2.1] <;> simp only [seaThreshold]
  norm_num

theorem staggerClass_concept (k : Fin 3) (f : Nat × Nat × Nat) :
    StaggerConcept k f.1 f.2.1 f.2.2 (staggerClass k f) := by
  obtain ⟨a, b, c⟩ := f
  refine ⟨?_, ?_, ?_, ?_⟩
  · match k with
    | 0 => exact ite01.2.2.2
    | 1 => exact ite01.2.2.2
    | 2 => exact ite01.2.2.2
  all_goals (rintro rfl; simp only [staggerClass]; rw [ite01.2.2.1])

theorem sineClass_concept (sin1 sin3 : ℚ → ℚ) (k : Fin 4) (f : ℚ × ℚ × List ℚ) :
    SineConcept sin1 sin3 k f.1 f.2.1 (sineClass sin1 sin3 k f) := by
  obtain ⟨a, b, l⟩ := f
  have h5 : (5 / 10 : ℚ) = 1 / 2 := by norm_num
  refine ⟨?_, ?_, ?_, ?_, ?_⟩
  · match k with
    | 0 => exact ite01.1
    | 1 => exact ite01.1
    | 2 => exact ite01.1
    | 3 => exact ite01.1
  · rintro rfl; simp only [sineClass]
    by_cases h : a < sin1 b
    · simp [h, not_le.mpr h]
    · simp [h, not_lt.mp h]
  · rintro rfl; simp only [sineClass]; rw [ite01.2.1]
  · rintro rfl; simp only [sineClass, h5]
    by_cases h : a < 1 / 2 + 3 / 10 * sin3 b
    · rw [if_neg (not_le.mpr h)]; exact iff_of_true rfl h
    · rw [if_pos (not_lt.mp h)]; exact iff_of_false (by decide) h
  · rintro rfl; simp only [sineClass, h5]; rw [ite01.2.1]

theorem mixedClass_concept (sin3 : ℚ → ℚ) (k : Fin 2) (f : Nat × Nat × ℚ × ℚ) :
    MixedConcept sin3 k f.1 f.2.1 f.2.2.1 f.2.2.2 (mixedClass sin3 k f) := by
  obtain ⟨v, w, x, y⟩ := f
  have h5 : (5 / 10 : ℚ) = 1 / 2 := by norm_num
  refine ⟨?_, ?_, ?_⟩
  · match k with
    | 0 => exact ite01.1
    | 1 => exact ite01.2.2.2
  all_goals
    rintro rfl
    simp only [mixedClass, mixedZ, h5, decide_eq_true_eq]
    generalize (1 / 2 + 3 / 10 * sin3 x : ℚ) = z
    by_cases hv : v = 1 <;> by_cases hw : w = 1 <;> by_cases hz : y < z <;> simp [hv, hw, hz]

theorem band_concept (lo x hi : ℚ) :
    band (lo * 1000) x (hi * 1000) = 0 ↔ within x (lo, hi) := by
  unfold band within; exact ite01.2.1

theorem band_binary (lo x hi : ℚ) : band lo x hi = 0 ∨ band lo x hi = 1 := by
  unfold band; exact ite01.1

theorem agrawalClass_binary (k : Fin 10) (a : Agrawal) : agrawalClass k a = 0 ∨ agrawalClass k a = 1 := by
  match k with
  | 0 => exact ite01.1
  | 1 => simp only [agrawalClass]; split <;> [skip; split] <;> exact band_binary _ _ _
  | 2 => simp only [agrawalClass]; split <;> [skip; split] <;> exact ite01.1
  | 3 =>
    simp only [agrawalClass]
    split <;> [skip; split] <;> split <;> exact band_binary _ _ _
  | 4 =>
    simp only [agrawalClass]
    split <;> [skip; split] <;> split <;> first | exact band_binary _ _ _ | exact ite01.1
  | 5 => simp only [agrawalClass]; split <;> [skip; split] <;> exact band_binary _ _ _
  | 6 => exact ite01.1
  | 7 => exact ite01.1
  | 8 => exact ite01.1
  | 9 => exact ite01.1

theorem agrawalClass_concept (k : Fin 10) (a : Agrawal) : AgrawalConcept k a (agrawalClass k a) := by
  have bc : ∀ lo x hi lo' hi' : ℚ, lo = lo' * 1000 → hi = hi' * 1000 →
      (band lo x hi = 0 ↔ within x (lo', hi')) := by
    intro lo x hi lo' hi' h1 h2; rw [h1, h2]; exact band_concept _ _ _
  refine ⟨agrawalClass_binary k a, ?_, ?_, ?_, ?_, ?_, ?_, ?_, ?_, ?_⟩
  · rintro rfl
    simp only [agrawalClass]; rw [ite01.2.1]
    simp only [ageIn, not_and_or, not_le, not_lt]
  · rintro rfl g hg
    simp only [agrawalClass]
    cases g with
    | young => rw [if_pos (show a.age < 40 from hg)]; apply bc <;> norm_num
    | middle => rw [if_neg (not_lt.mpr hg.1), if_pos hg.2]; apply bc <;> norm_num
    | old =>
      have hg : (60 : ℚ) ≤ a.age := hg
      rw [if_neg (by linarith), if_neg (by linarith)]; apply bc <;> norm_num
  · rintro rfl g hg
    simp only [agrawalClass]
    cases g with
    | young => rw [if_pos (show a.age < 40 from hg), ite01.2.1]; simp only [levels]; omega
    | middle => rw [if_neg (not_lt.mpr hg.1), if_pos hg.2, ite01.2.1]; simp only [levels]; omega
    | old =>
      have hg : (60 : ℚ) ≤ a.age := hg
      rw [if_neg (by linarith), if_neg (by linarith), ite01.2.1]; simp only [levels]; omega
  · rintro rfl g hg
    simp only [agrawalClass]
    cases g with
    | young =>
      rw [if_pos (show a.age < 40 from hg)]
      by_cases h : a.elevel = 0 ∨ a.elevel = 1
      · rw [if_pos h, decide_eq_true (by simp only [levels]; omega)]; apply bc <;> norm_num
      · rw [if_neg h, decide_eq_false (by simp only [levels]; omega)]; apply bc <;> norm_num
    | middle =>
      rw [if_neg (not_lt.mpr hg.1), if_pos hg.2]
      by_cases h : a.elevel = 1 ∨ a.elevel = 2 ∨ a.elevel = 3
      · rw [if_pos h, decide_eq_true (by simp only [levels]; omega)]; apply bc <;> norm_num
      · rw [if_neg h, decide_eq_false (by simp only [levels]; omega)]; apply bc <;> norm_num
    | old =>
      have hg : (60 : ℚ) ≤ a.age := hg
      rw [if_neg (by linarith), if_neg (by linarith)]
      by_cases h : a.elevel = 2 ∨ a.elevel = 3 ∨ a.elevel = 4
      · rw [if_pos h, decide_eq_true (by simp only [levels]; omega)]; apply bc <;> norm_num
      · rw [if_neg h, decide_eq_false (by simp only [levels]; omega)]; apply bc <;> norm_num
  · rintro rfl g hg
    simp only [agrawalClass]
    cases g with
    | young => rw [if_pos (show a.age < 40 from hg)]; apply bc <;> norm_num
    | middle => rw [if_neg (not_lt.mpr hg.1), if_pos hg.2]; apply bc <;> norm_num
    | old =>
      have hg : (60 : ℚ) ≤ a.age := hg
      rw [if_neg (by linarith), if_neg (by linarith)]; apply bc <;> norm_num
  · rintro rfl; simp only [agrawalClass]; rw [ite01.2.1]; constructor <;> intro h <;> linarith
  · rintro rfl; simp only [agrawalClass]; rw [ite01.2.1]; constructor <;> intro h <;> linarith
  · rintro rfl; simp only [agrawalClass]; rw [ite01.2.1]; constructor <;> intro h <;> linarith
  · rintro rfl
    have he : (if a.hyears ≥ 20 then a.hvalue * (a.hyears - 20) / 10 else 0) = equity a := by
      unfold equity
      by_cases h : a.hyears ≥ 20
      · rw [if_pos h, max_eq_left (by linarith)]
      · rw [if_neg h, max_eq_right (by linarith)]; ring
    simp only [agrawalClass]; rw [ite01.2.1, he]; constructor <;> intro h <;> linarith

/-! ### C105 -/

/-- C105, SEA: without noise, balanced or not, every emitted label is that of
the documented threshold, and the three attributes lie in `[0, 10)`. -/
theorem C105_sea {ρ : Type} (g : Rng ρ) (hg : Uniform g) (k : Fin 4) (balance : Bool) (fuel : Nat)
    (bs : List Nat) (nz : Bool) (r : ρ) (out : List ((ℚ × ℚ × ℚ) × Nat)) (nz' : Bool) (r' : ρ)
    (h : nextBatches (sea g k 0) balance fuel bs nz r = some (out, nz', r')) :
    ∀ p ∈ out, SeaConcept k p.1.1 p.1.2.1 p.2 ∧
      (0 ≤ p.1.1 ∧ p.1.1 < 10) ∧ (0 ≤ p.1.2.1 ∧ p.1.2.1 < 10) ∧ (0 ≤ p.1.2.2 ∧ p.1.2.2 < 10) := by
  intro p hp
  have h1 := (nextBatches_spec _ (clean_sea g hg k) balance fuel bs nz r out nz' r' h).2.1 p hp
  obtain ⟨q, s, e⟩ := nextBatches_origin _ balance fuel bs nz r out nz' r' h p hp
  refine ⟨by rw [h1]; exact seaClass_concept k p.1, ?_⟩
  have e1 : p.1 = (seaDraw g q).1 := by rw [e]; rfl
  rw [e1]
  simp only [seaDraw]
  have a := hg.rand q
  have b := hg.rand (g.rand q).2
  have c := hg.rand (g.rand (g.rand q).2).2
  refine ⟨⟨?_, ?_⟩, ⟨?_, ?_⟩, ⟨?_, ?_⟩⟩ <;> linarith [a.1, a.2, b.1, b.2, c.1, c.2]

/-- C105, STAGGER: every emitted label is that of the documented concept and
the three attributes are in `{0, 1, 2}`. -/
theorem C105_stagger {ρ : Type} (g : Rng ρ) (hg : Uniform g) (k : Fin 3) (balance : Bool) (fuel : Nat)
    (bs : List Nat) (nz : Bool) (r : ρ) (out : List ((Nat × Nat × Nat) × Nat)) (nz' : Bool) (r' : ρ)
    (h : nextBatches (stagger g k) balance fuel bs nz r = some (out, nz', r')) :
    ∀ p ∈ out, StaggerConcept k p.1.1 p.1.2.1 p.1.2.2 p.2 ∧
      p.1.1 ≤ 2 ∧ p.1.2.1 ≤ 2 ∧ p.1.2.2 ≤ 2 := by
  intro p hp
  have h1 := (nextBatches_spec _ (clean_stagger g k) balance fuel bs nz r out nz' r' h).2.1 p hp
  obtain ⟨q, s, e⟩ := nextBatches_origin _ balance fuel bs nz r out nz' r' h p hp
  refine ⟨by rw [h1]; exact staggerClass_concept k p.1, ?_⟩
  have e1 : p.1 = (staggerDraw g q).1 := by rw [e]; rfl
  rw [e1]
  simp only [staggerDraw]
  exact ⟨Nat.le_of_lt_succ (hg.randint 3 _ (by norm_num)),
    Nat.le_of_lt_succ (hg.randint 3 _ (by norm_num)), Nat.le_of_lt_succ (hg.randint 3 _ (by norm_num))⟩

/-- C105, Sine: every emitted label is that of the documented curve, all
attributes are in `[0, 1)`, and there are two more of them exactly with noise. -/
theorem C105_sine {ρ : Type} (g : Rng ρ) (hg : Uniform g) (sin1 sin3 : ℚ → ℚ) (k : Fin 4)
    (noise balance : Bool) (fuel : Nat) (bs : List Nat) (nz : Bool) (r : ρ)
    (out : List ((ℚ × ℚ × List ℚ) × Nat)) (nz' : Bool) (r' : ρ)
    (h : nextBatches (sine g sin1 sin3 k noise) balance fuel bs nz r = some (out, nz', r')) :
    ∀ p ∈ out, SineConcept sin1 sin3 k p.1.1 p.1.2.1 p.2 ∧
      p.1.2.2.length = (if noise then 2 else 0) ∧
      ∀ v ∈ p.1.1 :: p.1.2.1 :: p.1.2.2, 0 ≤ v ∧ v < 1 := by
  intro p hp
  have h1 := (nextBatches_spec _ (clean_sine g sin1 sin3 k noise) balance fuel bs nz r out nz' r' h).2.1 p hp
  obtain ⟨q, s, e⟩ := nextBatches_origin _ balance fuel bs nz r out nz' r' h p hp
  refine ⟨by rw [h1]; exact sineClass_concept sin1 sin3 k p.1, ?_⟩
  have a := hg.rand q
  have b := hg.rand (g.rand q).2
  have c := hg.rand s
  have d := hg.rand (g.rand s).2
  cases noise with
  | false =>
    have e1 : p.1 = (sineDraw g q).1 := by rw [e]; rfl
    rw [e1]
    simp only [sineDraw]
    refine ⟨rfl, ?_⟩
    intro v hv
    simp only [List.mem_cons, List.not_mem_nil, or_false] at hv
    rcases hv with rfl | rfl
    · exact a
    · exact b
  | true =>
    have e1 : p.1 = ((g.rand q).1, (g.rand (g.rand q).2).1, [(g.rand s).1, (g.rand (g.rand s).2).1]) := by
      rw [e]; rfl
    rw [e1]
    refine ⟨rfl, ?_⟩
    intro v hv
    simp only [List.mem_cons, List.not_mem_nil, or_false] at hv
    rcases hv with rfl | rfl | rfl | rfl
    · exact a
    · exact b
    · exact c
    · exact d

/-- C105, Mixed: every emitted label is that of the documented majority concept,
the first two attributes are 0 or 1 and the others in `[0, 1)`. -/
theorem C105_mixed {ρ : Type} (g : Rng ρ) (hg : Uniform g) (sin3 : ℚ → ℚ) (k : Fin 2)
    (balance : Bool) (fuel : Nat) (bs : List Nat) (nz : Bool) (r : ρ)
    (out : List ((Nat × Nat × ℚ × ℚ) × Nat)) (nz' : Bool) (r' : ρ)
    (h : nextBatches (mixed g sin3 k) balance fuel bs nz r = some (out, nz', r')) :
    ∀ p ∈ out, MixedConcept sin3 k p.1.1 p.1.2.1 p.1.2.2.1 p.1.2.2.2 p.2 ∧
      (p.1.1 = 0 ∨ p.1.1 = 1) ∧ (p.1.2.1 = 0 ∨ p.1.2.1 = 1) ∧
      (0 ≤ p.1.2.2.1 ∧ p.1.2.2.1 < 1) ∧ (0 ≤ p.1.2.2.2 ∧ p.1.2.2.2 < 1) := by
  intro p hp
  have h1 := (nextBatches_spec _ (clean_mixed g sin3 k) balance fuel bs nz r out nz' r' h).2.1 p hp
  obtain ⟨q, s, e⟩ := nextBatches_origin _ balance fuel bs nz r out nz' r' h p hp
  refine ⟨by rw [h1]; exact mixedClass_concept sin3 k p.1, ?_⟩
  have e1 : p.1 = (mixedDraw g q).1 := by rw [e]; rfl
  rw [e1]
  simp only [mixedDraw]
  exact ⟨ite01.1, ite01.1, hg.rand _, hg.rand _⟩

/-- C105, Mixed: a boolean attribute is true exactly for the upper half of the
uniform number it is made from, so both values are equally likely. -/
theorem C105_mixed_booleans {ρ : Type} (g : Rng ρ) (r : ρ) :
    ((mixedDraw g r).1.1 = 1 ↔ 1 / 2 ≤ (g.rand r).1) ∧
    ((mixedDraw g r).1.2.1 = 1 ↔ 1 / 2 ≤ (g.rand (g.rand r).2).1) := by
  constructor <;> simp only [mixedDraw] <;> split <;> rename_i h
  · simp only [Nat.zero_ne_one, false_iff, not_le]; exact h
  · simp only [true_iff]; exact not_lt.mp h
  · simp only [Nat.zero_ne_one, false_iff, not_le]; exact h
  · simp only [true_iff]; exact not_lt.mp h

/-- C105, AGRAWAL: whatever the perturbation, the label of an emitted sample is
that of the concept on the features before the perturbation, which leaves the
three categorical attributes alone; without perturbation nothing is changed. -/
theorem C105_agrawal {ρ : Type} (g : Rng ρ) (round : ℚ → ℚ) (k : Fin 10) (pert : ℚ)
    (balance : Bool) (fuel : Nat) (bs : List Nat) (nz : Bool) (r : ρ)
    (out : List (Agrawal × Nat)) (nz' : Bool) (r' : ρ)
    (h : nextBatches (agrawal g round k pert) balance fuel bs nz r = some (out, nz', r')) :
    ∀ p ∈ out, ∃ a q, a = (agrawalDraw g q).1 ∧ AgrawalConcept k a p.2 ∧
      p.1.elevel = a.elevel ∧ p.1.car = a.car ∧ p.1.zipcode = a.zipcode ∧
      (pert ≤ 0 → p.1 = a) ∧ (a.commission = 0 → p.1.commission = 0) ∧
      (0 < pert → 0 < a.commission → 10000 ≤ p.1.commission ∧ p.1.commission ≤ 75000) := by
  intro p hp
  obtain ⟨q, s, e⟩ := nextBatches_origin _ balance fuel bs nz r out nz' r' h p hp
  have e' : p = (agrawalPost g round pert (agrawalDraw g q).1 (agrawalClass k (agrawalDraw g q).1) s).1 := e
  refine ⟨(agrawalDraw g q).1, q, rfl, ?_⟩
  have hk := agrawalClass_concept k (agrawalDraw g q).1
  generalize (agrawalDraw g q).1 = a at *
  rw [e']
  simp only [agrawalPost]
  by_cases hp : pert > 0
  · rw [if_pos hp]
    refine ⟨hk, rfl, rfl, rfl, fun h => absurd hp (not_lt.mpr h), ?_, ?_⟩
    · intro h0
      have : ¬ a.commission > 0 := by rw [h0]; exact lt_irrefl _
      simp only [if_neg this]; exact h0
    · intro _ hc
      have hc' : a.commission > 0 := hc
      simp only [if_pos hc']
      exact perturb_range g pert _ _ _ _ _ (by norm_num)
  · rw [if_neg hp]
    exact ⟨hk, rfl, rfl, rfl, fun _ => rfl, id, fun h => absurd h hp⟩

example : ((nextBatches (stagger ⟨counter.rand, fun n r => (r / 2 % n, r + 1)⟩ 1) true 100 [2, 1]
    false 0).map fun o => o.1) = some [((1, 2, 2), 1), ((0, 0, 1), 0), ((1, 2, 2), 1)] := by
  decide +kernel

/-! ### C106 -/

/-- C106 (part): for people under 40 in the middle income band, and for people
of 60 and over, AGRAWAL function 4 does decide by the loan, with the bands
100000..300000, 300000..500000 and 75000..300000. Missing: the other groups,
where the code compares the salary instead (see the violation). -/
theorem C106_loan_partial (a : Agrawal) :
    (a.age < 40 → within a.salary (50, 100) → (agrawalClass 4 a = 0 ↔ within a.loan (100, 300))) ∧
    (60 ≤ a.age → within a.salary (25, 75) → (agrawalClass 4 a = 0 ↔ within a.loan (300, 500))) ∧
    (60 ≤ a.age → ¬ within a.salary (25, 75) → (agrawalClass 4 a = 0 ↔ within a.loan (75, 300))) := by
  have w1 : within a.salary (50, 100) ↔ 50000 ≤ a.salary ∧ a.salary ≤ 100000 := by
    unfold within; norm_num
  have w2 : within a.salary (25, 75) ↔ 25000 ≤ a.salary ∧ a.salary ≤ 75000 := by
    unfold within; norm_num
  have bc : ∀ lo x hi lo' hi' : ℚ, lo = lo' * 1000 → hi = hi' * 1000 →
      (band lo x hi = 0 ↔ within x (lo', hi')) := by
    intro lo x hi lo' hi' h1 h2; rw [h1, h2]; exact band_concept _ _ _
  refine ⟨?_, ?_, ?_⟩ <;> intro h1 h2 <;> simp only [agrawalClass]
  · rw [if_pos h1, if_pos (w1.mp h2)]; apply bc <;> norm_num
  · rw [if_neg (by linarith), if_neg (by linarith), if_pos (w2.mp h2)]; apply bc <;> norm_num
  · rw [if_neg (by linarith), if_neg (by linarith), if_neg (fun h => h2 (w2.mpr h))]
    apply bc <;> norm_num

/-- C106 is violated: function 4 gives class 1 to every generated person between
40 and 59, and to everybody younger outside the middle income band, whatever
the loan: the salary is compared with bounds it never reaches. -/
theorem C106_salary_compared_violated {ρ : Type} (g : Rng ρ) (hg : Uniform g) (q : ρ) :
    let a := (agrawalDraw g q).1
    ((40 ≤ a.age ∧ a.age < 60) ∨ (a.age < 40 ∧ ¬ within a.salary (50, 100))) →
    ∀ loan, agrawalClass 4 { a with loan := loan } = 1 := by
  intro a h loan
  obtain ⟨⟨i1, i2, -⟩, -⟩ := agrawalDraw_range g hg q
  have j2 : a.salary ≤ 150000 := i2
  clear_value a
  have w1 : within a.salary (50, 100) ↔ 50000 ≤ a.salary ∧ a.salary ≤ 100000 := by
    unfold within; norm_num
  rcases h with ⟨h1, h2⟩ | ⟨h1, h2⟩ <;> simp only [agrawalClass]
  · rw [if_neg (not_lt.mpr h1), if_pos h2]
    by_cases h3 : 75000 ≤ a.salary ∧ a.salary ≤ 125000
    · rw [if_pos h3, if_neg (fun h => by linarith [h.1])]
    · rw [if_neg h3]; unfold band; rw [if_neg (fun h => by linarith [h.1])]
  · rw [if_pos h1, if_neg (fun h => h2 (w1.mpr h))]
    unfold band; rw [if_neg (fun h => by linarith [h.1])]

/-- Somebody of 45 exists: the hypotheses of the violation are met. -/
example : ∃ q, 40 ≤ (agrawalDraw counter q).1.age ∧ (agrawalDraw counter q).1.age < 60 :=
  ⟨22, by decide +kernel⟩

/-! ### C107 -/

/-- C107: with any noise level the emitted label is the concept's, switched
exactly when the number drawn after acceptance, plus 0.01, is at most the level;
so a level below 0.01 switches nothing. -/
theorem C107_sea_noise {ρ : Type} (g : Rng ρ) (hg : Uniform g) (k : Fin 4) (noise : ℚ)
    (balance : Bool) (fuel : Nat) (bs : List Nat) (nz : Bool) (r : ρ)
    (out : List ((ℚ × ℚ × ℚ) × Nat)) (nz' : Bool) (r' : ρ)
    (h : nextBatches (sea g k noise) balance fuel bs nz r = some (out, nz', r')) :
    ∀ p ∈ out, ∃ s, (noise < 1 / 100 + (g.rand s).1 → SeaConcept k p.1.1 p.1.2.1 p.2) ∧
      (1 / 100 + (g.rand s).1 ≤ noise → p.2 ≤ 1 ∧ SeaConcept k p.1.1 p.1.2.1 (1 - p.2)) ∧
      (noise < 1 / 100 → SeaConcept k p.1.1 p.1.2.1 p.2) := by
  intro p hp
  obtain ⟨q, s, e⟩ := nextBatches_origin _ balance fuel bs nz r out nz' r' h p hp
  have e' : p = (seaNoise g noise (seaDraw g q).1 (seaClass k (seaDraw g q).1) s).1 := e
  have hc := seaClass_concept k (seaDraw g q).1
  have hu := hg.rand s
  generalize (seaDraw g q).1 = f at *
  rw [e']
  simp only [seaNoise]
  have key : noise < 1 / 100 + (g.rand s).1 → SeaConcept k f.1 f.2.1
      (if 1 / 100 + (g.rand s).1 ≤ noise then (if seaClass k f = 0 then 1 else 0) else seaClass k f) := by
    intro hn; rw [if_neg (not_le.mpr hn)]; exact hc
  refine ⟨s, key, ?_, fun hn => key (by linarith [hu.1])⟩
  intro hn
  rw [if_pos hn]
  rcases hc.binary with h0 | h0
  · rw [if_pos h0]; rw [h0] at hc; exact ⟨le_refl _, hc⟩
  · rw [if_neg (by omega)]; rw [h0] at hc; exact ⟨by norm_num, hc⟩

/-- C107 is violated at the upper end: noise level 1 does not switch every
label, because of the added 0.01. -/
theorem C107_full_noise_violated :
    ∃ (g : Rng Nat) (out : List ((ℚ × ℚ × ℚ) × Nat)) (s : Bool × Nat), Uniform g ∧
      nextBatches (sea g 0 1) false 1 [1] false 0 = some (out, s) ∧
      ∀ p ∈ out, SeaConcept 0 p.1.1 p.1.2.1 p.2 := by
  refine ⟨⟨fun r => (995 / 1000, r + 1), fun _ r => (0, r + 1)⟩,
    [((995 / 100, 995 / 100, 995 / 100), 1)], (false, 4), ⟨fun r => by norm_num, fun n r h => h⟩,
    by decide +kernel, ?_⟩
  intro p hp
  rw [List.mem_singleton.mp hp]
  have : (1 : Nat) = seaClass 0 (995 / 100, 995 / 100, 995 / 100) := by decide +kernel
  show SeaConcept 0 (995 / 100) (995 / 100) 1
  rw [this]
  exact seaClass_concept 0 (995 / 100, 995 / 100, 995 / 100)

end Verif.Streams.Gen
