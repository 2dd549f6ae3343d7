import Verif.Streams.Generators
import Mathlib.Tactic.Positivity
import Mathlib.Algebra.Order.Field.Basic
import Mathlib.Tactic.NormNum

/-!
C24 (balanced generators), C54 (AGRAWAL feature ranges), C55 (generate_drift).
-/

namespace Verif.Streams.Gen

/-- Specification: labels 1, 0, 1, 0, ... (or 0, 1, 0, ... for `zeroFirst`). -/
def alternating (zeroFirst : Bool) : Nat → List Nat
  | 0 => []
  | n + 1 => (if zeroFirst then 0 else 1) :: alternating (!zeroFirst) n

theorem rejection_spec {ρ φ : Type} (draw : ρ → φ × ρ) (cls : φ → Nat) (balance : Bool) :
    ∀ (fuel : Nat) (nz : Bool) (r : ρ) (f : φ) (c : Nat) (nz' : Bool) (r' : ρ),
    rejection draw cls balance fuel nz r = some (f, c, nz', r') →
    c = cls f ∧ (∃ q, (draw q).1 = f) ∧
      (balance = true → c = (if nz then 0 else 1) ∧ nz' = !nz) ∧ (balance = false → nz' = nz) := by
  intro fuel
  induction fuel with
  | zero => intro nz r f c nz' r' h; simp [rejection] at h
  | succ fuel ih =>
    intro nz r f c nz' r' h
    unfold rejection at h
    simp only at h
    cases balance with
    | false =>
      simp only [Bool.not_false, if_true, Option.some.injEq, Prod.mk.injEq] at h
      obtain ⟨h1, h2, h3, h4⟩ := h
      refine ⟨by rw [← h2, ← h1], ⟨r, h1⟩, by simp, fun _ => h3.symm⟩
    | true =>
      simp only [Bool.not_true, Bool.false_eq_true, if_false] at h
      split at h
      · rename_i hc
        simp only [Option.some.injEq, Prod.mk.injEq] at h
        obtain ⟨h1, h2, h3, h4⟩ := h
        refine ⟨by rw [← h2, ← h1], ⟨r, h1⟩, fun _ => ⟨?_, h3.symm⟩, by simp⟩
        rw [← h2]
        cases nz <;> simpa using hc
      · exact ih nz _ f c nz' r' h

/-- Acceptance keeps the class and the value of the classification function. -/
structure Clean {ρ φ : Type} (g : Generator ρ φ) : Prop where
  label : ∀ f c r, (g.post f c r).1.2 = c
  feat : ∀ f c r, g.cls (g.post f c r).1.1 = g.cls f

theorem nextBatch_spec {ρ φ : Type} (g : Generator ρ φ) (hg : Clean g) (balance : Bool) (fuel : Nat) :
    ∀ (n : Nat) (nz : Bool) (r : ρ) (out : List (φ × Nat)) (nz' : Bool) (r' : ρ),
    nextBatch g balance fuel n nz r = some (out, nz', r') →
    out.length = n ∧ (∀ p ∈ out, p.2 = g.cls p.1) ∧
      (balance = true → out.map Prod.snd = alternating nz n ∧ nz' = (nz ^^ decide (n % 2 = 1))) := by
  intro n
  induction n with
  | zero =>
    intro nz r out nz' r' h
    simp only [nextBatch, Option.some.injEq, Prod.mk.injEq] at h
    obtain ⟨h1, h2, h3⟩ := h
    subst h1
    simp [alternating, h2]
  | succ n ih =>
    intro nz r out nz' r' h
    simp only [nextBatch] at h
    cases hr : rejection g.draw g.cls balance fuel nz r with
    | none => rw [hr] at h; simp at h
    | some q =>
      obtain ⟨f, c, nz1, r1⟩ := q
      rw [hr] at h
      obtain ⟨e1, _, e3, _⟩ := rejection_spec _ _ _ _ _ _ _ _ _ _ hr
      simp only at h
      cases hn : nextBatch g balance fuel n nz1 (g.post f c r1).2 with
      | none => rw [hn] at h; simp at h
      | some q =>
        obtain ⟨rest, nz2, r3⟩ := q
        rw [hn] at h
        simp only [Option.some.injEq, Prod.mk.injEq] at h
        obtain ⟨h1, h2, h3⟩ := h
        subst h1
        obtain ⟨i1, i2, i3⟩ := ih _ _ _ _ _ hn
        refine ⟨by simp [i1], ?_, ?_⟩
        · intro p hp
          rcases List.mem_cons.mp hp with e | e
          · rw [e, hg.label, hg.feat, e1]
          · exact i2 p e
        · intro hb
          obtain ⟨j1, j2⟩ := e3 hb
          obtain ⟨k1, k2⟩ := i3 hb
          refine ⟨by simp [alternating, hg.label, j1, k1, j2], ?_⟩
          rw [← h2, k2, j2]
          rcases Nat.mod_two_eq_zero_or_one n with hm | hm
          · have : (n + 1) % 2 = 1 := by omega
            cases nz <;> simp [hm, this]
          · have : (n + 1) % 2 = 0 := by omega
            cases nz <;> simp [hm, this]

theorem alternating_append (z : Bool) (m n : Nat) :
    alternating z (m + n) = alternating z m ++ alternating (z ^^ decide (m % 2 = 1)) n := by
  induction m generalizing z with
  | zero => simp [alternating]
  | succ m ih =>
    rw [show m + 1 + n = (m + n) + 1 by omega]
    simp only [alternating, ih, List.cons_append]
    congr 3
    rcases Nat.mod_two_eq_zero_or_one m with hm | hm
    · have : (m + 1) % 2 = 1 := by omega
      cases z <;> simp [hm, this]
    · have : (m + 1) % 2 = 0 := by omega
      cases z <;> simp [hm, this]

theorem nextBatches_spec {ρ φ : Type} (g : Generator ρ φ) (hg : Clean g) (balance : Bool) (fuel : Nat) :
    ∀ (bs : List Nat) (nz : Bool) (r : ρ) (out : List (φ × Nat)) (nz' : Bool) (r' : ρ),
    nextBatches g balance fuel bs nz r = some (out, nz', r') →
    out.length = bs.sum ∧ (∀ p ∈ out, p.2 = g.cls p.1) ∧
      (balance = true → out.map Prod.snd = alternating nz bs.sum) := by
  intro bs
  induction bs with
  | nil =>
    intro nz r out nz' r' h
    simp only [nextBatches, Option.some.injEq, Prod.mk.injEq] at h
    obtain ⟨h1, _, _⟩ := h
    subst h1
    simp [alternating]
  | cons b bs ih =>
    intro nz r out nz' r' h
    simp only [nextBatches] at h
    cases hb : nextBatch g balance fuel b nz r with
    | none => rw [hb] at h; simp at h
    | some q =>
      obtain ⟨o1, nz1, r1⟩ := q
      rw [hb] at h
      simp only at h
      cases hn : nextBatches g balance fuel bs nz1 r1 with
      | none => rw [hn] at h; simp at h
      | some q =>
        obtain ⟨rest, nz2, r3⟩ := q
        rw [hn] at h
        simp only [Option.some.injEq, Prod.mk.injEq] at h
        obtain ⟨h1, _, _⟩ := h
        subst h1
        obtain ⟨a1, a2, a3⟩ := nextBatch_spec g hg balance fuel _ _ _ _ _ _ hb
        obtain ⟨b1, b2, b3⟩ := ih _ _ _ _ _ hn
        refine ⟨by simp [a1, b1], ?_, ?_⟩
        · intro p hp
          rcases List.mem_append.mp hp with e | e
          · exact a2 p e
          · exact b2 p e
        · intro h
          rw [List.map_append, (a3 h).1, b3 h, (a3 h).2, List.sum_cons, alternating_append]

theorem alternating_get (z : Bool) : ∀ (n i : Nat), i < n →
    (alternating z n)[i]? = some (if (z ^^ decide (i % 2 = 1)) then 0 else 1) := by
  intro n
  induction n generalizing z with
  | zero => intro i h; omega
  | succ n ih =>
    intro i h
    cases i with
    | zero => simp [alternating]
    | succ i =>
      simp only [alternating, List.getElem?_cons_succ]
      rw [ih (!z) i (by omega)]
      rcases Nat.mod_two_eq_zero_or_one i with hm | hm
      · have : (i + 1) % 2 = 1 := by omega
        cases z <;> simp [hm, this]
      · have : (i + 1) % 2 = 0 := by omega
        cases z <;> simp [hm, this]

theorem alternating_count (z : Bool) (n : Nat) :
    (alternating z n).count 0 = (if z then (n + 1) / 2 else n / 2) ∧
    (alternating z n).count 1 = (if z then n / 2 else (n + 1) / 2) := by
  induction n generalizing z with
  | zero => cases z <;> simp [alternating]
  | succ n ih =>
    have h := ih (!z)
    cases z <;> simp [alternating, List.count_cons] at h ⊢ <;> omega

/-- Numbers from `rand` are in `[0, 1)` and those from `randint n` below `n`. -/
structure Uniform {ρ : Type} (g : Rng ρ) : Prop where
  rand : ∀ r, 0 ≤ (g.rand r).1 ∧ (g.rand r).1 < 1
  randint : ∀ n r, 0 < n → (g.randint n r).1 < n

theorem clean_sea {ρ : Type} (g : Rng ρ) (hg : Uniform g) (k : Fin 4) : Clean (sea g k 0) := by
  refine ⟨?_, fun f c r => rfl⟩
  intro f c r
  have h := (hg.rand r).1
  simp only [sea, seaNoise]
  rw [if_neg]
  have : (0 : ℚ) < 1 / 100 := by norm_num
  linarith

theorem clean_stagger {ρ : Type} (g : Rng ρ) (k : Fin 3) : Clean (stagger g k) :=
  ⟨fun _ _ _ => rfl, fun _ _ _ => rfl⟩

theorem clean_mixed {ρ : Type} (g : Rng ρ) (sin3 : ℚ → ℚ) (k : Fin 2) : Clean (mixed g sin3 k) :=
  ⟨fun _ _ _ => rfl, fun _ _ _ => rfl⟩

theorem clean_sine {ρ : Type} (g : Rng ρ) (sin1 sin3 : ℚ → ℚ) (k : Fin 4) (n : Bool) :
    Clean (sine g sin1 sin3 k n) := by
  refine ⟨?_, ?_⟩
  · intro f c r; cases n <;> rfl
  · intro f c r
    cases n with
    | false => rfl
    | true =>
      obtain ⟨a, b, l⟩ := f
      match k with
      | 0 => rfl
      | 1 => rfl
      | 2 => rfl
      | 3 => rfl

theorem clean_agrawal {ρ : Type} (g : Rng ρ) (round : ℚ → ℚ) (k : Fin 10) :
    Clean (agrawal g round k 0) := by
  refine ⟨?_, ?_⟩ <;> intro f c r <;> simp [agrawal, agrawalPost]

/-- Specification of a balanced label sequence: it alternates starting with 1,
and in every prefix the class counts differ by at most one. -/
def Balanced (labels : List Nat) : Prop :=
  (∀ i, i < labels.length → labels[i]? = some ((i + 1) % 2)) ∧
  ∀ m, let p := labels.take m
    (∀ c ∈ p, c = 0 ∨ c = 1) ∧ p.count 0 ≤ p.count 1 ∧ p.count 1 ≤ p.count 0 + 1

theorem length_alternating (z : Bool) (n : Nat) : (alternating z n).length = n := by
  induction n generalizing z with
  | zero => rfl
  | succ n ih => simp [alternating, ih]

theorem balanced_alternating (n : Nat) : Balanced (alternating false n) := by
  refine ⟨?_, ?_⟩
  · intro i hi
    rw [length_alternating] at hi
    rw [alternating_get _ _ _ hi]
    rcases Nat.mod_two_eq_zero_or_one i with hm | hm
    · have : (i + 1) % 2 = 1 := by omega
      simp [hm, this]
    · have : (i + 1) % 2 = 0 := by omega
      simp [hm, this]
  · intro m
    have hp : (alternating false n).take m = alternating false (min m n) := by
      by_cases h : m ≤ n
      · rw [Nat.min_eq_left h]
        conv_lhs => rw [show n = m + (n - m) by omega, alternating_append]
        rw [List.take_left' (length_alternating _ _)]
      · rw [Nat.min_eq_right (by omega), List.take_of_length_le (by rw [length_alternating]; omega)]
    simp only [hp]
    have hc := alternating_count false (min m n)
    simp only [Bool.false_eq_true, if_false] at hc
    refine ⟨?_, by omega, by omega⟩
    generalize min m n = k
    intro c hc
    have : ∀ (k : Nat) (z : Bool), ∀ c ∈ alternating z k, c = 0 ∨ c = 1 := by
      intro k
      induction k with
      | zero => intro z c h; simp [alternating] at h
      | succ k ih =>
        intro z c h
        simp only [alternating, List.mem_cons] at h
        rcases h with e | e
        · cases z <;> simp at e <;> simp [e]
        · exact ih _ c e
    exact this k false c hc

/-- C24 for any clean generator. -/
theorem C24_generic {ρ φ : Type} (g : Generator ρ φ) (hg : Clean g) (fuel : Nat) (bs : List Nat)
    (r : ρ) (out : List (φ × Nat)) (nz' : Bool) (r' : ρ)
    (h : nextBatches g true fuel bs false r = some (out, nz', r')) :
    out.length = bs.sum ∧ Balanced (out.map Prod.snd) ∧ ∀ p ∈ out, p.2 = g.cls p.1 := by
  obtain ⟨h1, h2, h3⟩ := nextBatches_spec g hg true fuel bs false r out nz' r' h
  exact ⟨h1, by rw [h3 rfl]; exact balanced_alternating _, h2⟩

/-- C24, SEA without noise: for every random source and every split into
batches the labels alternate and are those of the selected function. -/
theorem C24_sea {ρ : Type} (g : Rng ρ) (hg : Uniform g) (k : Fin 4) (fuel : Nat) (bs : List Nat)
    (r : ρ) (out : List ((ℚ × ℚ × ℚ) × Nat)) (nz' : Bool) (r' : ρ)
    (h : nextBatches (sea g k 0) true fuel bs false r = some (out, nz', r')) :
    out.length = bs.sum ∧ Balanced (out.map Prod.snd) ∧
      ∀ p ∈ out, p.2 = if p.1.1 + p.1.2.1 ≤ seaThreshold k then 0 else 1 :=
  C24_generic _ (clean_sea g hg k) fuel bs r out nz' r' h

/-- C24, STAGGER. -/
theorem C24_stagger {ρ : Type} (g : Rng ρ) (k : Fin 3) (fuel : Nat) (bs : List Nat)
    (r : ρ) (out : List ((Nat × Nat × Nat) × Nat)) (nz' : Bool) (r' : ρ)
    (h : nextBatches (stagger g k) true fuel bs false r = some (out, nz', r')) :
    out.length = bs.sum ∧ Balanced (out.map Prod.snd) ∧ ∀ p ∈ out, p.2 = staggerClass k p.1 :=
  C24_generic _ (clean_stagger g k) fuel bs r out nz' r' h

/-- C24, Sine (with or without the two noise attributes). -/
theorem C24_sine {ρ : Type} (g : Rng ρ) (sin1 sin3 : ℚ → ℚ) (k : Fin 4) (noise : Bool) (fuel : Nat)
    (bs : List Nat) (r : ρ) (out : List ((ℚ × ℚ × List ℚ) × Nat)) (nz' : Bool) (r' : ρ)
    (h : nextBatches (sine g sin1 sin3 k noise) true fuel bs false r = some (out, nz', r')) :
    out.length = bs.sum ∧ Balanced (out.map Prod.snd) ∧ ∀ p ∈ out, p.2 = sineClass sin1 sin3 k p.1 :=
  C24_generic _ (clean_sine g sin1 sin3 k noise) fuel bs r out nz' r' h

/-- C24, Mixed. -/
theorem C24_mixed {ρ : Type} (g : Rng ρ) (sin3 : ℚ → ℚ) (k : Fin 2) (fuel : Nat) (bs : List Nat)
    (r : ρ) (out : List ((Nat × Nat × ℚ × ℚ) × Nat)) (nz' : Bool) (r' : ρ)
    (h : nextBatches (mixed g sin3 k) true fuel bs false r = some (out, nz', r')) :
    out.length = bs.sum ∧ Balanced (out.map Prod.snd) ∧ ∀ p ∈ out, p.2 = mixedClass sin3 k p.1 :=
  C24_generic _ (clean_mixed g sin3 k) fuel bs r out nz' r' h

/-- C24, AGRAWAL without perturbation. -/
theorem C24_agrawal {ρ : Type} (g : Rng ρ) (round : ℚ → ℚ) (k : Fin 10) (fuel : Nat) (bs : List Nat)
    (r : ρ) (out : List (Agrawal × Nat)) (nz' : Bool) (r' : ρ)
    (h : nextBatches (agrawal g round k 0) true fuel bs false r = some (out, nz', r')) :
    out.length = bs.sum ∧ Balanced (out.map Prod.snd) ∧ ∀ p ∈ out, p.2 = agrawalClass k p.1 :=
  C24_generic _ (clean_agrawal g round k) fuel bs r out nz' r' h

/-- C24, unbalanced: every emitted label is still that of the function. -/
theorem C24_unbalanced_labels {ρ φ : Type} (g : Generator ρ φ) (hg : Clean g) (fuel : Nat)
    (bs : List Nat) (nz : Bool) (r : ρ) (out : List (φ × Nat)) (nz' : Bool) (r' : ρ)
    (h : nextBatches g false fuel bs nz r = some (out, nz', r')) :
    out.length = bs.sum ∧ ∀ p ∈ out, p.2 = g.cls p.1 := by
  obtain ⟨h1, h2, _⟩ := nextBatches_spec g hg false fuel bs nz r out nz' r' h
  exact ⟨h1, h2⟩

/-- A counter as random source, for the examples. -/
def counter : Rng Nat := ⟨fun r => (((r % 10 : Nat) : ℚ) / 10, r + 1), fun n r => (r % n, r + 1)⟩

theorem uniform_counter : Uniform counter := by
  refine ⟨?_, fun n r h => Nat.mod_lt r h⟩
  intro r
  have h : r % 10 < 10 := Nat.mod_lt _ (by norm_num)
  have h' : ((r % 10 : Nat) : ℚ) < 10 := by exact_mod_cast h
  refine ⟨div_nonneg (by positivity) (by norm_num), ?_⟩
  rw [show (counter.rand r).1 = ((r % 10 : Nat) : ℚ) / 10 from rfl, div_lt_one (by norm_num)]
  exact h'

example : ((nextBatches (sea counter 0 0) true 100 [2, 3] false 0).map
    fun o => o.1.map Prod.snd) = some [1, 0, 1, 0, 1] := by decide +kernel

/-! ### C54 -/

/-- Specification: ranges stated in the class documentation that the code keeps. -/
def InRange (a : Agrawal) : Prop :=
  20000 ≤ a.salary ∧ a.salary ≤ 150000 ∧ 20 ≤ a.age ∧ a.age ≤ 80 ∧ a.elevel ≤ 4 ∧ a.zipcode ≤ 8 ∧
  1 ≤ a.hyears ∧ a.hyears ≤ 30 ∧ 0 ≤ a.loan ∧ a.loan ≤ 500000 ∧ a.car ≤ 19 ∧
  (a.commission = 0 ∨ 10000 ≤ a.commission)

theorem agrawalDraw_range {ρ : Type} (g : Rng ρ) (hg : Uniform g) (r : ρ) :
    InRange (agrawalDraw g r).1 ∧
    (100000 * (1 / 2) * (9 - (agrawalDraw g r).1.zipcode : ℚ) ≤ (agrawalDraw g r).1.hvalue) := by
  obtain ⟨hrand, hint⟩ := hg
  obtain ⟨rand, randint⟩ := g
  simp only at hrand hint
  unfold agrawalDraw
  simp only
  generalize hr1 : (if 20000 + 130000 * (rand r).1 ≥ 75000 then ((0 : ℚ), (rand r).2)
      else (10000 + 75000 * (rand (rand r).2).1, (rand (rand r).2).2)) = cr
  have hc : cr.1 = 0 ∨ 10000 ≤ cr.1 := by
    rw [← hr1]
    split
    · left; rfl
    · right
      have := (hrand (rand r).2).1
      simp only; linarith
  have h1 := hrand r
  have h2 := hint 61 cr.2 (by norm_num)
  generalize randint 61 cr.2 = q2 at *
  have h3 := hint 5 q2.2 (by norm_num)
  generalize randint 5 q2.2 = q3 at *
  have h4 := hint 20 q3.2 (by norm_num)
  generalize randint 20 q3.2 = q4 at *
  have h5 := hint 9 q4.2 (by norm_num)
  generalize randint 9 q4.2 = q5 at *
  have h6 := hrand q5.2
  generalize rand q5.2 = q6 at *
  have h7 := hint 30 q6.2 (by norm_num)
  generalize randint 30 q6.2 = q7 at *
  have h8 := hrand q7.2
  generalize rand q7.2 = q8 at *
  have h2' : (q2.1 : ℚ) ≤ 60 := by exact_mod_cast (by omega : q2.1 ≤ 60)
  have h7' : (q7.1 : ℚ) ≤ 29 := by exact_mod_cast (by omega : q7.1 ≤ 29)
  have h5' : (q5.1 : ℚ) ≤ 8 := by exact_mod_cast (by omega : q5.1 ≤ 8)
  have h20 : (0 : ℚ) ≤ q2.1 := by positivity
  have h70 : (0 : ℚ) ≤ q7.1 := by positivity
  refine ⟨⟨?_, ?_, ?_, ?_, ?_, ?_, ?_, ?_, ?_, ?_, ?_, hc⟩, ?_⟩ <;> (try simp only) <;>
    first | omega | linarith | skip
  have : (0 : ℚ) ≤ (9 - (q5.1 : ℚ)) * q6.1 := mul_nonneg (by linarith) h6.1
  nlinarith

theorem perturb_range {ρ : Type} (g : Rng ρ) (pert v lo hi : ℚ) (o : Option ℚ) (r : ρ) (h : lo ≤ hi) :
    lo ≤ (perturbValue g pert v lo hi o r).1 ∧ (perturbValue g pert v lo hi o r).1 ≤ hi := by
  simp only [perturbValue]
  generalize v + o.getD (hi - lo) * (2 * ((g.rand r).1 - 1 / 2)) * pert = x
  by_cases h1 : x < lo
  · rw [if_pos h1]; exact ⟨le_refl _, h⟩
  · rw [if_neg h1]
    by_cases h2 : x > hi
    · rw [if_pos h2]; exact ⟨h, le_refl _⟩
    · rw [if_neg h2]; exact ⟨le_of_not_gt h1, le_of_not_gt h2⟩

/-- C54 (part): for every perturbation, salary, age, education level, zip code,
years owned and loan of an emitted sample lie in the documented ranges, provided
rounding keeps 20..80 and 1..30. Missing: commission, car and house value, which
do not (see the violations). -/
theorem C54_ranges_partial {ρ : Type} (g : Rng ρ) (hg : Uniform g) (round : ℚ → ℚ)
    (hround : ∀ (x : ℚ) (a b : ℤ), (a : ℚ) ≤ x → x ≤ b → (a : ℚ) ≤ round x ∧ round x ≤ b)
    (pert : ℚ) (q r : ρ) (c : Nat) :
    let a := (agrawalPost g round pert (agrawalDraw g q).1 c r).1.1
    20000 ≤ a.salary ∧ a.salary ≤ 150000 ∧ 20 ≤ a.age ∧ a.age ≤ 80 ∧ a.elevel ≤ 4 ∧
    a.zipcode ≤ 8 ∧ 1 ≤ a.hyears ∧ a.hyears ≤ 30 ∧ 0 ≤ a.loan ∧ a.loan ≤ 500000 := by
  obtain ⟨hin, _⟩ := agrawalDraw_range g hg q
  obtain ⟨i1, i2, i3, i4, i5, i6, i7, i8, i9, i10, i11, i12⟩ := hin
  generalize (agrawalDraw g q).1 = a at *
  simp only [agrawalPost]
  by_cases hp : pert > 0
  · rw [if_pos hp]
    simp only
    have p1 := perturb_range g pert a.salary 20000 150000 none r (by norm_num)
    have hage : ∀ r', 20 ≤ round (perturbValue g pert a.age 20 80 none r').1 ∧
        round (perturbValue g pert a.age 20 80 none r').1 ≤ 80 := by
      intro r'
      have h := perturb_range g pert a.age 20 80 none r' (by norm_num)
      exact_mod_cast hround _ 20 80 (by exact_mod_cast h.1) (by exact_mod_cast h.2)
    have hyrs : ∀ r', 1 ≤ round (perturbValue g pert a.hyears 1 30 none r').1 ∧
        round (perturbValue g pert a.hyears 1 30 none r').1 ≤ 30 := by
      intro r'
      have h := perturb_range g pert a.hyears 1 30 none r' (by norm_num)
      exact_mod_cast hround _ 1 30 (by exact_mod_cast h.1) (by exact_mod_cast h.2)
    refine ⟨p1.1, p1.2, (hage _).1, (hage _).2, i5, i6, (hyrs _).1, (hyrs _).2, ?_, ?_⟩
    · exact (perturb_range g pert a.loan 0 500000 none _ (by norm_num)).1
    · exact (perturb_range g pert a.loan 0 500000 none _ (by norm_num)).2
  · rw [if_neg hp]
    exact ⟨i1, i2, i3, i4, i5, i6, i7, i8, i9, i10⟩

/-- C54 is violated: with any perturbation the emitted house value is always
either 0 or exactly `(9 - zipcode) * 100000`, whatever was drawn, because the
two bounds are passed in the wrong order. -/
theorem C54_house_value_violated {ρ : Type} (g : Rng ρ) (hg : Uniform g) (round : ℚ → ℚ)
    (pert : ℚ) (hp : 0 < pert) (q r : ρ) (c : Nat) :
    let a := (agrawalPost g round pert (agrawalDraw g q).1 c r).1.1
    a.hvalue = 0 ∨ a.hvalue = (9 - (a.zipcode : ℚ)) * 100000 := by
  obtain ⟨hin, _⟩ := agrawalDraw_range g hg q
  obtain ⟨-, -, -, -, -, i6, -⟩ := hin
  generalize (agrawalDraw g q).1 = a at *
  simp only [agrawalPost]
  rw [if_pos hp]
  simp only [perturbValue, Option.getD]
  generalize a.hvalue + _ = x
  have hz : (a.zipcode : ℚ) ≤ 8 := by exact_mod_cast i6
  by_cases h1 : x < (9 - (a.zipcode : ℚ)) * 100000
  · right; rw [if_pos h1]
  · left
    rw [if_neg h1, if_pos]
    linarith

/-- C54 is violated: the drawn commission can exceed the documented 75000, and
is drawn for the low salaries instead of the high ones. -/
theorem C54_commission_violated :
    ∃ (g : Rng Nat) (r : Nat), Uniform g ∧ (agrawalDraw g r).1.commission > 75000 ∧
      (agrawalDraw g r).1.salary < 75000 :=
  ⟨⟨fun r => (if r = 0 then 0 else 9 / 10, r + 1), fun _ r => (0, r + 1)⟩, 0,
    ⟨fun r => by simp only; split <;> norm_num, fun n r h => h⟩, by decide +kernel, by decide +kernel⟩

/-! ### C55 -/

/-- C55: `generate_drift` always ends with a different, valid function. -/
theorem C55_drift_changes_function {ρ : Type} (g : Rng ρ) (hg : Uniform g) (n cur : Nat) (hn : 0 < n)
    (fuel : Nat) (r : ρ) (k : Nat) (r' : ρ) (h : generateDrift g n cur fuel r = some (k, r')) :
    k ≠ cur ∧ k < n := by
  induction fuel generalizing r with
  | zero => simp [generateDrift] at h
  | succ fuel ih =>
    simp only [generateDrift] at h
    split at h
    · exact ih _ h
    · rename_i hne
      simp only [Option.some.injEq, Prod.mk.injEq] at h
      rw [← h.1]
      exact ⟨hne, hg.randint n r hn⟩

/-- C55: the mixed generator's drift swaps its two functions, and the two are
complementary: every sample changes its label. -/
theorem C55_mixed_drift_complements (sin3 : ℚ → ℚ) (f : Nat × Nat × ℚ × ℚ) :
    mixedDrift 0 = 1 ∧ mixedDrift 1 = 0 ∧ mixedClass sin3 1 f = 1 - mixedClass sin3 0 f := by
  refine ⟨by decide, by decide, ?_⟩
  obtain ⟨v, w, x, y⟩ := f
  simp only [mixedClass]
  split <;> rfl

/-- C55: sine functions 0 and 1, and 2 and 3, are complementary as well. -/
theorem C55_sine_complements (sin1 sin3 : ℚ → ℚ) (f : ℚ × ℚ × List ℚ) :
    sineClass sin1 sin3 1 f = 1 - sineClass sin1 sin3 0 f ∧
    sineClass sin1 sin3 3 f = 1 - sineClass sin1 sin3 2 f := by
  obtain ⟨a, b, l⟩ := f
  refine ⟨?_, ?_⟩ <;> simp only [sineClass] <;> split <;> rename_i h <;>
    first | rw [if_neg (not_le.mpr h)] | rw [if_pos (not_lt.mp h)]

example : (generateDrift counter 4 0 5 0).map Prod.fst = some 1 := by decide

end Verif.Streams.Gen
