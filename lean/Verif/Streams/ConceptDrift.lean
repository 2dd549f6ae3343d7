import Verif.Common
import Mathlib.Algebra.Order.Field.Basic

/-!
Model of `data/concept_drift_stream.py`: a stream that switches gradually from
one stream to another.

The two constituent streams are any states with a function giving the next
single sample, `rand()` is any function of a random state and `np.exp` any
function (its properties appear as hypotheses where they are needed).
`alpha` (lines 84-96) only determines `width` and is not modelled.
-/

namespace Verif.Streams.CDrift

/-- The attributes `stream`, `drift_stream`, `_random_state` and `sample_idx`
(`concept_drift_stream.py` 82-99). -/
structure St (σ τ ρ : Type) where
  base : σ
  drift : τ
  rng : ρ
  idx : Nat
  deriving DecidableEq, Repr

/-- `position` and `width` (95-97). -/
structure Cfg where
  position : Int
  width : ℚ
  deriving DecidableEq, Repr

/-- `probability_drift` for a sample index (159-160). -/
def pDrift (exp : ℚ → ℚ) (c : Cfg) (idx : Nat) : ℚ :=
  1 / (1 + exp (-4 * ((idx : ℚ) - (c.position : ℚ)) / c.width))

section
variable {σ τ ρ α : Type} (exp : ℚ → ℚ) (c : Cfg) (nextA : σ → α × σ) (nextB : τ → α × τ)
  (rand : ρ → ℚ × ρ)

/-- One iteration of the loop of `next_sample` (158-166). -/
def step (s : St σ τ ρ) : α × St σ τ ρ :=
  let idx := s.idx + 1
  let (u, rng) := rand s.rng
  if u > pDrift exp c idx then
    let (x, a) := nextA s.base
    (x, { s with base := a, rng := rng, idx := idx })
  else
    let (x, b) := nextB s.drift
    (x, { s with drift := b, rng := rng, idx := idx })

/-- The loop of `next_sample` (157-166). -/
def loop : Nat → St σ τ ρ → List α × St σ τ ρ
  | 0, s => ([], s)
  | n + 1, s =>
    let (x, s1) := step exp c nextA nextB rand s
    let (xs, s2) := loop n s1
    (x :: xs, s2)

/-- `next_sample(batch_size)` (139-168). The float division by `width` raises
when the width is zero (159). -/
def nextSample (n : Nat) (s : St σ τ ρ) : Except PyErr (List α × St σ τ ρ) :=
  if c.width = 0 ∧ n ≠ 0 then .error .zeroDivision else .ok (loop exp c nextA nextB rand n s)

/-- `restart()` (170-174); `seeded` is `check_random_state(self.random_state)`
for an integer `random_state`. -/
def restart (restartA : σ → σ) (restartB : τ → τ) (seeded : ρ) (s : St σ τ ρ) : St σ τ ρ :=
  { base := restartA s.base, drift := restartB s.drift, rng := seeded, idx := 0 }

end

/-- `n_remaining_samples()` (106-117) from the answers of the two streams. -/
def nRemaining (a b : Int) : Int :=
  let n := a + b
  if n < 0 then -1 else n

/-- `has_more_samples()` (119-127). -/
def hasMore (a b : Bool) : Bool := a && b

/-! ### Specification -/

/-- The first `n` samples of a stream and the state reached. -/
def firstN {σ α : Type} (next : σ → α × σ) : Nat → σ → List α
  | 0, _ => []
  | n + 1, s => (next s).1 :: firstN next n (next s).2

/-- The state of a stream after `n` samples. -/
def after {σ α : Type} (next : σ → α × σ) : Nat → σ → σ
  | 0, s => s
  | n + 1, s => after next n (next s).2

/-- `out` is built by taking, for every choice in turn, the next element of
`as` (`false`) or of `bs` (`true`), using both up. -/
inductive Interleaves {α : Type} : List Bool → List α → List α → List α → Prop
  | nil : Interleaves [] [] [] []
  | fromBase {ch as bs out} (x : α) :
      Interleaves ch as bs out → Interleaves (false :: ch) (x :: as) bs (x :: out)
  | fromDrift {ch as bs out} (x : α) :
      Interleaves ch as bs out → Interleaves (true :: ch) as (x :: bs) (x :: out)

section
variable {σ τ ρ α : Type} (exp : ℚ → ℚ) (c : Cfg) (nextA : σ → α × σ) (nextB : τ → α × τ)
  (rand : ρ → ℚ × ρ)

theorem loop_spec (n : Nat) (s : St σ τ ρ) :
    ∃ ch : List Bool, ch.length = n ∧
      (∀ i, (h : i < ch.length) →
        ch[i] = decide ((firstN rand n s.rng).getD i 0 ≤ pDrift exp c (s.idx + 1 + i))) ∧
      Interleaves ch (firstN nextA (ch.count false) s.base) (firstN nextB (ch.count true) s.drift)
        (loop exp c nextA nextB rand n s).1 ∧
      (loop exp c nextA nextB rand n s).2 =
        { base := after nextA (ch.count false) s.base
          drift := after nextB (ch.count true) s.drift
          rng := after rand n s.rng
          idx := s.idx + n } := by
  induction n generalizing s with
  | zero => exact ⟨[], rfl, by simp, .nil, rfl⟩
  | succ n ih =>
    by_cases hu : (rand s.rng).1 > pDrift exp c (s.idx + 1)
    · obtain ⟨ch, hl, hc, hi, hs⟩ :=
        ih { s with base := (nextA s.base).2, rng := (rand s.rng).2, idx := s.idx + 1 }
      have hstep : step exp c nextA nextB rand s = ((nextA s.base).1,
          { s with base := (nextA s.base).2, rng := (rand s.rng).2, idx := s.idx + 1 }) := by
        simp only [step]; rw [if_pos hu]
      refine ⟨false :: ch, by simp [hl], ?_, ?_, ?_⟩
      · intro i h
        cases i with
        | zero => simp [firstN, hu]
        | succ i =>
          have := hc i (by simpa using h)
          simp only [List.getElem_cons_succ, firstN, List.getD_cons_succ]
          rw [this]
          congr 3
          simp only; omega
      · simp only [loop, hstep, List.count_cons_self]
        rw [List.count_cons_of_ne (by decide)]
        exact .fromBase _ hi
      · simp only [loop, hstep, List.count_cons_self]
        rw [List.count_cons_of_ne (by decide), hs]
        simp only [after, St.mk.injEq, true_and]
        omega
    · obtain ⟨ch, hl, hc, hi, hs⟩ :=
        ih { s with drift := (nextB s.drift).2, rng := (rand s.rng).2, idx := s.idx + 1 }
      have hstep : step exp c nextA nextB rand s = ((nextB s.drift).1,
          { s with drift := (nextB s.drift).2, rng := (rand s.rng).2, idx := s.idx + 1 }) := by
        simp only [step]; rw [if_neg hu]
      refine ⟨true :: ch, by simp [hl], ?_, ?_, ?_⟩
      · intro i h
        cases i with
        | zero => simpa [firstN] using not_lt.mp hu
        | succ i =>
          have := hc i (by simpa using h)
          simp only [List.getElem_cons_succ, firstN, List.getD_cons_succ]
          rw [this]
          congr 3
          simp only; omega
      · simp only [loop, hstep, List.count_cons_self]
        rw [List.count_cons_of_ne (by decide)]
        exact .fromDrift _ hi
      · simp only [loop, hstep, List.count_cons_self]
        rw [List.count_cons_of_ne (by decide), hs]
        simp only [after, St.mk.injEq, true_and]
        omega

/-- **C80** The samples returned by `next_sample(n)` are an interleaving of the
next samples of the two streams, each in its own order with none skipped or
repeated; sample number `idx + 1 + i` comes from the drift stream exactly when
the `i`-th random number is at most the drift probability of its index. -/
theorem C80_interleaving (hw : c.width ≠ 0) (n : Nat) (s : St σ τ ρ) :
    ∃ (ch : List Bool) (out : List α) (s' : St σ τ ρ),
      nextSample exp c nextA nextB rand n s = .ok (out, s') ∧
      ch.length = n ∧ out.length = n ∧
      Interleaves ch (firstN nextA (ch.count false) s.base)
        (firstN nextB (ch.count true) s.drift) out ∧
      (∀ i, (h : i < ch.length) →
        ch[i] = decide ((firstN rand n s.rng).getD i 0 ≤ pDrift exp c (s.idx + 1 + i))) ∧
      s'.base = after nextA (ch.count false) s.base ∧
      s'.drift = after nextB (ch.count true) s.drift ∧
      s'.idx = s.idx + n := by
  obtain ⟨ch, hl, hc, hi, hs⟩ := loop_spec exp c nextA nextB rand n s
  refine ⟨ch, _, _, by unfold nextSample; rw [if_neg (by tauto)], hl, ?_, hi, hc, ?_, ?_, ?_⟩
  · clear hi hc hs hl
    induction n generalizing s with
    | zero => rfl
    | succ n ih => simp [loop, ih]
  · rw [hs]
  · rw [hs]
  · rw [hs]

/-- **C80** Splitting a request into batches does not change the samples. -/
theorem C80_batches (m n : Nat) (s s1 s2 : St σ τ ρ) (xs ys : List α)
    (h1 : nextSample exp c nextA nextB rand m s = .ok (xs, s1))
    (h2 : nextSample exp c nextA nextB rand n s1 = .ok (ys, s2)) :
    nextSample exp c nextA nextB rand (m + n) s = .ok (xs ++ ys, s2) := by
  have key : ∀ (m : Nat) (s : St σ τ ρ),
      loop exp c nextA nextB rand (m + n) s =
        ((loop exp c nextA nextB rand m s).1 ++
          (loop exp c nextA nextB rand n (loop exp c nextA nextB rand m s).2).1,
          (loop exp c nextA nextB rand n (loop exp c nextA nextB rand m s).2).2) := by
    intro m
    induction m with
    | zero => intro s; simp [loop]
    | succ m ih =>
      intro s
      rw [Nat.add_right_comm]
      simp only [loop, ih, List.cons_append]
  unfold nextSample at h1 h2 ⊢
  by_cases hm : c.width = 0 ∧ m ≠ 0
  · rw [if_pos hm] at h1; cases h1
  · by_cases hn : c.width = 0 ∧ n ≠ 0
    · rw [if_pos hn] at h2; cases h2
    · rw [if_neg hm] at h1
      rw [if_neg hn] at h2
      rw [if_neg (by intro h; by_cases m = 0 <;> by_cases n = 0 <;> simp_all), key]
      simp only [Except.ok.injEq] at h1 h2 ⊢
      rw [h1]
      simp only
      rw [h2]

/-- **C80** After `restart()` the stream replays the samples it gave from the
start, whatever was read in between, if both streams return to their initial
state on restart and `random_state` is an integer. -/
theorem C80_restart (restartA : σ → σ) (restartB : τ → τ) (a0 : σ) (b0 : τ) (r0 : ρ)
    (hA : ∀ a, restartA a = a0) (hB : ∀ b, restartB b = b0) (s : St σ τ ρ) (n : Nat) :
    nextSample exp c nextA nextB rand n (restart restartA restartB r0 s) =
      nextSample exp c nextA nextB rand n { base := a0, drift := b0, rng := r0, idx := 0 } := by
  simp only [restart, hA, hB]

end

/-! ### C81: the probability of the drift stream -/

/-- **C81** With a positive width, the drift probability lies strictly between
0 and 1, grows with the sample index and is one half exactly at `position`;
so a random number that selects the drift stream at some index selects it at
every later one. -/
theorem C81_drift_probability (exp : ℚ → ℚ) (hmono : StrictMono exp) (hpos : ∀ x, 0 < exp x)
    (h0 : exp 0 = 1) (c : Cfg) (hw : 0 < c.width) :
    (∀ i, 0 < pDrift exp c i ∧ pDrift exp c i < 1) ∧
    StrictMono (pDrift exp c) ∧
    (∀ i : Nat, pDrift exp c i = 1 / 2 ↔ (i : Int) = c.position) ∧
    (∀ i j : Nat, ∀ u : ℚ, i ≤ j → u ≤ pDrift exp c i → u ≤ pDrift exp c j) := by
  have hm : StrictMono (pDrift exp c) := by
    intro i j hij
    unfold pDrift
    have hi := hpos (-4 * ((i : ℚ) - (c.position : ℚ)) / c.width)
    have hj := hpos (-4 * ((j : ℚ) - (c.position : ℚ)) / c.width)
    have hlt : exp (-4 * ((j : ℚ) - (c.position : ℚ)) / c.width) <
        exp (-4 * ((i : ℚ) - (c.position : ℚ)) / c.width) := by
      apply hmono
      apply div_lt_div_of_pos_right _ hw
      have : (i : ℚ) < (j : ℚ) := by exact_mod_cast hij
      linarith
    apply one_div_lt_one_div_of_lt <;> linarith
  refine ⟨fun i => ?_, hm, fun i => ?_, fun i j u hij hu => le_trans hu (hm.monotone hij)⟩
  · have hi := hpos (-4 * ((i : ℚ) - (c.position : ℚ)) / c.width)
    unfold pDrift
    constructor
    · exact one_div_pos.mpr (by linarith)
    · rw [div_lt_one (by linarith)]; linarith
  · unfold pDrift
    have hi := hpos (-4 * ((i : ℚ) - (c.position : ℚ)) / c.width)
    constructor
    · intro h
      have h2 : exp (-4 * ((i : ℚ) - (c.position : ℚ)) / c.width) = exp 0 := by
        rw [div_eq_div_iff (by linarith) (by norm_num)] at h
        rw [h0]; linarith
      have h3 := hmono.injective h2
      rw [div_eq_zero_iff] at h3
      rcases h3 with h3 | h3
      · have : (i : ℚ) = (c.position : ℚ) := by linarith
        exact_mod_cast this
      · exact absurd h3 hw.ne'
    · intro h
      have : (i : ℚ) = (c.position : ℚ) := by exact_mod_cast h
      rw [this]; simp [h0]; norm_num

/-! ### C82: how many samples remain -/

/-- What a stream answers: `-1` when it is unbounded (`base_stream.py` 249-258),
otherwise the number of samples left. -/
def answer : Option Nat → Int
  | none => -1
  | some n => n

/-- What a stream answers to `has_more_samples()` (`base_stream.py` 260-269 for
unbounded streams, `data_stream.py` 371-380 for bounded ones). -/
def moreAnswer : Option Nat → Bool
  | none => true
  | some n => decide (0 < n)

theorem nRemaining_of_nonneg {a b : Int} (h : 0 ≤ a + b) : nRemaining a b = a + b := by
  simp only [nRemaining]; rw [if_neg (by omega)]

/-- **C82** Two unbounded streams are reported as unbounded, two bounded ones
by the sum of what is left in both. -/
theorem C82_remaining_partial :
    nRemaining (answer none) (answer none) = -1 ∧
    ∀ m n : Nat, nRemaining (answer (some m)) (answer (some n)) = m + n := by
  refine ⟨by decide, fun m n => ?_⟩
  exact nRemaining_of_nonneg (by simp only [answer]; omega)

/-- **C82** Mixing a bounded stream of `n + 1` samples with an unbounded one is
reported as `n` samples left: neither "unbounded" nor what is left in the
bounded stream. -/
theorem C82_mixed_violated (n : Nat) :
    nRemaining (answer (some (n + 1))) (answer none) = n ∧
    nRemaining (answer none) (answer (some (n + 1))) = n := by
  have h1 : answer (some (n + 1)) + answer none = n := by simp only [answer]; push_cast; omega
  have h2 : answer none + answer (some (n + 1)) = n := by simp only [answer]; push_cast; omega
  exact ⟨by rw [nRemaining_of_nonneg (by omega), h1], by rw [nRemaining_of_nonneg (by omega), h2]⟩

/-- **C82** With two bounded streams `has_more_samples()` turns false as soon as
one of them is exhausted, although `n_remaining_samples()` is still positive. -/
theorem C82_has_more_disagrees_violated (n : Nat) :
    hasMore (moreAnswer (some 0)) (moreAnswer (some (n + 1))) = false ∧
    nRemaining (answer (some 0)) (answer (some (n + 1))) = n + 1 := by
  refine ⟨by simp [hasMore, moreAnswer], ?_⟩
  rw [nRemaining_of_nonneg] <;> simp only [answer] <;> push_cast <;> omega

/-- **C82** `has_more_samples()` is true exactly when both streams can deliver,
so a single `next_sample()` never reads from an exhausted stream. -/
theorem C82_has_more_partial (a b : Option Nat) :
    hasMore (moreAnswer a) (moreAnswer b) = true ↔ a ≠ some 0 ∧ b ≠ some 0 := by
  cases a <;> cases b <;> simp [hasMore, moreAnswer, Nat.pos_iff_ne_zero]

section
variable {σ τ ρ α : Type} (exp : ℚ → ℚ) (c : Cfg) (nextA : σ → α × σ) (nextB : τ → α × τ)
  (rand : ρ → ℚ × ρ)

/-- Reading sample by sample for as long as `has_more_samples()` is true, at most `fuel` of them. -/
def readAll (leftA : σ → Nat) (leftB : τ → Nat) : Nat → St σ τ ρ → List α
  | 0, _ => []
  | fuel + 1, s =>
    if hasMore (moreAnswer (some (leftA s.base))) (moreAnswer (some (leftB s.drift))) then
      (step exp c nextA nextB rand s).1 :: readAll leftA leftB fuel (step exp c nextA nextB rand s).2
    else []

/-- **C82** With two bounded streams that are not exhausted the answer is always too large, whatever the
random numbers are: a reader that stops when `has_more_samples()` is false gets at least as many samples
as the shorter stream has left, but at least one fewer than `n_remaining_samples()` announces. -/
theorem C82_too_many_violated (leftA : σ → Nat) (leftB : τ → Nat) (hA : ∀ a, leftA (nextA a).2 = leftA a - 1)
    (hB : ∀ b, leftB (nextB b).2 = leftB b - 1) (s : St σ τ ρ) (m n : Nat) (hm : leftA s.base = m + 1)
    (hn : leftB s.drift = n + 1) :
    ∃ k, (∀ fuel, m + n + 2 ≤ fuel → (readAll exp c nextA nextB rand leftA leftB fuel s).length = k) ∧
      min (m + 1) (n + 1) ≤ k ∧
      (k : Int) < nRemaining (answer (some (leftA s.base))) (answer (some (leftB s.drift))) := by
  have gen : ∀ N (s : St σ τ ρ), leftA s.base + leftB s.drift ≤ N →
      ∃ k, (∀ fuel, leftA s.base + leftB s.drift ≤ fuel → (readAll exp c nextA nextB rand leftA leftB fuel s).length = k) ∧
        min (leftA s.base) (leftB s.drift) ≤ k ∧
        (0 < leftA s.base → 0 < leftB s.drift → k < leftA s.base + leftB s.drift) ∧
        (leftA s.base = 0 ∨ leftB s.drift = 0 → k = 0) := by
    intro N
    induction N with
    | zero =>
      intro s h
      refine ⟨0, fun fuel hf => ?_, by omega, by omega, fun _ => rfl⟩
      cases fuel with
      | zero => rfl
      | succ fuel =>
        rw [readAll, if_neg]
        · rfl
        · have : leftA s.base = 0 := by omega
          simp [hasMore, moreAnswer, this]
    | succ N ih =>
      intro s h
      by_cases hpos : 0 < leftA s.base ∧ 0 < leftB s.drift
      · obtain ⟨ha, hb⟩ := hpos
        have hst : ∃ s', (step exp c nextA nextB rand s).2 = s' ∧
            ((leftA s'.base = leftA s.base - 1 ∧ leftB s'.drift = leftB s.drift) ∨
              (leftA s'.base = leftA s.base ∧ leftB s'.drift = leftB s.drift - 1)) := by
          refine ⟨_, rfl, ?_⟩
          unfold step
          simp only
          split
          · exact .inl ⟨hA _, rfl⟩
          · exact .inr ⟨rfl, hB _⟩
        obtain ⟨s', h1, h2⟩ := hst
        obtain ⟨k, k1, k2, k3, k4⟩ := ih s' (by omega)
        refine ⟨k + 1, fun fuel hf => ?_, by omega, fun _ _ => ?_, by omega⟩
        · obtain ⟨fuel, rfl⟩ : ∃ q, fuel = q + 1 := ⟨fuel - 1, by omega⟩
          rw [readAll, if_pos (by simp [hasMore, moreAnswer, ha, hb]), h1, List.length_cons, k1 fuel (by omega)]
        · by_cases hz : leftA s'.base = 0 ∨ leftB s'.drift = 0
          · have := k4 hz; omega
          · have := k3 (by omega) (by omega); omega
      · refine ⟨0, fun fuel hf => ?_, by omega, fun h1 h2 => absurd ⟨h1, h2⟩ hpos, fun _ => rfl⟩
        cases fuel with
        | zero => rfl
        | succ fuel =>
          rw [readAll, if_neg]
          · rfl
          · simp only [hasMore, moreAnswer, Bool.and_eq_true, decide_eq_true_iff]
            exact hpos
  obtain ⟨k, k1, k2, k3, -⟩ := gen _ s (le_refl _)
  refine ⟨k, fun fuel hf => k1 fuel (by omega), by omega, ?_⟩
  have := k3 (by omega) (by omega)
  rw [nRemaining_of_nonneg] <;> simp only [answer] <;> push_cast <;> omega

end

/-- Streams with three and five samples left: eight are announced and, with these random numbers, four read. -/
example :
    let next : Nat → Nat × Nat := fun k => (k, k - 1)
    let rand : Nat → ℚ × Nat := fun k => (if k % 4 = 0 then 0 else 1, k + 1)
    (readAll (fun _ => 1) ⟨2, 1⟩ next next rand id id 8 ⟨3, 5, 0, 0⟩).length = 4 ∧
      nRemaining (answer (some 3)) (answer (some 5)) = 8 := by
  decide +kernel

/-! ### C83: streams built with the default arguments -/

/-- Two `ConceptDriftStream()` objects built without passing streams: the default
argument objects of `__init__` (61-62) are created once, so both objects refer
to the same two streams. Each has its own random state and index. -/
structure Shared (σ τ ρ : Type) where
  base : σ
  drift : τ
  rng1 : ρ
  idx1 : Nat
  rng2 : ρ
  idx2 : Nat

section
variable {σ τ ρ α : Type} (exp : ℚ → ℚ) (c : Cfg) (nextA : σ → α × σ) (nextB : τ → α × τ)
  (rand : ρ → ℚ × ρ)

/-- One single-sample `next_sample()` call (139-168) on the first (`false`) or
second (`true`) object. -/
def callOn (who : Bool) (w : Shared σ τ ρ) : α × Shared σ τ ρ :=
  if who then
    let (x, s) := step exp c nextA nextB rand ⟨w.base, w.drift, w.rng2, w.idx2⟩
    (x, { w with base := s.base, drift := s.drift, rng2 := s.rng, idx2 := s.idx })
  else
    let (x, s) := step exp c nextA nextB rand ⟨w.base, w.drift, w.rng1, w.idx1⟩
    (x, { w with base := s.base, drift := s.drift, rng1 := s.rng, idx1 := s.idx })

/-- A sequence of calls on the two objects; who was called and what it gave. -/
def calls : List Bool → Shared σ τ ρ → List (Bool × α) × Shared σ τ ρ
  | [], w => ([], w)
  | who :: rest, w =>
    let (x, w1) := callOn exp c nextA nextB rand who w
    let (xs, w2) := calls rest w1
    ((who, x) :: xs, w2)

/-- **C83** Whatever the order of calls, the samples of both objects together
are one interleaving of *one* base stream and *one* drift stream: a sample
given to one object is never given to the other. -/
theorem C83_defaults_are_shared (order : List Bool) (w : Shared σ τ ρ) :
    ∃ ch : List Bool, ch.length = order.length ∧
      Interleaves ch (firstN nextA (ch.count false) w.base)
        (firstN nextB (ch.count true) w.drift)
        ((calls exp c nextA nextB rand order w).1.map Prod.snd) := by
  induction order generalizing w with
  | nil => exact ⟨[], rfl, .nil⟩
  | cons who rest ih =>
    have hcase : (∃ w1 : Shared σ τ ρ, callOn exp c nextA nextB rand who w = ((nextA w.base).1, w1) ∧
          w1.base = (nextA w.base).2 ∧ w1.drift = w.drift) ∨
        (∃ w1 : Shared σ τ ρ, callOn exp c nextA nextB rand who w = ((nextB w.drift).1, w1) ∧
          w1.base = w.base ∧ w1.drift = (nextB w.drift).2) := by
      cases who with
      | false =>
        simp only [callOn, step, Bool.false_eq_true, if_false]
        by_cases h : (rand w.rng1).1 > pDrift exp c (w.idx1 + 1)
        · left; rw [if_pos h]; exact ⟨_, rfl, rfl, rfl⟩
        · right; rw [if_neg h]; exact ⟨_, rfl, rfl, rfl⟩
      | true =>
        simp only [callOn, step, if_true]
        by_cases h : (rand w.rng2).1 > pDrift exp c (w.idx2 + 1)
        · left; rw [if_pos h]; exact ⟨_, rfl, rfl, rfl⟩
        · right; rw [if_neg h]; exact ⟨_, rfl, rfl, rfl⟩
    rcases hcase with ⟨w1, he, hb, hd⟩ | ⟨w1, he, hb, hd⟩
    · obtain ⟨ch, hl, hi⟩ := ih w1
      refine ⟨false :: ch, by simp [hl], ?_⟩
      simp only [calls, he, List.count_cons_self, List.map_cons]
      rw [List.count_cons_of_ne (by decide)]
      rw [hb, hd] at hi
      exact .fromBase _ hi
    · obtain ⟨ch, hl, hi⟩ := ih w1
      refine ⟨true :: ch, by simp [hl], ?_⟩
      simp only [calls, he, List.count_cons_self, List.map_cons]
      rw [List.count_cons_of_ne (by decide)]
      rw [hb, hd] at hi
      exact .fromDrift _ hi

end

/-- **C83** Hence the objects are not independent: reading from one changes what
the other returns. (The base stream counts 0, 1, 2, ...; the random numbers
always select it.) -/
theorem C83_independence_violated :
    let next : Nat → Nat × Nat := fun k => (k, k + 1)
    let rand : Unit → ℚ × Unit := fun _ => (9 / 10, ())
    let w : Shared Nat Nat Unit := ⟨0, 100, (), 0, (), 0⟩
    let out (order : List Bool) := (calls (fun _ => 3) ⟨5000, 1000⟩ next next rand order w).1
    (out [true]).map Prod.snd = [0] ∧
    ((out [false, true]).filter (·.1)).map Prod.snd = [1] := by
  decide +kernel

/-! ### Non-vacuity -/

/-- A stand-in for the exponential which meets the hypotheses of C81. -/
def e' (x : ℚ) : ℚ := if x ≤ 0 then 1 / (1 - x) else 1 + x

example : pDrift e' ⟨2, 1⟩ 1 < pDrift e' ⟨2, 1⟩ 2 ∧ pDrift e' ⟨2, 1⟩ 2 = 1 / 2 := by decide +kernel

theorem e'_strictMono : StrictMono e' := by
  intro x y h
  unfold e'
  by_cases hy : y ≤ 0
  · rw [if_pos (by linarith), if_pos hy]
    exact one_div_lt_one_div_of_lt (by linarith) (by linarith)
  · rw [if_neg hy]
    by_cases hx : x ≤ 0
    · rw [if_pos hx, div_lt_iff₀ (by linarith)]
      nlinarith
    · rw [if_neg hx]; linarith

/-- The hypotheses of C81 can be met. -/
example : ∃ e : ℚ → ℚ, StrictMono e ∧ (∀ x, 0 < e x) ∧ e 0 = 1 := by
  refine ⟨e', e'_strictMono, fun x => ?_, by simp [e']⟩
  unfold e'
  by_cases hx : x ≤ 0
  · rw [if_pos hx]; exact one_div_pos.mpr (by linarith)
  · rw [if_neg hx]; linarith

/-- A run in which both streams are used. -/
example :
    let next : Nat → Nat × Nat := fun k => (k, k + 1)
    let rand : Nat → ℚ × Nat := fun k => (if k % 2 = 0 then 1 / 10 else 9 / 10, k + 1)
    (loop e' ⟨2, 1⟩ next next rand 4 ⟨0, 100, 0, 0⟩).1 = [100, 0, 101, 102] := by
  decide +kernel

end Verif.Streams.CDrift
