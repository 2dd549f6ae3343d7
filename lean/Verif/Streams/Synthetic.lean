import Verif.Streams.GeneratorProps
import Mathlib.Algebra.Order.Field.Basic
import Mathlib.Algebra.Order.BigOperators.Group.List
import Mathlib.Algebra.Order.Group.Unbundled.Abs
import Mathlib.Algebra.Order.Ring.Abs
import Mathlib.Data.List.GetD

/-!
Models of the finite generators (`data/anomaly_sine_generator.py`,
`data/multilabel_generator.py`, `data/regression_generator.py`), of `restart()`
after `generate_drift()`, of `data/hyper_plane_generator.py`, of the moving
centroids of `data/random_rbf_generator_drift.py` and of
`data/pseudo_random_processes.py`.
-/

namespace Verif.Streams.Synth

open Verif.Streams.Gen

/-! ### C87: finite generators -/

/-- A generator holding its samples in a table: the table (features and target
of one sample together) and `sample_idx`. -/
structure Table (α : Type) where
  rows : List α
  idx : Nat
  deriving DecidableEq, Repr

/-- `n_remaining_samples()` of all three (`anomaly_sine_generator.py` 135-142,
`multilabel_generator.py` 152-159, `regression_generator.py` 144-151). -/
def Table.remaining {α : Type} (t : Table α) : Int := (t.rows.length : Int) - (t.idx : Int)

/-- `AnomalySineGenerator.next_sample` (106-133); `none` is `(None, None)`. -/
def Table.nextSine {α : Type} (t : Table α) (batch : Nat) : Option (List α) × Table α :=
  let b : Int := if t.remaining < batch then t.remaining else batch
  if b > 0 then
    (some ((t.rows.drop t.idx).take b.toNat), { t with idx := t.idx + b.toNat })
  else (none, t)

/-- `MultilabelGenerator.next_sample` (116-142) and
`RegressionGenerator.next_sample` (162-188): the index moves on by the batch
size, the slice is cut at the end of the table (slicing never raises). -/
def Table.nextSlice {α : Type} (t : Table α) (batch : Nat) : List α × Table α :=
  ((t.rows.drop t.idx).take batch, { t with idx := t.idx + batch })

/-- `has_more_samples()` inherited from `Stream` by the sine and the multi-label
generator (`base_stream.py` 260-269). -/
def moreInherited {α : Type} (_ : Table α) : Bool := true

/-- `RegressionGenerator.has_more_samples` (153-160). -/
def moreRegression {α : Type} (t : Table α) : Bool := decide (t.remaining > 0)

/-- `restart()` (`anomaly_sine_generator.py` 159-167, `multilabel_generator.py`
144-150, `regression_generator.py` 190-198): the table is kept. -/
def Table.restart {α : Type} (t : Table α) : Table α := { t with idx := 0 }

/-- Repeated calls of the slicing generators. -/
def Table.slices {α : Type} : List Nat → Table α → List (List α) × Table α
  | [], t => ([], t)
  | b :: bs, t =>
    let (x, t1) := t.nextSlice b
    let (xs, t2) := t1.slices bs
    (x :: xs, t2)

/-- Repeated calls of the sine generator. -/
def Table.sines {α : Type} : List Nat → Table α → List (Option (List α)) × Table α
  | [], t => ([], t)
  | b :: bs, t =>
    let (x, t1) := t.nextSine b
    let (xs, t2) := t1.sines bs
    (x :: xs, t2)

theorem slices_spec {α : Type} (bs : List Nat) (t : Table α) :
    (t.slices bs).1.flatten = (t.rows.drop t.idx).take bs.sum ∧
      (t.slices bs).2 = { t with idx := t.idx + bs.sum } := by
  induction bs generalizing t with
  | nil => simp [Table.slices]
  | cons b bs ih =>
    obtain ⟨h1, h2⟩ := ih (t.nextSlice b).2
    have e1 : (t.slices (b :: bs)).1 = (t.nextSlice b).1 :: ((t.nextSlice b).2.slices bs).1 := rfl
    have e2 : (t.slices (b :: bs)).2 = ((t.nextSlice b).2.slices bs).2 := rfl
    rw [e1, e2, List.flatten_cons, h1, h2, List.sum_cons]
    simp only [Table.nextSlice]
    refine ⟨?_, by rw [Nat.add_assoc]⟩
    rw [← List.drop_drop, List.take_add]

/-- All the rows in the answers of the sine generator; `None` holds none. -/
def gathered {α : Type} (l : List (Option (List α))) : List α := (l.map (·.getD [])).flatten

theorem nextSine_eq {α : Type} (t : Table α) (b : Nat) (ht : t.idx ≤ t.rows.length) :
    (t.nextSine b).1.getD [] = (t.rows.drop t.idx).take b ∧
      (t.nextSine b).2 = { t with idx := min t.rows.length (t.idx + b) } := by
  unfold Table.nextSine
  simp only
  by_cases hb : t.remaining < b
  · rw [if_pos hb]
    unfold Table.remaining at hb ⊢
    by_cases hz : (t.rows.length : Int) - t.idx > 0
    · rw [if_pos hz]
      have e1 : ((t.rows.length : Int) - t.idx).toNat = t.rows.length - t.idx := by omega
      rw [e1, Nat.min_eq_left (by omega), Nat.add_sub_cancel' ht]
      refine ⟨?_, rfl⟩
      rw [Option.getD_some, List.take_of_length_le (by simp),
        List.take_of_length_le (by simp; omega)]
    · rw [if_neg hz, List.drop_eq_nil_of_le (by omega), Nat.min_eq_left (by omega)]
      have : t.idx = t.rows.length := by omega
      refine ⟨by simp, ?_⟩
      rw [← this]
  · rw [if_neg hb]
    unfold Table.remaining at hb
    by_cases hz : (b : Int) > 0
    · rw [if_pos hz, Int.toNat_natCast, Nat.min_eq_right (by omega)]
      exact ⟨rfl, rfl⟩
    · have : b = 0 := by omega
      subst this
      rw [if_neg hz, Nat.min_eq_right (by omega)]
      exact ⟨by simp, rfl⟩

theorem sines_spec {α : Type} (bs : List Nat) (t : Table α) (ht : t.idx ≤ t.rows.length) :
    gathered (t.sines bs).1 = (t.rows.drop t.idx).take bs.sum ∧
      (t.sines bs).2 = { t with idx := min t.rows.length (t.idx + bs.sum) } := by
  induction bs generalizing t with
  | nil => simp [Table.sines, ht, gathered]
  | cons b bs ih =>
    obtain ⟨n1, n2⟩ := nextSine_eq t b ht
    obtain ⟨h1, h2⟩ := ih (t.nextSine b).2 (by rw [n2]; simp)
    have e1 : gathered (t.sines (b :: bs)).1 =
        (t.nextSine b).1.getD [] ++ gathered ((t.nextSine b).2.sines bs).1 := rfl
    have e2 : (t.sines (b :: bs)).2 = ((t.nextSine b).2.sines bs).2 := rfl
    rw [e1, e2, h1, h2, n1, n2, List.sum_cons]
    refine ⟨?_, ?_⟩
    · by_cases hb : t.idx + b ≤ t.rows.length
      · simp only [Nat.min_eq_right hb]
        rw [← List.drop_drop, List.take_add]
      · simp only [Nat.min_eq_left (show t.rows.length ≤ t.idx + b by omega)]
        rw [List.drop_length, List.take_nil, List.append_nil,
          List.take_of_length_le (by simp; omega), List.take_of_length_le (by simp; omega)]
    · simp only [Table.mk.injEq, true_and]; omega

/-- **C87** All three hand out the rows of their table in order, none skipped or
repeated, whatever the batch sizes, and replay them after `restart()`. -/
theorem C87_tables_in_order {α : Type} (rows : List α) (before bs : List Nat) :
    (((⟨rows, 0⟩ : Table α).slices bs).1.flatten = rows.take bs.sum) ∧
    (gathered ((⟨rows, 0⟩ : Table α).sines bs).1 = rows.take bs.sum) ∧
    ((((⟨rows, 0⟩ : Table α).slices before).2.restart.slices bs).1 =
      ((⟨rows, 0⟩ : Table α).slices bs).1) ∧
    ((((⟨rows, 0⟩ : Table α).sines before).2.restart.sines bs).1 =
      ((⟨rows, 0⟩ : Table α).sines bs).1) := by
  refine ⟨?_, ?_, ?_, ?_⟩
  · simpa using (slices_spec bs ⟨rows, 0⟩).1
  · simpa using (sines_spec bs ⟨rows, 0⟩ (by simp)).1
  · rw [(slices_spec before ⟨rows, 0⟩).2]; rfl
  · rw [(sines_spec before ⟨rows, 0⟩ (by simp)).2]; rfl

/-- **C87** The regression generator's `has_more_samples()` is true exactly when
`next_sample()` returns a row. -/
theorem C87_regression_has_more_partial {α : Type} (rows : List α) (bs : List Nat) :
    let t := ((⟨rows, 0⟩ : Table α).slices bs).2
    moreRegression t = true ↔ (t.nextSlice 1).1 ≠ [] := by
  rw [(slices_spec bs ⟨rows, 0⟩).2]
  have e : (List.take 1 (List.drop (0 + bs.sum) rows) ≠ []) ↔ bs.sum < rows.length := by
    rw [ne_eq, List.take_eq_nil_iff, List.drop_eq_nil_iff]; omega
  have e2 : ((rows.length : Int) - ((0 + bs.sum : Nat) : Int) > 0) ↔ bs.sum < rows.length := by
    omega
  simp only [moreRegression, Table.remaining, Table.nextSlice]
  exact decide_eq_true_iff.trans (e2.trans e.symm)

theorem nextSine_exhausted {α : Type} (t : Table α) (b : Nat) (h : t.idx = t.rows.length) :
    t.nextSine b = (none, t) := by
  have h0 : t.remaining = 0 := by unfold Table.remaining; omega
  unfold Table.nextSine
  simp only [h0]
  by_cases hb : (0 : Int) < b
  · rw [if_pos hb, if_neg (by omega)]
  · rw [if_neg hb, if_neg (by omega)]

/-- **C87** The sine and the multi-label generator inherit `has_more_samples()`,
which stays true after all rows were read although `next_sample()` returns
`None` respectively an empty batch. -/
theorem C87_has_more_violated {α : Type} (rows : List α) (b : Nat) :
    let t := ((⟨rows, 0⟩ : Table α).sines [rows.length]).2
    let u := ((⟨rows, 0⟩ : Table α).slices [rows.length]).2
    moreInherited t = true ∧ (t.nextSine b).1 = none ∧
    moreInherited u = true ∧ (u.nextSlice b).1 = [] := by
  rw [(slices_spec [rows.length] ⟨rows, 0⟩).2, (sines_spec [rows.length] ⟨rows, 0⟩ (by simp)).2]
  refine ⟨rfl, ?_, rfl, ?_⟩
  · rw [nextSine_exhausted _ _ (by simp)]
  · simp [Table.nextSlice]

/-- **C87** When the batch size does not divide the table, the slicing generators
report a negative number of remaining samples; `-1` is the documented answer of
an unbounded stream. -/
theorem C87_remaining_negative_violated {α : Type} (rows : List α) :
    (((⟨rows, 0⟩ : Table α).slices [rows.length + 1]).2.remaining = -1) := by
  rw [(slices_spec _ ⟨rows, 0⟩).2]
  simp only [Table.remaining, List.sum_cons, List.sum_nil]
  push_cast; omega

example : ((⟨[1, 2, 3, 4, 5], 0⟩ : Table Nat).sines [2, 2, 2]).1 =
    [some [1, 2], some [3, 4], some [5]] ∧
    ((⟨[1, 2, 3, 4, 5], 0⟩ : Table Nat).slices [2, 2, 2]).1 = [[1, 2], [3, 4], [5]] := by
  decide +kernel

/-! ### C88: `restart()` after `generate_drift()` -/

/-- A drifting generator: the classification function currently selected,
`next_class_should_be_zero` and the random state. -/
structure Drifting (ρ : Type) where
  fn : Nat
  nz : Bool
  rng : ρ
  deriving DecidableEq, Repr

/-- `generate_drift()` (`sea_generator.py` 365-377, `stagger_generator.py`
295-305, `sine_generator.py` 340-358, `agrawal_generator.py` 782-793). -/
def Drifting.drift {ρ : Type} (g : Rng ρ) (n fuel : Nat) (s : Drifting ρ) : Option (Drifting ρ) :=
  (generateDrift g n s.fn fuel s.rng).map (fun p => { s with fn := p.1, rng := p.2 })

/-- `restart()` (`base_stream.py` 242-247 with the generators'
`_prepare_for_use`, e.g. `mixed_generator.py` 216-218): the random state and the
balancing flag are reset, the classification function is not. -/
def Drifting.restart {ρ : Type} (seeded : ρ) (s : Drifting ρ) : Drifting ρ :=
  { s with nz := false, rng := seeded }

/-- The samples a generator gives; `gens k` is the generator with classification
function `k`. -/
def Drifting.sample {ρ φ : Type} (gens : Nat → Generator ρ φ) (balance : Bool) (fuel : Nat)
    (bs : List Nat) (s : Drifting ρ) : Option (List (φ × Nat)) :=
  (nextBatches (gens s.fn) balance fuel bs s.nz s.rng).map (·.1)

/-- A call of a method. -/
inductive DCall where
  | next (batch : Nat)
  | restart
  | drift
  deriving DecidableEq

/-- The object after a call; `none`: a rejection loop did not end within the fuel. -/
def Drifting.call {ρ φ : Type} (g : Rng ρ) (n : Nat) (gens : Nat → Generator ρ φ) (balance : Bool) (fuel : Nat) (seed : ρ)
    (s : Drifting ρ) : DCall → Option (Drifting ρ)
  | .next b => (nextBatch (gens s.fn) balance fuel b s.nz s.rng).map fun q => { s with nz := q.2.1, rng := q.2.2 }
  | .restart => some (s.restart seed)
  | .drift => s.drift g n fuel

/-- The object after some calls. -/
def Drifting.calls {ρ φ : Type} (g : Rng ρ) (n : Nat) (gens : Nat → Generator ρ φ) (balance : Bool) (fuel : Nat) (seed : ρ) :
    Drifting ρ → List DCall → Option (Drifting ρ)
  | s, [] => some s
  | s, c :: cs =>
    match s.call g n gens balance fuel seed c with
    | none => none
    | some s' => s'.calls g n gens balance fuel seed cs

/-- **C88** Without an intervening `generate_drift()`, `restart()` replays the stream: whatever batches were
asked for and however often the generator was restarted before, after `restart()` it gives for every
sequence of batches the samples it gave when it was created. -/
theorem C88_restart_replays_partial {ρ φ : Type} (g : Rng ρ) (n : Nat) (gens : Nat → Generator ρ φ) (balance : Bool)
    (fuel : Nat) (k : Nat) (seed : ρ) (cs : List DCall) (hc : .drift ∉ cs) (s : Drifting ρ)
    (hs : Drifting.calls g n gens balance fuel seed ⟨k, false, seed⟩ cs = some s) (bs : List Nat) :
    (s.restart seed).sample gens balance fuel bs =
      (⟨k, false, seed⟩ : Drifting ρ).sample gens balance fuel bs := by
  have key : ∀ (cs : List DCall), DCall.drift ∉ cs → ∀ (s0 s : Drifting ρ),
      s0.calls g n gens balance fuel seed cs = some s → s.fn = s0.fn := by
    intro cs
    induction cs with
    | nil => intro _ s0 s h; rw [Drifting.calls, Option.some.injEq] at h; rw [h]
    | cons c cs ih =>
      intro hc s0 s h
      rw [Drifting.calls] at h
      cases h1 : s0.call g n gens balance fuel seed c with
      | none => rw [h1] at h; cases h
      | some s1 =>
        rw [h1] at h
        rw [ih (fun hm => hc (List.mem_cons_of_mem _ hm)) s1 s h]
        cases c with
        | next b =>
          rw [Drifting.call] at h1
          obtain ⟨q, -, rfl⟩ := Option.map_eq_some_iff.1 h1
          rfl
        | restart => rw [Drifting.call, Option.some.injEq] at h1; rw [← h1]; rfl
        | drift => exact absurd (by simp) hc
  simp only [Drifting.restart, Drifting.sample, key cs hc _ s hs]

/-- **C88** After `generate_drift()` a restarted generator follows a different
classification function than the one it was created with: it behaves like a
fresh generator of another concept. -/
theorem C88_restart_after_drift_violated {ρ φ : Type} (g : Rng ρ) (hg : Uniform g)
    (gens : Nat → Generator ρ φ) (balance : Bool) (fuel fuel' : Nat) (bs : List Nat) (n : Nat)
    (hn : 0 < n) (seed : ρ) (s s' : Drifting ρ) (hd : s.drift g n fuel' = some s') :
    ∃ k' < n, k' ≠ s.fn ∧
      (s'.restart seed).sample gens balance fuel bs =
        (⟨k', false, seed⟩ : Drifting ρ).sample gens balance fuel bs := by
  unfold Drifting.drift at hd
  cases hgd : generateDrift g n s.fn fuel' s.rng with
  | none => rw [hgd] at hd; cases hd
  | some p =>
    rw [hgd] at hd
    simp only [Option.map_some, Option.some.injEq] at hd
    obtain ⟨h2, h1⟩ := C55_drift_changes_function g hg n s.fn hn fuel' s.rng p.1 p.2 hgd
    subst hd
    exact ⟨p.1, by omega, by omega, rfl⟩

/-- A source whose integers do not repeat with period three. -/
def squares : Rng Nat := ⟨fun r => (0, r + 1), fun n r => ((r * r / 2) % n, r + 1)⟩

/-- The hypotheses of `C88_restart_replays_partial` are met: a STAGGER generator that was read and restarted. -/
example : (Drifting.calls squares 3 (fun k => stagger squares (if h : k < 3 then ⟨k, h⟩ else 0)) true 50 0 ⟨1, false, 0⟩
    [.next 2, .restart, .next 3]).map (fun s => (s.fn, decide (s = ⟨1, false, 0⟩))) = some (1, false) := by decide +kernel

/-- **C88** For STAGGER the replayed stream then differs: the same features get
another label. -/
theorem C88_stagger_replay_differs_violated :
    let s0 : Drifting Nat := ⟨0, false, 0⟩
    let gens : Nat → Generator Nat (Nat × Nat × Nat) :=
      fun k => stagger squares (if h : k < 3 then ⟨k, h⟩ else 0)
    ∃ s1, s0.drift squares 3 5 = some s1 ∧
      (s0.sample gens false 5 [6]).map (·.map Prod.fst) =
        ((s1.restart 0).sample gens false 5 [6]).map (·.map Prod.fst) ∧
      s0.sample gens false 5 [6] ≠ (s1.restart 0).sample gens false 5 [6] := by
  refine ⟨⟨2, false, 3⟩, ?_, ?_, ?_⟩ <;> decide +kernel

/-! ### C89: the hyperplane generator -/

/-- `_weights`, `_sigma` (as signs) and the random state. -/
structure Hyper (ρ : Type) where
  w : List ℚ
  sigma : List ℚ
  rng : ρ

/-- `_generate_drift` (`hyper_plane_generator.py` 235-243) for the first `n`
features, the list recursion being the loop over `i`. -/
def driftLoop {ρ : Type} (g : Rng ρ) (mag sigmaPct : ℚ) :
    Nat → List ℚ → List ℚ → ρ → List ℚ × List ℚ × ρ
  | n + 1, w :: ws, s :: ss, r =>
    let (u, r1) := g.rand r
    let s' := if 1 / 100 + u ≤ sigmaPct then s * (-1) else s
    let (ws', ss', r2) := driftLoop g mag sigmaPct n ws ss r1
    ((w + s * mag) :: ws', s' :: ss', r2)
  | _, ws, ss, r => (ws, ss, r)

/-- The loop drawing the features (217-219). -/
def drawRow {ρ : Type} (g : Rng ρ) : Nat → ρ → List ℚ × ρ
  | 0, r => ([], r)
  | n + 1, r =>
    let (u, r1) := g.rand r
    let (xs, r2) := drawRow g n r1
    (u :: xs, r2)

/-- The weighted sum accumulated in the same loop (216-219). -/
def dot : List ℚ → List ℚ → ℚ
  | w :: ws, x :: xs => w * x + dot ws xs
  | _, _ => 0

/-- One iteration of `next_sample` (214-228). -/
def hyperSample {ρ : Type} (g : Rng ρ) (nDrift : Nat) (mag noise sigmaPct : ℚ) (s : Hyper ρ) :
    (List ℚ × Nat) × Hyper ρ :=
  let (x, r1) := drawRow g s.w.length s.rng
  let group := if dot s.w x ≥ s.w.sum * (1 / 2) then 1 else 0
  let (u, r2) := g.rand r1
  let group' := if 1 / 100 + u ≤ noise then (if group = 0 then 1 else 0) else group
  let (w', sg', r3) := driftLoop g mag sigmaPct nDrift s.w s.sigma r2
  ((x, group'), { w := w', sigma := sg', rng := r3 })

/-- Repeated samples: the outputs and the final state. -/
def hyperRun {ρ : Type} (g : Rng ρ) (nDrift : Nat) (mag noise sigmaPct : ℚ) :
    Nat → Hyper ρ → List (List ℚ × Nat) × Hyper ρ
  | 0, s => ([], s)
  | n + 1, s =>
    let (o, s1) := hyperSample g nDrift mag noise sigmaPct s
    let (os, s2) := hyperRun g nDrift mag noise sigmaPct n s1
    (o :: os, s2)

theorem driftLoop_spec {ρ : Type} (g : Rng ρ) (mag sigmaPct : ℚ) (n : Nat) (w s : List ℚ) (r : ρ)
    (hl : w.length = s.length) (hs : ∀ x ∈ s, |x| ≤ 1) (hm : 0 ≤ mag) :
    (driftLoop g mag sigmaPct n w s r).1.length = w.length ∧
    (driftLoop g mag sigmaPct n w s r).2.1.length = w.length ∧
    (∀ x ∈ (driftLoop g mag sigmaPct n w s r).2.1, |x| ≤ 1) ∧
    (∀ i, |(driftLoop g mag sigmaPct n w s r).1.getD i 0 - w.getD i 0| ≤ mag) ∧
    (∀ i, n ≤ i → (driftLoop g mag sigmaPct n w s r).1.getD i 0 = w.getD i 0) := by
  induction n generalizing w s r with
  | zero => simpa [driftLoop, hl] using ⟨hs, hm⟩
  | succ n ih =>
    cases w with
    | nil =>
      cases s with
      | nil => simpa [driftLoop] using hm
      | cons => simp at hl
    | cons w0 ws =>
      cases s with
      | nil => simp at hl
      | cons s0 ss =>
        obtain ⟨h1, h2, h3, h4, h5⟩ := ih ws ss (g.rand r).2 (by simpa using hl)
          (fun x hx => hs x (by simp [hx]))
        have h0 : |s0| ≤ 1 := hs s0 (by simp)
        simp only [driftLoop]
        refine ⟨by simp [h1], by simp [h2], ?_, ?_, ?_⟩
        · intro x hx
          rcases List.mem_cons.mp hx with hx | hx
          · subst hx
            by_cases hu : 1 / 100 + (g.rand r).1 ≤ sigmaPct
            · rw [if_pos hu]; simpa using h0
            · rw [if_neg hu]; exact h0
          · exact h3 x hx
        · intro i
          cases i with
          | zero =>
            simp only [List.getD_cons_zero, add_sub_cancel_left, abs_mul, abs_of_nonneg hm]
            nlinarith [abs_nonneg s0]
          | succ i => simpa using h4 i
        · intro i hi
          cases i with
          | zero => omega
          | succ i => simpa using h5 i (by omega)

theorem length_drawRow {ρ : Type} (g : Rng ρ) (n : Nat) (r : ρ) : (drawRow g n r).1.length = n := by
  induction n generalizing r with
  | zero => rfl
  | succ n ih => simp [drawRow, ih]

theorem drawRow_range {ρ : Type} (g : Rng ρ) (hg : Uniform g) (n : Nat) (r : ρ) :
    ∀ x ∈ (drawRow g n r).1, 0 ≤ x ∧ x < 1 := by
  induction n generalizing r with
  | zero => simp [drawRow]
  | succ n ih =>
    intro x hx
    simp only [drawRow] at hx
    rcases List.mem_cons.mp hx with h | h
    · subst h; exact hg.rand r
    · exact ih _ x h

/-- **C89** Without label noise every sample lies on the side of the current
hyperplane its label says: label 1 exactly when the weighted sum of its features
is at least half the sum of the weights; the features are in [0, 1). -/
theorem C89_label {ρ : Type} (g : Rng ρ) (hg : Uniform g) (nDrift : Nat) (mag noise sigmaPct : ℚ)
    (hn : noise < 1 / 100) (s : Hyper ρ) :
    ∃ (x : List ℚ) (y : Nat) (s' : Hyper ρ),
      hyperSample g nDrift mag noise sigmaPct s = ((x, y), s') ∧
      x.length = s.w.length ∧ (∀ v ∈ x, 0 ≤ v ∧ v < 1) ∧
      (y = 1 ↔ (List.zipWith (· * ·) s.w x).sum ≥ s.w.sum / 2) ∧ (y = 0 ∨ y = 1) := by
  have hdot : ∀ w x : List ℚ, dot w x = (List.zipWith (· * ·) w x).sum := by
    intro w
    induction w with
    | nil => intro x; simp [dot]
    | cons a w ih =>
      intro x
      cases x with
      | nil => simp [dot]
      | cons b x => simp [dot, ih]
  have hu := (hg.rand (drawRow g s.w.length s.rng).2).1
  refine ⟨(drawRow g s.w.length s.rng).1,
    if dot s.w (drawRow g s.w.length s.rng).1 ≥ s.w.sum * (1 / 2) then 1 else 0,
    (hyperSample g nDrift mag noise sigmaPct s).2, ?_,
    length_drawRow g _ _, drawRow_range g hg _ _, ?_, ?_⟩
  · simp only [hyperSample]
    rw [if_neg (by linarith)]
  · rw [← hdot]
    by_cases h : dot s.w (drawRow g s.w.length s.rng).1 ≥ s.w.sum * (1 / 2)
    · rw [if_pos h]; simp only [true_iff]; linarith
    · rw [if_neg h]; simp only [zero_ne_one, false_iff]; intro h'; apply h; linarith
  · by_cases h : dot s.w (drawRow g s.w.length s.rng).1 ≥ s.w.sum * (1 / 2)
    · rw [if_pos h]; right; rfl
    · rw [if_neg h]; left; rfl

/-- **C89** With label noise: of two generators that differ in the noise only, the
noisy one hands out the other label exactly when the uniform number drawn after
the features is at most `noise_percentage - 0.01`; features and weights are the same. -/
theorem C89_noise {ρ : Type} (g : Rng ρ) (hg : Uniform g) (nDrift : Nat) (mag noise sigmaPct : ℚ)
    (s : Hyper ρ) :
    ∃ (x : List ℚ) (y y' : Nat) (s' : Hyper ρ) (after : ρ),
      hyperSample g nDrift mag 0 sigmaPct s = ((x, y), s') ∧
      hyperSample g nDrift mag noise sigmaPct s = ((x, y'), s') ∧
      after = (drawRow g s.w.length s.rng).2 ∧
      ((g.rand after).1 ≤ noise - 1 / 100 → y' = 1 - y) ∧
      (¬ (g.rand after).1 ≤ noise - 1 / 100 → y' = y) := by
  have hu := (hg.rand (drawRow g s.w.length s.rng).2).1
  refine ⟨_, _, _, _, (drawRow g s.w.length s.rng).2, rfl, rfl, rfl, ?_, ?_⟩
  · intro h
    have h1 : 1 / 100 + (g.rand (drawRow g s.w.length s.rng).2).1 ≤ noise := by linarith
    have h2 : ¬ 1 / 100 + (g.rand (drawRow g s.w.length s.rng).2).1 ≤ 0 := by linarith
    simp only [if_pos h1, if_neg h2]
    by_cases hd : dot s.w (drawRow g s.w.length s.rng).1 ≥ s.w.sum * (1 / 2)
    · simp only [if_pos hd, one_ne_zero, if_false]
    · simp only [if_neg hd, if_true]
  · intro h
    have h1 : ¬ 1 / 100 + (g.rand (drawRow g s.w.length s.rng).2).1 ≤ noise := by
      intro h'; apply h; linarith
    have h2 : ¬ 1 / 100 + (g.rand (drawRow g s.w.length s.rng).2).1 ≤ 0 := by linarith
    simp only [if_neg h1, if_neg h2]

/-- **C89** Over `k` samples every weight moves by at most `k * mag_change`, and
the weights of features that do not drift never change. -/
theorem C89_drift_is_bounded {ρ : Type} (g : Rng ρ) (nDrift : Nat) (mag noise sigmaPct : ℚ)
    (hm : 0 ≤ mag) (k : Nat) (s : Hyper ρ) (hl : s.w.length = s.sigma.length)
    (hs : ∀ x ∈ s.sigma, |x| ≤ 1) :
    let s' := (hyperRun g nDrift mag noise sigmaPct k s).2
    s'.w.length = s.w.length ∧
    (∀ i, |s'.w.getD i 0 - s.w.getD i 0| ≤ k * mag) ∧
    (∀ i, nDrift ≤ i → s'.w.getD i 0 = s.w.getD i 0) := by
  induction k generalizing s with
  | zero => simp [hyperRun]
  | succ k ih =>
    obtain ⟨h1, h2, h3, h4, h5⟩ := driftLoop_spec g mag sigmaPct nDrift s.w s.sigma
      (g.rand (drawRow g s.w.length s.rng).2).2 hl hs hm
    have hst : (hyperSample g nDrift mag noise sigmaPct s).2 =
        { w := (driftLoop g mag sigmaPct nDrift s.w s.sigma
            (g.rand (drawRow g s.w.length s.rng).2).2).1
          sigma := (driftLoop g mag sigmaPct nDrift s.w s.sigma
            (g.rand (drawRow g s.w.length s.rng).2).2).2.1
          rng := (driftLoop g mag sigmaPct nDrift s.w s.sigma
            (g.rand (drawRow g s.w.length s.rng).2).2).2.2 } := rfl
    obtain ⟨i1, i2, i3⟩ := ih (hyperSample g nDrift mag noise sigmaPct s).2
      (by rw [hst]; simp only; omega) (by rw [hst]; exact h3)
    simp only [hyperRun]
    rw [hst] at i1 i2 i3 ⊢
    simp only at i1 i2 i3 ⊢
    refine ⟨by rw [i1, h1], ?_, ?_⟩
    · intro i
      have a := i2 i
      have b := h4 i
      push_cast
      have := abs_sub_le ((hyperRun g nDrift mag noise sigmaPct k
        { w := (driftLoop g mag sigmaPct nDrift s.w s.sigma
            (g.rand (drawRow g s.w.length s.rng).2).2).1
          sigma := (driftLoop g mag sigmaPct nDrift s.w s.sigma
            (g.rand (drawRow g s.w.length s.rng).2).2).2.1
          rng := (driftLoop g mag sigmaPct nDrift s.w s.sigma
            (g.rand (drawRow g s.w.length s.rng).2).2).2.2 }).2.w.getD i 0)
        ((driftLoop g mag sigmaPct nDrift s.w s.sigma
            (g.rand (drawRow g s.w.length s.rng).2).2).1.getD i 0) (s.w.getD i 0)
      linarith
    · intro i hi
      rw [i3 i hi, h5 i hi]

/-- A run in which the first weight drifts and the second does not. -/
example : (hyperRun counter 1 (1 / 10) 0 (1 / 2) 3 ⟨[1 / 2, 1 / 2], [1, 0], 0⟩).2.w =
    [2 / 5, 1 / 2] := by decide +kernel

/-! ### C90: drifting centroids -/

/-- One coordinate of a centroid and its speed: the move and the reflection at
the border (`random_rbf_generator_drift.py` 131-135). -/
def moveCoord (speed : ℚ) (c v : ℚ) : ℚ × ℚ :=
  let c' := c + v * speed
  if c' > 1 ∨ c' < 0 then ((if c' > 1 then 1 else 0), -v) else (c', v)

/-- The moves of one coordinate over `k` samples (124-135). -/
def moves (speed : ℚ) : Nat → ℚ × ℚ → ℚ × ℚ
  | 0, p => p
  | k + 1, p => moves speed k (moveCoord speed p.1 p.2)

/-- **C90** However long the stream runs, every centroid coordinate stays in
[0, 1], and its speed never changes in magnitude. -/
theorem C90_centroids_stay_inside (speed : ℚ) (k : Nat) (c v : ℚ) (hc : 0 ≤ c ∧ c ≤ 1) :
    0 ≤ (moves speed k (c, v)).1 ∧ (moves speed k (c, v)).1 ≤ 1 ∧
      ((moves speed k (c, v)).2 = v ∨ (moves speed k (c, v)).2 = -v) := by
  have key : ∀ (k : Nat) (p : ℚ × ℚ), 0 ≤ p.1 → p.1 ≤ 1 →
      0 ≤ (moves speed k p).1 ∧ (moves speed k p).1 ≤ 1 ∧
        ((moves speed k p).2 = p.2 ∨ (moves speed k p).2 = -p.2) := by
    intro k
    induction k with
    | zero => intro p h1 h2; exact ⟨h1, h2, .inl rfl⟩
    | succ k ih =>
      intro p h1 h2
      simp only [moves]
      by_cases h : p.1 + p.2 * speed > 1 ∨ p.1 + p.2 * speed < 0
      · have e : moveCoord speed p.1 p.2 = ((if p.1 + p.2 * speed > 1 then 1 else 0), -p.2) := by
          simp only [moveCoord]; rw [if_pos h]
        rw [e]
        have hb : 0 ≤ (if p.1 + p.2 * speed > 1 then (1 : ℚ) else 0) ∧
            (if p.1 + p.2 * speed > 1 then (1 : ℚ) else 0) ≤ 1 := by
          by_cases h' : p.1 + p.2 * speed > 1
          · rw [if_pos h']; norm_num
          · rw [if_neg h']; norm_num
        obtain ⟨a, b, d⟩ := ih (_, -p.2) hb.1 hb.2
        refine ⟨a, b, ?_⟩
        rcases d with d | d
        · right; exact d
        · left; exact d.trans (neg_neg _)
      · have e : moveCoord speed p.1 p.2 = (p.1 + p.2 * speed, p.2) := by
          simp only [moveCoord]; rw [if_neg h]
        rw [e]
        rw [not_or] at h
        exact ih _ (by simpa using h.2) (by simpa using h.1)
  exact key k (c, v) hc.1 hc.2

/-- **C90** A coordinate moves by at most `|speed * change_speed|` per sample. -/
theorem C90_step_bounded (speed c v : ℚ) (hc : 0 ≤ c ∧ c ≤ 1) :
    |(moveCoord speed c v).1 - c| ≤ |v * speed| := by
  unfold moveCoord
  simp only
  by_cases h : c + v * speed > 1 ∨ c + v * speed < 0
  · rw [if_pos h]
    simp only
    by_cases h' : c + v * speed > 1
    · rw [if_pos h', abs_of_nonneg (by linarith [hc.2])]
      exact le_trans (by linarith) (le_abs_self _)
    · rw [if_neg h']
      have : c + v * speed < 0 := h.resolve_left h'
      rw [abs_of_nonpos (by linarith [hc.1])]
      exact le_trans (by linarith) (neg_le_abs _)
  · rw [if_neg h]
    simp only [add_sub_cancel_left, le_refl]

example : moves (1 / 2) 3 (3 / 4, 1) = (0, -1) ∧ moves (1 / 2) 1 (3 / 4, 1) = (1, -1) := by
  decide +kernel

/-! ### C91: weighted choice of an index -/

/-- The loop of `random_index_based_on_weights` (`pseudo_random_processes.py`
26-31): the remaining weights, the sum so far and the index. -/
def pickLoop (val : ℚ) : List ℚ → ℚ → Int → Int
  | [], _, index => index
  | w :: ws, sum, index => if sum ≤ val then pickLoop val ws (sum + w) (index + 1) else index

/-- `random_index_based_on_weights` (4-31) with the random number `u`. -/
def pickIndex (weights : List ℚ) (u : ℚ) : Int :=
  pickLoop (u * weights.sum) weights 0 0 - 1

theorem pickLoop_spec (val : ℚ) (ws : List ℚ) (sum : ℚ) (index : Int)
    (h0 : sum ≤ val) (h1 : val < sum + ws.sum) :
    ∃ i : Nat, i < ws.length ∧ pickLoop val ws sum index = index + i + 1 ∧
      sum + (ws.take i).sum ≤ val ∧ val < sum + (ws.take (i + 1)).sum := by
  induction ws generalizing sum index with
  | nil => simp at h1; linarith
  | cons w ws ih =>
    simp only [pickLoop]
    rw [if_pos h0]
    by_cases hw : sum + w ≤ val
    · obtain ⟨i, hi, he, ha, hb⟩ := ih (sum + w) (index + 1) hw
        (by rw [List.sum_cons] at h1; linarith)
      refine ⟨i + 1, by simpa using hi, by rw [he]; push_cast; ring, ?_, ?_⟩
      · rw [List.take_succ_cons, List.sum_cons]; linarith
      · rw [List.take_succ_cons, List.sum_cons]; linarith
    · refine ⟨0, by simp, ?_, by simpa using h0, by simpa using not_le.mp hw⟩
      cases ws with
      | nil => simp [pickLoop]
      | cons w' ws' => simp only [pickLoop]; rw [if_neg hw]; simp

/-- **C91** With weights of positive sum and a uniform random number in [0, 1),
the index is the one whose segment of the cumulated weights contains
`u * sum`: index `i` is returned exactly for a range of numbers of length
`weights[i] / sum`. -/
theorem C91_weighted_index (ws : List ℚ) (hpos : 0 < ws.sum) (u : ℚ) (h0 : 0 ≤ u) (h1 : u < 1) :
    ∃ i : Nat, i < ws.length ∧ pickIndex ws u = i ∧
      (ws.take i).sum ≤ u * ws.sum ∧ u * ws.sum < (ws.take (i + 1)).sum := by
  obtain ⟨i, hi, he, ha, hb⟩ := pickLoop_spec (u * ws.sum) ws 0 0 (by positivity)
    (by rw [zero_add]; nlinarith)
  refine ⟨i, hi, ?_, by simpa using ha, by simpa using hb⟩
  unfold pickIndex; rw [he]; ring

/-- **C91** The chosen index is the only one with this property when weights are
non-negative, and its weight is positive: an index of weight zero is never
chosen. -/
theorem C91_zero_weight_never_chosen (ws : List ℚ) (hpos : 0 < ws.sum) (hnn : ∀ w ∈ ws, 0 ≤ w)
    (u : ℚ) (h0 : 0 ≤ u) (h1 : u < 1) :
    ∃ i : Nat, pickIndex ws u = i ∧ 0 < ws.getD i 0 ∧
      ∀ j : Nat, (ws.take j).sum ≤ u * ws.sum → u * ws.sum < (ws.take (j + 1)).sum → j = i := by
  obtain ⟨i, hi, he, ha, hb⟩ := C91_weighted_index ws hpos u h0 h1
  have hstep : ∀ j : Nat, (ws.take (j + 1)).sum = (ws.take j).sum + ws.getD j 0 := by
    intro j
    by_cases hj : j < ws.length
    · rw [List.take_succ, List.sum_append, List.getElem?_eq_getElem hj, List.getD_eq_getElem _ _ hj]
      simp
    · rw [List.take_of_length_le (by omega), List.take_of_length_le (by omega),
        List.getD_eq_default _ _ (by omega), add_zero]
  have hge : ∀ j : Nat, 0 ≤ ws.getD j 0 := by
    intro j
    by_cases hj : j < ws.length
    · rw [List.getD_eq_getElem _ _ hj]; exact hnn _ (List.getElem_mem hj)
    · rw [List.getD_eq_default _ _ (by omega)]
  have hmono : ∀ (a d : Nat), (ws.take a).sum ≤ (ws.take (a + d)).sum := by
    intro a d
    induction d with
    | zero => simp
    | succ d ih => rw [← Nat.add_assoc, hstep]; linarith [hge (a + d)]
  refine ⟨i, he, by have := hstep i; linarith, ?_⟩
  intro j hj1 hj2
  rcases Nat.lt_trichotomy j i with h | h | h
  · exfalso
    have := hmono (j + 1) (i - (j + 1))
    rw [Nat.add_sub_cancel' (by omega)] at this
    linarith
  · exact h
  · exfalso
    have := hmono (i + 1) (j - (i + 1))
    rw [Nat.add_sub_cancel' (by omega)] at this
    linarith

example : pickIndex [1, 0, 3] (1 / 2) = 2 ∧ pickIndex [1, 0, 3] (1 / 5) = 0 := by decide +kernel

end Verif.Streams.Synth
