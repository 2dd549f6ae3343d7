import Verif.Common
import Mathlib.Data.Real.Sqrt
import Mathlib.Algebra.Order.BigOperators.Group.List
import Mathlib.Data.List.Forall2
import Mathlib.Tactic.Linarith
import Mathlib.Tactic.FieldSimp
import Mathlib.Tactic.Ring
import Mathlib.Tactic.NormNum

/-!
# The radial basis function generators (C231, C232)

Model of `src/skmultiflow/data/random_rbf_generator.py` 113-173 and of
`random_rbf_generator_drift.py` 101-175 over the real numbers.  What the random number
generators answer is arbitrary: the parameters of the centroids, the index of the
centroid (`random_index_based_on_weights`, see C91), the uniform and the normal draws.
A row of which every feature is `nan` is `none`.
-/

namespace Verif.Streams.RBF

open Verif

noncomputable section

/-- A centroid, random_rbf_generator.py 176-182. -/
structure Centroid where
  centre : List ℝ
  label : Nat
  std : ℝ

/-- The draws for one sample, random_rbf_generator.py 134-142: the index, `n_features`
calls of `rand()`, and `normal()`. -/
structure Draw where
  idx : Nat
  rands : List ℝ
  normal : ℝ

/-- Sum of squares. -/
def sq (l : List ℝ) : ℝ := (l.map fun v => v * v).sum

/-- The features of one sample, random_rbf_generator.py 136-145.  With a magnitude of
zero the scale is `nan` or infinite and every feature is `nan`. -/
def place (c : Centroid) (d : Draw) : Option (List ℝ) :=
  let att := d.rands.map fun r => r * 2 - 1
  let magnitude := Real.sqrt (sq att)
  let desired := d.normal * c.std
  if magnitude = 0 then none
  else
    let scale := desired / magnitude
    some (List.zipWith (fun m v => m + v * scale) c.centre att)

/-- One pass of the loop of `next_sample`, random_rbf_generator.py 133-146. -/
def sample (cs : List Centroid) (d : Draw) : Except PyErr (Option (List ℝ) × Nat) :=
  match cs[d.idx]? with
  | none => .error .indexError
  | some c => .ok (place c d, c.label)

/-- `next_sample(batch_size)`, random_rbf_generator.py 132-149. -/
def nextSample (cs : List Centroid) (ds : List Draw) :
    Except PyErr (List (Option (List ℝ) × Nat)) := ds.mapM (sample cs)

/-- One coordinate of a drifting centroid and of its speed,
random_rbf_generator_drift.py 131-135. -/
def moveCoord (speed c v : ℝ) : ℝ × ℝ :=
  let c' := c + v * speed
  if c' > 1 ∨ c' < 0 then ((if c' > 1 then 1 else 0), -v) else (c', v)

/-- One centroid and its speeds, random_rbf_generator_drift.py 130-135. -/
def moveCentre (speed : ℝ) : List ℝ → List ℝ → List ℝ × List ℝ
  | c :: cs, v :: vs =>
    let p := moveCoord speed c v
    let q := moveCentre speed cs vs
    (p.1 :: q.1, p.2 :: q.2)
  | cs, vs => (cs, vs)

/-- The loop over the drifting centroids, random_rbf_generator_drift.py 129-135: there is
one list of speeds for each of the first `num_drift_centroids` centroids
(`_generate_centroids`, 157-175). -/
def moveAll (speed : ℝ) : List Centroid → List (List ℝ) → List Centroid × List (List ℝ)
  | c :: cs, v :: vs =>
    let p := moveCentre speed c.centre v
    let q := moveAll speed cs vs
    (⟨p.1, c.label, c.std⟩ :: q.1, p.2 :: q.2)
  | cs, vs => (cs, vs)

/-- `self.centroids` and `self.centroid_speed`. -/
structure Gen where
  cs : List Centroid
  speeds : List (List ℝ)

/-- `next_sample` of the drifting generator, random_rbf_generator_drift.py 124-141: the
rows, and the generator afterwards. -/
def driftSample (speed : ℝ) : Gen → List Draw →
    Except PyErr (List (Option (List ℝ) × Nat) × Gen)
  | g, [] => .ok ([], g)
  | g, d :: ds => do
    let m := moveAll speed g.cs g.speeds
    let r ← sample m.1 d
    let rest ← driftSample speed ⟨m.1, m.2⟩ ds
    return (r :: rest.1, rest.2)

/-- The speeds made by `_generate_centroids` from `rand()` calls,
random_rbf_generator_drift.py 163-175: the first `min(num_drift_centroids,
n_centroids)` lists, each divided by its length. -/
def makeSpeeds (nDrift nCentroids : Nat) (rands : List (List ℝ)) : List (List ℝ) :=
  (rands.take (if nDrift > nCentroids then nCentroids else nDrift)).map fun l =>
    l.map fun r => r / Real.sqrt (sq l)

/-! ## Lemmas -/

theorem sq_cons (a : ℝ) (l : List ℝ) : sq (a :: l) = a * a + sq l := rfl

theorem sq_nonneg' (l : List ℝ) : 0 ≤ sq l := by
  apply List.sum_nonneg
  intro x hx
  obtain ⟨v, _, rfl⟩ := List.mem_map.mp hx
  exact mul_self_nonneg v

theorem sq_eq_zero {l : List ℝ} (h : sq l = 0) : ∀ v ∈ l, v = 0 := by
  induction l with
  | nil => simp
  | cons a l ih =>
    rw [sq_cons] at h
    have h1 := mul_self_nonneg a
    have h2 := sq_nonneg' l
    intro v hv
    rcases List.mem_cons.mp hv with rfl | hv
    · exact mul_self_eq_zero.mp (by linarith)
    · exact ih (by linarith) v hv

theorem sq_scale (l : List ℝ) (k : ℝ) : sq (l.map (· * k)) = sq l * (k * k) := by
  induction l with
  | nil => simp [sq]
  | cons a l ih => rw [List.map_cons, sq_cons, sq_cons, ih]; ring

/-- Distance squared of two points. -/
def dist2 : List ℝ → List ℝ → ℝ
  | a :: x, b :: y => (a - b) * (a - b) + dist2 x y
  | _, _ => 0

theorem dist2_place (k : ℝ) : ∀ (c att : List ℝ), c.length = att.length →
    dist2 (List.zipWith (fun m v => m + v * k) c att) c = sq (att.map (· * k)) := by
  intro c
  induction c with
  | nil => intro att h; cases att with
    | nil => simp [dist2, sq]
    | cons _ _ => simp at h
  | cons m c ih =>
    intro att h
    cases att with
    | nil => simp at h
    | cons v att =>
      simp only [List.zipWith_cons_cons, dist2, List.map_cons, sq_cons]
      rw [ih att (by simpa using h)]; ring

/-- Where a sample is placed. -/
theorem place_spec (c : Centroid) (d : Draw) (hl : d.rands.length = c.centre.length) :
    ((∀ r ∈ d.rands, r = 1/2) → place c d = none) ∧
    ((∃ r ∈ d.rands, r ≠ 1/2) → ∃ x, place c d = some x ∧ x.length = c.centre.length ∧
      dist2 x c.centre = (d.normal * c.std) * (d.normal * c.std) ∧
      ∃ k, x = List.zipWith (fun m r => m + (r * 2 - 1) * k) c.centre d.rands) := by
  unfold place
  have hz : Real.sqrt (sq (d.rands.map fun r => r * 2 - 1)) = 0 ↔ ∀ r ∈ d.rands, r = 1/2 := by
    rw [Real.sqrt_eq_zero (sq_nonneg' _)]
    constructor
    · intro h r hr
      have := sq_eq_zero h (r * 2 - 1) (List.mem_map.mpr ⟨r, hr, rfl⟩)
      linarith
    · intro h
      unfold sq
      rw [List.map_map]
      apply List.sum_eq_zero
      intro x hx
      obtain ⟨r, hr, rfl⟩ := List.mem_map.mp hx
      simp only [Function.comp]; rw [h r hr]; norm_num
  refine ⟨fun h => by simp only; rw [if_pos (hz.mpr h)], fun h => ?_⟩
  have hne : ¬ Real.sqrt (sq (d.rands.map fun r => r * 2 - 1)) = 0 := by
    rw [hz]; push Not; exact h
  simp only
  rw [if_neg hne]
  refine ⟨_, rfl, by simp [hl], ?_, d.normal * c.std /
    Real.sqrt (sq (d.rands.map fun r => r * 2 - 1)), ?_⟩
  · rw [dist2_place _ _ _ (by simp [hl]), sq_scale]
    have hs := Real.mul_self_sqrt (sq_nonneg' (d.rands.map fun r => r * 2 - 1))
    generalize Real.sqrt (sq (d.rands.map fun r => r * 2 - 1)) = m at *
    rw [← hs]
    field_simp
  · rw [List.zipWith_map_right]

theorem mapM_ok {α β : Type} (f : α → Except PyErr β) : ∀ (l : List α) (r : List β),
    l.mapM f = .ok r → List.Forall₂ (fun a b => f a = .ok b) l r := by
  intro l
  induction l with
  | nil => intro r h; cases h; exact .nil
  | cons a l ih =>
    intro r h
    rw [List.mapM_cons] at h
    cases ha : f a with
    | error e => rw [ha] at h; cases h
    | ok b =>
      rw [ha] at h
      cases hl : l.mapM f with
      | error e =>
        rw [hl] at h; cases h
      | ok r' =>
        rw [hl] at h; cases h
        exact .cons ha (ih r' hl)

theorem mapM_of_ok {α β : Type} (f : α → Except PyErr β) : ∀ (l : List α),
    (∀ a ∈ l, ∃ b, f a = .ok b) → ∃ r, l.mapM f = .ok r := by
  intro l
  induction l with
  | nil => intro _; exact ⟨[], rfl⟩
  | cons a l ih =>
    intro h
    obtain ⟨b, hb⟩ := h a (by simp)
    obtain ⟨r, hr⟩ := ih fun x hx => h x (by simp [hx])
    refine ⟨b :: r, ?_⟩
    rw [List.mapM_cons, hb, hr]; rfl

/-- What one sample has to do with the centroid it was drawn for. -/
def Around (cs : List Centroid) (d : Draw) (r : Option (List ℝ) × Nat) : Prop :=
  ∃ c, cs[d.idx]? = some c ∧ r.2 = c.label ∧
    ((∃ u ∈ d.rands, u ≠ 1/2) → ∃ x, r.1 = some x ∧ x.length = c.centre.length ∧
      dist2 x c.centre = (d.normal * c.std) * (d.normal * c.std) ∧
      ∃ k, x = List.zipWith (fun m u => m + (u * 2 - 1) * k) c.centre d.rands) ∧
    ((∀ u ∈ d.rands, u = 1/2) → r.1 = none)

theorem sample_around (cs : List Centroid) (d : Draw) (hi : d.idx < cs.length)
    (hl : ∀ c ∈ cs, d.rands.length = c.centre.length) :
    ∃ r, sample cs d = .ok r ∧ Around cs d r := by
  have hc : cs[d.idx]? = some cs[d.idx] := List.getElem?_eq_getElem hi
  refine ⟨(place cs[d.idx] d, cs[d.idx].label), by rw [sample, hc], cs[d.idx], hc, rfl, ?_⟩
  obtain ⟨h1, h2⟩ := place_spec cs[d.idx] d (hl _ (List.getElem_mem hi))
  exact ⟨h2, h1⟩

/-- **C231**: `RandomRBFGenerator.next_sample` answers one sample per row asked for.  A
sample has the label of the centroid chosen for it and lies, in the direction given by
the uniform draws, at a distance of `|normal| * std_dev` from that centroid; its
features are `nan` only if all uniform draws are exactly one half. -/
theorem C231_rbf_samples (cs : List Centroid) (ds : List Draw)
    (hi : ∀ d ∈ ds, d.idx < cs.length)
    (hl : ∀ d ∈ ds, ∀ c ∈ cs, d.rands.length = c.centre.length) :
    ∃ rows, nextSample cs ds = .ok rows ∧ List.Forall₂ (Around cs) ds rows := by
  obtain ⟨rows, hr⟩ := mapM_of_ok (sample cs) ds fun d hd => by
    obtain ⟨r, h, _⟩ := sample_around cs d (hi d hd) (hl d hd)
    exact ⟨r, h⟩
  refine ⟨rows, hr, ?_⟩
  have h2 := mapM_ok (sample cs) ds rows hr
  clear hr
  induction h2 with
  | nil => exact .nil
  | cons hab _ ih =>
    rename_i d r ds rows _
    refine .cons ?_ (ih (fun d hd => hi d (by simp [hd])) fun d hd => hl d (by simp [hd]))
    obtain ⟨r', h1, h2⟩ := sample_around cs d (hi d (by simp)) (hl d (by simp))
    rw [hab] at h1; cases h1; exact h2

/-! ## Drift -/

/-- The unit interval. -/
def InCube (l : List ℝ) : Prop := ∀ c ∈ l, 0 ≤ c ∧ c ≤ 1

theorem moveCoord_spec (speed c v : ℝ) (hc : 0 ≤ c ∧ c ≤ 1) :
    (0 ≤ (moveCoord speed c v).1 ∧ (moveCoord speed c v).1 ≤ 1) ∧
    ((moveCoord speed c v).2 = v ∨ (moveCoord speed c v).2 = -v) ∧
    ((moveCoord speed c v).1 - c) * ((moveCoord speed c v).1 - c) ≤ v * v * (speed * speed) ∧
    (0 ≤ c + v * speed → c + v * speed ≤ 1 → moveCoord speed c v = (c + v * speed, v)) := by
  unfold moveCoord
  simp only
  by_cases h : c + v * speed > 1 ∨ c + v * speed < 0
  · rw [if_pos h]
    by_cases h' : c + v * speed > 1
    · simp only [if_pos h']
      refine ⟨by norm_num, .inr trivial, ?_, fun _ h2 => by linarith⟩
      nlinarith [hc.1, hc.2]
    · simp only [if_neg h']
      have h0 : c + v * speed < 0 := h.resolve_left h'
      refine ⟨by norm_num, .inr trivial, ?_, fun h1 _ => by linarith⟩
      nlinarith [hc.1, hc.2]
  · rw [if_neg h]
    rw [not_or] at h
    refine ⟨⟨by linarith [h.2], by linarith [h.1]⟩, .inl rfl, ?_, fun _ _ => rfl⟩
    simp only [add_sub_cancel_left]
    exact le_of_eq (by ring)

theorem moveCentre_spec (speed : ℝ) : ∀ (c v : List ℝ), c.length = v.length → InCube c →
    InCube (moveCentre speed c v).1 ∧ (moveCentre speed c v).1.length = c.length ∧
    (moveCentre speed c v).2.length = v.length ∧ sq (moveCentre speed c v).2 = sq v ∧
    dist2 (moveCentre speed c v).1 c ≤ sq v * (speed * speed) := by
  intro c
  induction c with
  | nil => intro v hv _; cases v with
    | nil => simp [moveCentre, dist2, sq, InCube]
    | cons _ _ => simp at hv
  | cons a c ih =>
    intro v hv hc
    cases v with
    | nil => simp at hv
    | cons b v =>
      simp only [moveCentre]
      obtain ⟨i1, i2, i3, i4, i5⟩ := ih v (by simpa using hv) fun x hx => hc x (by simp [hx])
      obtain ⟨m1, m2, m3, _⟩ := moveCoord_spec speed a b (hc a (by simp))
      refine ⟨?_, by simp [i2], by simp [i3], ?_, ?_⟩
      · intro x hx
        rcases List.mem_cons.mp hx with rfl | hx
        · exact m1
        · exact i1 x hx
      · rw [sq_cons, sq_cons, i4]
        rcases m2 with e | e <;> rw [e] <;> ring
      · rw [dist2, sq_cons]
        calc _ ≤ b * b * (speed * speed) + sq v * (speed * speed) := add_le_add m3 i5
          _ = _ := by ring

/-- A generator in order: every centroid in the unit cube of dimension `n`, one list of
`n` speeds, of length one, for each drifting centroid. -/
structure Good (n : Nat) (g : Gen) : Prop where
  cube : ∀ c ∈ g.cs, c.centre.length = n ∧ InCube c.centre
  speeds : ∀ v ∈ g.speeds, v.length = n ∧ sq v = 1
  fewer : g.speeds.length ≤ g.cs.length

/-- One move of all centroids. -/
theorem moveAll_spec (speed : ℝ) (n : Nat) : ∀ (vs : List (List ℝ)) (cs : List Centroid),
    Good n ⟨cs, vs⟩ →
    Good n ⟨(moveAll speed cs vs).1, (moveAll speed cs vs).2⟩ ∧
    (moveAll speed cs vs).2.length = vs.length ∧
    List.Forall₂ (fun c c' => c'.label = c.label ∧ c'.std = c.std ∧
      dist2 c'.centre c.centre ≤ speed * speed) cs (moveAll speed cs vs).1 ∧
    (moveAll speed cs vs).1.drop vs.length = cs.drop vs.length := by
  have same : ∀ cs : List Centroid, List.Forall₂ (fun c c' => c'.label = c.label ∧
      c'.std = c.std ∧ dist2 c'.centre c.centre ≤ speed * speed) cs cs := by
    intro cs
    induction cs with
    | nil => exact .nil
    | cons c cs ih =>
      refine .cons ⟨rfl, rfl, ?_⟩ ih
      have : ∀ l : List ℝ, dist2 l l = 0 := by
        intro l
        induction l with
        | nil => rfl
        | cons a l ih => rw [dist2, ih]; ring
      rw [this]; exact mul_self_nonneg speed
  intro vs
  induction vs with
  | nil =>
    intro cs hg
    have e : moveAll speed cs [] = (cs, []) := by cases cs <;> rfl
    rw [e]
    exact ⟨hg, rfl, same cs, rfl⟩
  | cons v vs ih =>
    intro cs hg
    cases cs with
    | nil => exact absurd hg.fewer (by simp)
    | cons c cs =>
      simp only [moveAll]
      obtain ⟨i1, i2, i3, i4⟩ := ih cs ⟨fun c hc => hg.cube c (by simp [hc]),
        fun v hv => hg.speeds v (by simp [hv]), by simpa using hg.fewer⟩
      obtain ⟨c1, c2⟩ := hg.cube c (by simp)
      obtain ⟨v1, v2⟩ := hg.speeds v (by simp)
      obtain ⟨m1, m2, m3, m4, m5⟩ := moveCentre_spec speed c.centre v (by rw [c1, v1]) c2
      refine ⟨⟨?_, ?_, ?_⟩, by simp [i2], .cons ⟨rfl, rfl, ?_⟩ i3, by simpa using i4⟩
      · intro x hx
        rcases List.mem_cons.mp hx with rfl | hx
        · exact ⟨by rw [← c1]; exact m2, m1⟩
        · exact i1.cube x hx
      · intro x hx
        rcases List.mem_cons.mp hx with rfl | hx
        · exact ⟨by rw [m3, v1], by rw [m4, v2]⟩
        · exact i1.speeds x hx
      · simpa using i1.fewer
      · simp only; rw [v2, one_mul] at m5; exact m5

/-- The generator after `k` samples have been drawn. -/
def after (speed : ℝ) (g : Gen) : Nat → Gen
  | 0 => g
  | k + 1 => after speed ⟨(moveAll speed g.cs g.speeds).1, (moveAll speed g.cs g.speeds).2⟩ k

theorem after_spec (speed : ℝ) (n : Nat) (k : Nat) : ∀ g : Gen, Good n g →
    Good n (after speed g k) ∧ (after speed g k).cs.length = g.cs.length ∧
    (after speed g k).speeds.length = g.speeds.length ∧
    (after speed g k).cs.map (fun c => (c.label, c.std)) = g.cs.map (fun c => (c.label, c.std)) ∧
    (after speed g k).cs.drop g.speeds.length = g.cs.drop g.speeds.length := by
  induction k with
  | zero => intro g hg; exact ⟨hg, rfl, rfl, rfl, rfl⟩
  | succ k ih =>
    intro g hg
    obtain ⟨m1, m2, m3, m4⟩ := moveAll_spec speed n g.speeds g.cs hg
    obtain ⟨i1, i2, i3, i4, i5⟩ := ih _ m1
    simp only at i2 i3 i4 i5
    have hmap : (moveAll speed g.cs g.speeds).1.map (fun c => (c.label, c.std)) =
        g.cs.map (fun c => (c.label, c.std)) := by
      clear i1 i2 i3 i4 i5 m4 m1
      generalize (moveAll speed g.cs g.speeds).1 = cs' at m3 ⊢
      clear hg
      generalize g.cs = cs0 at m3 ⊢
      induction m3 with
      | nil => rfl
      | cons h _ ihh => simp only [List.map_cons]; rw [h.1, h.2.1, ihh]
    refine ⟨i1, ?_, ?_, ?_, ?_⟩
    · rw [after, i2]; exact m3.length_eq.symm
    · rw [after, i3, m2]
    · rw [after, i4, hmap]
    · rw [after]; rw [m2] at i5; rw [i5, m4]

/-- **C232**: `RandomRBFGeneratorDrift`.  Before each sample every drifting centroid
moves, by at most `change_speed`, and stays in the unit cube; centroids beyond the first
`num_drift_centroids` never move; labels and spreads never change; and the `k`-th sample
of a call lies around its centroid as it is after `k` moves, just as without drift. -/
theorem C232_rbf_drift (speed : ℝ) (n : Nat) (g : Gen) (hg : Good n g) (ds : List Draw)
    (hi : ∀ d ∈ ds, d.idx < g.cs.length) (hl : ∀ d ∈ ds, d.rands.length = n) :
    ∃ rows, driftSample speed g ds = .ok (rows, after speed g ds.length) ∧
      rows.length = ds.length ∧
      (∀ (k : Nat) (d : Draw) r, ds[k]? = some d → rows[k]? = some r →
        Around (after speed g (k + 1)).cs d r) ∧
      ∀ k, Good n (after speed g k) ∧
        (after speed g k).cs.map (fun c => (c.label, c.std)) =
          g.cs.map (fun c => (c.label, c.std)) ∧
        (after speed g k).cs.drop g.speeds.length = g.cs.drop g.speeds.length ∧
        List.Forall₂ (fun c c' => dist2 c'.centre c.centre ≤ speed * speed)
          (after speed g k).cs (after speed g (k + 1)).cs := by
  have hsucc : ∀ k (g : Gen), after speed g (k + 1) =
      ⟨(moveAll speed (after speed g k).cs (after speed g k).speeds).1,
        (moveAll speed (after speed g k).cs (after speed g k).speeds).2⟩ := by
    intro k
    induction k with
    | zero => intro g; rfl
    | succ k ih => intro g; rw [after, ih]; rfl
  have hrest : ∀ k, Good n (after speed g k) ∧
        (after speed g k).cs.map (fun c => (c.label, c.std)) =
          g.cs.map (fun c => (c.label, c.std)) ∧
        (after speed g k).cs.drop g.speeds.length = g.cs.drop g.speeds.length ∧
        List.Forall₂ (fun c c' => dist2 c'.centre c.centre ≤ speed * speed)
          (after speed g k).cs (after speed g (k + 1)).cs := by
    intro k
    obtain ⟨a1, _, _, a4, a5⟩ := after_spec speed n k g hg
    refine ⟨a1, a4, a5, ?_⟩
    rw [hsucc]
    exact (moveAll_spec speed n _ _ a1).2.2.1.imp fun _ _ h => h.2.2
  suffices h : ∃ rows, driftSample speed g ds = .ok (rows, after speed g ds.length) ∧
      rows.length = ds.length ∧
      (∀ (k : Nat) (d : Draw) r, ds[k]? = some d → rows[k]? = some r →
        Around (after speed g (k + 1)).cs d r) by
    obtain ⟨rows, h1, h2, h3⟩ := h
    exact ⟨rows, h1, h2, h3, hrest⟩
  clear hrest hsucc
  induction ds generalizing g with
  | nil => exact ⟨[], rfl, rfl, by simp⟩
  | cons d ds ih =>
    obtain ⟨m1, _, m3, _⟩ := moveAll_spec speed n g.speeds g.cs hg
    have hlen := m3.length_eq
    obtain ⟨r, hr, har⟩ := sample_around (moveAll speed g.cs g.speeds).1 d
      (by rw [← hlen]; exact hi d (by simp))
      (fun c hc => by rw [hl d (by simp)]; exact (m1.cube c hc).1.symm)
    obtain ⟨rows, h1, h2, h3⟩ := ih _ m1 (fun d hd => by
        simp only; rw [← hlen]; exact hi d (by simp [hd]))
      (fun d hd => hl d (by simp [hd]))
    refine ⟨r :: rows, ?_, by simp [h2], ?_⟩
    · rw [driftSample]
      simp only [hr, bind, Except.bind]
      rw [h1]; rfl
    · intro k d' r' hd hr'
      cases k with
      | zero =>
        simp only [List.getElem?_cons_zero, Option.some.injEq] at hd hr'
        subst hd; subst hr'
        exact har
      | succ k =>
        simp only [List.getElem?_cons_succ] at hd hr'
        exact h3 k d' r' hd hr'

/-- The speeds made by the constructor put the generator in order: as many lists as
there are drifting centroids, each of length one (unless every draw of a list is zero). -/
theorem C232_speeds (n nDrift : Nat) (cs : List Centroid) (rands : List (List ℝ))
    (hc : ∀ c ∈ cs, c.centre.length = n ∧ InCube c.centre)
    (hr : rands.length = min nDrift cs.length)
    (hz : ∀ l ∈ rands, l.length = n ∧ ∃ r ∈ l, r ≠ 0) :
    Good n ⟨cs, makeSpeeds nDrift cs.length rands⟩ ∧
    (makeSpeeds nDrift cs.length rands).length = min nDrift cs.length := by
  have hmin : (if nDrift > cs.length then cs.length else nDrift) = min nDrift cs.length := by
    split <;> omega
  have hlen : (makeSpeeds nDrift cs.length rands).length = min nDrift cs.length := by
    simp [makeSpeeds, hmin, hr]
  refine ⟨⟨hc, ?_, by simp only; rw [hlen]; exact Nat.min_le_right _ _⟩, hlen⟩
  intro v hv
  obtain ⟨l, hl, rfl⟩ := List.mem_map.mp hv
  obtain ⟨h1, r, hrl, hr0⟩ := hz l (List.mem_of_mem_take hl)
  refine ⟨by simp [h1], ?_⟩
  have hs := Real.mul_self_sqrt (sq_nonneg' l)
  have hne : sq l ≠ 0 := fun h => hr0 (sq_eq_zero h r hrl)
  have : (l.map fun r => r / Real.sqrt (sq l)) = l.map (· * (Real.sqrt (sq l))⁻¹) := by
    simp only [div_eq_mul_inv]
  rw [this, sq_scale, ← mul_inv, hs]
  exact mul_inv_cancel₀ hne

/-- Two centroids in the plane, the first drifting along the first axis. -/
def exGen : Gen := ⟨[⟨[1/2, 1/2], 0, 1⟩, ⟨[0, 1], 1, 1/2⟩], [[1, 0]]⟩

theorem exGen_good : Good 2 exGen := by
  refine ⟨?_, ?_, by simp [exGen]⟩
  · intro c hc
    simp only [exGen, List.mem_cons, List.not_mem_nil, or_false] at hc
    rcases hc with rfl | rfl
    · refine ⟨rfl, fun x hx => ?_⟩
      simp only [List.mem_cons, List.not_mem_nil, or_false] at hx
      rcases hx with rfl | rfl <;> norm_num
    · refine ⟨rfl, fun x hx => ?_⟩
      simp only [List.mem_cons, List.not_mem_nil, or_false] at hx
      rcases hx with rfl | rfl <;> norm_num
  · intro v hv
    simp only [exGen, List.mem_cons, List.not_mem_nil, or_false] at hv
    subst hv
    exact ⟨rfl, by norm_num [sq]⟩

/-- A sample drawn for the second centroid, at distance one from it (twice its spread). -/
example : sample exGen.cs ⟨1, [1/2, 1], 2⟩ = .ok (some [0, 2], 1) := by
  have h : Real.sqrt (sq [0, 1]) = 1 := by norm_num [sq]
  simp only [sample, exGen, List.getElem?_cons_succ, List.getElem?_cons_zero, place, List.map]
  norm_num [sq, h]

end

end Verif.Streams.RBF
