import Verif.Common
import Mathlib.Data.List.Basic

/-!
Model of `meta/multi_output_learner.py` (MultiOutputLearner); C123.

Simplifications: a batch of targets is given as its list of columns, `y[:, j]` being
entry `j`; the base estimator's methods do not raise by themselves; whether they
accept `classes` and `sample_weight` is part of the base.  A column of predictions
is a list with one entry per sample.
-/

namespace Verif.Meta

variable {σ X Y C W P : Type}

/-- Which of the two optional arguments a method has. -/
structure Sig where
  classes : Bool
  weight : Bool
deriving DecidableEq, Repr

/-- The base estimator: a fresh state (what `deepcopy` of it gives), its methods
and their signatures.  An argument that is not passed is `none`. -/
structure MoBase (σ X Y C W P : Type) where
  init : σ
  fitSig : Sig
  fit : σ → X → List Y → Option C → Option W → σ
  pfSig : Sig
  partialFit : σ → X → List Y → Option C → Option W → σ
  predict : σ → X → List P

/-- Lines 122-128 and 170-177: the test `'sample_weight' and 'classes' in params` is
a test for `classes` alone; then both are passed. -/
def callWith (sig : Sig) (f : Option C → Option W → σ) (c : C) (w : W) : Except PyErr σ :=
  if sig.classes then
    if sig.weight then .ok (f (some c) (some w)) else .error .typeError
  else if sig.weight then .ok (f none (some w))
  else .ok (f none none)

/-- The state: `ensemble` and `n_targets` (both `None` before the first fit and after `reset`). -/
structure Mo (σ : Type) where
  ensemble : List σ
  nTargets : Option Nat

/-- The constructor and `reset`, lines 74-75 and 246-248. -/
def Mo.fresh : Mo σ := ⟨[], none⟩

/-- The loop `for j in range(n_targets)` over the learners and the columns of `y`:
stops with the error of the first call that raises; an index beyond the ensemble raises. -/
def trainCols (call : σ → List Y → Except PyErr σ) : List σ → List (List Y) → List σ × Except PyErr Unit
  | ens, [] => (ens, .ok ())
  | [], _ :: _ => ([], .error .indexError)
  | s :: ens, col :: cols =>
    match call s col with
    | .error e => (s :: ens, .error e)
    | .ok s' =>
      let r := trainCols call ens cols
      (s' :: r.1, r.2)

/-- `fit`, lines 91-129. -/
def Mo.fit (b : MoBase σ X Y C W P) (x : X) (cols : List (List Y)) (c : C) (w : W) :
    Mo σ × Except PyErr Unit :=
  let r := trainCols (fun s col => callWith b.fitSig (b.fit s x col) c w)
    (List.replicate cols.length b.init) cols
  (⟨r.1, some cols.length⟩, r.2)

/-- `partial_fit`, lines 131-179: the first call is `fit`. -/
def Mo.partialFit (b : MoBase σ X Y C W P) (m : Mo σ) (x : X) (cols : List (List Y)) (c : C) (w : W) :
    Mo σ × Except PyErr Unit :=
  match m.nTargets with
  | none => Mo.fit b x cols c w
  | some _ =>
    let r := trainCols (fun s col => callWith b.pfSig (b.partialFit s x col) c w) m.ensemble cols
    (⟨r.1, some cols.length⟩, r.2)

/-- `predict`, lines 181-203, column by column; `np.zeros((N, None))` raises. -/
def Mo.predict (b : MoBase σ X Y C W P) (m : Mo σ) (x : X) : Except PyErr (List (List P)) :=
  match m.nTargets with
  | none => .error .typeError
  | some n =>
    if n ≤ m.ensemble.length then .ok ((m.ensemble.take n).map fun s => b.predict s x)
    else .error .indexError

/-- A sequence of `partial_fit` calls; stops at the first that raises. -/
def Mo.run (b : MoBase σ X Y C W P) (m : Mo σ) :
    List (X × List (List Y) × C × W) → Mo σ × Except PyErr Unit
  | [] => (m, .ok ())
  | (x, cols, c, w) :: rest =>
    let r := Mo.partialFit b m x cols c w
    match r.2 with
    | .error e => (r.1, .error e)
    | .ok _ => Mo.run b r.1 rest

/-- Column `j` of `predict_proba`, lines 205-244: entry 1 of each row of the base
estimator's probabilities (`proba s x` is that matrix); shorter rows raise. -/
def probaCol (proba : σ → X → List (List ℚ)) (s : σ) (x : X) : Except PyErr (List ℚ) :=
  (proba s x).foldr (fun row acc =>
    match acc, row[1]? with
    | .error e, _ => .error e
    | .ok _, none => .error .indexError
    | .ok ps, some p => .ok (p :: ps)) (.ok [])

/-! ### C123 -/

/-- The specification: one stand-alone estimator, given one target.  It is fitted on
the first batch and incrementally trained on the others; it gets the optional
arguments it can take. -/
def single (b : MoBase σ X Y C W P) (first : X × List Y × C × W) (rest : List (X × List Y × C × W)) : σ :=
  let arg (q : Bool) {α : Type} (a : α) : Option α := if q then some a else none
  rest.foldl (fun s q => b.partialFit s q.1 q.2.1 (arg b.pfSig.classes q.2.2.1) (arg b.pfSig.weight q.2.2.2))
    (b.fit b.init first.1 first.2.1 (arg b.fitSig.classes first.2.2.1) (arg b.fitSig.weight first.2.2.2))

/-- The part of a call that concerns target `j`. -/
def target (j : Nat) (q : X × List (List Y) × C × W) : X × List Y × C × W :=
  (q.1, (q.2.1[j]?).getD [], q.2.2)

theorem callWith_ok {sig : Sig} (h : sig.classes → sig.weight) (f : Option C → Option W → σ) (c : C) (w : W) :
    callWith sig f c w =
      .ok (f (if sig.classes then some c else none) (if sig.weight then some w else none)) := by
  obtain ⟨a, b⟩ := sig
  cases a <;> cases b <;> simp_all [callWith]

theorem trainCols_spec (call : σ → List Y → Except PyErr σ) (g : σ → List Y → σ)
    (hg : ∀ s col, call s col = .ok (g s col)) :
    ∀ (ens : List σ) (cols : List (List Y)), ens.length = cols.length →
      trainCols call ens cols = (List.zipWith g ens cols, .ok ()) := by
  intro ens
  induction ens with
  | nil => intro cols h; cases cols with
    | nil => rfl
    | cons a b => simp at h
  | cons s ens ih =>
    intro cols h
    cases cols with
    | nil => simp at h
    | cons col cols =>
      simp only [List.length_cons, Nat.add_right_cancel_iff] at h
      simp only [trainCols, hg, ih cols h, List.zipWith_cons_cons]

theorem run_from (b : MoBase σ X Y C W P) (hp : b.pfSig.classes → b.pfSig.weight) (L : Nat) :
    ∀ (qs : List (X × List (List Y) × C × W)) (ens : List σ), ens.length = L →
      (∀ q ∈ qs, q.2.1.length = L) →
      ∃ ens' : List σ, Mo.run b ⟨ens, some L⟩ qs = (⟨ens', some L⟩, .ok ()) ∧ ens'.length = L ∧
        ∀ j s, ens[j]? = some s → ens'[j]? = some ((qs.map (target j)).foldl (fun s q =>
          b.partialFit s q.1 q.2.1 (if b.pfSig.classes then some q.2.2.1 else none)
            (if b.pfSig.weight then some q.2.2.2 else none)) s) := by
  intro qs
  induction qs with
  | nil => intro ens h _; exact ⟨ens, rfl, h, fun j s hs => by simpa using hs⟩
  | cons q qs ih =>
    intro ens h hq
    obtain ⟨x, cols, c, w⟩ := q
    have hl : cols.length = L := hq _ List.mem_cons_self
    have e : Mo.partialFit b ⟨ens, some L⟩ x cols c w = (⟨List.zipWith (fun s col => b.partialFit s x col
        (if b.pfSig.classes then some c else none) (if b.pfSig.weight then some w else none)) ens cols,
        some L⟩, .ok ()) := by
      unfold Mo.partialFit
      simp only
      rw [trainCols_spec _ _ (fun s col => callWith_ok hp (b.partialFit s x col) c w) ens cols (by omega)]
      simp [hl]
    obtain ⟨ens', h1, h2, h3⟩ := ih (List.zipWith (fun s col => b.partialFit s x col
        (if b.pfSig.classes then some c else none) (if b.pfSig.weight then some w else none)) ens cols)
      (by simp [h, hl]) (fun q hq' => hq q (List.mem_cons_of_mem _ hq'))
    refine ⟨ens', ?_, h2, ?_⟩
    · simp only [Mo.run, e]
      exact h1
    · intro j s hs
      have hj : j < cols.length := by
        have := (List.getElem?_eq_some_iff.1 hs).1
        omega
      have hc : cols[j]? = some cols[j] := List.getElem?_eq_getElem hj
      have := h3 j _ (by rw [List.getElem?_zipWith, hs, hc])
      rw [this]
      simp [target, hc]

/-- **C123, partial.** For a base estimator whose methods take `sample_weight`
whenever they take `classes`, any number of `partial_fit` calls with `L` targets
trains `L` independent estimators: number `j` is what one estimator would be if
given target `j` alone, and column `j` of the prediction is its prediction.
Missing for the full claim: base estimators with `classes` but no weights, calls
with another number of targets, and `predict_proba`, see below. -/
theorem C123_independent_partial (b : MoBase σ X Y C W P)
    (hf : b.fitSig.classes → b.fitSig.weight) (hp : b.pfSig.classes → b.pfSig.weight) (L : Nat)
    (q : X × List (List Y) × C × W) (qs : List (X × List (List Y) × C × W))
    (hL : ∀ r ∈ q :: qs, r.2.1.length = L) (x : X) :
    let r := Mo.run b Mo.fresh (q :: qs)
    r.2 = .ok () ∧
    Mo.predict b r.1 x =
      .ok ((List.range L).map fun j => b.predict (single b (target j q) (qs.map (target j))) x) := by
  obtain ⟨x0, cols, c, w⟩ := q
  have hl : cols.length = L := hL _ List.mem_cons_self
  have e : Mo.fit b x0 cols c w = (⟨List.zipWith (fun s col => b.fit s x0 col
      (if b.fitSig.classes then some c else none) (if b.fitSig.weight then some w else none))
      (List.replicate L b.init) cols, some L⟩, .ok ()) := by
    unfold Mo.fit
    simp only
    rw [trainCols_spec _ _ (fun s col => callWith_ok hf (b.fit s x0 col) c w) _ cols (by simp)]
    simp [hl]
  obtain ⟨ens', h1, h2, h3⟩ := run_from b hp L qs (List.zipWith (fun s col => b.fit s x0 col
      (if b.fitSig.classes then some c else none) (if b.fitSig.weight then some w else none))
      (List.replicate L b.init) cols) (by simp [hl])
    (fun q hq' => hL q (List.mem_cons_of_mem _ hq'))
  have hr : Mo.run b Mo.fresh ((x0, cols, c, w) :: qs) = (⟨ens', some L⟩, .ok ()) := by
    simp only [Mo.run, Mo.partialFit, Mo.fresh, e]
    exact h1
  simp only [hr, true_and]
  unfold Mo.predict
  simp only [h2, le_refl, if_true]
  congr 1
  apply List.ext_getElem?
  intro j
  by_cases hj : j < L
  · have hc : cols[j]? = some cols[j] := List.getElem?_eq_getElem (by omega)
    have := h3 j _ (by
      rw [List.getElem?_zipWith, hc, List.getElem?_replicate, if_pos hj])
    rw [List.getElem?_map, List.getElem?_take, if_pos hj, this, List.getElem?_map,
      List.getElem?_range hj]
    simp [single, target, hc]
  · rw [List.getElem?_eq_none (by simp; omega), List.getElem?_eq_none (by simp; omega)]

/-- **C123, violated.** A base estimator whose `partial_fit` takes `classes` but not
`sample_weight` cannot be trained incrementally: every `partial_fit` after the first
raises, with or without weights. -/
theorem C123_classes_without_weight_violated (b : MoBase σ X Y C W P)
    (h1 : b.pfSig.classes = true) (h2 : b.pfSig.weight = false)
    (s : σ) (ens : List σ) (n : Nat) (x : X) (col : List Y) (cols : List (List Y)) (c : C) (w : W) :
    (Mo.partialFit b ⟨s :: ens, some n⟩ x (col :: cols) c w).2 = .error .typeError := by
  simp [Mo.partialFit, trainCols, callWith, h1, h2]

/-- **C123, violated.** The first `partial_fit` is a `fit`: when only the base's
`partial_fit` takes `classes`, the compulsory `classes` of the first call are never
handed over. -/
theorem C123_first_classes_lost_violated (b : MoBase σ X Y C W P) (h : b.fitSig.classes = false)
    (x : X) (cols : List (List Y)) (c c' : C) (w : W) :
    Mo.partialFit b Mo.fresh x cols c w = Mo.partialFit b Mo.fresh x cols c' w := by
  simp [Mo.partialFit, Mo.fresh, Mo.fit, callWith, h]

theorem trainCols_too_many (call : σ → List Y → Except PyErr σ) (g : σ → List Y → σ)
    (hg : ∀ s col, call s col = .ok (g s col)) :
    ∀ (ens : List σ) (cols : List (List Y)), ens.length < cols.length →
      trainCols call ens cols = (List.zipWith g ens cols, .error .indexError) := by
  intro ens
  induction ens with
  | nil => intro cols h; cases cols with
    | nil => simp at h
    | cons a b => rfl
  | cons s ens ih =>
    intro cols h
    cases cols with
    | nil => simp at h
    | cons col cols =>
      simp only [List.length_cons, Nat.add_lt_add_iff_right] at h
      simp only [trainCols, hg, ih cols h, List.zipWith_cons_cons]

/-- **C123, violated.** A batch with more targets than before raises, but only after
the existing estimators have been trained on it; from then on `predict` raises too. -/
theorem C123_more_targets_violated (b : MoBase σ X Y C W P) (hp : b.pfSig.classes → b.pfSig.weight)
    (ens : List σ) (n : Nat) (x x' : X) (cols : List (List Y)) (c : C) (w : W)
    (h : ens.length < cols.length) :
    let r := Mo.partialFit b ⟨ens, some n⟩ x cols c w
    r.2 = .error .indexError ∧
    r.1.ensemble = List.zipWith (fun s col => b.partialFit s x col
        (if b.pfSig.classes then some c else none) (if b.pfSig.weight then some w else none)) ens cols ∧
    Mo.predict b r.1 x' = .error .indexError := by
  have e := trainCols_too_many _ _ (fun s col => callWith_ok hp (b.partialFit s x col) c w) ens cols h
  refine ⟨by simp [Mo.partialFit, e], by simp [Mo.partialFit, e], ?_⟩
  simp only [Mo.partialFit, e, Mo.predict]
  rw [if_neg (by simp; omega)]

/-- **C123, violated.** `predict_proba` is documented to return, per sample and task,
the probabilities of all labels.  It returns one number per sample and task, that of
the second class: two matrices that agree there give the same answer. -/
theorem C123_predict_proba_violated (proba proba' : σ → X → List (List ℚ)) (s : σ) (x : X)
    (h : (proba s x).map (·[1]?) = (proba' s x).map (·[1]?)) :
    probaCol proba s x = probaCol proba' s x := by
  have key : ∀ m : List (List ℚ), m.foldr (fun row acc =>
      match acc, row[1]? with
      | .error e, _ => .error e
      | .ok _, none => .error .indexError
      | .ok ps, some p => .ok (p :: ps)) ((.ok [] : Except PyErr (List ℚ))) =
      (m.map (·[1]?)).foldr (fun (o : Option ℚ) (acc : Except PyErr (List ℚ)) =>
      match acc, o with
      | .error e, _ => .error e
      | .ok _, none => .error .indexError
      | .ok ps, some p => .ok (p :: ps)) (.ok []) := by
    intro m
    rw [List.foldr_map]
  unfold probaCol
  rw [key, key, h]

/-- `predict_proba` with rows of at least two entries: the second entries, in order. -/
theorem C123_predict_proba_value (proba : σ → X → List (List ℚ)) (s : σ) (x : X) (ps : List ℚ)
    (h : (proba s x).map (·[1]?) = ps.map some) : probaCol proba s x = .ok ps := by
  unfold probaCol
  generalize proba s x = m at h
  induction m generalizing ps with
  | nil =>
    cases ps with
    | nil => rfl
    | cons a b => simp at h
  | cons row m ih =>
    cases ps with
    | nil => simp at h
    | cons p ps =>
      simp only [List.map_cons, List.cons.injEq] at h
      simp only [List.foldr_cons, ih ps h.2, h.1]

/-! ### Non-vacuity -/

/-- A base that records its targets and how it was called. -/
def recorder (fs ps : Sig) : MoBase (List (Nat × Bool × Bool)) Nat Nat Nat Nat Nat :=
  ⟨[], fs, fun s _ col c w => s ++ [(col.sum, c.isSome, w.isSome)],
   ps, fun s _ col c w => s ++ [(col.sum, c.isSome, w.isSome)], fun s x => [x + (s.map Prod.fst).sum]⟩

/-- Two targets, two batches: each estimator sees its own column. -/
example : (Mo.run (recorder ⟨false, true⟩ ⟨true, true⟩) Mo.fresh
      [(0, [[1, 2], [10, 20]], 0, 0), (0, [[3, 4], [30, 40]], 0, 0)]).1.ensemble =
    [[(3, false, true), (7, true, true)], [(30, false, true), (70, true, true)]] := by decide

/-- Two three-class matrices that `predict_proba` cannot tell apart. -/
example : probaCol (fun (_ : Unit) (_ : Unit) => [[1/2, 1/4, 1/4]]) () () =
    probaCol (fun (_ : Unit) (_ : Unit) => [[0, 1/4, 3/4]]) () () :=
  C123_predict_proba_violated _ _ _ _ (by decide +kernel)

end Verif.Meta
