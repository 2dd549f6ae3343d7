import Verif.Common

/-!
Model of `core/pipeline.py` (Pipeline); C122.

Simplifications: a step is a state together with a table of the methods it has;
present methods do not raise and `fit` / `partial_fit` return the object itself.
A method table entry also says whether the method accepts a `classes` keyword.
Step names, `get_info`, `named_steps` and the `active` flag are not modelled.
-/

namespace Verif.Core

variable {σ ε X Y C P : Type}

/-- The methods of an intermediate step; `none` if it lacks the method.  The
Boolean of the incremental methods: they accept `classes`. -/
structure Tr (σ X Y C : Type) where
  fit : Option (σ → X → Y → σ)
  fitTransform : Option (σ → X → Y → σ × X)
  partialFit : Option (Bool × (σ → X → Y → C → σ))
  partialFitTransform : Option (Bool × (σ → X → Y → C → σ × X))
  transform : Option (σ → X → X)

/-- The final estimator; `takesClasses`: `partial_fit` has a `classes` argument. -/
structure Est (ε X Y C P : Type) where
  fit : ε → X → Y → ε
  takesClasses : Bool
  partialFit : ε → X → Y → Option C → ε
  predict : ε → X → P
  partialFitPredict : Option (ε → X → Y → ε × P)

/-- An intermediate step, possibly `None`. -/
abbrev Step (σ X Y C : Type) := Option (σ × Tr σ X Y C)

/-- A pipeline: `steps[:-1]` and `steps[-1]` (the final estimator may be `None`). -/
structure Pipe (σ ε X Y C P : Type) where
  steps : List (Step σ X Y C)
  final : Option (ε × Est ε X Y C P)

/-- `_validate_steps`, lines 239-270, run by the constructor. -/
def validate : List (Step σ X Y C) → Except PyErr Unit
  | [] => .ok ()
  | none :: rest => validate rest
  | some (_, t) :: rest =>
    if (!(t.fit.isSome || t.fitTransform.isSome)) || !t.transform.isSome then .error .typeError
    else validate rest

/-- Lines 101-104 of `predict`: `None` steps are skipped. -/
def transformAll : List (Step σ X Y C) → X → Except PyErr X
  | [], x => .ok x
  | none :: rest, x => transformAll rest x
  | some (s, t) :: rest, x =>
    match t.transform with
    | none => .error .attributeError
    | some g => transformAll rest (g s x)

/-- `predict`, lines 85-105. -/
def Pipe.predict (p : Pipe σ ε X Y C P) (x : X) : Except PyErr P :=
  match transformAll p.steps x with
  | .error e => .error e
  | .ok xt =>
    match p.final with
    | none => .error .attributeError
    | some (s, e) => .ok (e.predict s xt)

/-- Lines 128-135 of `fit`: a `None` step is not skipped (`pass`), so `None.fit` is looked up. -/
def fitSteps (y : Y) : List (Step σ X Y C) → X → List (Step σ X Y C) × Except PyErr X
  | [], x => ([], .ok x)
  | none :: rest, _ => (none :: rest, .error .attributeError)
  | some (s, t) :: rest, x =>
    match t.fitTransform with
    | some f =>
      let q := f s x y
      let r := fitSteps y rest q.2
      (some (q.1, t) :: r.1, r.2)
    | none =>
      match t.fit with
      | none => (some (s, t) :: rest, .error .attributeError)
      | some f =>
        match t.transform with
        | none => (some (f s x y, t) :: rest, .error .attributeError)
        | some g =>
          let r := fitSteps y rest (g (f s x y) x)
          (some (f s x y, t) :: r.1, r.2)

/-- `fit`, lines 107-140. -/
def Pipe.fit (p : Pipe σ ε X Y C P) (x : X) (y : Y) : Pipe σ ε X Y C P × Except PyErr Unit :=
  let r := fitSteps y p.steps x
  match r.2 with
  | .error e => ({ p with steps := r.1 }, .error e)
  | .ok xt => (⟨r.1, p.final.map fun q => (q.2.fit q.1 xt y, q.2)⟩, .ok ())

/-- Lines 166-173 of `partial_fit`: the test is for `fit_transform`, the call is to
`partial_fit_transform`; `classes` is always passed on. -/
def partialFitSteps (y : Y) (c : C) : List (Step σ X Y C) → X → List (Step σ X Y C) × Except PyErr X
  | [], x => ([], .ok x)
  | none :: rest, _ => (none :: rest, .error .attributeError)
  | some (s, t) :: rest, x =>
    if t.fitTransform.isSome then
      match t.partialFitTransform with
      | none => (some (s, t) :: rest, .error .attributeError)
      | some (false, _) => (some (s, t) :: rest, .error .typeError)
      | some (true, f) =>
        let q := f s x y c
        let r := partialFitSteps y c rest q.2
        (some (q.1, t) :: r.1, r.2)
    else
      match t.partialFit with
      | none => (some (s, t) :: rest, .error .attributeError)
      | some (false, _) => (some (s, t) :: rest, .error .typeError)
      | some (true, f) =>
        match t.transform with
        | none => (some (f s x y c, t) :: rest, .error .attributeError)
        | some g =>
          let r := partialFitSteps y c rest (g (f s x y c) x)
          (some (f s x y c, t) :: r.1, r.2)

/-- `partial_fit`, lines 142-180. -/
def Pipe.partialFit (p : Pipe σ ε X Y C P) (x : X) (y : Y) (c : C) :
    Pipe σ ε X Y C P × Except PyErr Unit :=
  let r := partialFitSteps y c p.steps x
  match r.2 with
  | .error e => ({ p with steps := r.1 }, .error e)
  | .ok xt =>
    (⟨r.1, p.final.map fun q =>
      (q.2.partialFit q.1 xt y (if q.2.takesClasses then some c else none), q.2)⟩, .ok ())

/-- Lines 202-209 of `partial_fit_predict`: no `classes`; `dflt` is the default of
the steps' own `classes` argument. -/
def pfpSteps (y : Y) (dflt : C) : List (Step σ X Y C) → X → List (Step σ X Y C) × Except PyErr X
  | [], x => ([], .ok x)
  | none :: rest, _ => (none :: rest, .error .attributeError)
  | some (s, t) :: rest, x =>
    match t.partialFitTransform with
    | some (_, f) =>
      let q := f s x y dflt
      let r := pfpSteps y dflt rest q.2
      (some (q.1, t) :: r.1, r.2)
    | none =>
      match t.partialFit with
      | none => (some (s, t) :: rest, .error .attributeError)
      | some (_, f) =>
        match t.transform with
        | none => (some (f s x y dflt, t) :: rest, .error .attributeError)
        | some g =>
          let r := pfpSteps y dflt rest (g (f s x y dflt) x)
          (some (f s x y dflt, t) :: r.1, r.2)

/-- `partial_fit_predict`, lines 182-214. -/
def Pipe.partialFitPredict (p : Pipe σ ε X Y C P) (dflt : C) (x : X) (y : Y) :
    Pipe σ ε X Y C P × Except PyErr P :=
  let r := pfpSteps y dflt p.steps x
  match r.2 with
  | .error e => ({ p with steps := r.1 }, .error e)
  | .ok xt =>
    match p.final with
    | none => (⟨r.1, none⟩, .error .attributeError)
    | some (s, e) =>
      match e.partialFitPredict with
      | some f => let q := f s xt y; (⟨r.1, some (q.1, e)⟩, .ok q.2)
      | none =>
        let s' := e.partialFit s xt y none
        (⟨r.1, some (s', e)⟩, .ok (e.predict s' xt))

/-! ### C122 -/

/-- A step that can be used in a stream: it learns with `pf` and transforms with
`g`; its combined methods, where present, do both in that order. -/
structure Incremental (pf : σ → X → Y → C → σ) (g : σ → X → X) (t : Tr σ X Y C) : Prop where
  partialFit : t.partialFit = some (true, pf)
  transform : t.transform = some g
  combined : t.fitTransform.isSome → ∃ f, t.partialFitTransform = some (true, f) ∧
    ∀ s x y c, f s x y c = (pf s x y c, g (pf s x y c) x)
  combined' : ∀ b f, t.partialFitTransform = some (b, f) →
    ∀ s x y c, f s x y c = (pf s x y c, g (pf s x y c) x)

theorem partialFitSteps_spec (y : Y) (c : C) : ∀ (steps : List (Step σ X Y C)) (x : X),
    (∀ st ∈ steps, ∃ s t pf g, st = some (s, t) ∧ Incremental pf g t) →
    ∃ steps' xt, partialFitSteps y c steps x = (steps', .ok xt) ∧ steps'.length = steps.length ∧
      transformAll steps' x = .ok xt ∧
      ∀ i s t pf g, steps[i]? = some (some (s, t)) → Incremental pf g t →
        ∃ xi, transformAll (steps'.take i) x = .ok xi ∧ steps'[i]? = some (some (pf s xi y c, t)) := by
  intro steps
  induction steps with
  | nil => intro x _; exact ⟨[], x, rfl, rfl, rfl, by simp⟩
  | cons st rest ih =>
    intro x h
    obtain ⟨s, t, pf, g, rfl, ht⟩ := h _ List.mem_cons_self
    obtain ⟨rest', xt, h1, h2, h3, h4⟩ := ih (g (pf s x y c) x)
      (fun st hst => h st (List.mem_cons_of_mem _ hst))
    have e : partialFitSteps y c (some (s, t) :: rest) x = (some (pf s x y c, t) :: rest', .ok xt) := by
      unfold partialFitSteps
      by_cases hf : t.fitTransform.isSome = true
      · obtain ⟨f, hf1, hf2⟩ := ht.combined hf
        rw [if_pos hf]
        simp only [hf1, hf2, h1]
      · rw [if_neg hf]
        simp only [ht.partialFit, ht.transform, h1]
    refine ⟨_, xt, e, by simp [h2], by simp only [transformAll, ht.transform, h3], ?_⟩
    intro i s1 t1 pf1 g1 hi hinc
    cases i with
    | zero =>
      simp only [List.getElem?_cons_zero, Option.some.injEq, Prod.mk.injEq] at hi
      obtain ⟨rfl, rfl⟩ := hi
      have : pf1 = pf := by
        have := hinc.partialFit
        rw [ht.partialFit] at this
        simpa using this.symm
      subst this
      exact ⟨x, rfl, rfl⟩
    | succ i =>
      simp only [List.getElem?_cons_succ] at hi
      obtain ⟨xi, k1, k2⟩ := h4 i s1 t1 pf1 g1 hi hinc
      refine ⟨xi, ?_, by simpa using k2⟩
      simp only [List.take_succ_cons, transformAll, ht.transform, k1]

/-- **C122, partial.** When every step is a usable incremental transformer,
`partial_fit(X, y)` succeeds; step `i` learns from the data as the steps before it
(already updated) transform it; and the estimator is trained once, on exactly the
data that `predict(X)` would hand it afterwards.  Missing for the full claim: the
documented step kinds that are rejected or raise, see the `violated` theorems. -/
theorem C122_partial_fit_partial (p : Pipe σ ε X Y C P) (s0 : ε) (e : Est ε X Y C P)
    (hfin : p.final = some (s0, e))
    (hs : ∀ st ∈ p.steps, ∃ s t pf g, st = some (s, t) ∧ Incremental pf g t)
    (x : X) (y : Y) (c : C) :
    ∃ p' xt, p.partialFit x y c = (p', .ok ()) ∧
      transformAll p'.steps x = .ok xt ∧
      p'.final = some (e.partialFit s0 xt y (if e.takesClasses then some c else none), e) ∧
      p'.predict x = .ok (e.predict (e.partialFit s0 xt y (if e.takesClasses then some c else none)) xt) ∧
      ∀ i s t pf g, p.steps[i]? = some (some (s, t)) → Incremental pf g t →
        ∃ xi, transformAll (p'.steps.take i) x = .ok xi ∧
          p'.steps[i]? = some (some (pf s xi y c, t)) := by
  obtain ⟨steps', xt, h1, _, h3, h4⟩ := partialFitSteps_spec y c p.steps x hs
  refine ⟨⟨steps', some (e.partialFit s0 xt y (if e.takesClasses then some c else none), e)⟩, xt,
    ?_, h3, rfl, ?_, h4⟩
  · unfold Pipe.partialFit
    simp only [h1, hfin, Option.map_some]
  · unfold Pipe.predict
    simp only [h3]

theorem pfpSteps_spec (y : Y) (dflt : C) : ∀ (steps : List (Step σ X Y C)) (x : X),
    (∀ st ∈ steps, ∃ s t pf g, st = some (s, t) ∧ Incremental pf g t) →
    pfpSteps y dflt steps x = partialFitSteps y dflt steps x := by
  intro steps
  induction steps with
  | nil => intro x _; rfl
  | cons st rest ih =>
    intro x h
    obtain ⟨s, t, pf, g, rfl, ht⟩ := h _ List.mem_cons_self
    have hr := ih (g (pf s x y dflt) x) (fun st hst => h st (List.mem_cons_of_mem _ hst))
    unfold pfpSteps partialFitSteps
    by_cases hf : t.fitTransform.isSome = true
    · obtain ⟨f, hf1, hf2⟩ := ht.combined hf
      rw [if_pos hf]
      simp only [hf1, hf2, hr]
    · rw [if_neg hf]
      simp only [ht.partialFit, ht.transform]
      cases hp : t.partialFitTransform with
      | none => simp only [hr]
      | some q =>
        obtain ⟨b, f⟩ := q
        simp only [ht.combined' b f hp, hr]

/-- **C122, partial.** On such a pipeline `partial_fit_predict(X, y)` is
`partial_fit(X, y)` without classes, followed by the prediction for `X` — when the
estimator's own `partial_fit_predict` is missing or does the same. -/
theorem C122_partial_fit_predict_partial (p : Pipe σ ε X Y C P) (s0 : ε) (e : Est ε X Y C P)
    (hfin : p.final = some (s0, e))
    (hs : ∀ st ∈ p.steps, ∃ s t pf g, st = some (s, t) ∧ Incremental pf g t)
    (dflt : C) (hd : ∀ s x y, e.partialFit s x y (if e.takesClasses then some dflt else none) =
      e.partialFit s x y none)
    (he : ∀ f, e.partialFitPredict = some f → ∀ s x y,
      f s x y = (e.partialFit s x y none, e.predict (e.partialFit s x y none) x))
    (x : X) (y : Y) :
    (p.partialFitPredict dflt x y).1 = (p.partialFit x y dflt).1 ∧
    (p.partialFitPredict dflt x y).2 = (p.partialFit x y dflt).1.predict x := by
  obtain ⟨steps', xt, h1, _, h3, _⟩ := partialFitSteps_spec y dflt p.steps x hs
  unfold Pipe.partialFitPredict Pipe.partialFit
  rw [pfpSteps_spec y dflt p.steps x hs]
  simp only [h1, hfin, Option.map_some, hd]
  cases hf : e.partialFitPredict with
  | none => simp only [Pipe.predict, h3]; exact ⟨trivial, trivial⟩
  | some f => simp only [he f hf, Pipe.predict, h3]; exact ⟨trivial, trivial⟩

/-- **C122, violated.** A `None` step passes the constructor and is skipped by
`predict`, but `fit`, `partial_fit` and `partial_fit_predict` raise. -/
theorem C122_none_step_violated (rest : List (Step σ X Y C)) (s0 : ε) (e : Est ε X Y C P)
    (x : X) (y : Y) (c : C) :
    let p : Pipe σ ε X Y C P := ⟨none :: rest, some (s0, e)⟩
    validate p.steps = validate rest ∧
    p.predict x = (⟨rest, some (s0, e)⟩ : Pipe σ ε X Y C P).predict x ∧
    (p.fit x y).2 = .error .attributeError ∧
    (p.partialFit x y c).2 = .error .attributeError ∧
    (p.partialFitPredict c x y).2 = .error .attributeError :=
  ⟨rfl, rfl, rfl, rfl, rfl⟩

/-- **C122, violated.** A step with `transform`, `partial_fit` and
`partial_fit_transform` but neither `fit` nor `fit_transform` is rejected by the
constructor, although this is what the documentation asks for and what the
library's `WindowedMinmaxScaler`, `WindowedStandardScaler` and
`MissingValuesCleaner` are. -/
theorem C122_streaming_transformer_rejected_violated (before rest : List (Step σ X Y C))
    (hb : validate before = .ok ()) (s : σ) (pf : Bool × (σ → X → Y → C → σ))
    (pft : Bool × (σ → X → Y → C → σ × X)) (g : σ → X → X) :
    validate (before ++ some (s, ⟨none, none, some pf, some pft, some g⟩) :: rest) =
      .error .typeError := by
  induction before with
  | nil => rfl
  | cons st before ih =>
    cases st with
    | none => exact ih hb
    | some q =>
      obtain ⟨s', t⟩ := q
      simp only [validate, List.cons_append] at hb ⊢
      split at hb
      · cases hb
      · rename_i h
        rw [if_neg h]
        exact ih hb

/-- **C122, violated.** A first step with `fit`, `fit_transform`, `partial_fit` and
`transform` but no `partial_fit_transform` (scikit-learn's incremental scalers)
is accepted and can be used by `fit`, but `partial_fit` raises. -/
theorem C122_missing_combined_violated (rest : List (Step σ X Y C)) (s : σ) (f : σ → X → Y → σ)
    (ft : σ → X → Y → σ × X) (pf : Bool × (σ → X → Y → C → σ)) (g : σ → X → X)
    (final : Option (ε × Est ε X Y C P)) (x : X) (y : Y) (c : C) :
    let t : Tr σ X Y C := ⟨some f, some ft, some pf, none, some g⟩
    validate (some (s, t) :: rest) = validate rest ∧
    ((⟨some (s, t) :: rest, final⟩ : Pipe σ ε X Y C P).partialFit x y c).2 =
      .error .attributeError :=
  ⟨rfl, rfl⟩

/-- **C122, violated.** A step whose `partial_fit` takes only `X` and `y`, the
signature of the library's `StreamTransform`, is accepted if it also has `fit`,
but `partial_fit` of the pipeline raises, whether classes are given or not. -/
theorem C122_classes_keyword_violated (rest : List (Step σ X Y C)) (s : σ) (f : σ → X → Y → σ)
    (pf : σ → X → Y → C → σ) (pft : Option (Bool × (σ → X → Y → C → σ × X))) (g : σ → X → X)
    (final : Option (ε × Est ε X Y C P)) (x : X) (y : Y) (c : C) :
    let t : Tr σ X Y C := ⟨some f, none, some (false, pf), pft, some g⟩
    validate (some (s, t) :: rest) = validate rest ∧
    ((⟨some (s, t) :: rest, final⟩ : Pipe σ ε X Y C P).partialFit x y c).2 = .error .typeError :=
  ⟨rfl, rfl⟩

/-- **C122, violated.** A pipeline that raises in a later step has already trained
the steps before it: the call is not undone. -/
theorem C122_half_trained_violated (s : σ) (t : Tr σ X Y C) (pf : σ → X → Y → C → σ) (g : σ → X → X)
    (ht : Incremental pf g t) (hn : t.fitTransform = none) (final : Option (ε × Est ε X Y C P))
    (x : X) (y : Y) (c : C) :
    (⟨[some (s, t), none], final⟩ : Pipe σ ε X Y C P).partialFit x y c =
      (⟨[some (pf s x y c, t), none], final⟩, .error .attributeError) := by
  unfold Pipe.partialFit partialFitSteps
  simp [hn, ht.partialFit, ht.transform, partialFitSteps]

/-! ### Non-vacuity -/

/-- A step that subtracts the largest value seen, learning incrementally. -/
def shift : Tr Nat Nat Nat Nat :=
  ⟨some fun s x _ => max s x, none, some (true, fun s x _ _ => max s x), none, some fun s x => s - x⟩

theorem shift_incremental : Incremental (fun s x _ _ => max s x) (fun s x => s - x) shift :=
  ⟨rfl, rfl, by simp [shift], by simp [shift]⟩

/-- An estimator that lists what it was trained on and predicts the sum with its input. -/
def lister : Est (List (Nat × Nat)) Nat Nat Nat Nat :=
  ⟨fun s x y => s ++ [(x, y)], true, fun s x y _ => s ++ [(x, y)],
   fun s x => x + (s.map Prod.fst).sum, none⟩

/-- Two steps and an estimator: trained on 3, transformed to 10 - 3 = 7 and then to 8 - 7 = 1. -/
example : ((⟨[some (10, shift), some (8, shift)], some ([], lister)⟩ :
      Pipe Nat (List (Nat × Nat)) Nat Nat Nat Nat).partialFit 3 5 0).1.final.map Prod.fst =
    some [(1, 5)] := by decide

end Verif.Core
