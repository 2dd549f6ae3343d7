import Verif.Common

/-!
# The perceptron of scikit-learn as a stream learner (C270)

`PerceptronMask` wraps a `Perceptron` that its constructor builds from the parameters. The wrapped
class is arbitrary: how it is built from parameters, learns and predicts are parameters of the model.
Not modelled: numpy conversions of the predictions.
-/

namespace Verif.Neural

variable {κ ν S X Y W R : Type} [DecidableEq κ]

/-- The wrapped class: construction from parameter values, `fit`, `partial_fit` (with classes and
weights), `predict`, `_predict_proba_lr`. -/
structure Wrapped (κ ν S X Y W R : Type) where
  new : (κ → ν) → S
  fit : S → X → Y → Option W → S
  partialFit : S → X → Y → Option Y → Option W → S
  predict : S → X → R
  proba : S → X → R

/-- A `PerceptronMask`: the parameters as attributes, and `classifier`. -/
structure Mask (κ ν S : Type) where
  params : κ → ν
  classifier : S

/-- `__init__`, perceptron.py 39-85. -/
def Mask.init (C : Wrapped κ ν S X Y W R) (p : κ → ν) : Mask κ ν S := ⟨p, C.new p⟩

/-- What a user does with it: `fit(X, y, classes, sample_weight)`, `partial_fit(...)`,
`set_params(k=v)`, `reset()`. -/
inductive Call (κ ν X Y W : Type) where
  | fit (x : X) (y : Y) (classes : Option Y) (weight : Option W)
  | partialFit (x : X) (y : Y) (classes : Option Y) (weight : Option W)
  | setParam (k : κ) (v : ν)
  | reset

/-- One call: perceptron.py 109, 136; core/base.py 209-244 (`set_params` sets the attribute), 344-356
(`reset` calls `__init__` with the present parameters; C243 says for which values). -/
def Mask.step (C : Wrapped κ ν S X Y W R) (m : Mask κ ν S) : Call κ ν X Y W → Mask κ ν S
  | .fit x y _ w => ⟨m.params, C.fit m.classifier x y w⟩
  | .partialFit x y c w => ⟨m.params, C.partialFit m.classifier x y c w⟩
  | .setParam k v => ⟨fun j => if j = k then v else m.params j, m.classifier⟩
  | .reset => Mask.init C m.params

/-- Several calls. -/
def Mask.run (C : Wrapped κ ν S X Y W R) (m : Mask κ ν S) (cs : List (Call κ ν X Y W)) : Mask κ ν S :=
  cs.foldl (Mask.step C) m

/-- `predict`, perceptron.py 155. -/
def Mask.predict (C : Wrapped κ ν S X Y W R) (m : Mask κ ν S) (x : X) : R := C.predict m.classifier x

/-- `predict_proba`, perceptron.py 174. -/
def Mask.proba (C : Wrapped κ ν S X Y W R) (m : Mask κ ν S) (x : X) : R := C.proba m.classifier x

/-! ## What is claimed -/

/-- The call as one makes it to a `Perceptron`, which has no classes in `fit`. -/
def direct (C : Wrapped κ ν S X Y W R) (s : S) : Call κ ν X Y W → S
  | .fit x y _ w => C.fit s x y w
  | .partialFit x y c w => C.partialFit s x y c w
  | _ => s

/-- The call teaches. -/
def Call.Teaches : Call κ ν X Y W → Prop
  | .fit .. | .partialFit .. => True
  | _ => False

/-- The parameters after some calls of `set_params`. -/
def setAll (p : κ → ν) : List (κ × ν) → κ → ν
  | [], k => p k
  | (j, v) :: l, k => setAll (fun i => if i = j then v else p i) l k

theorem run_teach (C : Wrapped κ ν S X Y W R) (cs : List (Call κ ν X Y W)) (h : ∀ c ∈ cs, c.Teaches) (m : Mask κ ν S) :
    m.run C cs = ⟨m.params, cs.foldl (direct C) m.classifier⟩ := by
  induction cs generalizing m with
  | nil => rfl
  | cons c cs ih =>
    rw [Mask.run, List.foldl_cons, ← Mask.run, ih fun d hd => h d (by simp [hd])]
    have := h c (by simp)
    cases c with
    | fit x y k w => rfl
    | partialFit x y k w => rfl
    | setParam k v => exact this.elim
    | reset => exact this.elim

theorem run_params (C : Wrapped κ ν S X Y W R) (l : List (κ × ν)) (m : Mask κ ν S) :
    m.run C (l.map fun p => .setParam p.1 p.2) = ⟨setAll m.params l, m.classifier⟩ := by
  induction l generalizing m with
  | nil => rfl
  | cons q l ih =>
    rw [List.map_cons, Mask.run, List.foldl_cons, ← Mask.run, ih]
    rfl

/-- C270 (partial): constructed, or reset, and then taught by any calls of `fit` and `partial_fit`, a
`PerceptronMask` answers as the `Perceptron` built with its present parameters and taught by the same
calls. Parameters set before the reset count. -/
theorem C270_perceptron_partial (C : Wrapped κ ν S X Y W R) (p : κ → ν) (before cs : List (Call κ ν X Y W))
    (sets : List (κ × ν)) (h : ∀ c ∈ cs, c.Teaches) (x : X) :
    (((Mask.init C p).run C cs).predict C x = C.predict (cs.foldl (direct C) (C.new p)) x ∧
      ((Mask.init C p).run C cs).proba C x = C.proba (cs.foldl (direct C) (C.new p)) x) ∧
    (let m := (Mask.init C p).run C before
     let p' := setAll m.params sets
     let m' := m.run C (sets.map (fun q => .setParam q.1 q.2) ++ .reset :: cs)
     m'.params = p' ∧ m'.predict C x = C.predict (cs.foldl (direct C) (C.new p')) x ∧
      m'.proba C x = C.proba (cs.foldl (direct C) (C.new p')) x) := by
  refine ⟨⟨?_, ?_⟩, ?_⟩
  · rw [run_teach C cs h]; rfl
  · rw [run_teach C cs h]; rfl
  · intro m p' m'
    have : m' = ⟨p', cs.foldl (direct C) (C.new p')⟩ := by
      change m.run C _ = _
      unfold Mask.run
      rw [List.foldl_append, List.foldl_cons, ← Mask.run, ← Mask.run, run_params, run_teach C cs h]
      rfl
    rw [this]
    exact ⟨rfl, rfl, rfl⟩

/-- C270 (violated): parameters set by `set_params` are reported by `get_params` and have no effect on
what is learned and answered, before or after more teaching, with `fit` too. -/
theorem C270_set_params_violated (C : Wrapped κ ν S X Y W R) (m : Mask κ ν S) (sets : List (κ × ν))
    (cs : List (Call κ ν X Y W)) (h : ∀ c ∈ cs, c.Teaches) (x : X) :
    let m' := m.run C (sets.map (fun q => .setParam q.1 q.2) ++ cs)
    m'.params = setAll m.params sets ∧ m'.predict C x = (m.run C cs).predict C x ∧
      m'.proba C x = (m.run C cs).proba C x := by
  have : m.run C (sets.map (fun q => .setParam q.1 q.2) ++ cs) =
      ⟨setAll m.params sets, (m.run C cs).classifier⟩ := by
    conv_lhs => unfold Mask.run
    rw [List.foldl_append, ← Mask.run, ← Mask.run, run_params, run_teach C cs h, run_teach C cs h]
  intro m'
  change (m.run C _).params = _ ∧ Mask.predict C (m.run C _) x = _ ∧ Mask.proba C (m.run C _) x = _
  rw [this]
  exact ⟨rfl, rfl, rfl⟩

/-- A learner that adds `eta0` times the label to its weight. -/
def adder : Wrapped Unit Int (Int × Int) Unit Int Unit Int where
  new p := (p (), 0)
  fit s _ y _ := (s.1, s.1 * y)
  partialFit s _ y _ _ := (s.1, s.2 + s.1 * y)
  predict s _ := s.2
  proba s _ := s.2

/-- With `eta0` set from 1 to 5 the mask still learns with 1, a new one with 5. -/
example : (((Mask.init adder fun _ => 1).run adder [.setParam () 5, .fit () 3 none none]).predict adder () = 3) ∧
    (((Mask.init adder fun _ => 5).run adder [.fit () 3 none none]).predict adder () = 15) ∧
    (((Mask.init adder fun _ => 1).run adder [.setParam () 5, .reset, .fit () 3 none none]).predict adder () = 15) := by
  decide

end Verif.Neural
