import Verif.Evaluation.Reuse

/-!
C57 derived from the statements of the evaluation: in the model of `Evaluation/Reuse.lean` the
attribute `time_manager` may or may not exist, reading a missing one raises where the code reads it
(evaluate_prequential_delayed.py 437 and 472), and the main loop catches exceptions (464-468).
-/

namespace Verif.Evaluation.Reuse

variable {σ β T Q : Type}

theorem delayedLoop_without (gs : List Char → Nat) (limit : Nat) (J : Job σ β T Q) (p : Par) (fuel k : Nat)
    (st : σ) (e : Ev Q) :
    ∃ st', delayedLoop gs limit J p (fuel + 1) k st none e = some (st', none, e) ∧
      (st' = st ∨ st' = (J.fetch p.batch st).1) := by
  rw [delayedLoop]
  split
  · unfold delayedIter
    cases hf : J.fetch p.batch st with
    | mk s' r =>
      cases r with
      | error x => exact ⟨s', rfl, .inr rfl⟩
      | ok b => exact ⟨s', rfl, .inr rfl⟩
  · exact ⟨st, rfl, .inl rfl⟩

theorem delayed_without (gs : List Char → Nat) (limit fuel : Nat) (J : Job σ β T Q) (p : Par) (hp : p.pretrain = 0)
    (n : Nat) (st : σ) (e : Ev Q) :
    ∃ st', delayed gs limit (fuel + 1) J p n st none e =
        some ((st', start J p n st e, some .attributeError), none) ∧
      (st' = st ∨ st' = (J.fetch p.batch st).1) := by
  obtain ⟨st', h1, h2⟩ := delayedLoop_without gs limit J p fuel 0 st (start J p n st e)
  refine ⟨st', ?_, h2⟩
  unfold delayed
  simp only [hp, gt_iff_lt, Nat.lt_irrefl, if_false]
  unfold delayedRest
  rw [h1]
  rfl

/-- C57: a new delayed evaluator with `pretrain_size=0` raises `AttributeError` on every stream, with
every model. At most one batch was fetched from the stream, no model was trained or asked, nothing was
counted and nothing reported, and the evaluator still has no time manager. -/
theorem C57_new_evaluator_raises (gs : List Char → Nat) (limit fuel : Nat) (J : Job σ β T Q) (p : Par)
    (hp : p.pretrain = 0) (files : Nat → List Char) (st : σ) :
    ∃ st' e o, evaluate gs limit (fuel + 1) J st (construct .delayed p files) =
        some ((st', e, some .attributeError), o) ∧
      (st' = st ∨ st' = (J.fetch p.batch st).1) ∧
      e.count = 0 ∧ e.mean = [] ∧ e.rows = [] ∧ o.tm = none := by
  obtain ⟨st', h1, h2⟩ := delayed_without gs limit fuel J p hp (windowPar .delayed p) st
    (construct (β := β) (T := T) (Q := Q) .delayed p files).ev
  have he : evaluate gs limit (fuel + 1) J st (construct .delayed p files) =
      (delayed gs limit (fuel + 1) J p (windowPar .delayed p) st none
        (construct (β := β) (T := T) (Q := Q) .delayed p files).ev).map fun r =>
          (r.1, ({ (construct .delayed p files : Obj β T Q) with ev := r.1.2.1, tm := r.2 } : Obj β T Q)) := rfl
  rw [he, h1]
  exact ⟨st', _, _, rfl, h2, rfl, rfl, rfl, rfl⟩

/-- Evaluations, or parameters given that keep `pretrain_size` at 0. -/
def NoPretrain : Op σ β T Q → Prop
  | .set p => p.pretrain = 0
  | .eval fuel _ _ => 0 < fuel

/-- C57: trying again does not help: as long as `pretrain_size` stays 0 every evaluation of the object
raises `AttributeError`, whatever streams, models and other parameters it is given. -/
theorem C57_every_evaluation_raises (gs : List Char → Nat) (limit : Nat) (p : Par) (hp : p.pretrain = 0)
    (files : Nat → List Char) (ops : List (Op σ β T Q)) (ho : ∀ op ∈ ops, NoPretrain op) :
    ∃ o, life gs limit (construct .delayed p files) ops =
      some (o, ops.map fun op => match op with
        | .set _ => none
        | .eval _ _ _ => some .attributeError) := by
  have gen : ∀ (ops : List (Op σ β T Q)), (∀ op ∈ ops, NoPretrain op) → ∀ o : Obj β T Q,
      o.kind = .delayed → o.par.pretrain = 0 → o.tm = none →
      ∃ o', life gs limit o ops = some (o', ops.map fun op => match op with
        | .set _ => none
        | .eval _ _ _ => some .attributeError) := by
    intro ops
    induction ops with
    | nil => intro _ o _ _ _; exact ⟨o, rfl⟩
    | cons op ops ih =>
      intro ho o hk hp ht
      have hrest : ∀ op ∈ ops, NoPretrain op := fun q hq => ho q (by simp [hq])
      cases op with
      | set p' =>
        obtain ⟨o', h⟩ := ih hrest { o with par := p' } hk (ho (.set p') (by simp)) ht
        refine ⟨o', ?_⟩
        rw [life]
        simp only [step]
        rw [h]
        rfl
      | eval fuel J st =>
        obtain ⟨fuel, rfl⟩ : ∃ m, fuel = m + 1 := ⟨fuel - 1, by
          have : 0 < fuel := ho (.eval fuel J st) (by simp)
          omega⟩
        obtain ⟨st', h1, -⟩ := delayed_without gs limit fuel J o.par hp o.nSliding st o.ev
        have he : evaluate gs limit (fuel + 1) J st o =
            some ((st', start J o.par o.nSliding st o.ev, some .attributeError),
              { o with ev := start J o.par o.nSliding st o.ev, tm := none }) := by
          unfold evaluate
          rw [hk]
          simp only [ht]
          rw [h1]
          rfl
        obtain ⟨o', h⟩ := ih hrest { o with ev := start J o.par o.nSliding st o.ev, tm := none } hk hp rfl
        refine ⟨o', ?_⟩
        rw [life]
        simp only [step, he, Option.map_some]
        rw [h]
        rfl
  exact gen ops ho _ rfl hp rfl

/-- With a pre-training block of one sample the same evaluation succeeds. -/
example : ((evaluate exSize 8192 99 (exJob false) [7, 8, 9] (construct .delayed (exPar 2 0 2) fun _ => [])).map
      fun r => (r.1.1, r.1.2.2)) = some ([8, 9], some .attributeError) ∧
    ((evaluate exSize 8192 99 (exJob false) [7, 8, 9] (construct .delayed (exPar 2 1 2) fun _ => [])).map
      fun r => (r.1.1, r.1.2.2)) = some ([], none) := by decide +kernel

end Verif.Evaluation.Reuse
