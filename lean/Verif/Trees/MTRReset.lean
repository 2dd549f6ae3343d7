import Verif.Trees.MTRAdapt

/-!
C204: `reset` of the regression trees and `predict` without training.
-/

namespace Verif.Trees.HR

/-- `reset`, inherited by the single-target tree: hoeffding_tree.py 235-247; the sums stay. -/
def Reg.reset {O : Type} (h : Reg O) : Reg O := ⟨h.sums, none⟩

end Verif.Trees.HR

namespace Verif.Trees.MT

open Verif.Trees Verif.Trees.Grow

variable {O H : Type} {T : Nat}

/-! ### Specification -/

/-- Calls of `partial_fit` one after the other. -/
def fitAll (cfg : Cfg T O H) (m : Model T O H) : List (List (Ev T O H)) → Except PyErr (Model T O H)
  | [] => .ok m
  | c :: cs =>
    match m.partialFit cfg c with
    | .error e => .error e
    | .ok m' => fitAll cfg m' cs

/-! ### Proofs -/

theorem step_mean (cfg : Cfg T O Unit) (hm : cfg.head = meanHead T) (h g : Reg T O Unit) (hr : h.root = g.root) (e : Ev T O Unit) :
    (step cfg h e).map Reg.root = (step cfg g e).map Reg.root := by
  unfold step
  simp only [hr]
  have h1 : (fun l : Leaf T O Unit => l.learn cfg (h.sums.add e.x e.y e.w) e) =
      fun l => l.learn cfg (g.sums.add e.x e.y e.w) e := by
    funext l; rw [learn_mean cfg hm, learn_mean cfg hm]
  have h2 : (fun l : Leaf T O Unit => (l.learn cfg (h.sums.add e.x e.y e.w) e).map (attempt cfg e)) =
      fun l => (l.learn cfg (g.sums.add e.x e.y e.w) e).map (attempt cfg e) := by
    funext l; rw [learn_mean cfg hm, learn_mean cfg hm]
  rw [h1, h2]
  cases (g.root.getD (.leaf (newLeaf cfg))).learn e.x (fun l => (l.learn cfg (g.sums.add e.x e.y e.w) e).map (attempt cfg e))
      (fun l => l.learn cfg (g.sums.add e.x e.y e.w) e) (newLeaf cfg) <;> rfl

theorem run_mean (cfg : Cfg T O Unit) (hm : cfg.head = meanHead T) (es : List (Ev T O Unit)) (h g : Reg T O Unit)
    (hr : h.root = g.root) : (run cfg h es).map Reg.root = (run cfg g es).map Reg.root := by
  induction es generalizing h g with
  | nil => simp only [run, Except.map, hr]
  | cons e es ih =>
    have hs := step_mean cfg hm h g hr e
    rw [run, run]
    cases h1 : step cfg h e with
    | error err =>
      cases h2 : step cfg g e with
      | error err' => rw [h1, h2] at hs; simp only [Except.map] at hs ⊢; exact hs
      | ok g' => rw [h1, h2] at hs; simp [Except.map] at hs
    | ok h' =>
      cases h2 : step cfg g e with
      | error err' => rw [h1, h2] at hs; simp [Except.map] at hs
      | ok g' =>
        rw [h1, h2] at hs
        simp only [Except.map, Except.ok.injEq] at hs
        exact ih h' g' hs

/-- Equal answers of two models. -/
theorem rows_mean (cfg : Cfg T O Unit) (hm : cfg.head = meanHead T) (h g : Reg T O Unit) (hr : h.root = g.root)
    (xs : List (List ℚ)) : predictRows cfg h xs = predictRows cfg g xs := by
  induction xs with
  | nil => rfl
  | cons x xs ih =>
    rw [predictRows, predictRows, hr, ih]
    have : ∀ t, predictOne cfg h.sums t x = predictOne cfg g.sums t x := by
      intro t
      unfold predictOne
      rw [hm]
      rfl
    simp only [this]

theorem fitAll_mean (cfg : Cfg T O Unit) (hm : cfg.head = meanHead T) (cs : List (List (Ev T O Unit))) (m n : Model T O Unit)
    (hr : m.reg.root = n.reg.root) :
    (fitAll cfg m cs).map (fun m => m.reg.root) = (fitAll cfg n cs).map (fun m => m.reg.root) ∧
    ∀ m' n', fitAll cfg m cs = .ok m' → fitAll cfg n cs = .ok n' → (m.known = n.known ∨ cs ≠ []) → m'.known = n'.known := by
  induction cs generalizing m n with
  | nil => exact ⟨by simp only [fitAll, Except.map, hr], fun m' n' h1 h2 h3 => by
      cases h1; cases h2; rcases h3 with h | h
      · exact h
      · exact absurd rfl h⟩
  | cons c cs ih =>
    have hs := run_mean cfg hm (c.filter fun e => e.w ≠ 0) m.reg n.reg hr
    rw [fitAll, fitAll]
    unfold Model.partialFit
    cases h1 : run cfg m.reg (c.filter fun e => e.w ≠ 0) with
    | error err =>
      cases h2 : run cfg n.reg (c.filter fun e => e.w ≠ 0) with
      | error err' =>
        rw [h1, h2] at hs
        simp only [Except.map] at hs ⊢
        exact ⟨by cases hs; rfl, fun m' n' h => by cases h⟩
      | ok g' => rw [h1, h2] at hs; simp [Except.map] at hs
    | ok h' =>
      cases h2 : run cfg n.reg (c.filter fun e => e.w ≠ 0) with
      | error err' => rw [h1, h2] at hs; simp [Except.map] at hs
      | ok g' =>
        rw [h1, h2] at hs
        simp only [Except.map, Except.ok.injEq] at hs ⊢
        obtain ⟨i1, i2⟩ := ih ⟨true, h'⟩ ⟨true, g'⟩ hs
        exact ⟨i1, fun m' n' h3 h4 _ => i2 m' n' h3 h4 (.inl rfl)⟩

/-- C204: with mean leaves, training after `reset` raises if and only if training a new tree does, and
then gives the same answers. -/
theorem C204_mean_partial (cfg : Cfg T O Unit) (hm : cfg.head = meanHead T) (m : Model T O Unit) (cs : List (List (Ev T O Unit)))
    (hc : cs ≠ []) :
    (∀ e, fitAll cfg m.reset cs = .error e ↔ fitAll cfg {} cs = .error e) ∧
    ∀ m' n', fitAll cfg m.reset cs = .ok m' → fitAll cfg {} cs = .ok n' → ∀ xs, m'.predict cfg xs = n'.predict cfg xs := by
  obtain ⟨h1, h2⟩ := fitAll_mean cfg hm cs m.reset {} rfl
  refine ⟨fun e => ?_, fun m' n' hm' hn' xs => ?_⟩
  · cases ha : fitAll cfg m.reset cs with
    | error e1 =>
      cases hb : fitAll cfg ({} : Model T O Unit) cs with
      | error e2 => rw [ha, hb] at h1; simp only [Except.map, Except.error.injEq] at h1; rw [h1]
      | ok n => rw [ha, hb] at h1; simp [Except.map] at h1
    | ok a =>
      cases hb : fitAll cfg ({} : Model T O Unit) cs with
      | error e2 => rw [ha, hb] at h1; simp [Except.map] at h1
      | ok n => simp
  · have hk := h2 m' n' hm' hn' (.inr hc)
    rw [hm', hn'] at h1
    simp only [Except.map, Except.ok.injEq] at h1
    unfold Model.predict
    rw [hk, rows_mean cfg hm m'.reg n'.reg h1]

/-- C204: a regressor that has been trained and reset raises `AttributeError` when asked for predictions; a
new one answers with zeros. -/
theorem C204_predict_violated (cfg : Cfg T O H) (m m' : Model T O H) (rows : List (Ev T O H)) (hm : m.partialFit cfg rows = .ok m')
    (x : List ℚ) (xs : List (List ℚ)) :
    m'.reset.predict cfg (x :: xs) = .error .attributeError ∧
      ({} : Model T O H).predict cfg (x :: xs) = .ok (.zeros (xs.length + 1)) := by
  unfold Model.partialFit at hm
  cases hr : run cfg m.reg (rows.filter fun e => e.w ≠ 0) with
  | error e => rw [hr] at hm; cases hm
  | ok r => rw [hr] at hm; cases hm; exact ⟨rfl, rfl⟩

/-- C204: after `partial_fit` with rows of weight 0 only, `predict` raises `AttributeError`. -/
theorem C204_zero_weights_violated (cfg : Cfg T O H) (rows : List (Ev T O H)) (h0 : ∀ e ∈ rows, e.w = 0) (x : List ℚ)
    (xs : List (List ℚ)) : ∃ m, ({} : Model T O H).partialFit cfg rows = .ok m ∧ m.predict cfg (x :: xs) = .error .attributeError := by
  have : rows.filter (fun e => e.w ≠ 0) = [] := by
    rw [List.filter_eq_nil_iff]
    intro e he
    simp [h0 e he]
  refine ⟨⟨true, {}⟩, ?_, rfl⟩
  unfold Model.partialFit
  rw [this]
  rfl

/-- What a model answers for one row and target. -/
def ask (cfg : Cfg T O H) (m : Except PyErr (Model T O H)) (x : List ℚ) (j : Fin T) : Option (Option ℚ) :=
  m.toOption.bind fun m => m.reg.root.bind fun r => (predictOne cfg m.reg.sums r x).toOption.map fun v => v j

/-- C204: with perceptrons the rows seen before `reset` are still in the sums by which inputs and targets are
standardised: the same row is answered differently by the new and by the reset regressor. -/
theorem C204_sums_violated :
    ask percCfg (fitAll percCfg {} [[percEv 1 7]]) [1] 0 = some (some 7) ∧
    ask percCfg ((fitAll percCfg {} [percRows]).toOption.elim (.error .other) fun m => fitAll percCfg m.reset [[percEv 1 7]]) [1] 0 ≠
      some (some 7) := by
  decide +kernel

/-- A tree with mean leaves, trained, reset and trained again with other rows. -/
example : (fitAll meanCfg {} [[meanEv 1 3 8, meanEv (-1) 5 4]]).toOption.isSome = true ∧
    ask meanCfg ((fitAll meanCfg {} [[meanEv 1 3 8, meanEv (-1) 5 4]]).toOption.elim (.error .other) fun m =>
      fitAll meanCfg m.reset [[meanEv 1 2 2], [meanEv 1 4 2]]) [1] 0 = some (some 3) := by
  decide +kernel

end Verif.Trees.MT

namespace Verif.Trees.HR

/-- C204: the same for the single-target tree. -/
theorem C204_single_target_violated :
    (((run percCfg {} [percEv [1, 0] 7]).toOption.bind fun h => (predict percCfg h [[1, 0]]).toOption) = some [some 7]) ∧
    ((run percCfg {} [percEv [1, 0] 1, percEv [0, 1] 2, percEv [1, 1] 4]).toOption.bind fun h =>
      (run percCfg h.reset [percEv [1, 0] 7]).toOption.bind fun h => (predict percCfg h [[1, 0]]).toOption) ≠ some [some 7] := by
  decide +kernel

end Verif.Trees.HR
