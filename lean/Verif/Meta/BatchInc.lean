import Verif.Common
import Mathlib.Data.List.Induction

/-!
Model of `meta/batch_incremental.py`; C41, C71.

Simplifications: a sample (row, label) is an arbitrary value; training a base estimator
on a window is an arbitrary function; `sample_weight` is not given.
-/

namespace Verif.Meta.BatchInc

variable {S M : Type}

/-- Attributes, lines 82-86: the ensemble, write position and window buffer. -/
structure St (S M : Type) where
  ensemble : List M
  i : Nat
  batch : List S

/-- One round of the loop, lines 118-140. -/
def step (w n : Nat) (fit : List S → M) (st : St S M) (s : S) : Except PyErr (St S M) :=
  if st.i < st.batch.length then
    let batch := st.batch.set st.i s
    if st.i + 1 = w then
      if st.ensemble.length ≥ n then
        match st.ensemble with
        | [] => .error .indexError
        | _ :: rest => .ok ⟨rest ++ [fit batch], 0, batch⟩
      else .ok ⟨st.ensemble ++ [fit batch], 0, batch⟩
    else .ok ⟨st.ensemble, st.i + 1, batch⟩
  else .error .indexError

/-- `partial_fit`, lines 88-142, once the buffers exist (`zero` fills them, 113-116). -/
def partialFit (w n : Nat) (fit : List S → M) (st : St S M) (xs : List S) : Except PyErr (St S M) :=
  xs.foldlM (step w n fit) st

/-- State right after the initialisation of 111-116. -/
def init (w : Nat) (zero : S) : St S M := ⟨[], 0, List.replicate w zero⟩

/-- A history of calls. -/
def run (w n : Nat) (zero : S) (fit : List S → M) (calls : List (List S)) : Except PyErr (St S M) :=
  calls.foldlM (partialFit w n fit) (init w zero)

/-- Specification: the `k`-th window of `w` samples of a stream. -/
def window (w k : Nat) (stream : List S) : List S := (stream.drop (k * w)).take w

theorem window_append (w k : Nat) (a b : List S) (h : (k + 1) * w ≤ a.length) :
    window w k (a ++ b) = window w k a := by
  unfold window
  have hk : k * w + w ≤ a.length := by rw [Nat.add_mul, Nat.one_mul] at h; exact h
  rw [List.drop_append_of_le_length (by omega), List.take_append_of_le_length (by
    rw [List.length_drop]; omega)]

theorem fold_eq_flatten (w n : Nat) (fit : List S → M) (st : St S M) (calls : List (List S)) :
    calls.foldlM (partialFit w n fit) st = partialFit w n fit st calls.flatten := by
  induction calls generalizing st with
  | nil => rfl
  | cons c cs ih =>
    rw [List.foldlM_cons, List.flatten_cons]
    have : ∀ a b, partialFit w n fit st (a ++ b) = (partialFit w n fit st a >>= fun st' => partialFit w n fit st' b) := by
      intro a b; simp only [partialFit, List.foldlM_append]
    rw [this]
    congr 1
    funext st'
    exact ih st'

/-- The state describes a stream. -/
def Describes (w n : Nat) (fit : List S → M) (stream : List S) (st : St S M) : Prop :=
  st.batch.length = w ∧ st.i = stream.length % w ∧
  st.batch.take st.i = stream.drop (stream.length / w * w) ∧
  st.ensemble = lastN n ((List.range (stream.length / w)).map fun k : Nat => fit (window w k stream))

theorem step_describes (w n : Nat) (hw : 1 ≤ w) (hn : 1 ≤ n) (fit : List S → M) (stream : List S)
    (st : St S M) (h : Describes w n fit stream st) (s : S) :
    ∃ st', step w n fit st s = .ok st' ∧ Describes w n fit (stream ++ [s]) st' := by
  obtain ⟨h1, h2, h3, h4⟩ := h
  have hi : st.i < w := by rw [h2]; exact Nat.mod_lt _ hw
  have hlen : stream.length / w * w + st.i = stream.length := by
    rw [h2, Nat.mul_comm]; exact Nat.div_add_mod _ _
  set q := stream.length / w with hq
  have hwin : ∀ k < q, window w k (stream ++ [s]) = window w k stream := by
    intro k hk
    apply window_append
    have : (k + 1) * w ≤ q * w := Nat.mul_le_mul_right w hk
    omega
  have hbt : (st.batch.set st.i s).take (st.i + 1) = stream.drop (q * w) ++ [s] := by
    rw [← h3]
    rw [List.take_add_one]
    congr 1
    · rw [List.take_set_of_le (le_refl _)]
    · rw [List.getElem?_set_self (by omega)]; rfl
  have hl1 : (stream ++ [s]).length = stream.length + 1 := by simp
  unfold step
  rw [if_pos (by omega)]
  simp only
  by_cases hfull : st.i + 1 = w
  · rw [if_pos hfull]
    have hqw : stream.length + 1 = (q + 1) * w := by rw [Nat.add_mul, Nat.one_mul]; omega
    have hdiv : (stream ++ [s]).length / w = q + 1 := by
      rw [hl1, hqw, Nat.mul_div_cancel _ hw]
    have hmod : (stream ++ [s]).length % w = 0 := by rw [hl1, hqw, Nat.mul_mod_left]
    have hbatch : st.batch.set st.i s = window w q (stream ++ [s]) := by
      have e1 : (st.batch.set st.i s).take (st.i + 1) = st.batch.set st.i s := by
        apply List.take_of_length_le; rw [List.length_set]; omega
      rw [e1] at hbt
      rw [hbt, window, List.drop_append_of_le_length (by omega), List.take_of_length_le]
      simp only [List.length_append, List.length_drop, List.length_singleton]; omega
    have hmodels : (List.range (q + 1)).map (fun k : Nat => fit (window w k (stream ++ [s]))) =
        (List.range q).map (fun k : Nat => fit (window w k stream)) ++ [fit (st.batch.set st.i s)] := by
      rw [List.range_succ, List.map_append, List.map_singleton, hbatch]
      congr 1
      apply List.map_congr_left
      intro k hk
      rw [hwin k (List.mem_range.mp hk)]
    have hens : lastN n ((List.range (q + 1)).map fun k : Nat => fit (window w k (stream ++ [s]))) =
        lastN n (st.ensemble ++ [fit (st.batch.set st.i s)]) := by
      rw [hmodels, h4, lastN_lastN_append]
    have hel : st.ensemble.length ≤ n := by rw [h4, length_lastN]; omega
    have hdesc : ∀ e : List M, e = lastN n (st.ensemble ++ [fit (st.batch.set st.i s)]) →
        Describes w n fit (stream ++ [s]) ⟨e, 0, st.batch.set st.i s⟩ := by
      intro e he
      refine ⟨by simp [h1], by simp only [hmod], ?_, ?_⟩
      · rw [hdiv]
        simp only [List.take_zero]
        symm
        apply List.drop_eq_nil_of_le
        rw [hl1, hqw]
      · rw [hdiv, hens, he]
    by_cases hge : st.ensemble.length ≥ n
    · rw [if_pos hge]
      cases he : st.ensemble with
      | nil => rw [he] at hge; simp only [List.length_nil] at hge; omega
      | cons m rest =>
        refine ⟨_, rfl, ?_⟩
        apply hdesc
        rw [he] at hge hel
        simp only [List.length_cons] at hge hel
        rw [he, lastN]
        simp only [List.length_append, List.length_cons, List.length_nil]
        rw [show rest.length + 1 + (0 + 1) - n = 1 by omega]
        rfl
    · rw [if_neg hge]
      refine ⟨_, rfl, ?_⟩
      apply hdesc
      rw [lastN_of_le]
      simp only [List.length_append, List.length_cons, List.length_nil]; omega
  · rw [if_neg hfull]
    have hdm : (stream.length + 1) / w = q ∧ (stream.length + 1) % w = st.i + 1 := by
      have hlt : st.i + 1 < w := by omega
      have e : stream.length + 1 = (st.i + 1) + w * q := by
        have := Nat.mul_comm q w; omega
      constructor
      · rw [e, Nat.add_mul_div_left _ _ hw, Nat.div_eq_of_lt hlt]; omega
      · rw [e, Nat.add_mul_mod_self_left, Nat.mod_eq_of_lt hlt]
    refine ⟨_, rfl, by simp [h1], by rw [hl1]; exact hdm.2.symm, ?_, ?_⟩
    · show (st.batch.set st.i s).take (st.i + 1) = _
      rw [hl1, hdm.1, hbt, List.drop_append_of_le_length (by omega)]
    · show st.ensemble = _
      rw [hl1, hdm.1, h4]
      congr 1
      apply List.map_congr_left
      intro k hk
      rw [hwin k (List.mem_range.mp hk)]

/-- C41: however the stream is cut into calls, training does not raise; the ensemble is
the models trained on the newest `n` of the consecutive disjoint windows of `w` samples,
oldest first, and the samples waiting in the buffer are the rest of the stream. -/
theorem C41_windows (w n : Nat) (hw : 1 ≤ w) (hn : 1 ≤ n) (zero : S) (fit : List S → M)
    (calls : List (List S)) :
    ∃ st, run w n zero fit calls = .ok st ∧
      let stream := calls.flatten
      st.ensemble = lastN n ((List.range (stream.length / w)).map fun k : Nat => fit (window w k stream)) ∧
      st.batch.take st.i = stream.drop (stream.length / w * w) ∧
      st.i = stream.length % w := by
  have gen : ∀ xs : List S, ∃ st, partialFit w n fit (init w zero) xs = .ok st ∧ Describes w n fit xs st := by
    intro xs
    induction xs using List.reverseRecOn with
    | nil =>
      refine ⟨init w zero, rfl, by simp [init], by simp [init], by simp [init], by simp [init]⟩
    | append_singleton xs s ih =>
      obtain ⟨st, h1, h2⟩ := ih
      obtain ⟨st', h3, h4⟩ := step_describes w n hw hn fit xs st h2 s
      refine ⟨st', ?_, h4⟩
      rw [partialFit, List.foldlM_append]
      rw [partialFit] at h1
      rw [h1]
      simp only [bind, Except.bind, List.foldlM_cons, h3, List.foldlM_nil, pure, Except.pure]
  obtain ⟨st, h1, _, h3, h4, h5⟩ := gen calls.flatten
  refine ⟨st, ?_, h5, h4, h3⟩
  rw [run, fold_eq_flatten]; exact h1

/-- The windows of a stream are consecutive and cover it (sanity of the specification). -/
theorem C41_windows_cover (w : Nat) (stream : List S) :
    ((List.range (stream.length / w)).map fun k : Nat => window w k stream).flatten ++
      stream.drop (stream.length / w * w) = stream := by
  have gen : ∀ q, ((List.range q).map fun k : Nat => window w k stream).flatten = stream.take (q * w) := by
    intro q
    induction q with
    | zero => simp
    | succ q ih =>
      rw [List.range_succ, List.map_append, List.flatten_append, ih, List.map_singleton, List.flatten_singleton,
        window, Nat.add_mul, Nat.one_mul, List.take_add]
  rw [gen, List.take_append_drop]

example : (match run 2 2 0 List.sum [[1, 2, 3], [], [4, 5, 6], [7]] with
    | .ok st => some (st.ensemble, st.i, st.batch)
    | .error _ => none) = some ([7, 11], 1, [7, 6]) := by decide

/-! ### Prediction -/

/-- `predict_proba` and `predict` for one row, lines 144-185: mean of the labels the
models predict, compared with one half. -/
def predictRow (preds : List ℚ) : ℚ :=
  if (preds.map fun p : ℚ => 1 / (preds.length : ℚ) * p).sum ≥ 1 / 2 then 1 else 0

/-- Number of models predicting a label. -/
def votesFor (l : ℚ) (preds : List ℚ) : Nat := preds.count l

/-- C71 (what holds): when the models predict labels 0 and 1 the result is the majority
label, ties to 1. -/
theorem C71_binary_majority_partial (preds : List ℚ) (hne : preds ≠ []) (hbin : ∀ p ∈ preds, p = 0 ∨ p = 1) :
    predictRow preds = if votesFor 0 preds ≤ votesFor 1 preds then 1 else 0 := by
  have hlen : 0 < (preds.length : ℚ) := by
    have := List.length_pos_of_ne_nil hne
    exact_mod_cast this
  have hs : ∀ (c : ℚ) (l : List ℚ), (∀ p ∈ l, p = 0 ∨ p = 1) →
      (l.map fun p => 1 / c * p).sum = 1 / c * (votesFor 1 l : ℚ) ∧
      l.length = votesFor 0 l + votesFor 1 l := by
    intro c l
    induction l with
    | nil => intro _; simp [votesFor]
    | cons p l ih =>
      intro h
      obtain ⟨h1, h2⟩ := ih fun p hp => h p (by simp [hp])
      rw [List.map_cons, List.sum_cons, h1, List.length_cons, h2]
      rcases h p (by simp) with rfl | rfl
      · simp [votesFor, List.count_cons]; omega
      · simp only [votesFor, List.count_cons]
        simp
        constructor
        · ring
        · omega
  obtain ⟨h1, h2⟩ := hs preds.length preds hbin
  unfold predictRow
  rw [h1]
  have h2' : (preds.length : ℚ) = (votesFor 0 preds : ℚ) + (votesFor 1 preds : ℚ) := by exact_mod_cast h2
  by_cases hle : votesFor 0 preds ≤ votesFor 1 preds
  · rw [if_pos hle, if_pos]
    have : (votesFor 0 preds : ℚ) ≤ votesFor 1 preds := by exact_mod_cast hle
    rw [ge_iff_le, one_div_mul_eq_div, le_div_iff₀ hlen]
    linarith
  · rw [if_neg hle, if_neg]
    have : (votesFor 1 preds : ℚ) < votesFor 0 preds := by exact_mod_cast not_le.mp hle
    rw [ge_iff_le, one_div_mul_eq_div, le_div_iff₀ hlen]
    linarith

/-- C71 (violated): with three or more classes the result is wrong whatever is voted: a
unanimous vote for class `c ≥ 2` is answered with class 1. -/
theorem C71_multiclass_violated (c : Nat) (hc : 2 ≤ c) (n : Nat) (hn : 1 ≤ n) :
    predictRow (List.replicate n (c : ℚ)) = 1 := by
  unfold predictRow
  rw [if_pos]
  have hn' : (0 : ℚ) < n := by exact_mod_cast hn
  rw [List.map_replicate, List.sum_replicate, List.length_replicate, nsmul_eq_mul]
  have : (n : ℚ) * (1 / (n : ℚ) * c) = c := by field_simp
  rw [this]
  have : (2 : ℚ) ≤ c := by exact_mod_cast hc
  linarith

example : predictRow [1, 0, 1] = 1 ∧ predictRow [2, 2] = 1 := by decide +kernel

end Verif.Meta.BatchInc
