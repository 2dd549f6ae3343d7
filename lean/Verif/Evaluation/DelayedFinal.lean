import Verif.Evaluation.DelayedScores

/-!
What `get_measurements` gives after a delayed prequential evaluation
(evaluation/base_evaluator.py 781-859, evaluation/evaluate_prequential_delayed.py 320-335, 374-496).
C315.

Simplifications: those of `Delayed.lean` and `DelayedScores.lean`.
-/

namespace Verif.Evaluation.Delayed

open Verif.Streams Verif.Evaluation.Honest

variable {σ τ X Y P Q ω μ ν : Type}

/-! ### Model -/

/-- What `get_measurements` returns: the two lists, the two objects of a model, or `(None, None)`. -/
inductive Got (μ ν : Type) where
  | lists (mean : List μ) (current : List ν)
  | model (mean : μ) (current : ν)
  | nothing
  deriving DecidableEq

/-- Python's `l[i]`: `none` for an `IndexError`. -/
def pyIndex {α : Type} (l : List α) (i : Int) : Option α :=
  if 0 ≤ i then l[i.toNat]? else if 0 ≤ i + l.length then l[(i + l.length).toNat]? else none

/-- `get_measurements`, base_evaluator.py 802-813. -/
def getMeasurements (means : List μ) (currents : List ν) : Option Int → Got μ ν
  | none => .lists means currents
  | some i =>
    match pyIndex means i with
    | none => .nothing
    | some m =>
      match pyIndex currents i with
      | none => .nothing
      | some c => .model m c

/-- The measurement objects a delayed evaluation leaves, from its log: `scoreRows` without the rows. -/
def finalMeters (M : Meters Y Q μ ν) (nWait maxSamples batch pre : Nat) (cols : List (P → Q)) (new : μ × ν)
    (log : List (DEv τ X Y P ω)) : Except PyErr (List μ × List ν) :=
  match boardRun M nWait maxSamples batch log.tail ⟨pre, 0, cols.map fun c => (c, new), []⟩ with
  | .error e => .error e
  | .ok t => .ok (t.meters.map fun m => m.2.1, t.meters.map fun m => m.2.2)

/-! ### Lemmas -/

theorem pyIndex_map {α β : Type} (f : α → β) (l : List α) (i : Int) :
    pyIndex (l.map f) i = (pyIndex l i).map f := by
  unfold pyIndex
  simp only [List.length_map, List.getElem?_map]
  split
  · rfl
  · split <;> rfl

theorem pyIndex_none {α : Type} (l : List α) (i : Int) :
    pyIndex l i = none ↔ (i < -l.length ∨ (l.length : Int) ≤ i) := by
  unfold pyIndex
  split
  · rw [List.getElem?_eq_none_iff]; omega
  · split
    · rw [List.getElem?_eq_none_iff]; omega
    · simp; omega

theorem correct_perm {l l' : List (Int × Int)} (h : l.Perm l') : correct l = correct l' := by
  unfold correct
  rw [h.length_eq, h.countP_eq]

theorem mse_perm {l l' : List (ℚ × ℚ)} (h : l.Perm l') : Regression.mse l = Regression.mse l' := by
  unfold Regression.mse
  rw [h.length_eq, (h.map _).sum_eq]

theorem mae_perm {l l' : List (ℚ × ℚ)} (h : l.Perm l') : Regression.mae l = Regression.mae l' := by
  unfold Regression.mae
  rw [h.length_eq, (h.map _).sum_eq]

/-! ### C315 -/

/-- Which model an index means: `0, ..., n-1` from the front, `-1, ..., -n` from the back; with any
other index the answer is `(None, None)`, and without one the lists. -/
theorem C315_index (means : List μ) (currents : List ν) (hl : means.length = currents.length) :
    getMeasurements means currents none = .lists means currents ∧
    (∀ (j : Nat) m c, means[j]? = some m → currents[j]? = some c →
      getMeasurements means currents (some j) = .model m c ∧
      getMeasurements means currents (some ((j : Int) - means.length)) = .model m c) ∧
    ∀ i : Int, getMeasurements means currents (some i) = .nothing ↔
      (i < -means.length ∨ (means.length : Int) ≤ i) := by
  refine ⟨rfl, ?_, ?_⟩
  · intro j m c hm hc
    have hj : j < means.length := by
      by_contra hn
      rw [List.getElem?_eq_none (by omega)] at hm
      cases hm
    constructor
    · simp [getMeasurements, pyIndex, hm, hc]
    · have h1 : ¬ (0 : Int) ≤ (j : Int) - means.length := by omega
      have e : ((j : Int) - means.length + means.length) = j := by omega
      simp only [getMeasurements, pyIndex, if_neg h1, ← hl, e, Int.natCast_nonneg, if_true, Int.toNat_natCast,
        hm, hc]
  · intro i
    rw [← pyIndex_none means i]
    unfold getMeasurements
    cases hm : pyIndex means i with
    | none => simp [hm]
    | some m =>
      cases hc : pyIndex currents i with
      | none =>
        rw [pyIndex_none, ← hl, ← pyIndex_none means i, hm] at hc
        cases hc
      | some c => simp [hm, hc]

variable [LinearOrder τ]

/-- After a delayed evaluation of classifiers the mean accuracy that `get_measurements` gives for a
model is the share of correct ones among all its predictions, one for every sample taken from the
stream after the pre-training block, also those scored after the last row; the current accuracy is
the share among the last `n_sliding` scored. -/
theorem C315_everything (other : Metrics.Eval → Report.Metric → ℚ)
    (M : Methods σ X Int P ω) (hM : ∀ s xs, (M.predict s xs).1.length = xs.length)
    (s0 : σ) (sort : Sorter τ X Int P ω) (hs : TM.Sorts sort) (s : Src (Sample τ X Int ω)) (L : Nat)
    (hL : s.len = some L) (idx pre batch maxSamples nWait : Nat) (hi : idx < L) (hp : 0 < pre)
    (hb : 0 < batch) (ha : 20 ≤ actualMax s idx maxSamples) (timeOk : Nat → Bool) (fuel : Nat)
    (hf : L < fuel) (cols : List (P → Int)) (nSliding : Nat) (hn : 1 ≤ nSliding) :
    let N := classMeters other
    ∃ n d means currents,
      evaluate M sort s false idx pre batch maxSamples timeOk fuel s0 = some (.ok (idx + n, d)) ∧
      finalMeters N nWait maxSamples batch pre cols (Metrics.Eval.init 2, Metrics.WEval.init 2 nSliding) d.log =
        .ok (means, currents) ∧
      (predicted d.log).map Prod.fst = (s.take idx n).drop (s.take idx pre).length ∧
      (scored d.log).Perm (predicted d.log) ∧
      ∀ (i : Int) c, pyIndex cols i = some c → ∃ m v, getMeasurements means currents (some i) = .model m v ∧
        N.mean m .accuracy = correct (column c (predicted d.log)) ∧
        N.cur v .accuracy = correct (lastN nSliding (column c (scored d.log))) := by
  intro N
  obtain ⟨n, d, he, h1, -, h3, -⟩ := C27_delayed M hM s0 sort hs s L hL idx pre batch maxSamples hi hp hb ha
    timeOk fuel hf
  let mean : List (Int × Int) → Metrics.Eval := fun l =>
    (l.map unit).foldl (fun e r => e.addResult r.t r.p r.w) (Metrics.Eval.init 2)
  let cur : List (Int × Int) → Metrics.WEval := fun l =>
    (l.map unit).foldl (fun e r => e.addResult r.t r.p r.w) (Metrics.WEval.init 2 nSliding)
  obtain ⟨⟨rest, hr, -⟩, -⟩ :=
    evaluate_shape M hM s0 sort hs s false idx pre batch maxSamples hb ha timeOk fuel _ d he
  have ht : d.log.tail = rest := by rw [hr]; rfl
  have hsc : scored d.log = scored rest := by rw [hr]; rfl
  obtain ⟨t, g1, -, -, g4, -⟩ := boardRun_ok N mean cur (by intro l q; simp [mean, N, classMeters, unit])
    (by intro l q; simp [cur, N, classMeters, unit]) nWait maxSamples batch pre cols rest
  have g1' : boardRun N nWait maxSamples batch d.log.tail
      ⟨pre, 0, cols.map fun c => (c, Metrics.Eval.init 2, Metrics.WEval.init 2 nSliding), []⟩ = .ok t := by
    rw [ht]; exact g1
  refine ⟨n, d, cols.map fun c => mean (column c (scored rest)), cols.map fun c => cur (column c (scored rest)),
    he, ?_, h1, h3, ?_⟩
  · simp only [finalMeters, g1', g4, List.map_map]
    rfl
  · intro i c hc
    refine ⟨mean (column c (scored rest)), cur (column c (scored rest)), ?_, ?_, ?_⟩
    · simp only [getMeasurements, pyIndex_map, hc, Option.map]
    · have : correct (column c (scored rest)) = correct (column c (predicted d.log)) := by
        rw [← hsc]
        exact correct_perm (h3.map _)
      rw [← this]
      simp only [N, classMeters, classMeters.scores, mean]
      exact accuracy_pairs _
    · rw [hsc]
      have hu : ∀ r ∈ (column c (scored rest)).map unit, 0 < r.w := by
        intro r hr; obtain ⟨q, -, rfl⟩ := List.mem_map.mp hr; simp [unit]
      have := (Metrics.C06_window_scores 2 nSliding hn ((column c (scored rest)).map unit) hu).1
      rw [lastN_unit, accuracy_pairs] at this
      simp only [N, classMeters, classMeters.scores, cur]
      exact this

/-- The same for the mean squared and mean absolute errors of regressors. -/
theorem C315_regression
    (M : Methods σ X ℚ P ω) (hM : ∀ s xs, (M.predict s xs).1.length = xs.length)
    (s0 : σ) (sort : Sorter τ X ℚ P ω) (hs : TM.Sorts sort) (s : Src (Sample τ X ℚ ω)) (L : Nat)
    (hL : s.len = some L) (idx pre batch maxSamples nWait : Nat) (hi : idx < L) (hp : 0 < pre)
    (hb : 0 < batch) (ha : 20 ≤ actualMax s idx maxSamples) (timeOk : Nat → Bool) (fuel : Nat)
    (hf : L < fuel) (cols : List (P → ℚ)) (nSliding : Nat) (hn : 1 ≤ nSliding) :
    let N := regMeters
    ∃ n d means currents,
      evaluate M sort s false idx pre batch maxSamples timeOk fuel s0 = some (.ok (idx + n, d)) ∧
      finalMeters N nWait maxSamples batch pre cols
        (Regression.RegEval.init, Regression.WRegEval.init nSliding) d.log = .ok (means, currents) ∧
      (predicted d.log).map Prod.fst = (s.take idx n).drop (s.take idx pre).length ∧
      (scored d.log).Perm (predicted d.log) ∧
      ∀ (i : Int) c, pyIndex cols i = some c → ∃ m v, getMeasurements means currents (some i) = .model m v ∧
        N.mean m .mse = Regression.mse (column c (predicted d.log)) ∧
        N.mean m .mae = Regression.mae (column c (predicted d.log)) ∧
        N.cur v .mse = Regression.mse (lastN nSliding (column c (scored d.log))) ∧
        N.cur v .mae = Regression.mae (lastN nSliding (column c (scored d.log))) := by
  intro N
  obtain ⟨n, d, he, h1, -, h3, -⟩ := C27_delayed M hM s0 sort hs s L hL idx pre batch maxSamples hi hp hb ha
    timeOk fuel hf
  let mean : List (ℚ × ℚ) → Regression.RegEval := fun l =>
    l.foldl (fun e r => e.addResult r.1 r.2) Regression.RegEval.init
  let cur : List (ℚ × ℚ) → Regression.WRegEval := fun l =>
    (Regression.wregRun nSliding l).toOption.getD (Regression.WRegEval.init nSliding)
  have hcur : ∀ l, Regression.wregRun nSliding l = .ok (cur l) := by
    intro l
    obtain ⟨e, he, -⟩ := Regression.C11_window nSliding hn l
    simp only [cur, he]; rfl
  obtain ⟨⟨rest, hr, -⟩, -⟩ :=
    evaluate_shape M hM s0 sort hs s false idx pre batch maxSamples hb ha timeOk fuel _ d he
  have ht : d.log.tail = rest := by rw [hr]; rfl
  have hsc : scored d.log = scored rest := by rw [hr]; rfl
  obtain ⟨t, g1, -, -, g4, -⟩ := boardRun_ok N mean cur (by intro l q; simp [mean, N, regMeters])
    (by
      intro l q
      have e1 := hcur (l ++ [q])
      have e2 := hcur l
      unfold Regression.wregRun at e1 e2
      rw [List.foldlM_append, e2] at e1
      simp only [bind, Except.bind, List.foldlM_cons, List.foldlM_nil] at e1
      show (cur l).addResult q.1 q.2 = _
      cases hx : (cur l).addResult q.1 q.2 with
      | error x => rw [hx] at e1; cases e1
      | ok v => rw [hx] at e1; exact e1)
    nWait maxSamples batch pre cols rest
  have g1' : boardRun N nWait maxSamples batch d.log.tail
      ⟨pre, 0, cols.map fun c => (c, Regression.RegEval.init, Regression.WRegEval.init nSliding), []⟩ = .ok t := by
    rw [ht]; exact g1
  refine ⟨n, d, cols.map fun c => mean (column c (scored rest)), cols.map fun c => cur (column c (scored rest)),
    he, ?_, h1, h3, ?_⟩
  · simp only [finalMeters, g1', g4, List.map_map]
    rfl
  · intro i c hc
    obtain ⟨a1, a2, -, -⟩ := Regression.C11_cumulative (column c (scored rest))
    obtain ⟨e', b0, b1, b2, -, -⟩ := Regression.C11_window nSliding hn (column c (scored rest))
    have b3 : e' = cur (column c (scored rest)) := by
      have := b0.symm.trans (hcur _)
      simpa using this
    subst b3
    have hperm : (column c (scored rest)).Perm (column c (predicted d.log)) := by
      rw [← hsc]; exact h3.map _
    refine ⟨mean (column c (scored rest)), cur (column c (scored rest)), ?_, ?_, ?_, ?_, ?_⟩
    · simp only [getMeasurements, pyIndex_map, hc, Option.map]
    · rw [← mse_perm hperm]; exact a1
    · rw [← mae_perm hperm]; exact a2
    · rw [hsc]; exact b1
    · rw [hsc]; exact b2

/-! The two models and the late labels of `DelayedScores.lean`: of the 22 predictions after the
pre-training, the last row (id 19) covers 19; `get_measurements` covers all. -/

def measured (i : Int) : Option (Option (ℚ × ℚ)) :=
  (((evaluate twoModels (fun q => q.foldr TM.insertRow []) lateLabels false 0 2 1 100 (fun _ => true) 30
    0).bind fun r => r.toOption).bind (fun q => (finalMeters (classMeters fun _ _ => 0) 5 100 1 2
      [Prod.fst, Prod.snd] (Metrics.Eval.init 2, Metrics.WEval.init 2 3) q.2.log).toOption)).map fun r =>
      match getMeasurements r.1 r.2 (some i) with
      | .model m v => some ((classMeters fun _ _ => 0).mean m .accuracy, (classMeters fun _ _ => 0).cur v .accuracy)
      | _ => none

example : measured 0 = some (some (1/22, 0)) ∧ measured (-1) = some (some (1/22, 0)) ∧
    measured 2 = some none ∧ measured (-3) = some none := by decide +kernel

/-! A regressor that always predicts 2 on labels 0, 1, 2, 0, 1, 2, ... that come three units late. -/

def twos : Methods Nat Nat ℚ ℚ Nat := ⟨fun s b _ => s + b.length, fun s xs => (xs.map fun _ => 2, s)⟩

def lateNumbers : Src (Sample Nat Nat ℚ Nat) := ⟨fun i => ⟨i, ((i % 3 : Nat) : ℚ), i, i + 3, 1⟩, some 24⟩

example : (((evaluate twos (fun q => q.foldr TM.insertRow []) lateNumbers false 0 2 1 100 (fun _ => true) 30
    0).bind fun r => r.toOption).bind (fun q => (finalMeters regMeters 5 100 1 2
      [id] (Regression.RegEval.init, Regression.WRegEval.init 3) q.2.log).toOption)).map (fun r =>
      match getMeasurements r.1 r.2 (some 0) with
      | .model m v => (regMeters.mean m .mse, regMeters.mean m .mae, regMeters.cur v .mse, regMeters.cur v .mae)
      | _ => (0, 0, 0, 0)) = some (35/22, 21/22, 5/3, 1) := by decide +kernel

end Verif.Evaluation.Delayed
