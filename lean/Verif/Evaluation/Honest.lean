import Verif.Evaluation.Run
import Verif.Evaluation.Model
import Verif.Metrics.Scores
import Verif.Metrics.RegressionProps

/-!
What the rows of a prequential evaluation say about the models: `_train_and_test`
(evaluate_prequential.py 266-394) with the stream, the models and the measurement objects put
together.  C276.

Simplifications: those of `Run.lean`; models may raise, keep a state of their own and predict
one label for each row; the argument `classes` of the first training call is left out; streams
are those of `Model.lean`.
-/

namespace Verif.Evaluation.Honest

open Verif.Evaluation Verif.Evaluation.Report

variable {σ X Y P μ ν : Type}

/-! ### Model -/

/-- A model: `partial_fit` and `predict`. -/
structure Learner (σ X Y P : Type) where
  fit : σ → List (X × Y) → Except PyErr σ
  predict : σ → List X → Except PyErr (List P × σ)

/-- The measurement objects: `add_result` and the scores, for `mean_eval_measurements` and
`current_eval_measurements` (base_evaluator.py 273-297). -/
structure Meters (Y P μ ν : Type) where
  addMean : μ → Y → P → Except PyErr μ
  addCur : ν → Y → P → Except PyErr ν
  mean : μ → Metric → ℚ
  cur : ν → Metric → ℚ

/-- What the evaluator keeps for one model. -/
structure Bundle (σ X Y P μ ν : Type) where
  learner : Learner σ X Y P
  st : σ
  mean : μ
  cur : ν

/-- A loop over the models, or the results, that stops at the first exception. -/
def each {α β : Type} (f : α → Except PyErr β) : List α → Except PyErr (List β)
  | [] => .ok []
  | a :: l =>
    match f a with
    | .error e => .error e
    | .ok b =>
      match each f l with
      | .error e => .error e
      | .ok r => .ok (b :: r)

/-- `prediction[i].extend(self.model[i].predict(X))` (evaluate_prequential.py 324-333). -/
def Bundle.test (xs : List X) (m : Bundle σ X Y P μ ν) : Except PyErr (List P × Bundle σ X Y P μ ν) :=
  match m.learner.predict m.st xs with
  | .error e => .error e
  | .ok (ps, s) => .ok (ps, { m with st := s })

/-- `add_result(y[i], prediction[j][i])` for `i` from `i` on, `k` times
(evaluate_prequential.py 336-339). -/
def score (M : Meters Y P μ ν) (ys : List Y) (ps : List P) : Nat → Nat → μ × ν → Except PyErr (μ × ν)
  | _, 0, q => .ok q
  | i, k + 1, q =>
    match ys[i]?, ps[i]? with
    | some y, some p =>
      match M.addMean q.1 y p with
      | .error e => .error e
      | .ok a =>
        match M.addCur q.2 y p with
        | .error e => .error e
        | .ok c => score M ys ps (i + 1) k (a, c)
    | _, _ => .error .indexError

/-- The scoring of one model; `k` is `len(prediction[0])`. -/
def Bundle.scored (M : Meters Y P μ ν) (ys : List Y) (k : Nat) (q : List P × Bundle σ X Y P μ ν) :
    Except PyErr (Bundle σ X Y P μ ν) :=
  match score M ys q.1 0 k (q.2.mean, q.2.cur) with
  | .error e => .error e
  | .ok r => .ok { q.2 with mean := r.1, cur := r.2 }

/-- `self.model[i].partial_fit(X, y)` (evaluate_prequential.py 343-367). -/
def Bundle.train (b : List (X × Y)) (m : Bundle σ X Y P μ ν) : Except PyErr (Bundle σ X Y P μ ν) :=
  match m.learner.fit m.st b with
  | .error e => .error e
  | .ok s => .ok { m with st := s }

/-- All models predict `b`, then the predictions are scored (evaluate_prequential.py 322-339). -/
def testAll (M : Meters Y P μ ν) (b : List (X × Y)) (ms : List (Bundle σ X Y P μ ν)) :
    Except PyErr (List (Bundle σ X Y P μ ν)) :=
  match each (Bundle.test (b.map Prod.fst)) ms with
  | .error e => .error e
  | .ok qs => each (Bundle.scored M (b.map Prod.snd) (match qs with | [] => 0 | q :: _ => q.1.length)) qs

/-- One iteration up to the report (evaluate_prequential.py 320-367). -/
def iteration (M : Meters Y P μ ν) (amax : Int) (b : List (X × Y)) (ms : List (Bundle σ X Y P μ ν)) :
    Except PyErr (List (Bundle σ X Y P μ ν)) :=
  match testAll M b ms with
  | .error e => .error e
  | .ok ms1 =>
    match checkProgress amax with
    | .error e => .error e
    | .ok () => each (Bundle.train b) ms1

/-- The answers of the measurement objects (base_evaluator.py 337-426). -/
def world (M : Meters Y P μ ν) (rest : World) (ms : List (Bundle σ X Y P μ ν)) : World :=
  { rest with
    mean := fun i m => match ms[i]? with | some b => M.mean b.mean m | none => 0
    current := fun i m => match ms[i]? with | some b => M.cur b.cur m | none => 0 }

/-- `_train_and_test` as an environment of the loop of `Run.lean`: the stream is at position
`idx`, iteration `k` reads the batch at `idx + pretrain + k * batch`. -/
def env (M : Meters Y P μ ν) (rest : World) (s : Src (X × Y)) (idx : Nat) (C : Conf) (timeOk : Nat → Bool) :
    Env (List (Bundle σ X Y P μ ν)) where
  pre := each (Bundle.train (s.take idx C.pretrain))
  step := fun k => iteration M C.amax (s.take (idx + C.pretrain + k * C.batch) C.batch)
  more := fun k => timeOk k && s.hasMore (idx + C.pretrain + k * C.batch)
  world := world M rest

/-- Classification (base_evaluator.py 273-277 and 337-357, 408-423): the scores of `Metrics`;
the ones that are not modelled there are arbitrary. -/
def classMeters (other : Metrics.Eval → Metric → ℚ) : Meters Int Int Metrics.Eval Metrics.WEval where
  addMean := fun e y p => .ok (e.addResult y p 1)
  addCur := fun e y p => .ok (e.addResult y p 1)
  mean := scores
  cur := fun e => scores e.base
where
  /-- The method called for a metric. -/
  scores (e : Metrics.Eval) : Metric → ℚ
    | .accuracy => e.accuracyScore
    | .kappa => e.kappaScore
    | .kappaT => e.kappaTScore
    | .kappaM => e.kappaMScore
    | .precision => e.precisionScore
    | .recall => e.recallScore
    | .f1 => e.f1Score
    | m => other e m

/-- Regression (base_evaluator.py 286-291 and 379-387); a regressor has no other scores. -/
def regMeters : Meters ℚ ℚ Regression.RegEval Regression.WRegEval where
  addMean := fun e y p => .ok (e.addResult y p)
  addCur := fun e y p => e.addResult y p
  mean := fun e m => match m with | .mse => e.meanSquareError | .mae => e.meanAbsoluteError | _ => 0
  cur := fun e m => match m with | .mse => e.meanSquareError | .mae => e.meanAbsoluteError | _ => 0

/-- A classifier with its new measurement objects (base_evaluator.py 273-277). -/
def newClassifier (nSliding : Nat) (m : Learner σ X Int Int × σ) : Bundle σ X Int Int Metrics.Eval Metrics.WEval :=
  ⟨m.1, m.2, Metrics.Eval.init 2, Metrics.WEval.init 2 nSliding⟩

/-- A regressor with its new measurement objects (base_evaluator.py 286-291). -/
def newRegressor (nSliding : Nat) (m : Learner σ X ℚ ℚ × σ) :
    Bundle σ X ℚ ℚ Regression.RegEval Regression.WRegEval :=
  ⟨m.1, m.2, Regression.RegEval.init, Regression.WRegEval.init nSliding⟩

/-! ### Specification -/

/-- Test, then train: the true and the predicted values when a model in state `s` meets the
batches in order, predicting each batch before learning it. -/
def testThenTrain (L : Learner σ X Y P) : σ → List (List (X × Y)) → Except PyErr (List (Y × P) × σ)
  | s, [] => .ok ([], s)
  | s, b :: bs =>
    match L.predict s (b.map Prod.fst) with
    | .error e => .error e
    | .ok (ps, s1) =>
      match L.fit s1 b with
      | .error e => .error e
      | .ok s2 =>
        match testThenTrain L s2 bs with
        | .error e => .error e
        | .ok (rest, s3) => .ok ((b.map Prod.snd).zip ps ++ rest, s3)

/-- The first `k` batches of `n` rows from position `i` on. -/
def batches (s : Src (X × Y)) (i n k : Nat) : List (List (X × Y)) :=
  (List.range k).map fun j => s.take (i + j * n) n

/-- A model that was shown the first `pretrain` rows, or as it was given. -/
def pretrained (L : Learner σ X Y P) (s : Src (X × Y)) (i pretrain : Nat) (s0 : σ) : Except PyErr σ :=
  if pretrain > 0 then L.fit s0 (s.take i pretrain) else .ok s0

/-- The share of correct predictions. -/
def correct (l : List (Int × Int)) : ℚ := (l.countP fun q => q.1 = q.2 : ℚ) / l.length

/-- A model predicts one value for each row. -/
def OneEach (L : Learner σ X Y P) : Prop := ∀ s xs ps s', L.predict s xs = .ok (ps, s') → ps.length = xs.length

/-! ### Proofs -/

/-- `add_result` for a list of results. -/
def feed {μ : Type} (add : μ → Y → P → Except PyErr μ) : μ → List (Y × P) → Except PyErr μ
  | m, [] => .ok m
  | m, q :: l =>
    match add m q.1 q.2 with
    | .error e => .error e
    | .ok m' => feed add m' l

theorem feed_append {μ : Type} (add : μ → Y → P → Except PyErr μ) (m m1 : μ) (l l' : List (Y × P))
    (h : feed add m l = .ok m1) : feed add m (l ++ l') = feed add m1 l' := by
  induction l generalizing m with
  | nil => simp only [feed, Except.ok.injEq] at h; rw [← h]; rfl
  | cons q l ih =>
    simp only [feed, List.cons_append] at h ⊢
    cases hq : add m q.1 q.2 with
    | error e => rw [hq] at h; cases h
    | ok m' => rw [hq] at h; exact ih m' h

theorem each_ok {α β : Type} {f : α → Except PyErr β} {l : List α} {r : List β} (h : each f l = .ok r) :
    r.length = l.length ∧ ∀ (i : Nat) a, l[i]? = some a → ∃ b, r[i]? = some b ∧ f a = .ok b := by
  induction l generalizing r with
  | nil =>
    simp only [each, Except.ok.injEq] at h
    subst h
    exact ⟨rfl, fun i a hi => by cases hi⟩
  | cons x l ih =>
    simp only [each] at h
    cases hx : f x with
    | error e => rw [hx] at h; cases h
    | ok b =>
      rw [hx] at h
      simp only at h
      cases hl : each f l with
      | error e => rw [hl] at h; cases h
      | ok r' =>
        rw [hl] at h
        simp only [Except.ok.injEq] at h
        subst h
        obtain ⟨h1, h2⟩ := ih hl
        refine ⟨by simp [h1], fun i a hi => ?_⟩
        cases i with
        | zero =>
          simp only [List.getElem?_cons_zero, Option.some.injEq] at hi
          subst hi
          exact ⟨b, rfl, hx⟩
        | succ i => exact h2 i a (by simpa using hi)

theorem score_feed (M : Meters Y P μ ν) (ys : List Y) (ps : List P) (k i : Nat) (q r : μ × ν)
    (h : score M ys ps i k q = .ok r) :
    feed M.addMean q.1 (((ys.zip ps).drop i).take k) = .ok r.1 ∧
    feed M.addCur q.2 (((ys.zip ps).drop i).take k) = .ok r.2 := by
  induction k generalizing i q with
  | zero =>
    simp only [score, Except.ok.injEq] at h
    subst h
    simp [feed]
  | succ k ih =>
    simp only [score] at h
    cases hy : ys[i]? with
    | none => rw [hy] at h; cases h
    | some y =>
      cases hp : ps[i]? with
      | none => rw [hy, hp] at h; cases h
      | some p =>
        rw [hy, hp] at h
        simp only at h
        cases ha : M.addMean q.1 y p with
        | error e => rw [ha] at h; cases h
        | ok a =>
          rw [ha] at h
          simp only at h
          cases hc : M.addCur q.2 y p with
          | error e => rw [hc] at h; cases h
          | ok c =>
            rw [hc] at h
            simp only at h
            obtain ⟨h1, h2⟩ := ih (i + 1) (a, c) h
            have hz : (ys.zip ps)[i]? = some (y, p) := by
              rw [List.getElem?_zip_eq_some]; exact ⟨hy, hp⟩
            obtain ⟨hlt, hget⟩ := List.getElem?_eq_some_iff.mp hz
            rw [List.drop_eq_getElem_cons hlt, hget, List.take_succ_cons]
            simp only [feed, ha, hc]
            exact ⟨h1, h2⟩

theorem testThenTrain_snoc (L : Learner σ X Y P) (s s1 s2 s3 : σ) (bs : List (List (X × Y))) (b : List (X × Y))
    (pairs : List (Y × P)) (ps : List P) (h : testThenTrain L s bs = .ok (pairs, s1))
    (hp : L.predict s1 (b.map Prod.fst) = .ok (ps, s2)) (hf : L.fit s2 b = .ok s3) :
    testThenTrain L s (bs ++ [b]) = .ok (pairs ++ (b.map Prod.snd).zip ps, s3) := by
  induction bs generalizing s pairs with
  | nil =>
    simp only [testThenTrain, Except.ok.injEq, Prod.mk.injEq] at h
    obtain ⟨rfl, rfl⟩ := h
    simp [testThenTrain, hp, hf]
  | cons c bs ih =>
    simp only [testThenTrain, List.cons_append] at h ⊢
    cases h1 : L.predict s (c.map Prod.fst) with
    | error e => rw [h1] at h; cases h
    | ok r =>
      obtain ⟨qs, t1⟩ := r
      rw [h1] at h
      simp only at h ⊢
      cases h2 : L.fit t1 c with
      | error e => rw [h2] at h; cases h
      | ok t2 =>
        rw [h2] at h
        simp only at h ⊢
        cases h3 : testThenTrain L t2 bs with
        | error e => rw [h3] at h; cases h
        | ok r =>
          obtain ⟨rest, t3⟩ := r
          rw [h3] at h
          simp only [Except.ok.injEq, Prod.mk.injEq] at h
          obtain ⟨rfl, rfl⟩ := h
          rw [ih t2 rest h3]
          simp

/-- What holds of bundle `m` that started as `m0`, after the batches `bs`. -/
def Follows (M : Meters Y P μ ν) (s1 : σ) (m0 m : Bundle σ X Y P μ ν) (bs : List (List (X × Y))) : Prop :=
  m.learner = m0.learner ∧ ∃ pairs, testThenTrain m0.learner s1 bs = .ok (pairs, m.st) ∧
    feed M.addMean m0.mean pairs = .ok m.mean ∧ feed M.addCur m0.cur pairs = .ok m.cur

theorem testAll_ok (M : Meters Y P μ ν) (b : List (X × Y)) (ms ms' : List (Bundle σ X Y P μ ν))
    (h1 : ∀ m ∈ ms, OneEach m.learner) (h : testAll M b ms = .ok ms') :
    ms'.length = ms.length ∧ ∀ (i : Nat) m, ms[i]? = some m → ∃ ps s2 a c,
      m.learner.predict m.st (b.map Prod.fst) = .ok (ps, s2) ∧ ps.length = b.length ∧
      feed M.addMean m.mean ((b.map Prod.snd).zip ps) = .ok a ∧
      feed M.addCur m.cur ((b.map Prod.snd).zip ps) = .ok c ∧ ms'[i]? = some ⟨m.learner, s2, a, c⟩ := by
  unfold testAll at h
  cases ht : each (Bundle.test (b.map Prod.fst)) ms with
  | error e => rw [ht] at h; cases h
  | ok qs =>
    rw [ht] at h
    simp only at h
    generalize hk : (match qs with | [] => 0 | q :: _ => q.1.length) = k at h
    obtain ⟨l1, t1⟩ := each_ok ht
    obtain ⟨l2, t2⟩ := each_ok h
    refine ⟨by omega, ?_⟩
    -- the predictions of a model, one for each row
    have hpred : ∀ (i : Nat) m, ms[i]? = some m → ∃ ps s2,
        m.learner.predict m.st (b.map Prod.fst) = .ok (ps, s2) ∧ qs[i]? = some (ps, { m with st := s2 }) ∧
        ps.length = b.length := by
      intro i m hi
      obtain ⟨q, g3, g4⟩ := t1 i m hi
      unfold Bundle.test at g4
      cases hp : m.learner.predict m.st (b.map Prod.fst) with
      | error e => rw [hp] at g4; cases g4
      | ok r =>
        obtain ⟨ps, s2⟩ := r
        rw [hp] at g4
        simp only [Except.ok.injEq] at g4
        subst g4
        refine ⟨ps, s2, rfl, g3, ?_⟩
        rw [h1 m (List.mem_of_getElem? hi) _ _ _ _ hp, List.length_map]
    intro i m hi
    obtain ⟨ps, s2, g3, g4, g5⟩ := hpred i m hi
    have hkb : k = b.length := by
      cases hq : qs with
      | nil => rw [hq] at g4; cases g4
      | cons q0 qr =>
        have h0 : 0 < ms.length := by
          rw [← l1, hq]; simp
        obtain ⟨ps', s2', -, g4', g5'⟩ := hpred 0 ms[0] (List.getElem?_eq_getElem h0)
        rw [hq] at g4' hk
        simp only [List.getElem?_cons_zero, Option.some.injEq] at g4'
        subst g4'
        rw [← hk]; exact g5'
    obtain ⟨m1, k1, k2⟩ := t2 i _ g4
    unfold Bundle.scored at k2
    simp only at k2
    cases hsc : score M (b.map Prod.snd) ps 0 k (m.mean, m.cur) with
    | error e => rw [hsc] at k2; cases k2
    | ok r =>
      rw [hsc] at k2
      simp only [Except.ok.injEq] at k2
      subst k2
      obtain ⟨f1, f2⟩ := score_feed M (b.map Prod.snd) ps k 0 (m.mean, m.cur) r hsc
      have hzl : ((b.map Prod.snd).zip ps).length = b.length := by simp [g5]
      rw [List.drop_zero, List.take_of_length_le (by omega)] at f1 f2
      exact ⟨ps, s2, r.1, r.2, g3, g5, f1, f2, k1⟩

theorem trainAll_ok (b : List (X × Y)) (ms ms' : List (Bundle σ X Y P μ ν)) (h : each (Bundle.train b) ms = .ok ms') :
    ms'.length = ms.length ∧ ∀ (i : Nat) m, ms[i]? = some m → ∃ s2,
      m.learner.fit m.st b = .ok s2 ∧ ms'[i]? = some ⟨m.learner, s2, m.mean, m.cur⟩ := by
  obtain ⟨l, t⟩ := each_ok h
  refine ⟨l, fun i m hi => ?_⟩
  obtain ⟨m2, k3, k4⟩ := t i m hi
  unfold Bundle.train at k4
  cases hf : m.learner.fit m.st b with
  | error e => rw [hf] at k4; cases k4
  | ok s3 =>
    rw [hf] at k4
    simp only [Except.ok.injEq] at k4
    subst k4
    exact ⟨s3, rfl, k3⟩

theorem iteration_follows (M : Meters Y P μ ν) (amax : Int) (b : List (X × Y)) (ms ms' ms0 : List (Bundle σ X Y P μ ν))
    (h1 : ∀ m ∈ ms0, OneEach m.learner) (bs : List (List (X × Y))) (start : Nat → σ)
    (h : iteration M amax b ms = .ok ms')
    (hm : ∀ (i : Nat) m0, ms0[i]? = some m0 → ∃ m, ms[i]? = some m ∧ Follows M (start i) m0 m bs)
    (hl : ms.length = ms0.length) :
    ms'.length = ms0.length ∧
    ∀ (i : Nat) m0, ms0[i]? = some m0 → ∃ m, ms'[i]? = some m ∧ Follows M (start i) m0 m (bs ++ [b]) := by
  have h1' : ∀ m ∈ ms, OneEach m.learner := by
    intro m hmem
    obtain ⟨i, hi, rfl⟩ := List.getElem_of_mem hmem
    have hi0 : i < ms0.length := by omega
    obtain ⟨m', g1, g2⟩ := hm i ms0[i] (List.getElem?_eq_getElem hi0)
    rw [List.getElem?_eq_getElem hi, Option.some.injEq] at g1
    rw [g1, g2.1]
    exact h1 _ (List.getElem_mem hi0)
  unfold iteration at h
  cases ht : testAll M b ms with
  | error e => rw [ht] at h; cases h
  | ok ms1 =>
    rw [ht] at h
    simp only at h
    cases hc : checkProgress amax with
    | error e => rw [hc] at h; cases h
    | ok u =>
      rw [hc] at h
      simp only at h
      obtain ⟨l1, t1⟩ := testAll_ok M b ms ms1 h1' ht
      obtain ⟨l2, t2⟩ := trainAll_ok b ms1 ms' h
      refine ⟨by omega, fun i m0 hi => ?_⟩
      obtain ⟨m, g1, g20, pairs, g21, g22, g23⟩ := hm i m0 hi
      obtain ⟨ps, s2, a, c, p1, -, p3, p4, p5⟩ := t1 i m g1
      obtain ⟨s3, f1, f2⟩ := t2 i _ p5
      rw [g20] at p1
      refine ⟨_, f2, g20, pairs ++ (b.map Prod.snd).zip ps, ?_, ?_, ?_⟩
      · refine testThenTrain_snoc m0.learner (start i) m.st s2 s3 bs b pairs ps g21 p1 ?_
        rw [← g20]; exact f1
      · rw [feed_append _ _ _ _ _ g22]; exact p3
      · rw [feed_append _ _ _ _ _ g23]; exact p4

theorem batches_succ (s : Src (X × Y)) (i n k : Nat) : batches s i n (k + 1) = batches s i n k ++ [s.take (i + k * n) n] := by
  simp [batches, List.range_succ]

/-- All models follow the first `k` batches. -/
def All (M : Meters Y P μ ν) (s : Src (X × Y)) (idx : Nat) (C : Conf) (start : Nat → σ)
    (ms0 ms : List (Bundle σ X Y P μ ν)) (k : Nat) : Prop :=
  ms.length = ms0.length ∧ ∀ (i : Nat) m0, ms0[i]? = some m0 →
    ∃ m, ms[i]? = some m ∧ Follows M (start i) m0 m (batches s (idx + C.pretrain) C.batch k)

/-- What a row says. -/
def Row (M : Meters Y P μ ν) (rest : World) (s : Src (X × Y)) (idx : Nat) (C : Conf) (start : Nat → σ)
    (ms0 : List (Bundle σ X Y P μ ν)) (r : Int × World) : Prop :=
  ∃ (k : Nat) (ms : List (Bundle σ X Y P μ ν)), r = (((C.pretrain + k * C.batch : Nat) : Int), world M rest ms) ∧ All M s idx C start ms0 ms (k + 1)

theorem loop_rows (M : Meters Y P μ ν) (rest : World) (s : Src (X × Y)) (idx : Nat) (C : Conf) (timeOk : Nat → Bool)
    (start : Nat → σ) (ms0 : List (Bundle σ X Y P μ ν)) (h1 : ∀ m ∈ ms0, OneEach m.learner) (fuel : Nat)
    (t t' : St (List (Bundle σ X Y P μ ν))) (h : loop (env M rest s idx C timeOk) C fuel t = some t')
    (hc : t.count = C.pretrain + t.iters * C.batch) (hm : All M s idx C start ms0 t.st t.iters)
    (hr : ∀ r ∈ t.rows, Row M rest s idx C start ms0 r) : ∀ r ∈ t'.rows, Row M rest s idx C start ms0 r := by
  induction fuel generalizing t with
  | zero => cases h
  | succ fuel ih =>
    rcases loop_cases _ _ fuel t t' h with ⟨e1, -, -, -⟩ | ⟨-, -, -, st', hstep, hcase⟩
    · rw [e1]; exact hr
    · have hm' : All M s idx C start ms0 st' (t.iters + 1) := by
        have := iteration_follows M C.amax _ t.st st' ms0 h1 (batches s (idx + C.pretrain) C.batch t.iters) start hstep
          hm.2 hm.1
        rw [← batches_succ] at this
        exact this
      have hc' : t.count + C.batch = C.pretrain + (t.iters + 1) * C.batch := by rw [hc, Nat.add_mul, Nat.one_mul]; omega
      rcases hcase with ⟨-, b', -, h'⟩ | ⟨-, h'⟩
      · refine ih _ h' hc' hm' ?_
        intro r hrm
        rcases List.mem_append.mp hrm with hrm | hrm
        · exact hr r hrm
        · rw [List.mem_singleton] at hrm
          exact ⟨t.iters, st', by rw [hrm, hc]; rfl, hm'⟩
      · exact ih _ h' hc' hm' hr

/-- Every row of an evaluation: the measurement objects have been fed with exactly the
test-then-train results of their model. -/
theorem evaluate_rows (M : Meters Y P μ ν) (rest : World) (s : Src (X × Y)) (idx : Nat) (C : Conf) (timeOk : Nat → Bool)
    (ms0 : List (Bundle σ X Y P μ ν)) (h1 : ∀ m ∈ ms0, OneEach m.learner) (fuel : Nat) (o : Outcome)
    (h : evaluate (env M rest s idx C timeOk) C fuel ms0 = some o) (r : Int × World) (hr : r ∈ o.rows) :
    ∃ (k : Nat) (ms : List (Bundle σ X Y P μ ν)), r = (((C.pretrain + k * C.batch : Nat) : Int), world M rest ms) ∧
      ∀ (i : Nat) m0, ms0[i]? = some m0 → ∃ m s1 pairs, ms[i]? = some m ∧
        pretrained m0.learner s idx C.pretrain m0.st = .ok s1 ∧
        testThenTrain m0.learner s1 (batches s (idx + C.pretrain) C.batch (k + 1)) = .ok (pairs, m.st) ∧
        feed M.addMean m0.mean pairs = .ok m.mean ∧ feed M.addCur m0.cur pairs = .ok m.cur := by
  unfold evaluate at h
  cases hb : initBuf C.ms with
  | error e => rw [hb] at h; simp only [Option.some.injEq] at h; subst h; cases hr
  | ok b =>
    rw [hb] at h
    simp only at h
    cases hp : (if C.pretrain > 0 then (env M rest s idx C timeOk).pre ms0 else .ok ms0) with
    | error e => rw [hp] at h; simp only [Option.some.injEq] at h; subst h; cases hr
    | ok st1 =>
      rw [hp] at h
      simp only at h
      cases hl : loop (env M rest s idx C timeOk) C fuel ⟨C.pretrain, 0, 0, st1, b, []⟩ with
      | none => rw [hl] at h; cases h
      | some t =>
        rw [hl] at h
        simp only at h
        have hrows : o.rows = t.rows := by
          split at h
          · split at h
            · simp only [Option.some.injEq] at h; rw [← h]
            · simp only [Option.some.injEq] at h; rw [← h]
          · simp only [Option.some.injEq] at h; rw [← h]
        rw [hrows] at hr
        -- the states after pre-training
        have hpre : st1.length = ms0.length ∧ ∀ (i : Nat) m0, ms0[i]? = some m0 → ∃ m, st1[i]? = some m ∧
            m.learner = m0.learner ∧ m.mean = m0.mean ∧ m.cur = m0.cur ∧
            pretrained m0.learner s idx C.pretrain m0.st = .ok m.st := by
          by_cases h0 : C.pretrain > 0
          · rw [if_pos h0] at hp
            obtain ⟨l1, t1⟩ := each_ok hp
            refine ⟨l1, fun i m0 hi => ?_⟩
            obtain ⟨m, g1, g2⟩ := t1 i m0 hi
            unfold Bundle.train at g2
            cases hf : m0.learner.fit m0.st (s.take idx C.pretrain) with
            | error e => rw [hf] at g2; cases g2
            | ok s1 =>
              rw [hf] at g2
              simp only [Except.ok.injEq] at g2
              subst g2
              exact ⟨_, g1, rfl, rfl, rfl, by unfold pretrained; rw [if_pos h0]; exact hf⟩
          · rw [if_neg h0] at hp
            simp only [Except.ok.injEq] at hp
            subst hp
            exact ⟨rfl, fun i m0 hi => ⟨m0, hi, rfl, rfl, rfl, by unfold pretrained; rw [if_neg h0]⟩⟩
        cases ms0 with
        | nil =>
          -- no models: nothing to say
          have : ∀ r ∈ t.rows, ∃ (k : Nat) (ms : List (Bundle σ X Y P μ ν)), r = (((C.pretrain + k * C.batch : Nat) : Int), world M rest ms) := by
            have key : ∀ (fuel : Nat) (a a' : St (List (Bundle σ X Y P μ ν))),
                loop (env M rest s idx C timeOk) C fuel a = some a' → a.count = C.pretrain + a.iters * C.batch →
                (∀ r ∈ a.rows, ∃ (k : Nat) (ms : List (Bundle σ X Y P μ ν)), r = (((C.pretrain + k * C.batch : Nat) : Int), world M rest ms)) →
                ∀ r ∈ a'.rows, ∃ (k : Nat) (ms : List (Bundle σ X Y P μ ν)), r = (((C.pretrain + k * C.batch : Nat) : Int), world M rest ms) := by
              intro fuel
              induction fuel with
              | zero => intro a a' h; cases h
              | succ fuel ih =>
                intro a a' h hc hr
                rcases loop_cases _ _ fuel a a' h with ⟨e1, -, -, -⟩ | ⟨-, -, -, st', -, hcase⟩
                · rw [e1]; exact hr
                · have hc' : a.count + C.batch = C.pretrain + (a.iters + 1) * C.batch := by
                    rw [hc, Nat.add_mul, Nat.one_mul]; omega
                  rcases hcase with ⟨-, b', -, h'⟩ | ⟨-, h'⟩
                  · refine ih _ _ h' hc' ?_
                    intro r hrm
                    rcases List.mem_append.mp hrm with hrm | hrm
                    · exact hr r hrm
                    · rw [List.mem_singleton] at hrm
                      exact ⟨a.iters, st', by rw [hrm, hc]; rfl⟩
                  · exact ih _ _ h' hc' hr
            exact key fuel _ t hl (by simp) (by simp)
          obtain ⟨k, ms, hkm⟩ := this r hr
          exact ⟨k, ms, hkm, fun i m0 hi => by cases hi⟩
        | cons ma mr =>
          have hsome : ∃ start : Nat → σ, ∀ (i : Nat) m0, (ma :: mr)[i]? = some m0 →
              pretrained m0.learner s idx C.pretrain m0.st = .ok (start i) := by
            refine ⟨fun i => match st1[i]? with | some m => m.st | none => ma.st, fun i m0 hi => ?_⟩
            obtain ⟨m, g1, -, -, -, g5⟩ := hpre.2 i m0 hi
            simp only [g1]
            exact g5
          obtain ⟨start, hstart⟩ := hsome
          have hall : All M s idx C start (ma :: mr) st1 0 := by
            refine ⟨hpre.1, fun i m0 hi => ?_⟩
            obtain ⟨m, g1, g2, g3, g4, g5⟩ := hpre.2 i m0 hi
            refine ⟨m, g1, g2, [], ?_, ?_, ?_⟩
            · rw [hstart i m0 hi] at g5
              simp only [Except.ok.injEq] at g5
              simp [batches, testThenTrain, g5]
            · simp [feed, g3]
            · simp [feed, g4]
          obtain ⟨k, ms, hkm, -, hf⟩ := loop_rows M rest s idx C timeOk start (ma :: mr) h1 fuel _ t hl (by simp) hall
            (by simp) r hr
          refine ⟨k, ms, hkm, fun i m0 hi => ?_⟩
          obtain ⟨m, g1, -, pairs, g3, g4, g5⟩ := hf i m0 hi
          exact ⟨m, start i, pairs, g1, hstart i m0 hi, g3, g4, g5⟩

theorem testThenTrain_labels (L : Learner σ X Y P) (h1 : OneEach L) (s s' : σ) (bs : List (List (X × Y)))
    (pairs : List (Y × P)) (h : testThenTrain L s bs = .ok (pairs, s')) :
    pairs.map Prod.fst = bs.flatten.map Prod.snd := by
  induction bs generalizing s pairs with
  | nil =>
    simp only [testThenTrain, Except.ok.injEq, Prod.mk.injEq] at h
    rw [← h.1]; rfl
  | cons c bs ih =>
    simp only [testThenTrain] at h
    cases e1 : L.predict s (c.map Prod.fst) with
    | error e => rw [e1] at h; cases h
    | ok r =>
      obtain ⟨qs, t1⟩ := r
      rw [e1] at h
      simp only at h
      cases e2 : L.fit t1 c with
      | error e => rw [e2] at h; cases h
      | ok t2 =>
        rw [e2] at h
        simp only at h
        cases e3 : testThenTrain L t2 bs with
        | error e => rw [e3] at h; cases h
        | ok r =>
          obtain ⟨rest, t3⟩ := r
          rw [e3] at h
          simp only [Except.ok.injEq, Prod.mk.injEq] at h
          obtain ⟨rfl, rfl⟩ := h
          rw [List.map_append, ih t2 rest e3, List.flatten_cons, List.map_append, List.map_fst_zip]
          rw [h1 _ _ _ _ e1]; simp

/-- A result with weight 1, the default of `add_result`. -/
def unit (q : Int × Int) : Metrics.Res := ⟨q.1, q.2, 1⟩

theorem feed_class (pairs : List (Int × Int)) (e : Metrics.Eval) :
    feed (fun e y p => Except.ok (ε := PyErr) (e.addResult y p 1)) e pairs =
      .ok ((pairs.map unit).foldl (fun e r => e.addResult r.t r.p r.w) e) := by
  induction pairs generalizing e with
  | nil => rfl
  | cons q l ih => simp only [feed, List.map_cons, List.foldl_cons]; exact ih _

theorem feed_wclass (pairs : List (Int × Int)) (e : Metrics.WEval) :
    feed (fun e y p => Except.ok (ε := PyErr) (e.addResult y p 1)) e pairs =
      .ok ((pairs.map unit).foldl (fun e r => e.addResult r.t r.p r.w) e) := by
  induction pairs generalizing e with
  | nil => rfl
  | cons q l ih => simp only [feed, List.map_cons, List.foldl_cons]; exact ih _

theorem feed_reg (pairs : List (ℚ × ℚ)) (e : Regression.RegEval) :
    feed (fun e y p => Except.ok (ε := PyErr) (e.addResult y p)) e pairs =
      .ok (pairs.foldl (fun e r => e.addResult r.1 r.2) e) := by
  induction pairs generalizing e with
  | nil => rfl
  | cons q l ih => simp only [feed, List.foldl_cons]; exact ih _

theorem feed_wreg (pairs : List (ℚ × ℚ)) (e : Regression.WRegEval) :
    feed (fun e y p => e.addResult y p) e pairs = pairs.foldlM (fun e r => e.addResult r.1 r.2) e := by
  induction pairs generalizing e with
  | nil => rfl
  | cons q l ih =>
    simp only [feed, List.foldlM_cons]
    cases e.addResult q.1 q.2 with
    | error x => rfl
    | ok e' => exact ih e'

theorem accuracy_pairs (pairs : List (Int × Int)) :
    (Metrics.evalRun 2 (pairs.map unit)).accuracyScore = correct pairs := by
  have hu : ∀ r ∈ pairs.map unit, r.w = 1 := by
    intro r hr; obtain ⟨q, -, rfl⟩ := List.mem_map.mp hr; rfl
  rw [(Metrics.C05_accuracy_partial 2 _ hu).1]
  cases pairs with
  | nil => simp [correct]
  | cons q l =>
    rw [if_neg (by simp)]
    unfold correct Metrics.count
    rw [List.countP_map, List.length_map]
    rfl

theorem lastN_unit (w : Nat) (l : List (Int × Int)) : lastN w (l.map unit) = (lastN w l).map unit := by
  simp [lastN]

/-! ### C276 -/

/-- **C276 (classification).** In every row of a prequential evaluation, whatever exception may
have ended it, the accuracy of each model is the share of correct predictions among all rows
after the pre-training up to the batch the row belongs to, and the current accuracy the share
among the last `n_sliding` of them, each predicted by the model before it learned it. -/
theorem C276_classification (other : Metrics.Eval → Metric → ℚ) (rest : World) (s : Src (X × Int)) (idx : Nat)
    (C : Conf) (timeOk : Nat → Bool) (nSliding : Nat) (hs : 1 ≤ nSliding) (models : List (Learner σ X Int Int × σ))
    (h1 : ∀ m ∈ models, OneEach m.1) (fuel : Nat) (o : Outcome)
    (h : evaluate (env (classMeters other) rest s idx C timeOk) C fuel (models.map (newClassifier nSliding)) = some o)
    (sid : Int) (w : World) (hr : (sid, w) ∈ o.rows) :
    ∃ k : Nat, sid = ((C.pretrain + k * C.batch : Nat) : Int) ∧
      ∀ (i : Nat) L s0, models[i]? = some (L, s0) → ∃ s1 pairs s2,
        pretrained L s idx C.pretrain s0 = .ok s1 ∧
        testThenTrain L s1 (batches s (idx + C.pretrain) C.batch (k + 1)) = .ok (pairs, s2) ∧
        pairs.map Prod.fst = (batches s (idx + C.pretrain) C.batch (k + 1)).flatten.map Prod.snd ∧
        w.mean i .accuracy = correct pairs ∧ w.current i .accuracy = correct (lastN nSliding pairs) := by
  have h1' : ∀ m ∈ models.map (newClassifier nSliding), OneEach m.learner := by
    intro m hm; obtain ⟨a, ha, rfl⟩ := List.mem_map.mp hm; exact h1 a ha
  obtain ⟨k, ms, e, hk⟩ := evaluate_rows _ rest s idx C timeOk _ h1' fuel o h (sid, w) hr
  simp only [Prod.mk.injEq] at e
  refine ⟨k, e.1, fun i L s0 hi => ?_⟩
  obtain ⟨m, s1, pairs, g1, g2, g3, g4, g5⟩ := hk i (newClassifier nSliding (L, s0)) (by rw [List.getElem?_map, hi]; rfl)
  refine ⟨s1, pairs, m.st, g2, g3, testThenTrain_labels L (h1 _ (List.mem_of_getElem? hi)) _ _ _ _ g3, ?_, ?_⟩
  · have g6 := (feed_class pairs (Metrics.Eval.init 2)).symm.trans g4
    simp only [Except.ok.injEq] at g6
    rw [e.2]
    simp only [world, g1, classMeters, classMeters.scores]
    rw [← g6]
    exact accuracy_pairs pairs
  · have g6 := (feed_wclass pairs (Metrics.WEval.init 2 nSliding)).symm.trans g5
    simp only [Except.ok.injEq] at g6
    rw [e.2]
    simp only [world, g1, classMeters, classMeters.scores]
    rw [← g6]
    have hu : ∀ r ∈ pairs.map unit, 0 < r.w := by
      intro r hr; obtain ⟨q, -, rfl⟩ := List.mem_map.mp hr; simp [unit]
    have := (Metrics.C06_window_scores 2 nSliding hs (pairs.map unit) hu).1
    rw [lastN_unit, accuracy_pairs] at this
    exact this

/-- **C276 (regression).** The same for the mean squared and mean absolute errors. -/
theorem C276_regression (rest : World) (s : Src (X × ℚ)) (idx : Nat)
    (C : Conf) (timeOk : Nat → Bool) (nSliding : Nat) (hs : 1 ≤ nSliding) (models : List (Learner σ X ℚ ℚ × σ))
    (h1 : ∀ m ∈ models, OneEach m.1) (fuel : Nat) (o : Outcome)
    (h : evaluate (env regMeters rest s idx C timeOk) C fuel (models.map (newRegressor nSliding)) = some o)
    (sid : Int) (w : World) (hr : (sid, w) ∈ o.rows) :
    ∃ k : Nat, sid = ((C.pretrain + k * C.batch : Nat) : Int) ∧
      ∀ (i : Nat) L s0, models[i]? = some (L, s0) → ∃ s1 pairs s2,
        pretrained L s idx C.pretrain s0 = .ok s1 ∧
        testThenTrain L s1 (batches s (idx + C.pretrain) C.batch (k + 1)) = .ok (pairs, s2) ∧
        pairs.map Prod.fst = (batches s (idx + C.pretrain) C.batch (k + 1)).flatten.map Prod.snd ∧
        w.mean i .mse = Regression.mse pairs ∧ w.mean i .mae = Regression.mae pairs ∧
        w.current i .mse = Regression.mse (lastN nSliding pairs) ∧
        w.current i .mae = Regression.mae (lastN nSliding pairs) := by
  have h1' : ∀ m ∈ models.map (newRegressor nSliding), OneEach m.learner := by
    intro m hm; obtain ⟨a, ha, rfl⟩ := List.mem_map.mp hm; exact h1 a ha
  obtain ⟨k, ms, e, hk⟩ := evaluate_rows _ rest s idx C timeOk _ h1' fuel o h (sid, w) hr
  simp only [Prod.mk.injEq] at e
  refine ⟨k, e.1, fun i L s0 hi => ?_⟩
  obtain ⟨m, s1, pairs, g1, g2, g3, g4, g5⟩ := hk i (newRegressor nSliding (L, s0)) (by rw [List.getElem?_map, hi]; rfl)
  refine ⟨s1, pairs, m.st, g2, g3, testThenTrain_labels L (h1 _ (List.mem_of_getElem? hi)) _ _ _ _ g3, ?_⟩
  have g6 := (feed_reg pairs Regression.RegEval.init).symm.trans g4
  simp only [Except.ok.injEq] at g6
  have g7 := (feed_wreg pairs (Regression.WRegEval.init nSliding)).symm.trans g5
  obtain ⟨a1, a2, -, -⟩ := Regression.C11_cumulative pairs
  obtain ⟨e', b0, b1, b2, -, -⟩ := Regression.C11_window nSliding hs pairs
  have b3 : e' = m.cur := by
    have := b0.symm.trans g7
    simpa using this
  rw [e.2]
  simp only [world, g1, regMeters]
  rw [← g6, ← b3]
  exact ⟨a1, a2, b1, b2⟩

/-! A learner that repeats the last label it saw, on the labels 0, 0, 1, 1, 0, 0, 1, 1, ... -/

def lastLabel : Learner Int Nat Int Int where
  fit := fun s b => .ok ((b.map Prod.snd).getLastD s)
  predict := fun s xs => .ok (xs.map fun _ => s, s)

def pairsOfTwo : Src (Nat × Int) := ⟨fun i => (i, (i / 2 % 2 : Nat)), some 30⟩

def conf : Conf := ⟨.classification, 1, [.accuracy], 8, 1, 1, 30⟩

def noWorld : World := ⟨fun _ _ => 0, fun _ _ => 0, fun _ => 0, fun _ => 0, fun _ => 0, fun _ => 0, fun _ => 0, fun _ => 0, [], []⟩

example : ∀ m ∈ [(lastLabel, (7 : Int))], OneEach m.1 := by
  intro m hm s xs ps s' h
  rw [List.mem_singleton] at hm
  subst hm
  simp only [lastLabel, Except.ok.injEq, Prod.mk.injEq] at h
  rw [← h.1]; simp

example : (evaluate (env (classMeters fun _ _ => 0) noWorld pairsOfTwo 0 conf fun _ => true) conf 40
      ([(lastLabel, 7)].map (newClassifier 3))).map
      (fun o => o.rows.map fun r => (r.1, r.2.mean 0 .accuracy, r.2.current 0 .accuracy)) =
    some [(7, 4/7, 2/3), (15, 8/15, 2/3), (23, 12/23, 2/3), (29, 15/29, 2/3)] := by decide +kernel

end Verif.Evaluation.Honest
