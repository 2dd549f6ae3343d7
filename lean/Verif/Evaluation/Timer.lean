import Verif.Common
import Mathlib.Tactic.Linarith
import Mathlib.Tactic.Ring

/-!
Model of `RunningTimeMeasurements` (metrics/measure_collection.py 1489-1573) and of the
order in which the three evaluators use it for one model.  C194.

Simplifications: clock readings are rationals given as arguments; exceptions between the
begin and the end of a phase are left out; the sample count is not modelled.
-/

namespace Verif.Evaluation.Timer

/-- The fields, measure_collection.py 1509-1516. -/
structure RT where
  trainStart : Option ℚ
  testStart : Option ℚ
  training : ℚ
  testing : ℚ
  total : ℚ
  deriving DecidableEq

/-- `__init__`. -/
def RT.init : RT := ⟨none, none, 0, 0, 0⟩

/-- `compute_training_time_begin`, 1524-1527. -/
def RT.trainBegin (r : RT) (now : ℚ) : RT := { r with trainStart := some now }

/-- `compute_training_time_end`, 1529-1533. -/
def RT.trainEnd (r : RT) (now : ℚ) : Except PyErr RT :=
  match r.trainStart with
  | none => .error .typeError
  | some t => .ok { r with training := r.training + (now - t) }

/-- `compute_testing_time_begin`, 1535-1538. -/
def RT.testBegin (r : RT) (now : ℚ) : RT := { r with testStart := some now }

/-- `compute_testing_time_end`, 1540-1544. -/
def RT.testEnd (r : RT) (now : ℚ) : Except PyErr RT :=
  match r.testStart with
  | none => .error .typeError
  | some t => .ok { r with testing := r.testing + (now - t) }

/-- `update_time_measurements`, 1546-1555. -/
def RT.update (r : RT) : RT := { r with total := r.training + r.testing }

/-- What an evaluator does with the timer of one model: a `partial_fit` or a `predict`
between two clock readings, an update of the total, or a report (what
`get_current_training_time`, `..._testing_time`, `..._total_running_time` return). -/
inductive Act
  | train (b e : ℚ)
  | test (b e : ℚ)
  | update
  | report

/-- Runs the acts; the reports in order. -/
def exec : List Act → RT → Except PyErr (RT × List (ℚ × ℚ × ℚ))
  | [], r => .ok (r, [])
  | .train b e :: l, r => do exec l (← (r.trainBegin b).trainEnd e)
  | .test b e :: l, r => do exec l (← (r.testBegin b).testEnd e)
  | .update :: l, r => exec l r.update
  | .report :: l, r => do
    let (r', out) ← exec l r
    return (r', (r.training, r.testing, r.total) :: out)

/-- A batch of a prequential evaluation: readings around `predict` and `partial_fit`,
and whether a row is due.  evaluate_prequential.py 328-374. -/
structure Batch where
  test : ℚ × ℚ
  train : ℚ × ℚ
  row : Bool

/-- evaluate_prequential.py 291-310 (pre-training) and 316-374. -/
def prequential (pre : Option (ℚ × ℚ)) (l : List Batch) : List Act :=
  (match pre with
    | some p => [.train p.1 p.2, .update]
    | none => []) ++
  l.flatMap fun b =>
    [.test b.test.1 b.test.2, .train b.train.1 b.train.2, .update] ++
      if b.row then [.report] else []

/-- A batch of a holdout evaluation: readings around `partial_fit`, and around `predict`
when a test is due.  evaluate_holdout.py 258-327. -/
structure HBatch where
  train : ℚ × ℚ
  test : Option (ℚ × ℚ)

/-- evaluate_holdout.py 250-335. -/
def holdout (l : List HBatch) : List Act :=
  l.flatMap fun b =>
    [.train b.train.1 b.train.2, .update] ++
      match b.test with
      | some t => [.test t.1 t.2, .update, .report]
      | none => []

/-- An iteration of a delayed evaluation: a row for the labels that arrived may be due,
then the models are trained on them (if any), then the new batch is predicted.
evaluate_prequential_delayed.py 430-461 with 290-335. -/
structure DBatch where
  row : Bool
  train : Option (ℚ × ℚ)
  test : ℚ × ℚ

/-- evaluate_prequential_delayed.py 394-461. -/
def delayed (pre : ℚ × ℚ) (l : List DBatch) : List Act :=
  [.train pre.1 pre.2, .update] ++
  l.flatMap fun b =>
    (if b.row then [.report] else []) ++
    (match b.train with
      | some t => [.train t.1 t.2, .update]
      | none => []) ++
    [.test b.test.1 b.test.2]

/-! ### Specification -/

/-- Time spent in `partial_fit`. -/
def trainTime : List Act → ℚ
  | [] => 0
  | .train b e :: l => (e - b) + trainTime l
  | _ :: l => trainTime l

/-- Time spent in `predict`. -/
def testTime : List Act → ℚ
  | [] => 0
  | .test b e :: l => (e - b) + testTime l
  | _ :: l => testTime l

/-- For every report, what happened before it. -/
def before : List Act → List Act → List (List Act)
  | _, [] => []
  | past, .report :: l => past :: before (past ++ [.report]) l
  | past, a :: l => before (past ++ [a]) l

/-- The acts of `past` and the list up to the last update of the list. -/
def settled : List Act → List Act → List Act
  | _, [] => []
  | past, .update :: l => past ++ .update :: settled [] l
  | past, a :: l => settled (past ++ [a]) l

/-- The acts up to the last update of a list. -/
def upToUpdate (l : List Act) : List Act := settled [] l

/-- Clock readings that never go back, from `t` on, and the last of them. -/
def Clock : ℚ → List Act → ℚ → Prop
  | t, [], t' => t ≤ t'
  | t, .train b e :: l, t' => t ≤ b ∧ b ≤ e ∧ Clock e l t'
  | t, .test b e :: l, t' => t ≤ b ∧ b ≤ e ∧ Clock e l t'
  | t, _ :: l, t' => Clock t l t'

/-! ### Lemmas -/

theorem trainTime_append (a b : List Act) : trainTime (a ++ b) = trainTime a + trainTime b := by
  induction a with
  | nil => simp [trainTime]
  | cons x a ih => cases x <;> simp only [List.cons_append, trainTime, ih] <;> ring

theorem testTime_append (a b : List Act) : testTime (a ++ b) = testTime a + testTime b := by
  induction a with
  | nil => simp [testTime]
  | cons x a ih => cases x <;> simp only [List.cons_append, testTime, ih] <;> ring

theorem settled_snoc (past l : List Act) (a : Act) (ha : a ≠ .update) :
    settled past (l ++ [a]) = settled past l := by
  induction l generalizing past with
  | nil => cases a <;> first | rfl | exact absurd rfl ha
  | cons x l ih => cases x <;> simp only [List.cons_append, settled, ih]

theorem settled_update (past l : List Act) :
    settled past (l ++ [.update]) = past ++ l ++ [.update] := by
  induction l generalizing past with
  | nil => simp [settled]
  | cons x l ih =>
    cases x <;> simp only [List.cons_append, settled, ih] <;> simp

/-- What the timer holds after `past`. -/
def Holds (r : RT) (past : List Act) : Prop :=
  r.training = trainTime past ∧ r.testing = testTime past ∧
  r.total = trainTime (upToUpdate past) + testTime (upToUpdate past)

theorem exec_spec (l : List Act) : ∀ (r : RT) (past : List Act), Holds r past →
    ∃ r' out, exec l r = .ok (r', out) ∧ Holds r' (past ++ l) ∧
      out = (before past l).map fun p =>
        (trainTime p, testTime p, trainTime (upToUpdate p) + testTime (upToUpdate p)) := by
  induction l with
  | nil => intro r past h; exact ⟨r, [], rfl, by simpa using h, rfl⟩
  | cons a l ih =>
    intro r past h
    obtain ⟨h1, h2, h3⟩ := h
    have app : past ++ a :: l = (past ++ [a]) ++ l := by simp
    cases a with
    | train b e =>
      obtain ⟨r', out, e1, e2, e3⟩ := ih
        { r with trainStart := some b, training := r.training + (e - b) } (past ++ [.train b e])
        ⟨by simp [trainTime_append, trainTime, h1],
         by simp [testTime_append, testTime, h2],
         by rw [upToUpdate, settled_snoc _ _ _ (by simp)]; exact h3⟩
      exact ⟨r', out, e1, by rw [app]; exact e2, e3⟩
    | test b e =>
      obtain ⟨r', out, e1, e2, e3⟩ := ih
        { r with testStart := some b, testing := r.testing + (e - b) } (past ++ [.test b e])
        ⟨by simp [trainTime_append, trainTime, h1],
         by simp [testTime_append, testTime, h2],
         by rw [upToUpdate, settled_snoc _ _ _ (by simp)]; exact h3⟩
      exact ⟨r', out, e1, by rw [app]; exact e2, e3⟩
    | update =>
      obtain ⟨r', out, e1, e2, e3⟩ := ih r.update (past ++ [.update])
        ⟨by simp [trainTime_append, trainTime, h1, RT.update],
         by simp [testTime_append, testTime, h2, RT.update],
         by
          rw [upToUpdate, settled_update]
          simp [trainTime_append, testTime_append, trainTime, testTime, RT.update, h1, h2]⟩
      exact ⟨r', out, e1, by rw [app]; exact e2, e3⟩
    | report =>
      obtain ⟨r', out, e1, e2, e3⟩ := ih r (past ++ [.report])
        ⟨by simp [trainTime_append, trainTime, h1],
         by simp [testTime_append, testTime, h2],
         by rw [upToUpdate, settled_snoc _ _ _ (by simp)]; exact h3⟩
      refine ⟨r', (r.training, r.testing, r.total) :: out, ?_, by rw [app]; exact e2, ?_⟩
      · simp only [exec, e1]; rfl
      · simp only [before, List.map_cons, e3, h1, h2, h3]

theorem before_append (past a b : List Act) :
    before past (a ++ b) = before past a ++ before (past ++ a) b := by
  induction a generalizing past with
  | nil => simp [before]
  | cons x a ih =>
    cases x <;> simp only [List.cons_append, before, ih, List.append_assoc, List.nil_append]

/-- A past in which everything timed has been added to the total. -/
def Upd (p : List Act) : Prop :=
  trainTime (upToUpdate p) = trainTime p ∧ testTime (upToUpdate p) = testTime p

theorem upd_update (p : List Act) : Upd (p ++ [.update]) := by
  unfold Upd upToUpdate
  rw [settled_update]
  exact ⟨rfl, rfl⟩

theorem upd_report (p : List Act) (h : Upd p) : Upd (p ++ [.report]) := by
  unfold Upd upToUpdate at *
  rw [settled_snoc _ _ _ (by simp)]
  simp [trainTime_append, testTime_append, trainTime, testTime, h.1, h.2]

/-- Blocks that end settled and report only when settled. -/
theorem blocks_upd {α : Type} (f : α → List Act)
    (hf : ∀ (x : α) (p : List Act), Upd p → Upd (p ++ f x) ∧ ∀ q ∈ before p (f x), Upd q)
    (l : List α) (p : List Act) (hp : Upd p) :
    Upd (p ++ l.flatMap f) ∧ ∀ q ∈ before p (l.flatMap f), Upd q := by
  induction l generalizing p with
  | nil => exact ⟨by simpa using hp, by simp [before]⟩
  | cons x l ih =>
    obtain ⟨h1, h2⟩ := hf x p hp
    obtain ⟨h3, h4⟩ := ih (p ++ f x) h1
    rw [List.flatMap_cons, before_append, ← List.append_assoc]
    refine ⟨h3, ?_⟩
    intro q hq
    rcases List.mem_append.1 hq with hq | hq
    · exact h2 q hq
    · exact h4 q hq

/-- Every report of a run shows the time spent so far, and their sum as the total. -/
def Truthful (acts : List Act) : Prop :=
  ∃ r out, exec acts RT.init = .ok (r, out) ∧
    out = (before [] acts).map fun p => (trainTime p, testTime p, trainTime p + testTime p)

theorem truthful_of_upd (acts : List Act) (h : ∀ q ∈ before [] acts, Upd q) : Truthful acts := by
  obtain ⟨r, out, e1, -, e3⟩ := exec_spec acts RT.init [] ⟨rfl, rfl, by
    simp [upToUpdate, settled, trainTime, testTime, RT.init]⟩
  refine ⟨r, out, e1, ?_⟩
  rw [e3]
  apply List.map_congr_left
  intro p hp
  obtain ⟨h1, h2⟩ := h p hp
  rw [h1, h2]

/-- C194 (a): in the rows of a prequential evaluation the training and testing times are
the time spent in `partial_fit` and in `predict` so far, and the total is their sum. -/
theorem C194_prequential_times (pre : Option (ℚ × ℚ)) (l : List Batch) :
    Truthful (prequential pre l) := by
  apply truthful_of_upd
  have h0 : Upd [] := ⟨rfl, rfl⟩
  have hb := blocks_upd (fun b : Batch =>
    [.test b.test.1 b.test.2, .train b.train.1 b.train.2, .update] ++
      if b.row then [.report] else []) (by
    intro b p _
    have hu : Upd (p ++ [Act.test b.test.1 b.test.2, .train b.train.1 b.train.2, .update]) := by
      have := upd_update (p ++ [Act.test b.test.1 b.test.2, .train b.train.1 b.train.2])
      simpa using this
    by_cases hr : b.row = true
    · simp only [hr, if_true]
      rw [← List.append_assoc]
      refine ⟨upd_report _ hu, ?_⟩
      intro q hq
      rw [before_append] at hq
      have e1 : before p [Act.test b.test.1 b.test.2, .train b.train.1 b.train.2, .update] = [] := rfl
      rw [e1, List.nil_append, before, before, List.mem_singleton] at hq
      rw [hq]; exact hu
    · simp only [hr]
      refine ⟨by simpa using hu, ?_⟩
      intro q hq
      cases hq)
  cases pre with
  | none => exact (hb l [] h0).2
  | some p =>
    intro q hq
    unfold prequential at hq
    rw [before_append] at hq
    simp only [before, List.nil_append] at hq
    exact (hb l _ (upd_update [Act.train p.1 p.2])).2 q hq

/-- C194 (b): the same in a holdout evaluation. -/
theorem C194_holdout_times (l : List HBatch) : Truthful (holdout l) := by
  apply truthful_of_upd
  refine (blocks_upd _ ?_ l [] ⟨rfl, rfl⟩).2
  intro b p _
  have hu : Upd (p ++ [Act.train b.train.1 b.train.2, .update]) := by
    have := upd_update (p ++ [Act.train b.train.1 b.train.2])
    simpa using this
  cases ht : b.test with
  | none =>
    simp only [List.append_nil]
    exact ⟨hu, by intro q hq; cases hq⟩
  | some t =>
    have hu2 : Upd (p ++ [Act.train b.train.1 b.train.2, .update] ++ [.test t.1 t.2, .update]) := by
      have := upd_update (p ++ [Act.train b.train.1 b.train.2, .update, .test t.1 t.2])
      simpa using this
    have e : p ++ ([Act.train b.train.1 b.train.2, .update] ++ [.test t.1 t.2, .update, .report]) =
        p ++ [Act.train b.train.1 b.train.2, .update] ++ [.test t.1 t.2, .update] ++ [.report] := by simp
    simp only
    rw [e]
    refine ⟨upd_report _ hu2, ?_⟩
    intro q hq
    have e2 : ([Act.train b.train.1 b.train.2, .update] ++ [.test t.1 t.2, .update, .report] : List Act) =
        ([Act.train b.train.1 b.train.2, .update] ++ [.test t.1 t.2, .update]) ++ [.report] := by simp
    rw [e2, before_append] at hq
    have e1 : before p ([Act.train b.train.1 b.train.2, .update] ++ [.test t.1 t.2, .update]) = [] := rfl
    rw [e1, List.nil_append, before, before, List.mem_singleton] at hq
    rw [hq, ← List.append_assoc]; exact hu2

/-- C194 (c): the clock never going back, the times of a report are non-negative and the
total is at most the time that has passed. -/
theorem C194_times_bounded (acts : List Act) (t t' : ℚ) (h : Clock t acts t') :
    0 ≤ trainTime acts ∧ 0 ≤ testTime acts ∧ trainTime acts + testTime acts ≤ t' - t := by
  induction acts generalizing t with
  | nil =>
    have h' : t ≤ t' := h
    simp only [trainTime, testTime]
    exact ⟨le_refl _, le_refl _, by linarith⟩
  | cons a l ih =>
    cases a with
    | train b e =>
      obtain ⟨h1, h2, h3⟩ := h
      obtain ⟨i1, i2, i3⟩ := ih e h3
      simp only [trainTime, testTime]
      exact ⟨by linarith, i2, by linarith⟩
    | test b e =>
      obtain ⟨h1, h2, h3⟩ := h
      obtain ⟨i1, i2, i3⟩ := ih e h3
      simp only [trainTime, testTime]
      exact ⟨i1, by linarith, by linarith⟩
    | update => exact ih t h
    | report => exact ih t h

/-- C194 (d): in a delayed evaluation (in fact in any order of acts) the total of a row is
the time spent up to the last update of the total, which comes with the last training. -/
theorem C194_delayed_times (pre : ℚ × ℚ) (l : List DBatch) :
    ∃ r out, exec (delayed pre l) RT.init = .ok (r, out) ∧
      out = (before [] (delayed pre l)).map fun p =>
        (trainTime p, testTime p, trainTime (upToUpdate p) + testTime (upToUpdate p)) := by
  obtain ⟨r, out, e1, -, e3⟩ := exec_spec (delayed pre l) RT.init [] ⟨rfl, rfl, by
    simp [upToUpdate, settled, trainTime, testTime, RT.init]⟩
  exact ⟨r, out, e1, e3⟩

/-- C194 violated: in a delayed evaluation a row leaves the last predictions out of the
total, although it counts them as testing time. -/
theorem C194_violated : ∃ (pre : ℚ × ℚ) (l : List DBatch),
    Clock 0 (delayed pre l) 10 ∧
    (exec (delayed pre l) RT.init).toOption.map Prod.snd = some [(1, 2, 1)] ∧
    ¬ Truthful (delayed pre l) := by
  refine ⟨(0, 1), [⟨false, none, (1, 3)⟩, ⟨true, some (3, 4), (4, 5)⟩], ?_, by decide +kernel, ?_⟩
  · simp only [Clock, delayed, List.flatMap_cons, List.flatMap_nil, List.append_nil,
      List.cons_append, List.nil_append, if_true, Bool.false_eq_true, if_false]
    norm_num
  · rintro ⟨r, out, h1, h2⟩
    have e : exec (delayed (0, 1) [⟨false, none, (1, 3)⟩, ⟨true, some (3, 4), (4, 5)⟩]) RT.init =
        .ok (⟨some 3, some 4, 0 + (1 - 0) + (4 - 3), 0 + (3 - 1) + (5 - 4),
          0 + (1 - 0) + (4 - 3) + (0 + (3 - 1))⟩,
          [(0 + (1 - 0), 0 + (3 - 1), 0 + (1 - 0) + 0)]) := rfl
    rw [e] at h1
    cases h1
    revert h2
    decide +kernel

/-- Two batches with a row after the second. -/
example : (exec (prequential (some (0, 1)) [⟨(1, 2), (2, 4), false⟩, ⟨(4, 5), (6, 7), true⟩])
    RT.init).toOption.map Prod.snd = some [(4, 2, 6)] := by decide +kernel

end Verif.Evaluation.Timer
