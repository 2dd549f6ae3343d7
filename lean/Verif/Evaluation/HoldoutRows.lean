import Verif.Evaluation.Honest
import Verif.Evaluation.Props

/-!
What the rows of a holdout evaluation say about the models: `_periodic_holdout`
(evaluate_holdout.py 228-345) with the stream, the models and the measurement objects put
together.  C277.

Simplifications: those of `Honest.lean`; the summary printed at the end is left out (it writes
no rows).
-/

namespace Verif.Evaluation.HoldoutRows

open Verif.Evaluation Verif.Evaluation.Report Verif.Evaluation.Honest

variable {σ X Y P μ ν : Type}

/-! ### Model -/

/-- The arguments of `EvaluateHoldout` (evaluate_holdout.py 150-190) and the configuration
found; `amax` is `actual_max_samples`. -/
structure HConf where
  task : Task
  n : Nat
  ms : List Metric
  nWait : Nat
  batch : Nat
  testSize : Nat
  dynamic : Bool
  amax : Int

/-- State of the loop: iterations, position in the stream, `global_sample_count`,
`performance_sampling_cnt`, models, data buffer, rows written. -/
structure HSt (β : Type) where
  k : Nat
  idx : Nat
  count : Nat
  cnt : Nat
  ms : List β
  buf : Buf
  rows : List (Int × World)

/-- The test of lines 300-331: predictions, scores and the row; `idx` and `count` are those
after the test set was read. -/
def testPhase (M : Meters Y P μ ν) (rest : World) (C : HConf) (t : List (X × Y)) (idx count : Nat)
    (ms : List (Bundle σ X Y P μ ν)) (a : HSt (Bundle σ X Y P μ ν)) : Except PyErr (HSt (Bundle σ X Y P μ ν)) :=
  match testAll M t ms with
  | .error e => .error e
  | .ok ms2 =>
    match updateMetrics C.task C.n (count : Int) (world M rest ms2) C.ms a.buf with
    | .error e => .error e
    | .ok b' => .ok ⟨a.k + 1, idx, count, a.cnt + 1, ms2, b', a.rows ++ [((count : Int), world M rest ms2)]⟩

/-- One iteration, lines 254-333; `T` is the static test set. -/
def step (M : Meters Y P μ ν) (rest : World) (s : Src (X × Y)) (C : HConf) (T : List (X × Y))
    (a : HSt (Bundle σ X Y P μ ν)) : Except PyErr (HSt (Bundle σ X Y P μ ν)) :=
  match each (Bundle.train (s.take a.idx C.batch)) a.ms with
  | .error e => .error e
  | .ok ms1 =>
    match checkProgress C.amax with
    | .error e => .error e
    | .ok () =>
      if !C.dynamic && C.nWait == 0 then .error .zeroDivision
      else if performTest C.dynamic C.nWait C.testSize (a.count + C.batch) a.cnt C.amax then
        if C.dynamic then
          testPhase M rest C (s.take (a.idx + C.batch) C.testSize) (a.idx + C.batch + C.testSize)
            (a.count + C.batch + (s.take (a.idx + C.batch) C.testSize).length) ms1 a
        else testPhase M rest C T (a.idx + C.batch) (a.count + C.batch) ms1 a
      else .ok ⟨a.k + 1, a.idx + C.batch, a.count + C.batch, a.cnt, ms1, a.buf, a.rows⟩

/-- The loop, lines 251-339: every exception ends it.  `none`: out of fuel. -/
def loop (M : Meters Y P μ ν) (rest : World) (s : Src (X × Y)) (C : HConf) (timeOk : Nat → Bool) (T : List (X × Y)) :
    Nat → HSt (Bundle σ X Y P μ ν) → Option (List (Int × World))
  | 0, _ => none
  | fuel + 1, a =>
    if (a.count : Int) < C.amax && timeOk a.k && s.hasMore a.idx then
      match step M rest s C T a with
      | .error _ => some a.rows
      | .ok a' => loop M rest s C timeOk T fuel a'
    else some a.rows

/-- `_periodic_holdout`, lines 228-345, for a stream at position `idx`: the rows written. -/
def holdoutRows (M : Meters Y P μ ν) (rest : World) (s : Src (X × Y)) (idx : Nat) (C : HConf) (timeOk : Nat → Bool)
    (fuel : Nat) (ms : List (Bundle σ X Y P μ ν)) : Option (List (Int × World)) :=
  match initBuf C.ms with
  | .error _ => some []
  | .ok b =>
    if C.dynamic then loop M rest s C timeOk [] fuel ⟨0, idx, 0, 0, ms, b, []⟩
    else loop M rest s C timeOk (s.take idx C.testSize) fuel ⟨0, idx + C.testSize, C.testSize, 0, ms, b, []⟩

/-! ### Specification -/

/-- What is done with a model. -/
inductive Ev (X Y : Type)
  | train (b : List (X × Y))
  | test (t : List (X × Y))

/-- The predictions of a model in state `s`, with the true values, for each of the tests. -/
def replay (L : Honest.Learner σ X Y P) : σ → List (Ev X Y) → Except PyErr (List (List (Y × P)) × σ)
  | s, [] => .ok ([], s)
  | s, .train b :: evs =>
    match L.fit s b with
    | .error e => .error e
    | .ok s1 => replay L s1 evs
  | s, .test t :: evs =>
    match L.predict s (t.map Prod.fst) with
    | .error e => .error e
    | .ok (ps, s1) =>
      match replay L s1 evs with
      | .error e => .error e
      | .ok (rest, s2) => .ok ((t.map Prod.snd).zip ps :: rest, s2)

def Ev.trained : Ev X Y → List (X × Y)
  | .train b => b
  | .test _ => []

def Ev.rows : Ev X Y → List (X × Y)
  | .train b => b
  | .test t => t

def Ev.isTrain : Ev X Y → Bool
  | .train _ => true
  | .test _ => false

/-- The stream, from position `idx` on, is used up in order.  With dynamic test sets every
sample is used once, for training or for a test; with a static test set the first `testSize`
samples are the set of every test, and the others are used for training. -/
def Uses (s : Src (X × Y)) (idx : Nat) (dynamic : Bool) (testSize : Nat) (evs : List (Ev X Y)) : Prop :=
  if dynamic then ∃ n, (evs.map Ev.rows).flatten = s.take idx n
  else (∃ n, (evs.map Ev.trained).flatten = s.take (idx + testSize) n) ∧
    ∀ t, Ev.test t ∈ evs → t = s.take idx testSize ∧ t.length = testSize

/-- Samples used: the batches at their nominal size, and the test sets. -/
def used (C : HConf) (evs : List (Ev X Y)) : Nat :=
  C.batch * evs.countP Ev.isTrain +
    if C.dynamic then ((evs.filter fun e => !e.isTrain).map fun e => e.rows.length).sum else C.testSize

/-- A test is due after a training step: `c` samples used, `cnt` tests so far. -/
def Due (C : HConf) (c cnt : Nat) : Prop :=
  (if C.dynamic then C.nWait * (cnt + 1) + C.testSize * cnt ≤ c else C.nWait ∣ c - C.testSize) ∨ C.amax ≤ c

/-- Tests take place directly after the training steps after which they are due, and only there. -/
def OnTime (C : HConf) (evs : List (Ev X Y)) : Prop :=
  (∀ p b q, evs = p ++ .train b :: q →
    ((∃ t q', q = .test t :: q') ↔ Due C (used C (p ++ [.train b])) (p.countP fun e => !e.isTrain))) ∧
  ∀ p t q, evs = p ++ .test t :: q → ∃ p' b, p = p' ++ [.train b]

/-! ### Proofs -/

theorem split_snoc {α : Type} {l l1 l2 : List α} {a e : α} (h : l ++ [a] = l1 ++ e :: l2) :
    (∃ l3, l = l1 ++ e :: l3 ∧ l2 = l3 ++ [a]) ∨ (l = l1 ∧ a = e ∧ l2 = []) := by
  rcases List.eq_nil_or_concat l2 with rfl | ⟨l3, x, rfl⟩
  · have h' := List.append_inj_left' h rfl
    have h2 := List.append_inj_right' h rfl
    simp only [List.cons.injEq, and_true] at h2
    exact Or.inr ⟨h', h2, rfl⟩
  · have h3 : l ++ [a] = (l1 ++ e :: l3) ++ [x] := by rw [h]; simp
    have h' := List.append_inj_left' h3 rfl
    have h2 := List.append_inj_right' h3 rfl
    simp only [List.cons.injEq, and_true] at h2
    subst h2
    exact Or.inl ⟨l3, h', by simp⟩

theorem OnTime.train {C : HConf} {evs : List (Ev X Y)} (h : OnTime C evs) (b : List (X × Y))
    (hn : ¬ Due C (used C (evs ++ [.train b])) (evs.countP fun e => !e.isTrain)) : OnTime C (evs ++ [.train b]) := by
  refine ⟨fun p c q e => ?_, fun p t q e => ?_⟩
  · rcases split_snoc e with ⟨q0, e1, rfl⟩ | ⟨rfl, e1, rfl⟩
    · rw [← h.1 p c q0 e1]
      cases q0 with
      | nil => simp
      | cons x q0 => simp
    · cases e1
      constructor
      · rintro ⟨t, q', e⟩; cases e
      · intro hd; exact absurd hd hn
  · rcases split_snoc e with ⟨q0, e1, rfl⟩ | ⟨-, e1, -⟩
    · exact h.2 p t q0 e1
    · cases e1

theorem OnTime.test {C : HConf} {evs : List (Ev X Y)} (h : OnTime C evs) (b t : List (X × Y))
    (hn : Due C (used C (evs ++ [.train b])) (evs.countP fun e => !e.isTrain)) :
    OnTime C (evs ++ [.train b] ++ [.test t]) := by
  refine ⟨fun p c q e => ?_, fun p t' q e => ?_⟩
  · rcases split_snoc e with ⟨q0, e1, rfl⟩ | ⟨-, e1, -⟩
    · rcases split_snoc e1 with ⟨q1, e2, rfl⟩ | ⟨rfl, e2, rfl⟩
      · rw [← h.1 p c q1 e2]
        cases q1 with
        | nil => simp
        | cons x q0 => simp
      · cases e2
        exact ⟨fun _ => hn, fun _ => ⟨t, [], rfl⟩⟩
    · cases e1
  · rcases split_snoc e with ⟨q0, e1, rfl⟩ | ⟨e0, e1, -⟩
    · rcases split_snoc e1 with ⟨q1, e2, rfl⟩ | ⟨-, e2, -⟩
      · exact h.2 p t' q1 e2
      · cases e2
    · exact ⟨evs, b, e0.symm⟩

theorem due_iff (C : HConf) (c cnt : Nat) (h : ¬ (!C.dynamic && C.nWait == 0) = true)
    (hc : C.dynamic = false → C.testSize ≤ c) :
    performTest C.dynamic C.nWait C.testSize c cnt C.amax = true ↔ Due C c cnt := by
  unfold performTest Due
  cases hd : C.dynamic with
  | true => simp
  | false =>
    simp only [Bool.false_eq_true, if_false, Bool.or_eq_true, beq_iff_eq, decide_eq_true_eq]
    have h1 : ((c : Int) - C.testSize) = ((c - C.testSize : Nat) : Int) := by
      have := hc hd; omega
    rw [h1, ← Int.dvd_iff_emod_eq_zero, Int.natCast_dvd_natCast]

theorem replay_append (L : Honest.Learner σ X Y P) (s s1 s2 : σ) (evs evs' : List (Ev X Y)) (p q : List (List (Y × P)))
    (h : replay L s evs = .ok (p, s1)) (h' : replay L s1 evs' = .ok (q, s2)) :
    replay L s (evs ++ evs') = .ok (p ++ q, s2) := by
  induction evs generalizing s p with
  | nil =>
    simp only [replay, Except.ok.injEq, Prod.mk.injEq] at h
    obtain ⟨rfl, rfl⟩ := h
    exact h'
  | cons e evs ih =>
    cases e with
    | train b =>
      simp only [replay, List.cons_append] at h ⊢
      cases hf : L.fit s b with
      | error e => rw [hf] at h; cases h
      | ok t1 => rw [hf] at h; exact ih t1 p h
    | test t =>
      simp only [replay, List.cons_append] at h ⊢
      cases hp : L.predict s (t.map Prod.fst) with
      | error e => rw [hp] at h; cases h
      | ok r =>
        obtain ⟨ps, t1⟩ := r
        rw [hp] at h
        simp only at h ⊢
        cases hr : replay L t1 evs with
        | error e => rw [hr] at h; cases h
        | ok r =>
          obtain ⟨rest, t2⟩ := r
          rw [hr] at h
          simp only [Except.ok.injEq, Prod.mk.injEq] at h
          obtain ⟨rfl, rfl⟩ := h
          rw [ih t1 rest hr]
          rfl

/-- What holds of bundle `m` that started as `m0`. -/
def Follows (M : Meters Y P μ ν) (m0 m : Bundle σ X Y P μ ν) (evs : List (Ev X Y)) : Prop :=
  m.learner = m0.learner ∧ ∃ pss, replay m0.learner m0.st evs = .ok (pss, m.st) ∧
    feed M.addMean m0.mean pss.flatten = .ok m.mean ∧ feed M.addCur m0.cur pss.flatten = .ok m.cur

def All (M : Meters Y P μ ν) (ms0 ms : List (Bundle σ X Y P μ ν)) (evs : List (Ev X Y)) : Prop :=
  ms.length = ms0.length ∧ ∀ (i : Nat) m0, ms0[i]? = some m0 → ∃ m, ms[i]? = some m ∧ Follows M m0 m evs

theorem All.train {M : Meters Y P μ ν} {ms0 ms ms1 : List (Bundle σ X Y P μ ν)} {evs : List (Ev X Y)}
    (h : All M ms0 ms evs) {b : List (X × Y)} (ht : each (Bundle.train b) ms = .ok ms1) :
    All M ms0 ms1 (evs ++ [.train b]) := by
  obtain ⟨l, t⟩ := trainAll_ok b ms ms1 ht
  refine ⟨l.trans h.1, fun i m0 hi => ?_⟩
  obtain ⟨m, g1, g2, pss, g3, g4, g5⟩ := h.2 i m0 hi
  obtain ⟨s2, f1, f2⟩ := t i m g1
  refine ⟨_, f2, g2, pss, ?_, g4, g5⟩
  have := replay_append m0.learner m0.st m.st s2 evs [.train b] pss [] g3 (by
    rw [g2] at f1; simp only [replay, f1])
  simpa using this

theorem All.test {M : Meters Y P μ ν} {ms0 ms ms1 : List (Bundle σ X Y P μ ν)} {evs : List (Ev X Y)}
    (h1 : ∀ m ∈ ms0, OneEach m.learner) (h : All M ms0 ms evs) {t : List (X × Y)} (ht : testAll M t ms = .ok ms1) :
    All M ms0 ms1 (evs ++ [.test t]) := by
  have h1' : ∀ m ∈ ms, OneEach m.learner := by
    intro m hmem
    obtain ⟨i, hi, rfl⟩ := List.getElem_of_mem hmem
    have hi0 : i < ms0.length := by have := h.1; omega
    obtain ⟨m', g1, g2, -⟩ := h.2 i ms0[i] (List.getElem?_eq_getElem hi0)
    rw [List.getElem?_eq_getElem hi, Option.some.injEq] at g1
    rw [g1, g2]
    exact h1 _ (List.getElem_mem hi0)
  obtain ⟨l, k⟩ := testAll_ok M t ms ms1 h1' ht
  refine ⟨l.trans h.1, fun i m0 hi => ?_⟩
  obtain ⟨m, g1, g2, pss, g3, g4, g5⟩ := h.2 i m0 hi
  obtain ⟨ps, s2, a, c, p1, -, p3, p4, p5⟩ := k i m g1
  refine ⟨_, p5, g2, pss ++ [(t.map Prod.snd).zip ps], ?_, ?_, ?_⟩
  · exact replay_append m0.learner m0.st m.st s2 evs [.test t] pss _ g3 (by
      rw [g2] at p1; simp only [replay, p1])
  · rw [List.flatten_append, feed_append _ _ _ _ _ g4]; simpa using p3
  · rw [List.flatten_append, feed_append _ _ _ _ _ g5]; simpa using p4

/-- The stream part of the invariant: position and counter. -/
def Pos (s : Src (X × Y)) (idx : Nat) (C : HConf) (evs : List (Ev X Y)) (i count : Nat) : Prop :=
  count = used C evs ∧
  if C.dynamic then ∃ n, i = idx + n ∧ (evs.map Ev.rows).flatten = s.take idx n
  else (∃ n, i = idx + C.testSize + n ∧ (evs.map Ev.trained).flatten = s.take (idx + C.testSize) n) ∧
    ∀ t, Ev.test t ∈ evs → t = s.take idx C.testSize ∧ t.length = C.testSize

theorem Pos.uses {s : Src (X × Y)} {idx : Nat} {C : HConf} {evs : List (Ev X Y)} {i count : Nat}
    (h : Pos s idx C evs i count) : Uses s idx C.dynamic C.testSize evs := by
  unfold Uses
  obtain ⟨-, h⟩ := h
  cases hd : C.dynamic with
  | true => rw [hd, if_pos rfl] at h; rw [if_pos rfl]; obtain ⟨n, -, h⟩ := h; exact ⟨n, h⟩
  | false =>
    rw [hd, if_neg (by simp)] at h
    rw [if_neg (by simp)]
    obtain ⟨⟨n, -, h⟩, h'⟩ := h
    exact ⟨⟨n, h⟩, h'⟩

theorem Pos.train {s : Src (X × Y)} {idx : Nat} {C : HConf} {evs : List (Ev X Y)} {i count : Nat}
    (h : Pos s idx C evs i count) :
    Pos s idx C (evs ++ [.train (s.take i C.batch)]) (i + C.batch) (count + C.batch) := by
  obtain ⟨hc, h⟩ := h
  refine ⟨?_, ?_⟩
  · rw [hc]
    simp only [used, List.countP_append, List.filter_append, List.countP_singleton, Ev.isTrain, if_true]
    simp [Ev.isTrain]
    ring
  · cases hd : C.dynamic with
    | true =>
      rw [hd, if_pos rfl] at h
      rw [if_pos rfl]
      obtain ⟨n, rfl, h⟩ := h
      refine ⟨n + C.batch, by omega, ?_⟩
      rw [List.map_append, List.flatten_append, h, Src.take_add]
      simp [Ev.rows]
    | false =>
      rw [hd, if_neg (by simp)] at h
      rw [if_neg (by simp)]
      obtain ⟨⟨n, rfl, h⟩, h'⟩ := h
      refine ⟨⟨n + C.batch, by omega, ?_⟩, ?_⟩
      · rw [List.map_append, List.flatten_append, h, Src.take_add]
        simp [Ev.trained]
      · intro t ht
        rcases List.mem_append.mp ht with ht | ht
        · exact h' t ht
        · simp at ht

theorem Pos.testDynamic {s : Src (X × Y)} {idx : Nat} {C : HConf} {evs : List (Ev X Y)} {i count : Nat}
    (hd : C.dynamic = true) (h : Pos s idx C evs i count) :
    Pos s idx C (evs ++ [.test (s.take i C.testSize)]) (i + C.testSize) (count + (s.take i C.testSize).length) := by
  obtain ⟨hc, h⟩ := h
  rw [hd, if_pos rfl] at h
  obtain ⟨n, rfl, h⟩ := h
  refine ⟨?_, ?_⟩
  · rw [hc]
    simp only [used, hd, if_true]
    simp [Ev.isTrain, Ev.rows]
    omega
  · rw [hd, if_pos rfl]
    refine ⟨n + C.testSize, by omega, ?_⟩
    rw [List.map_append, List.flatten_append, h, Src.take_add]
    simp [Ev.rows]

theorem Pos.testStatic {s : Src (X × Y)} {idx : Nat} {C : HConf} {evs : List (Ev X Y)} {i count : Nat}
    (hd : C.dynamic = false) (hl : (s.take idx C.testSize).length = C.testSize) (h : Pos s idx C evs i count) :
    Pos s idx C (evs ++ [.test (s.take idx C.testSize)]) i count := by
  obtain ⟨hc, h⟩ := h
  rw [hd, if_neg (by simp)] at h
  obtain ⟨⟨n, rfl, h⟩, h'⟩ := h
  refine ⟨?_, ?_⟩
  · rw [hc]
    simp [used, hd, Ev.isTrain]
  · rw [hd, if_neg (by simp)]
    refine ⟨⟨n, rfl, ?_⟩, ?_⟩
    · rw [List.map_append, List.flatten_append, h]
      simp [Ev.trained]
    · intro t ht
      rcases List.mem_append.mp ht with ht | ht
      · exact h' t ht
      · simp only [List.mem_singleton, Ev.test.injEq] at ht
        subst ht
        exact ⟨rfl, hl⟩

/-- What a row says. -/
def Row (M : Meters Y P μ ν) (rest : World) (s : Src (X × Y)) (idx : Nat) (C : HConf)
    (ms0 : List (Bundle σ X Y P μ ν)) (r : Int × World) : Prop :=
  ∃ evs b t ms, Uses s idx C.dynamic C.testSize (evs ++ [.train b, .test t]) ∧
    OnTime C (evs ++ [.train b, .test t]) ∧
    r = (((used C (evs ++ [.train b, .test t]) : Nat) : Int), world M rest ms) ∧
    All M ms0 ms (evs ++ [.train b, .test t])

/-- The static test set is complete if anything is left of the stream. -/
theorem full_of_hasMore (s : Src (X × Y)) (i n j : Nat) (hj : i + n ≤ j) (h : s.hasMore j = true) :
    (s.take i n).length = n := by
  unfold Src.hasMore at h
  unfold Src.take
  cases hl : s.len with
  | none => simp
  | some l =>
    rw [hl] at h
    simp only [decide_eq_true_eq] at h
    simp
    omega

theorem loop_rows (M : Meters Y P μ ν) (rest : World) (s : Src (X × Y)) (idx : Nat) (C : HConf) (timeOk : Nat → Bool)
    (T : List (X × Y)) (hT : C.dynamic = false → T = s.take idx C.testSize)
    (ms0 : List (Bundle σ X Y P μ ν)) (h1 : ∀ m ∈ ms0, OneEach m.learner) (fuel : Nat)
    (a : HSt (Bundle σ X Y P μ ν)) (out : List (Int × World)) (h : loop M rest s C timeOk T fuel a = some out)
    (evs : List (Ev X Y)) (hp : Pos s idx C evs a.idx a.count) (hm : All M ms0 a.ms evs)
    (ho : OnTime C evs) (hcnt : a.cnt = evs.countP fun e => !e.isTrain)
    (hr : ∀ r ∈ a.rows, Row M rest s idx C ms0 r) : ∀ r ∈ out, Row M rest s idx C ms0 r := by
  induction fuel generalizing a evs with
  | zero => cases h
  | succ fuel ih =>
    simp only [loop] at h
    by_cases hc : ((a.count : Int) < C.amax && timeOk a.k && s.hasMore a.idx) = true
    · rw [if_pos hc] at h
      cases hs : step M rest s C T a with
      | error e => rw [hs] at h; simp only [Option.some.injEq] at h; rw [← h]; exact hr
      | ok a' =>
        rw [hs] at h
        simp only at h
        unfold step at hs
        cases ht : each (Bundle.train (s.take a.idx C.batch)) a.ms with
        | error e => rw [ht] at hs; cases hs
        | ok ms1 =>
          rw [ht] at hs
          simp only at hs
          cases hg : checkProgress C.amax with
          | error e => rw [hg] at hs; cases hs
          | ok u =>
            rw [hg] at hs
            simp only at hs
            by_cases hz : (!C.dynamic && C.nWait == 0) = true
            · rw [if_pos hz] at hs; cases hs
            rw [if_neg hz] at hs
            have hm1 := hm.train ht
            have hp1 := hp.train
            have hdue : performTest C.dynamic C.nWait C.testSize (a.count + C.batch) a.cnt C.amax = true ↔
                Due C (used C (evs ++ [.train (s.take a.idx C.batch)])) (evs.countP fun e => !e.isTrain) := by
              rw [← hp1.1, ← hcnt]
              refine due_iff C _ _ hz (fun hd => ?_)
              rw [hp.1]; simp only [used, hd]; simp; omega
            by_cases hpt : performTest C.dynamic C.nWait C.testSize (a.count + C.batch) a.cnt C.amax = true
            · rw [if_pos hpt] at hs
              -- a test phase adds one row
              have key : ∀ (t : List (X × Y)) (i c : Nat), testPhase M rest C t i c ms1 a = .ok a' →
                  Pos s idx C (evs ++ [.train (s.take a.idx C.batch)] ++ [.test t]) i c →
                  ∀ r ∈ out, Row M rest s idx C ms0 r := by
                intro t i c hph hpos
                unfold testPhase at hph
                cases hta : testAll M t ms1 with
                | error e => rw [hta] at hph; cases hph
                | ok ms2 =>
                  rw [hta] at hph
                  simp only at hph
                  cases hu : updateMetrics C.task C.n (c : Int) (world M rest ms2) C.ms a.buf with
                  | error e => rw [hu] at hph; cases hph
                  | ok b' =>
                    rw [hu] at hph
                    simp only [Except.ok.injEq] at hph
                    subst hph
                    have hm2 := hm1.test h1 hta
                    have ho2 := ho.test (s.take a.idx C.batch) t (hdue.mp hpt)
                    refine ih _ h _ hpos hm2 ho2 (by simp [Ev.isTrain, hcnt]) ?_
                    intro r hrm
                    rcases List.mem_append.mp hrm with hrm | hrm
                    · exact hr r hrm
                    · rw [List.mem_singleton] at hrm
                      have e : evs ++ [Ev.train (s.take a.idx C.batch)] ++ [Ev.test t] =
                          evs ++ [.train (s.take a.idx C.batch), .test t] := by simp
                      rw [e] at hpos hm2 ho2
                      exact ⟨evs, _, t, ms2, hpos.uses, ho2, by rw [hrm, hpos.1], hm2⟩
              by_cases hd : C.dynamic = true
              · rw [if_pos hd] at hs
                exact key _ _ _ hs (hp1.testDynamic hd)
              · rw [if_neg hd] at hs
                have hd' : C.dynamic = false := by simpa using hd
                rw [hT hd'] at hs
                refine key _ _ _ hs (hp1.testStatic hd' ?_)
                have hmore : s.hasMore a.idx = true := by
                  simp only [Bool.and_eq_true] at hc; exact hc.2
                refine full_of_hasMore s idx C.testSize a.idx ?_ hmore
                obtain ⟨-, hq⟩ := hp
                rw [hd', if_neg (by simp)] at hq
                obtain ⟨⟨n, hn, -⟩, -⟩ := hq
                omega
            · rw [if_neg hpt] at hs
              simp only [Except.ok.injEq] at hs
              subst hs
              exact ih _ h _ hp1 hm1 (ho.train _ (fun hd => hpt (hdue.mpr hd))) (by simp [Ev.isTrain, hcnt]) hr
    · rw [if_neg hc] at h
      simp only [Option.some.injEq] at h
      rw [← h]; exact hr

theorem holdout_rows (M : Meters Y P μ ν) (rest : World) (s : Src (X × Y)) (idx : Nat) (C : HConf) (timeOk : Nat → Bool)
    (ms0 : List (Bundle σ X Y P μ ν)) (h1 : ∀ m ∈ ms0, OneEach m.learner) (fuel : Nat) (out : List (Int × World))
    (h : holdoutRows M rest s idx C timeOk fuel ms0 = some out) : ∀ r ∈ out, Row M rest s idx C ms0 r := by
  unfold holdoutRows at h
  have hall : All M ms0 ms0 [] := ⟨rfl, fun i m0 hi => ⟨m0, hi, rfl, [], rfl, rfl, rfl⟩⟩
  have hon : OnTime C ([] : List (Ev X Y)) := ⟨fun p b q e => by simp at e, fun p b q e => by simp at e⟩
  cases hb : initBuf C.ms with
  | error e => rw [hb] at h; simp only [Option.some.injEq] at h; subst h; intro r hr; cases hr
  | ok b =>
    rw [hb] at h
    simp only at h
    by_cases hd : C.dynamic = true
    · rw [if_pos hd] at h
      refine loop_rows M rest s idx C timeOk [] (by simp [hd]) ms0 h1 fuel _ out h [] ?_ hall hon rfl (by simp)
      refine ⟨by simp [used, hd], ?_⟩
      rw [if_pos hd]
      exact ⟨0, rfl, by simp [Src.take_zero]⟩
    · rw [if_neg hd] at h
      have hd' : C.dynamic = false := by simpa using hd
      refine loop_rows M rest s idx C timeOk _ (fun _ => rfl) ms0 h1 fuel _ out h [] ?_ hall hon rfl (by simp)
      refine ⟨by simp [used, hd'], ?_⟩
      rw [hd', if_neg (by simp)]
      exact ⟨⟨0, rfl, by simp [Src.take_zero]⟩, by simp⟩

theorem replay_last (L : Honest.Learner σ X Y P) (h1 : OneEach L) (s s2 : σ) (evs : List (Ev X Y)) (b t : List (X × Y))
    (all : List (List (Y × P))) (h : replay L s (evs ++ [.train b, .test t]) = .ok (all, s2)) :
    ∃ pss ps, all = pss ++ [ps] ∧ ps.map Prod.fst = t.map Prod.snd := by
  induction evs generalizing s all with
  | nil =>
    simp only [replay, List.nil_append] at h
    cases hf : L.fit s b with
    | error e => rw [hf] at h; cases h
    | ok s1 =>
      rw [hf] at h
      simp only at h
      cases hp : L.predict s1 (t.map Prod.fst) with
      | error e => rw [hp] at h; cases h
      | ok r =>
        obtain ⟨ps, s'⟩ := r
        rw [hp] at h
        simp only [Except.ok.injEq, Prod.mk.injEq] at h
        refine ⟨[], _, h.1.symm, ?_⟩
        rw [List.map_fst_zip]
        rw [h1 _ _ _ _ hp]; simp
  | cons e evs ih =>
    cases e with
    | train c =>
      simp only [replay, List.cons_append] at h
      cases hf : L.fit s c with
      | error e => rw [hf] at h; cases h
      | ok s1 => rw [hf] at h; exact ih s1 all h
    | test c =>
      simp only [replay, List.cons_append] at h
      cases hp : L.predict s (c.map Prod.fst) with
      | error e => rw [hp] at h; cases h
      | ok r =>
        obtain ⟨qs, s1⟩ := r
        rw [hp] at h
        simp only at h
        cases hr : replay L s1 (evs ++ [.train b, .test t]) with
        | error e => rw [hr] at h; cases h
        | ok r =>
          obtain ⟨rest, s3⟩ := r
          rw [hr] at h
          simp only [Except.ok.injEq, Prod.mk.injEq] at h
          obtain ⟨rfl, rfl⟩ := h
          obtain ⟨pss, ps, e, g⟩ := ih s1 rest hr
          exact ⟨_ :: pss, ps, by rw [e]; rfl, g⟩

theorem lastN_flatten {α : Type} (n : Nat) (pss : List (List α)) (ps : List α) (h : ps.length = n) :
    lastN n (pss ++ [ps]).flatten = ps := by
  subst h
  simp [lastN]

/-! ### C277 -/

/-- **C277 (classification, partial).** In every row of a holdout evaluation the mean accuracy of
each model is the share of correct predictions among all tests so far, and the current accuracy
the share among the predictions for the test set just read, if that has `test_size` samples,
as a static test set always has.  Missing: a dynamic test set cut short by the end of the stream
(see `C277_short_test_set_violated`). -/
theorem C277_classification_partial (other : Metrics.Eval → Metric → ℚ) (rest : World) (s : Src (X × Int)) (idx : Nat)
    (C : HConf) (timeOk : Nat → Bool) (hs : 1 ≤ C.testSize) (models : List (Honest.Learner σ X Int Int × σ))
    (h1 : ∀ m ∈ models, OneEach m.1) (fuel : Nat) (out : List (Int × World))
    (h : holdoutRows (classMeters other) rest s idx C timeOk fuel (models.map (newClassifier C.testSize)) = some out)
    (sid : Int) (w : World) (hr : (sid, w) ∈ out) :
    ∃ evs b t, Uses s idx C.dynamic C.testSize (evs ++ [.train b, .test t]) ∧
      OnTime C (evs ++ [.train b, .test t]) ∧
      sid = ((used C (evs ++ [.train b, .test t]) : Nat) : Int) ∧
      ∀ (i : Nat) L s0, models[i]? = some (L, s0) → ∃ pss ps s2,
        replay L s0 (evs ++ [.train b, .test t]) = .ok (pss ++ [ps], s2) ∧
        ps.map Prod.fst = t.map Prod.snd ∧
        w.mean i .accuracy = correct (pss ++ [ps]).flatten ∧
        w.current i .accuracy = correct (lastN C.testSize (pss ++ [ps]).flatten) ∧
        (t.length = C.testSize → w.current i .accuracy = correct ps) := by
  have h1' : ∀ m ∈ models.map (newClassifier C.testSize), OneEach m.learner := by
    intro m hm; obtain ⟨a, ha, rfl⟩ := List.mem_map.mp hm; exact h1 a ha
  obtain ⟨evs, b, t, ms, hu, hon, e, -, hk⟩ := holdout_rows _ rest s idx C timeOk _ h1' fuel out h (sid, w) hr
  simp only [Prod.mk.injEq] at e
  refine ⟨evs, b, t, hu, hon, e.1, fun i L s0 hi => ?_⟩
  obtain ⟨m, g1, -, all, g3, g4, g5⟩ := hk i (newClassifier C.testSize (L, s0)) (by rw [List.getElem?_map, hi]; rfl)
  obtain ⟨pss, ps, rfl, hps⟩ := replay_last L (h1 _ (List.mem_of_getElem? hi)) _ _ _ _ _ _ g3
  have hcur : w.current i .accuracy = correct (lastN C.testSize (pss ++ [ps]).flatten) := by
    have g6 := (feed_wclass _ (Metrics.WEval.init 2 C.testSize)).symm.trans g5
    simp only [Except.ok.injEq] at g6
    rw [e.2]
    simp only [world, g1, classMeters, classMeters.scores]
    rw [← g6]
    have hw : ∀ r ∈ (pss ++ [ps]).flatten.map unit, 0 < r.w := by
      intro r hr; obtain ⟨q, -, rfl⟩ := List.mem_map.mp hr; simp [unit]
    have := (Metrics.C06_window_scores 2 C.testSize hs _ hw).1
    rw [lastN_unit, accuracy_pairs] at this
    exact this
  refine ⟨pss, ps, m.st, g3, hps, ?_, hcur, fun ht => ?_⟩
  · have g6 := (feed_class _ (Metrics.Eval.init 2)).symm.trans g4
    simp only [Except.ok.injEq] at g6
    rw [e.2]
    simp only [world, g1, classMeters, classMeters.scores]
    rw [← g6]
    exact accuracy_pairs _
  · rw [hcur, lastN_flatten C.testSize pss ps]
    rw [← ht]; simpa using congrArg List.length hps

/-- **C277 (regression, partial).** The same for the mean squared and mean absolute errors. -/
theorem C277_regression_partial (rest : World) (s : Src (X × ℚ)) (idx : Nat)
    (C : HConf) (timeOk : Nat → Bool) (hs : 1 ≤ C.testSize) (models : List (Honest.Learner σ X ℚ ℚ × σ))
    (h1 : ∀ m ∈ models, OneEach m.1) (fuel : Nat) (out : List (Int × World))
    (h : holdoutRows regMeters rest s idx C timeOk fuel (models.map (newRegressor C.testSize)) = some out)
    (sid : Int) (w : World) (hr : (sid, w) ∈ out) :
    ∃ evs b t, Uses s idx C.dynamic C.testSize (evs ++ [.train b, .test t]) ∧
      OnTime C (evs ++ [.train b, .test t]) ∧
      sid = ((used C (evs ++ [.train b, .test t]) : Nat) : Int) ∧
      ∀ (i : Nat) L s0, models[i]? = some (L, s0) → ∃ pss ps s2,
        replay L s0 (evs ++ [.train b, .test t]) = .ok (pss ++ [ps], s2) ∧
        ps.map Prod.fst = t.map Prod.snd ∧
        w.mean i .mse = Regression.mse (pss ++ [ps]).flatten ∧
        w.mean i .mae = Regression.mae (pss ++ [ps]).flatten ∧
        w.current i .mse = Regression.mse (lastN C.testSize (pss ++ [ps]).flatten) ∧
        w.current i .mae = Regression.mae (lastN C.testSize (pss ++ [ps]).flatten) ∧
        (t.length = C.testSize →
          w.current i .mse = Regression.mse ps ∧ w.current i .mae = Regression.mae ps) := by
  have h1' : ∀ m ∈ models.map (newRegressor C.testSize), OneEach m.learner := by
    intro m hm; obtain ⟨a, ha, rfl⟩ := List.mem_map.mp hm; exact h1 a ha
  obtain ⟨evs, b, t, ms, hu, hon, e, -, hk⟩ := holdout_rows _ rest s idx C timeOk _ h1' fuel out h (sid, w) hr
  simp only [Prod.mk.injEq] at e
  refine ⟨evs, b, t, hu, hon, e.1, fun i L s0 hi => ?_⟩
  obtain ⟨m, g1, -, all, g3, g4, g5⟩ := hk i (newRegressor C.testSize (L, s0)) (by rw [List.getElem?_map, hi]; rfl)
  obtain ⟨pss, ps, rfl, hps⟩ := replay_last L (h1 _ (List.mem_of_getElem? hi)) _ _ _ _ _ _ g3
  have g6 := (feed_reg _ Regression.RegEval.init).symm.trans g4
  simp only [Except.ok.injEq] at g6
  have g7 := (feed_wreg _ (Regression.WRegEval.init C.testSize)).symm.trans g5
  obtain ⟨a1, a2, -, -⟩ := Regression.C11_cumulative (pss ++ [ps]).flatten
  obtain ⟨e', b0, b1, b2, -, -⟩ := Regression.C11_window C.testSize hs (pss ++ [ps]).flatten
  have b3 : e' = m.cur := by
    have := b0.symm.trans g7
    simpa using this
  have hl : t.length = C.testSize → lastN C.testSize (pss ++ [ps]).flatten = ps := fun ht =>
    lastN_flatten _ _ _ (by rw [← ht]; simpa using congrArg List.length hps)
  refine ⟨pss, ps, m.st, g3, hps, ?_⟩
  rw [e.2]
  simp only [world, g1, regMeters]
  rw [← g6, ← b3]
  exact ⟨a1, a2, b1, b2, fun ht => by rw [hl ht] at b1 b2; exact ⟨b1, b2⟩⟩

/-- The learner of `Honest.lean` that repeats the last label it saw; labels 0, 0, 1, 1, 0, 0, ... -/
def conf (dynamic : Bool) : HConf := ⟨.classification, 1, [.accuracy], 5, 5, 4, dynamic, 24⟩

/-- Static test set 0, 0, 1, 1. -/
example : (holdoutRows (classMeters fun _ _ => 0) noWorld pairsOfTwo 0 (conf false) (fun _ => true) 40
      ([(lastLabel, 7)].map (newClassifier 4))).map
      (fun o => o.map fun r => (r.1, r.2.mean 0 .accuracy, r.2.current 0 .accuracy)) =
    some [(9, 1/2, 1/2), (14, 1/2, 1/2), (19, 1/2, 1/2), (24, 1/2, 1/2)] := by decide +kernel

/-- Dynamic test sets. -/
example : (holdoutRows (classMeters fun _ _ => 0) noWorld pairsOfTwo 0 (conf true) (fun _ => true) 40
      ([(lastLabel, 7)].map (newClassifier 4))).map
      (fun o => o.map fun r => (r.1, r.2.mean 0 .accuracy, r.2.current 0 .accuracy)) =
    some [(9, 1/2, 1/2), (18, 1/2, 1/2), (27, 1/2, 1/2)] := by decide +kernel

/-- Labels 1 up to the sample 18, then 0. -/
def lateZeros : Src (Nat × Int) := ⟨fun i => (i, if i < 18 then 1 else 0), some 24⟩

def shortConf : HConf := ⟨.classification, 1, [.accuracy], 5, 5, 4, true, 24⟩

/-- The learner that always says 1. -/
def ones : Honest.Learner Int Nat Int Int where
  fit := fun s _ => .ok s
  predict := fun s xs => .ok (xs.map fun _ => 1, s)

/-- **C277 violated.** A dynamic test set is cut short by the end of the stream: the only
prediction for it is wrong, the current accuracy of the row is 3/4. -/
theorem C277_short_test_set_violated :
    (holdoutRows (classMeters fun _ _ => 0) noWorld lateZeros 0 shortConf (fun _ => true) 40
      ([(ones, 0)].map (newClassifier 4))).map
      (fun o => o.map fun r => (r.1, r.2.current 0 .accuracy)) = some [(9, 1), (18, 1), (24, 3/4)] ∧
    replay ones 0 [.train (lateZeros.take 18 5), .test (lateZeros.take 23 4)] = .ok ([[(0, 1)]], 0) ∧
    correct [(0, 1)] = 0 := by
  refine ⟨by decide +kernel, rfl, by simp [correct]⟩

end Verif.Evaluation.HoldoutRows
