import Verif.Common
import Verif.Evaluation.Report

/-!
# The list of metrics passed to an evaluator (C268)

The constructors keep the caller's list object and, with `data_points_for_classification`, append
to it; `_check_configuration` later replaces it by a new list. Modelled are list objects shared
between the caller and evaluators, a sequence of constructions, evaluations and changes by the
caller, and for every evaluation which metrics and task it works with. Names are taken to be
strings. The check of the type of `metrics` is not modelled.
-/

namespace Verif.Evaluation.MetricsList

open Verif Verif.Evaluation.Report

/-- A text. -/
abbrev Txt := List Char

/-- Where the attribute `metrics` of an evaluator points: to list object `i` of the caller, or to a
list nobody else holds. -/
inductive Src where
  | caller (i : Nat)
  | own (l : List Txt)

/-- An evaluator: `data_points_for_classification` and `metrics`. -/
structure Ev where
  dp : Bool
  metrics : Src

/-- The caller's list objects and the evaluators constructed so far. -/
structure St where
  lists : Nat → List Txt
  evs : List Ev

/-- The contents of the attribute `metrics`. -/
def Src.val (s : Src) (lists : Nat → List Txt) : List Txt :=
  match s with
  | .caller i => lists i
  | .own l => l

/-- `self.metrics.append(...)` and other changes of list object `i`. -/
def put (lists : Nat → List Txt) (i : Nat) (l : List Txt) : Nat → List Txt :=
  fun j => if j = i then l else lists j

/-- The constructors: evaluate_prequential.py 199-222, evaluate_prequential_delayed.py 225-247 and,
with `dp = false`, evaluate_holdout.py 174-177. `none` stands for `metrics=None`. -/
def construct (s : St) (metrics : Option Nat) (dp : Bool) : St :=
  match dp, metrics with
  | false, none => ⟨s.lists, s.evs ++ [⟨false, .own [cs!"accuracy", cs!"kappa"]⟩]⟩
  | false, some i => ⟨s.lists, s.evs ++ [⟨false, .caller i⟩]⟩
  | true, none => ⟨s.lists, s.evs ++ [⟨true, .own [cs!"data_points"]⟩]⟩
  | true, some i => ⟨put s.lists i (s.lists i ++ [cs!"data_points"]), s.evs ++ [⟨true, .caller i⟩]⟩

/-- What `_check_configuration` leaves in `metrics` (base_evaluator.py 173-198): nothing changes for
a bad number of targets, otherwise the names in lower case, reordered if all are known. -/
def rebind (nTargets : Int) (m : Src) (lists : Nat → List Txt) : Src :=
  if nTargets < 1 then m
  else
    match (m.val lists).mapM parse with
    | none => .own ((m.val lists).map fun x => x.map Char.toLower)
    | some ms => .own ((reorder ms).map Metric.name)

/-- What an evaluation on a stream with `nTargets` targets works with: metrics and task, or an
exception (base_evaluator.py 170-239). -/
def works (s : St) (e : Ev) (nTargets : Int) : Except PyErr (List Metric × Task) :=
  checkConfig nTargets e.dp (e.metrics.val s.lists)

/-- What the caller does: construct an evaluator, evaluate with the evaluator constructed as number
`e`, change one of their lists. -/
inductive Op where
  | new (metrics : Option Nat) (dp : Bool)
  | evaluate (e : Nat) (nTargets : Int)
  | change (i : Nat) (l : List Txt)

/-- One operation. -/
def step (s : St) : Op → St
  | .new m dp => construct s m dp
  | .evaluate e n =>
      match s.evs[e]? with
      | none => s
      | some ev => ⟨s.lists, s.evs.set e ⟨ev.dp, rebind n ev.metrics s.lists⟩⟩
  | .change i l => ⟨put s.lists i l, s.evs⟩

/-- A sequence of operations. -/
def run (s : St) (ops : List Op) : St := ops.foldl step s

/-! ## What is claimed -/

/-- The operation leaves list object `i` alone. -/
def Op.Spares (i : Nat) : Op → Prop
  | .new m dp => dp = true → m ≠ some i
  | .evaluate _ _ => True
  | .change j _ => j ≠ i

/-- The operation is no evaluation with evaluator `e`. -/
def Op.Avoids (e : Nat) : Op → Prop
  | .evaluate e' _ => e' ≠ e
  | _ => True

/-- The metrics the caller asked for. -/
def asked (l : List Txt) (dp : Bool) : List Txt := if dp then l ++ [cs!"data_points"] else l

/-- The metrics of an evaluator constructed without a list. -/
def askedNone (dp : Bool) : List Txt := if dp then [cs!"data_points"] else [cs!"accuracy", cs!"kappa"]

theorem step_lists (s : St) (i : Nat) (op : Op) (h : op.Spares i) : (step s op).lists i = s.lists i := by
  cases op with
  | new m dp =>
    cases dp with
    | false => cases m <;> rfl
    | true =>
      cases m with
      | none => rfl
      | some j =>
        have : j ≠ i := fun e => h rfl (by rw [e])
        simp only [step, construct, put]
        rw [if_neg (Ne.symm this)]
  | evaluate e n => simp only [step]; cases s.evs[e]? <;> rfl
  | change j l =>
    simp only [step, put]
    rw [if_neg (Ne.symm h)]

theorem run_lists (ops : List Op) (s : St) (i : Nat) (h : ∀ op ∈ ops, op.Spares i) :
    (run s ops).lists i = s.lists i := by
  induction ops generalizing s with
  | nil => rfl
  | cons op ops ih =>
    rw [run, List.foldl_cons, ← run, ih _ fun o ho => h o (by simp [ho]), step_lists s i op (h op (by simp))]

theorem step_ev (s : St) (e : Nat) (ev : Ev) (op : Op) (h : op.Avoids e) (he : s.evs[e]? = some ev) :
    (step s op).evs[e]? = some ev := by
  have hlt : e < s.evs.length := (List.getElem?_eq_some_iff.1 he).1
  cases op with
  | new m dp =>
    have : ∃ x, (construct s m dp).evs = s.evs ++ [x] := by
      cases dp <;> cases m <;> exact ⟨_, rfl⟩
    obtain ⟨x, hx⟩ := this
    simp only [step]
    rw [hx, List.getElem?_append_left hlt, he]
  | evaluate e' n =>
    simp only [step]
    cases s.evs[e']? with
    | none => exact he
    | some ev' =>
      simp only
      rw [List.getElem?_set_ne h, he]
  | change j l => exact he

theorem run_ev (ops : List Op) (s : St) (e : Nat) (ev : Ev) (h : ∀ op ∈ ops, op.Avoids e)
    (he : s.evs[e]? = some ev) : (run s ops).evs[e]? = some ev := by
  induction ops generalizing s with
  | nil => exact he
  | cons op ops ih =>
    rw [run, List.foldl_cons, ← run]
    exact ih _ (fun o ho => h o (by simp [ho])) (step_ev s e ev op (h op (by simp)) he)

theorem step_own (s : St) (e : Nat) (dp : Bool) (l : List Txt) (op : Op)
    (he : s.evs[e]? = some ⟨dp, .own l⟩) : ∃ l', (step s op).evs[e]? = some ⟨dp, .own l'⟩ := by
  by_cases h : op.Avoids e
  · exact ⟨l, step_ev s e _ op h he⟩
  · cases op with
    | new m d => exact absurd trivial h
    | change j l => exact absurd trivial h
    | evaluate e' n =>
      have : e' = e := by
        by_contra hne
        exact h hne
      subst this
      have hlt : e' < s.evs.length := (List.getElem?_eq_some_iff.1 he).1
      simp only [step, he]
      rw [List.getElem?_set_self hlt]
      simp only [rebind]
      split
      · exact ⟨l, rfl⟩
      · split <;> exact ⟨_, rfl⟩

theorem parse_name (m : Metric) : parse m.name = some m := by
  cases m <;> decide +kernel

theorem mapM_parse_names (ms : List Metric) : (ms.map Metric.name).mapM parse = some ms := by
  induction ms with
  | nil => rfl
  | cons m ms ih => rw [List.map_cons, List.mapM_cons, parse_name, ih]; rfl

theorem reorder_reorder (ms : List Metric) : reorder (reorder ms) = reorder ms := by
  have h1 : ∀ l : List Metric, (l.filter fun m => m == .modelSize || m == .runningTime).filter
      (fun m => !(m == .modelSize || m == .runningTime)) = [] := by
    intro l
    rw [List.filter_filter, List.filter_eq_nil_iff]
    intro m _
    cases (m == .modelSize || m == .runningTime) <;> simp
  have h2 : ∀ l : List Metric, (l.filter fun m => !(m == .modelSize || m == .runningTime)).filter
      (fun m => m == .modelSize || m == .runningTime) = [] := by
    intro l
    rw [List.filter_filter, List.filter_eq_nil_iff]
    intro m _
    cases (m == .modelSize || m == .runningTime) <;> simp
  unfold reorder
  rw [List.filter_append, List.filter_append, h1, h2, List.append_nil, List.nil_append, List.filter_filter,
    List.filter_filter]
  simp

/-- Checking once more what a successful check left behind gives the same. -/
theorem checkConfig_again (n : Int) (dp : Bool) (l : List Txt) (ms : List Metric) (t : Task)
    (h : checkConfig n dp l = .ok (ms, t)) :
    ¬ n < 1 ∧ (∃ m0, l.mapM parse = some m0 ∧ ms = reorder m0) ∧
      checkConfig n dp (ms.map Metric.name) = .ok (ms, t) := by
  by_cases hn : n < 1
  · simp only [checkConfig] at h; rw [if_pos hn] at h; cases h
  · have h0 := h
    simp only [checkConfig] at h
    rw [if_neg hn] at h
    cases hp : l.mapM parse with
    | none => rw [hp] at h; cases h
    | some m0 =>
      have hms : ms = reorder m0 := by
        rw [hp] at h
        simp only at h
        split at h
        · split at h
          · cases h
          · split at h
            · cases h; rfl
            · split at h
              · cases h; rfl
              · cases h
        · split at h
          · cases h; rfl
          · split at h
            · cases h; rfl
            · cases h
      refine ⟨hn, ⟨m0, rfl, hms⟩, ?_⟩
      rw [← h0]
      simp only [checkConfig]
      rw [if_neg hn, if_neg hn, mapM_parse_names, hp, hms]
      simp only [reorder_reorder]

/-- C268 (partial): an evaluator constructed with list `i` works with the metrics this list had at
that moment, followed by `data_points` if asked for, as long as nobody else changes the list until
the first evaluation, that is neither the caller nor a construction of another evaluator with
`data_points_for_classification` and the same list. An evaluator constructed without a list always
works with the default. The lists of the caller keep their contents, except that such a construction
appends `data_points`. -/
theorem C268_metrics_partial (s : St) (m : Option Nat) (dp : Bool) (after : List Op)
    (hs : ∀ i, m = some i → ∀ op ∈ after, op.Spares i) (ha : ∀ op ∈ after, op.Avoids s.evs.length) :
    (∃ ev, (run (step s (.new m dp)) after).evs[s.evs.length]? = some ev ∧
      ∀ n, works (run (step s (.new m dp)) after) ev n =
        checkConfig n dp (match m with | some i => asked (s.lists i) dp | none => askedNone dp)) ∧
    (∀ i, (∀ op ∈ after, op.Spares i) →
      (run (step s (.new m dp)) after).lists i =
        if m = some i then asked (s.lists i) dp else s.lists i) := by
  constructor
  · cases m with
    | none =>
      cases dp with
      | false => exact ⟨⟨false, .own [cs!"accuracy", cs!"kappa"]⟩,
          run_ev after _ _ _ ha (by simp [step, construct]), fun n => rfl⟩
      | true => exact ⟨⟨true, .own [cs!"data_points"]⟩,
          run_ev after _ _ _ ha (by simp [step, construct]), fun n => rfl⟩
    | some i =>
      refine ⟨⟨dp, .caller i⟩, run_ev after _ _ _ ha ?_, fun n => ?_⟩
      · cases dp <;> simp [step, construct]
      · simp only [works, Src.val]
        rw [run_lists after _ i (hs i rfl)]
        cases dp <;> simp [step, construct, asked, put]
  · intro i hi
    rw [run_lists after _ i hi]
    cases m with
    | none => cases dp <;> simp [step, construct]
    | some j =>
      cases dp with
      | false => simp [step, construct, asked]
      | true =>
        simp only [step, construct, put, asked, Option.some.injEq]
        by_cases e : i = j
        · subst e; simp
        · rw [if_neg e, if_neg (Ne.symm e)]

/-- C268 (partial): from its first successful evaluation on, an evaluator works with the same metrics,
whatever happens to any list, as long as its streams have the same number of targets. -/
theorem C268_again_partial (s : St) (e : Nat) (ev : Ev) (n : Int) (ms : List Metric) (t : Task)
    (he : s.evs[e]? = some ev) (hw : works s ev n = .ok (ms, t)) (after : List Op)
    (ha : ∀ e' n', Op.evaluate e' n' ∈ after → e' = e → n' = n) :
    ∃ ev', (run (step s (.evaluate e n)) after).evs[e]? = some ev' ∧
      works (run (step s (.evaluate e n)) after) ev' n = .ok (ms, t) := by
  have hlt : e < s.evs.length := (List.getElem?_eq_some_iff.1 he).1
  obtain ⟨hn, ⟨m0, hp, hms⟩, hagain⟩ := checkConfig_again n ev.dp _ ms t hw
  have h1 : (step s (.evaluate e n)).evs[e]? = some ⟨ev.dp, .own (ms.map Metric.name)⟩ := by
    simp only [step, he]
    rw [List.getElem?_set_self hlt]
    simp only [rebind]
    rw [if_neg hn, hp, hms]
  refine ⟨⟨ev.dp, .own (ms.map Metric.name)⟩, ?_, hagain⟩
  generalize step s (.evaluate e n) = s1 at h1
  induction after generalizing s1 with
  | nil => exact h1
  | cons op ops ih =>
    rw [run, List.foldl_cons, ← run]
    refine ih (fun e' n' h => ha e' n' (by simp [h])) _ ?_
    by_cases hav : op.Avoids e
    · exact step_ev s1 e _ op hav h1
    · cases op with
      | new m d => exact absurd trivial hav
      | change j l => exact absurd trivial hav
      | evaluate e' n' =>
        have hee : e' = e := by
          by_contra hne
          exact hav hne
        have hnn := ha e' n' (by simp) hee
        subst hee hnn
        have hlt1 : e' < s1.evs.length := (List.getElem?_eq_some_iff.1 h1).1
        simp only [step, h1]
        rw [List.getElem?_set_self hlt1]
        simp only [rebind, Src.val]
        rw [if_neg hn, mapM_parse_names, hms]
        simp only [reorder_reorder]

/-- C268 (violated): constructing an evaluator with `data_points_for_classification` from a list that
another evaluator was constructed from makes that other evaluator, which did not ask for it, report
`data_points`, and changes the caller's list; a third construction appends once more. -/
theorem C268_shared_violated (s : St) (i : Nat) (n : Int) :
    let s' := run s [.new (some i) false, .new (some i) true, .new (some i) true]
    (∃ ev, s'.evs[s.evs.length]? = some ev ∧ ev.dp = false ∧
      works s' ev n = checkConfig n false (s.lists i ++ [cs!"data_points", cs!"data_points"])) ∧
    s'.lists i = s.lists i ++ [cs!"data_points", cs!"data_points"] := by
  constructor
  · refine ⟨⟨false, .caller i⟩, ?_, rfl, ?_⟩
    · simp [run, step, construct]
    · simp [works, run, step, construct, put, Src.val]
  · simp [run, step, construct, put]

/-- Cases: two evaluators from the list `["Accuracy"]`, the second with
`data_points_for_classification`; the first then reports `data_points` although it was not asked to.
Evaluated before, it does not. -/
def lists0 : Nat → List Txt := fun _ => [cs!"Accuracy"]

example : let s := run ⟨lists0, []⟩ [.new (some 0) false, .new (some 0) true]
    (s.evs[0]?.map fun ev => (works s ev 1).toOption) = some (some ([.accuracy, .dataPoints], .classification)) := by
  decide +kernel

example : let s := run ⟨lists0, []⟩ [.new (some 0) false, .evaluate 0 1, .new (some 0) true]
    (s.evs[0]?.map fun ev => (works s ev 1).toOption) = some (some ([.accuracy], .classification)) := by
  decide +kernel

end Verif.Evaluation.MetricsList
