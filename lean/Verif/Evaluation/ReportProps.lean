import Verif.Evaluation.Report
import Mathlib.Data.List.Nodup
import Mathlib.Data.List.Basic
import Mathlib.Algebra.Order.Ring.Rat

/-! C188-C191: what the evaluator configuration accepts and what a row of the result file says. -/

namespace Verif.Evaluation.Report

/-! ### Specification -/

/-- The text between commas. -/
def splitCommas : List Char → List (List Char)
  | [] => [[]]
  | c :: cs =>
    if c = ',' then [] :: splitCommas cs
    else
      match splitCommas cs with
      | [] => [[c]]
      | a :: l => (c :: a) :: l

/-- What a column of the result file is about. -/
inductive Col
  | mean (m : Metric) (model : Nat)
  | current (m : Metric) (model : Nat)
  | trueValue
  | predicted (model : Nat)
  | training (model : Nat)
  | testing (model : Nat)
  | total (model : Nat)
  | size (model : Nat)
  deriving DecidableEq

/-- The short names used in the header for some metrics. -/
def shortName : Metric → List Char
  | .accuracy => cs!"acc"
  | .mse => cs!"mse"
  | .mae => cs!"mae"
  | .amse => cs!"amse"
  | .amae => cs!"amae"
  | .armse => cs!"armse"
  | m => m.name

/-- A title that names a model. -/
def tag (a name : List Char) : List Char := a ++ cs!"[" ++ name ++ cs!"]"

/-- The title of a column. -/
def Col.title (names : List (List Char)) : Col → List Char
  | .mean m i => tag (cs!"mean_" ++ shortName m ++ cs!"_") (names.getD i [])
  | .current m i => tag (cs!"current_" ++ shortName m ++ cs!"_") (names.getD i [])
  | .trueValue => cs!"true_value"
  | .predicted i => tag cs!"predicted_value_" (names.getD i [])
  | .training i => tag cs!"training_time_" (names.getD i [])
  | .testing i => tag cs!"testing_time_" (names.getD i [])
  | .total i => tag cs!"total_running_time_" (names.getD i [])
  | .size i => tag cs!"model_size_" (names.getD i [])

/-- The value that belongs in a column. -/
def Col.value (w : World) (y : ℚ) : Col → ℚ
  | .mean m i => w.mean i m
  | .current m i => w.current i m
  | .trueValue => y
  | .predicted i => w.lastPred i
  | .training i => w.training i
  | .testing i => w.testing i
  | .total i => w.total i
  | .size i => w.size i

/-- The columns a metric asks for, with `n` models. -/
def colsOf (n : Nat) : Metric → List Col
  | .trueVsPredicted => .trueValue :: (List.range n).map .predicted
  | .runningTime => (List.range n).flatMap fun i => [.training i, .testing i, .total i]
  | .modelSize => (List.range n).map .size
  | .dataPoints => []
  | m => (List.range n).flatMap fun i => [.mean m i, .current m i]

/-! ### Lemmas: the buffer -/

/-- What a report leaves in the buffer for a metric. -/
def expected (n : Nat) (w : World) : Metric → List (Key × Val)
  | .trueVsPredicted =>
    [(.yTrue, .num ((List.range n).foldl (fun _ i => w.lastTrue i) (-1))),
     (.yPred, .nums ((List.range n).map w.lastPred))]
  | .dataPoints => [(.predictions, .num (w.lastTrue 0))]
  | .runningTime =>
    [(.trainingTime, .nums ((List.range n).map w.training)),
     (.testingTime, .nums ((List.range n).map w.testing)),
     (.totalTime, .nums ((List.range n).map w.total))]
  | .modelSize => [(.modelSize, .nums ((List.range n).map w.size))]
  | m =>
    [(.mean, .nums ((List.range n).map fun i => w.mean i m)),
     (.current, .nums ((List.range n).map fun i => w.current i m))]

/-- The buffer holds what a report leaves for a metric. -/
def Filled (n : Nat) (w : World) (b : Buf) (m : Metric) : Prop :=
  ∀ e ∈ expected n w m, b.data m e.1 = some (some e.2)

/-- A metric that a report can compute. -/
def Computable (t : Task) (n : Nat) (w : World) (m : Metric) : Prop :=
  match m with
  | .trueVsPredicted | .runningTime | .modelSize => True
  | .dataPoints => 0 < n ∧ 2 ≤ w.x.length
  | m => n = 0 ∨ hasMethod t m = true

theorem update_spec (b : Buf) (sid : Int) (m : Metric) (k : Key) (v : Val)
    (h : b.ids.any (fun e => e.1 == m) = true) :
    ∃ b', b.update sid m k v = .ok b' ∧ b'.ids = b.ids ∧ b'.sampleId = sid ∧
      b'.data m k = some (some v) ∧
      ∀ m' k', ¬ (m' = m ∧ k' = k) → b.sampleId = sid → b'.data m' k' = b.data m' k' := by
  by_cases hs : b.sampleId = sid
  · have hs' : (b.sampleId != sid) = false := by simp [hs]
    refine ⟨{ b with data := fun m' k' => if m' = m ∧ k' = k then some (some v) else b.data m' k' },
      ?_, rfl, hs, by simp, ?_⟩
    · simp only [Buf.update, hs', Bool.false_eq_true, if_false, h, if_true]
    · intro m' k' hn _
      simp only [if_neg hn]
  · have hs' : (b.sampleId != sid) = true := by simp [hs]
    have h2 : ({ b.clear with sampleId := sid } : Buf).ids.any (fun e => e.1 == m) = true := h
    refine ⟨{ ({ b.clear with sampleId := sid } : Buf) with
        data := fun m' k' => if m' = m ∧ k' = k then some (some v) else b.clear.data m' k' },
      ?_, rfl, rfl, by simp, ?_⟩
    · simp only [Buf.update, hs', if_true, h2]
    · intro m' k' _ h'
      exact absurd h' hs

/-- Writing one entry and then another of the same metric. -/
theorem step_ok (b : Buf) (sid : Int) (m : Metric) (l : List (Key × Val)) (hl : l ≠ [])
    (hk : (l.map Prod.fst).Nodup) (h : b.ids.any (fun e => e.1 == m) = true) :
    ∃ b', l.foldlM (fun b e => Buf.update b sid m e.1 e.2) b = .ok b' ∧ b'.ids = b.ids ∧
      b'.sampleId = sid ∧ (∀ e ∈ l, b'.data m e.1 = some (some e.2)) ∧
      ∀ m' k', (m' ≠ m ∨ k' ∉ l.map Prod.fst) → b.sampleId = sid →
        b'.data m' k' = b.data m' k' := by
  induction l generalizing b with
  | nil => exact absurd rfl hl
  | cons e l ih =>
    obtain ⟨b1, e1, i1, s1, d1, f1⟩ := update_spec b sid m e.1 e.2 h
    rw [List.foldlM_cons, e1]
    cases l with
    | nil =>
      refine ⟨b1, rfl, i1, s1, ?_, ?_⟩
      · intro e' he'
        rw [List.mem_singleton] at he'
        rw [he']; exact d1
      · intro m' k' hn hs
        refine f1 m' k' ?_ hs
        rintro ⟨rfl, rfl⟩
        rcases hn with hn | hn
        · exact hn rfl
        · exact hn (by simp)
    | cons e2 l =>
      have hk' : ((e2 :: l).map Prod.fst).Nodup := (List.nodup_cons.1 hk).2
      have hne : e.1 ∉ (e2 :: l).map Prod.fst := (List.nodup_cons.1 hk).1
      obtain ⟨b2, e2', i2, s2, d2, f2⟩ := ih b1 (by simp) hk' (by rw [i1]; exact h)
      refine ⟨b2, e2', i2.trans i1, s2, ?_, ?_⟩
      · intro e' he'
        rcases List.mem_cons.1 he' with rfl | he'
        · rw [f2 m e'.1 (Or.inr hne) s1]; exact d1
        · exact d2 e' he'
      · intro m' k' hn hs
        have hn2 : m' ≠ m ∨ k' ∉ (e2 :: l).map Prod.fst := by
          rcases hn with hn | hn
          · exact Or.inl hn
          · exact Or.inr fun hm => hn (by rw [List.map_cons]; exact List.mem_cons_of_mem _ hm)
        rw [f2 m' k' hn2 s1]
        refine f1 m' k' ?_ hs
        rintro ⟨rfl, rfl⟩
        rcases hn with hn | hn
        · exact hn rfl
        · exact hn (by simp)

/-- The entries a report writes for a metric, in order. -/
def writes (n : Nat) (w : World) : Metric → List (Key × Val)
  | .dataPoints =>
    [(.x, .feats (w.x.getD 0 0) (w.x.getD 1 0)), (.targetValues, .nums w.targets),
     (.predictions, .num (w.lastTrue 0))]
  | m => expected n w m

theorem writes_nodup (n : Nat) (w : World) (m : Metric) :
    ((writes n w m).map Prod.fst).Nodup ∧ writes n w m ≠ [] := by
  cases m <;> simp [writes, expected]

theorem expected_sub (n : Nat) (w : World) (m : Metric) : ∀ e ∈ expected n w m, e ∈ writes n w m := by
  intro e he
  cases m <;> first | exact he | (simp [expected, writes] at he ⊢; tauto)

theorem updateMetric_writes (t : Task) (n : Nat) (sid : Int) (w : World) (b : Buf) (m : Metric)
    (hc : Computable t n w m) :
    updateMetric t n sid w b m =
      (writes n w m).foldlM (fun b e => Buf.update b sid m e.1 e.2) b := by
  have hgen : ∀ m : Metric, (n = 0 ∨ hasMethod t m = true) →
      (n > 0 && !hasMethod t m) = false := by
    intro m h
    rcases h with rfl | h
    · rfl
    · simp [h]
  cases m
  case trueVsPredicted => simp [updateMetric, writes, expected]
  case runningTime => simp [updateMetric, writes, expected]
  case modelSize => simp [updateMetric, writes, expected]
  case dataPoints =>
    obtain ⟨h1, h2⟩ := hc
    obtain ⟨x0, x1, r, hx⟩ : ∃ x0 x1 r, w.x = x0 :: x1 :: r := by
      match h : w.x with
      | [] => simp [h] at h2
      | [_] => simp [h] at h2
      | x0 :: x1 :: r => exact ⟨x0, x1, r, rfl⟩
    have hn : ¬ n = 0 := by omega
    simp [updateMetric, writes, hx, hn]
  all_goals
    simp only [updateMetric, hgen _ hc, Bool.false_eq_true, if_false]
    simp [writes, expected]

theorem updateMetric_spec (t : Task) (n : Nat) (sid : Int) (w : World) (b : Buf) (m : Metric)
    (hc : Computable t n w m) (h : b.ids.any (fun e => e.1 == m) = true) :
    ∃ b', updateMetric t n sid w b m = .ok b' ∧ b'.ids = b.ids ∧ b'.sampleId = sid ∧
      Filled n w b' m ∧ ∀ m', m' ≠ m → b.sampleId = sid → b'.data m' = b.data m' := by
  obtain ⟨hk, hne⟩ := writes_nodup n w m
  obtain ⟨b', e1, i1, s1, d1, f1⟩ := step_ok b sid m (writes n w m) hne hk h
  refine ⟨b', (updateMetric_writes t n sid w b m hc).trans e1, i1, s1, ?_, ?_⟩
  · intro e he
    exact d1 e (expected_sub n w m e he)
  · intro m' hn hs
    funext k
    exact f1 m' k (Or.inl hn) hs

/-- A buffer made for the metrics. -/
def Fits (b : Buf) (ms : List Metric) : Prop := ∀ m ∈ ms, b.ids.any (fun e => e.1 == m) = true

theorem updateMetrics_aux (t : Task) (n : Nat) (sid : Int) (w : World) (ms : List Metric) :
    ∀ (done : List Metric) (b : Buf), (∀ m ∈ ms, Computable t n w m) → Fits b ms →
    (done ≠ [] → b.sampleId = sid) → (∀ m ∈ done, Filled n w b m) →
    ∃ b', updateMetrics t n sid w ms b = .ok b' ∧ b'.ids = b.ids ∧
      (done ++ ms ≠ [] → b'.sampleId = sid) ∧ ∀ m ∈ done ++ ms, Filled n w b' m := by
  induction ms with
  | nil =>
    intro done b _ _ hs hd
    exact ⟨b, rfl, rfl, by simpa using hs, by simpa using hd⟩
  | cons m ms ih =>
    intro done b hc hf hs hd
    obtain ⟨b1, e1, i1, s1, d1, f1⟩ :=
      updateMetric_spec t n sid w b m (hc m (by simp)) (hf m (by simp))
    obtain ⟨b2, e2, i2, s2, d2⟩ := ih (done ++ [m]) b1 (fun m' hm' => hc m' (by simp [hm']))
      (fun m' hm' => by rw [i1]; exact hf m' (by simp [hm'])) (fun _ => s1) (by
        intro m' hm'
        by_cases he : m' = m
        · rw [he]; exact d1
        · have hm2 : m' ∈ done := by
            rcases List.mem_append.1 hm' with h | h
            · exact h
            · exact absurd (List.mem_singleton.1 h) he
          have hne : done ≠ [] := by intro h; rw [h] at hm2; cases hm2
          intro e hee
          rw [f1 m' he (hs hne)]
          exact hd m' hm2 e hee)
    refine ⟨b2, ?_, i2.trans i1, ?_, ?_⟩
    · simp only [updateMetrics, List.foldlM_cons, e1]
      exact e2
    · intro _; exact s2 (by simp)
    · intro m' hm'
      exact d2 m' (by simpa using hm')

theorem updateMetrics_ok (t : Task) (n : Nat) (sid : Int) (w : World) (ms : List Metric) (b : Buf)
    (hne : ms ≠ []) (hc : ∀ m ∈ ms, Computable t n w m) (hf : Fits b ms) :
    ∃ b', updateMetrics t n sid w ms b = .ok b' ∧ b'.ids = b.ids ∧ b'.sampleId = sid ∧
      ∀ m ∈ ms, Filled n w b' m := by
  obtain ⟨b', h1, h2, h3, h4⟩ := updateMetrics_aux t n sid w ms [] b hc hf (by simp) (by simp)
  exact ⟨b', h1, h2, h3 (by simpa using hne), by simpa using h4⟩

/-- A metric that cannot be computed stops the report. -/
theorem updateMetrics_fail (t : Task) (n : Nat) (sid : Int) (w : World) (ms : List Metric)
    (m : Metric) (hm : m ∈ ms) (h : ∀ b, ∃ e, updateMetric t n sid w b m = .error e) (b : Buf) :
    ∃ e, updateMetrics t n sid w ms b = .error e := by
  induction ms generalizing b with
  | nil => cases hm
  | cons m' ms ih =>
    simp only [updateMetrics, List.foldlM_cons]
    rcases List.mem_cons.1 hm with rfl | hm
    · obtain ⟨e, he⟩ := h b
      exact ⟨e, by rw [he]; rfl⟩
    · cases hu : updateMetric t n sid w b m' with
      | error e => exact ⟨e, rfl⟩
      | ok b1 => exact ih hm b1

theorem initBuf_ok (ms : List Metric) (hne : ms ≠ []) :
    ∃ b, initBuf ms = .ok b ∧ Fits b ms := by
  refine ⟨_, by rw [initBuf, if_neg (by simpa using hne)], ?_⟩
  intro m hm
  simp only [Buf.clear, List.any_map, List.any_eq_true]
  exact ⟨m, hm, by simp⟩

/-! ### Lemmas: lines -/

theorem mapM_ok {α β : Type} (l : List α) (f : α → Except PyErr β) (g : α → β)
    (h : ∀ a ∈ l, f a = .ok (g a)) : l.mapM f = .ok (l.map g) := by
  induction l with
  | nil => rfl
  | cons a l ih =>
    rw [List.mapM_cons, h a (by simp), ih fun a' h' => h a' (by simp [h'])]
    rfl

theorem entry_ok (b : Buf) (m : Metric) (k : Key) (n : Nat) (g : Nat → ℚ)
    (h : b.data m k = some (some (.nums ((List.range n).map g)))) (i : Nat) (hi : i < n) :
    b.entry m k i = .ok (g i) := by
  simp [Buf.entry, Buf.get, h, hi]

theorem num_ok (b : Buf) (m : Metric) (k : Key) (v : ℚ)
    (h : b.data m k = some (some (.num v))) : b.num m k = .ok v := by
  simp [Buf.num, Buf.get, h]

theorem foldl_last (n : Nat) (f : Nat → ℚ) (a y : ℚ) (hn : 0 < n) (h : ∀ i < n, f i = y) :
    (List.range n).foldl (fun _ i => f i) a = y := by
  obtain ⟨k, rfl⟩ : ∃ k, n = k + 1 := ⟨n - 1, by omega⟩
  rw [List.range_succ, List.foldl_append]
  simp [h k (by omega)]

theorem flatten_map_range (n : Nat) (g : Nat → List Col) (f : Col → ℚ) :
    ((List.range n).map fun i => (g i).map f).flatten = ((List.range n).flatMap g).map f := by
  rw [List.map_flatMap, ← List.flatMap_def]

theorem fields_ok (n : Nat) (w : World) (b : Buf) (m : Metric) (y : ℚ) (hn : 0 < n)
    (hy : ∀ i < n, w.lastTrue i = y) (h : Filled n w b m) :
    fields b n m = .ok ((colsOf n m).map (Col.value w y)) := by
  have gen : ∀ m : Metric, b.data m .mean = some (some (.nums ((List.range n).map fun i => w.mean i m))) →
      b.data m .current = some (some (.nums ((List.range n).map fun i => w.current i m))) →
      (do
        let rows ← (List.range n).mapM fun i => do
          let a ← b.entry m .mean i
          let c ← b.entry m .current i
          return [a, c]
        return rows.flatten : Except PyErr (List ℚ)) =
        .ok (((List.range n).flatMap fun i => [Col.mean m i, Col.current m i]).map
          (Col.value w y)) := by
    intro m h1 h2
    rw [mapM_ok (List.range n) _ (fun i => [w.mean i m, w.current i m])]
    · rw [← flatten_map_range]; rfl
    · intro i hi
      rw [List.mem_range] at hi
      rw [entry_ok b m .mean n _ h1 i hi, entry_ok b m .current n _ h2 i hi]
      rfl
  cases m
  case trueVsPredicted =>
    simp only [Filled, expected, List.forall_mem_cons] at h
    obtain ⟨h1, h2, -⟩ := h
    unfold fields
    rw [num_ok b _ _ _ h1, mapM_ok (List.range n) _ w.lastPred fun i hi =>
      entry_ok b _ _ n _ h2 i (List.mem_range.1 hi), foldl_last n w.lastTrue _ y hn hy]
    simp only [colsOf, List.map_cons, List.map_map]
    rfl
  case runningTime =>
    simp only [Filled, expected, List.forall_mem_cons] at h
    obtain ⟨h1, h2, h3, -⟩ := h
    unfold fields
    rw [mapM_ok (List.range n) _ (fun i => [w.training i, w.testing i, w.total i])]
    · rw [colsOf, ← flatten_map_range]; rfl
    · intro i hi
      rw [List.mem_range] at hi
      rw [entry_ok b _ _ n _ h1 i hi, entry_ok b _ _ n _ h2 i hi, entry_ok b _ _ n _ h3 i hi]
      rfl
  case modelSize =>
    simp only [Filled, expected, List.forall_mem_cons] at h
    obtain ⟨h1, -⟩ := h
    unfold fields
    rw [mapM_ok (List.range n) _ w.size fun i hi => entry_ok b _ _ n _ h1 i (List.mem_range.1 hi)]
    simp only [colsOf, List.map_map]
    rfl
  case dataPoints => rfl
  all_goals
    simp only [Filled, expected, List.forall_mem_cons] at h
    exact gen _ h.1 h.2.1

theorem line_ok (str : Int → List Char) (fmt : ℚ → List Char) (b : Buf) (n : Nat) (w : World)
    (y : ℚ) (ms : List Metric) (hn : 0 < n) (hy : ∀ i < n, w.lastTrue i = y)
    (h : ∀ m ∈ ms, Filled n w b m) :
    line str fmt b n ms = .ok (str b.sampleId ++
      ((ms.flatMap (colsOf n)).map fun c => fmt (c.value w y)).flatMap fun s => ',' :: s) := by
  unfold line
  have gen : ∀ (acc : List Char),
      ms.foldlM (fun acc m => do
        let vs ← fields b n m
        return acc ++ vs.flatMap fun v => ',' :: fmt v : List Char → Metric → Except PyErr (List Char)) acc =
      .ok (acc ++
        ((ms.flatMap (colsOf n)).map fun c => fmt (c.value w y)).flatMap fun s => ',' :: s) := by
    induction ms with
    | nil => intro acc; simp [pure, Except.pure]
    | cons m ms ih =>
      intro acc
      rw [List.foldlM_cons, fields_ok n w b m y hn hy (h m (by simp))]
      have := ih (fun m' hm' => h m' (by simp [hm']))
        (acc ++ ((colsOf n m).map (Col.value w y)).flatMap fun v => ',' :: fmt v)
      refine Eq.trans this ?_
      simp [List.flatMap_map]
  exact gen _

theorem bracket_tag (a s : List Char) : bracket a s = ',' :: tag a s := by
  simp [bracket, tag]

/-- The header of one metric consists of the titles of its columns. -/
theorem headerOf_titles (names : List (List Char)) (m : Metric) :
    headerOf names m =
      ((colsOf names.length m).map (Col.title names)).flatMap fun s => ',' :: s := by
  have key : ∀ (f : List Char → List Char) (g : Nat → List Col),
      (∀ i < names.length, f (names.getD i []) = ((g i).map (Col.title names)).flatMap fun s => ',' :: s) →
      names.flatMap f = (((List.range names.length).flatMap g).map (Col.title names)).flatMap
        fun s => ',' :: s := by
    intro f g h
    have e : names = (List.range names.length).map fun i => names.getD i [] := by
      apply List.ext_getElem
      · simp
      · intro i h1 h2
        simp [List.getElem?_eq_getElem h1]
    conv => lhs; rw [e]
    rw [List.flatMap_map, List.map_flatMap, List.flatMap_assoc]
    apply List.flatMap_congr
    intro i hi
    exact h i (List.mem_range.1 hi)
  have two : ∀ a c : List Char, ∀ m : Metric, a = cs!"mean_" ++ shortName m ++ cs!"_" →
      c = cs!"current_" ++ shortName m ++ cs!"_" →
      (names.flatMap fun s => bracket a s ++ bracket c s) =
        (((List.range names.length).flatMap fun i => [Col.mean m i, Col.current m i]).map
          (Col.title names)).flatMap fun s => ',' :: s := by
    intro a c m ha hc
    refine key _ _ fun i _ => ?_
    simp only [List.map_cons, List.map_nil, List.flatMap_cons, List.flatMap_nil, List.append_nil,
      Col.title, ← ha, ← hc, bracket_tag]
  have sing : ∀ f : Nat → Col, ((List.range names.length).flatMap fun i => [f i]) =
      (List.range names.length).map f := by
    intro f; induction List.range names.length with
    | nil => rfl
    | cons a l ih => rw [List.flatMap_cons, ih]; rfl
  cases m
  case trueVsPredicted =>
    have := key (fun s => bracket cs!"predicted_value_" s) (fun i => [.predicted i]) (by
      intro i _
      simp only [List.map_cons, List.map_nil, List.flatMap_cons, List.flatMap_nil, List.append_nil,
        Col.title, bracket_tag])
    rw [headerOf, this, colsOf, List.map_cons, List.flatMap_cons, sing]
    rfl
  case modelSize =>
    have := key (fun s => bracket cs!"model_size_" s) (fun i => [.size i]) (by
      intro i _
      simp only [List.map_cons, List.map_nil, List.flatMap_cons, List.flatMap_nil, List.append_nil,
        Col.title, bracket_tag])
    rw [headerOf, this, colsOf, sing]
  case dataPoints => rfl
  case runningTime =>
    refine key _ _ fun i _ => ?_
    simp only [List.map_cons, List.map_nil, List.flatMap_cons, List.flatMap_nil, List.append_nil,
      Col.title, bracket_tag, List.append_assoc]
  all_goals exact two _ _ _ rfl rfl

theorem header_titles (names : List (List Char)) (ms : List Metric) :
    header names ms = cs!"id" ++
      ((ms.flatMap (colsOf names.length)).map (Col.title names)).flatMap fun s => ',' :: s := by
  unfold header
  generalize cs!"id" = acc
  induction ms generalizing acc with
  | nil => simp
  | cons m ms ih =>
    rw [List.foldl_cons, ih, headerOf_titles]
    simp [List.flatMap_map]

theorem splitCommas_free (s : List Char) (h : ',' ∉ s) : splitCommas s = [s] := by
  induction s with
  | nil => rfl
  | cons c s ih =>
    have hc : ¬ c = ',' := fun e => h (by simp [e])
    rw [splitCommas, if_neg hc, ih fun hm => h (by simp [hm])]

theorem splitCommas_comma (a r : List Char) (h : ',' ∉ a) :
    splitCommas (a ++ ',' :: r) = a :: splitCommas r := by
  induction a with
  | nil => simp [splitCommas]
  | cons c a ih =>
    have hc : ¬ c = ',' := fun e => h (by simp [e])
    rw [List.cons_append, splitCommas, if_neg hc, ih fun hm => h (by simp [hm])]

theorem splitCommas_join (a : List Char) (ls : List (List Char)) (ha : ',' ∉ a)
    (h : ∀ l ∈ ls, ',' ∉ l) : splitCommas (a ++ ls.flatMap fun s => ',' :: s) = a :: ls := by
  induction ls generalizing a with
  | nil => simpa using splitCommas_free a ha
  | cons l ls ih =>
    rw [List.flatMap_cons, List.cons_append, splitCommas_comma a _ ha,
      ih l (h l (by simp)) fun l' h' => h l' (by simp [h'])]

theorem title_comma (names : List (List Char)) (h : ∀ s ∈ names, ',' ∉ s) (c : Col) :
    ',' ∉ c.title names := by
  have hn : ∀ i, ',' ∉ names.getD i [] := by
    intro i
    by_cases hi : i < names.length
    · rw [List.getD_eq_getElem?_getD, List.getElem?_eq_getElem hi]
      exact h _ (List.getElem_mem hi)
    · rw [List.getD_eq_getElem?_getD, List.getElem?_eq_none (by omega)]
      simp
  have hs : ∀ m, ',' ∉ shortName m := by intro m; cases m <;> decide
  have ht : ∀ a s : List Char, ',' ∉ a → ',' ∉ s → ',' ∉ tag a s := by
    intro a s ha hs
    simp [tag, ha, hs]
  cases c
  case trueValue => simp [Col.title]
  case mean m i =>
    refine ht _ _ ?_ (hn i)
    simp only [List.mem_append, not_or]
    exact ⟨⟨by decide, hs m⟩, by decide⟩
  case current m i =>
    refine ht _ _ ?_ (hn i)
    simp only [List.mem_append, not_or]
    exact ⟨⟨by decide, hs m⟩, by decide⟩
  all_goals exact ht _ _ (by decide) (hn _)

/-! ### Lemmas: titles -/

/-- The metric a title with a short name is about. -/
theorem shortName_inj (m m' : Metric) (h : shortName m = shortName m') : m = m' := by
  have dec : ∀ m : Metric, plotTypes.find? (fun x => shortName x == shortName m) = some m := by
    intro m; cases m <;> decide
  have h1 := dec m
  rw [h, dec m'] at h1
  exact (Option.some.inj h1).symm

theorem tag_inj (a a' s s' : List Char) (ha : '[' ∉ a) (ha' : '[' ∉ a') (h : tag a s = tag a' s') :
    a = a' ∧ s = s' := by
  have key : ∀ a s : List Char, '[' ∉ a → (tag a s).takeWhile (fun c => c != '[') = a := by
    intro a s ha
    induction a with
    | nil => rfl
    | cons c a ih =>
      have hc : c ≠ '[' := fun e => ha (by simp [e])
      have := ih fun hm => ha (by simp [hm])
      simp only [tag, List.cons_append] at this ⊢
      rw [List.takeWhile_cons_of_pos (by simp [hc]), this]
  have e : a = a' := by rw [← key a s ha, h, key a' s' ha']
  refine ⟨e, ?_⟩
  subst e
  simpa [tag] using h

/-- The model a column is about. -/
def Col.model : Col → Nat
  | .mean _ i | .current _ i | .predicted i | .training i | .testing i | .total i | .size i => i
  | .trueValue => 0

/-- The metric a column is about. -/
def Col.metric : Col → Metric
  | .mean m _ | .current m _ => m
  | .trueValue | .predicted _ => .trueVsPredicted
  | .training _ | .testing _ | .total _ => .runningTime
  | .size _ => .modelSize

/-- What comes before the name of the model in a title. -/
def Col.prefix : Col → List Char
  | .mean m _ => cs!"mean_" ++ shortName m ++ cs!"_"
  | .current m _ => cs!"current_" ++ shortName m ++ cs!"_"
  | .trueValue => []
  | .predicted _ => cs!"predicted_value_"
  | .training _ => cs!"training_time_"
  | .testing _ => cs!"testing_time_"
  | .total _ => cs!"total_running_time_"
  | .size _ => cs!"model_size_"

theorem prefix_free (c : Col) : '[' ∉ c.prefix := by
  have hs : ∀ m, '[' ∉ shortName m := by intro m; cases m <;> decide
  cases c <;> simp [Col.prefix, hs]

theorem title_tag (names : List (List Char)) (c : Col) (h : c ≠ .trueValue) :
    c.title names = tag c.prefix (names.getD c.model []) := by
  cases c <;> first | rfl | exact absurd rfl h

theorem prefix_inj (c c' : Col) (hm : c.model = c'.model) (h : c ≠ .trueValue)
    (h' : c' ≠ .trueValue) (e : c.prefix = c'.prefix) : c = c' := by
  cases c <;> cases c' <;> simp_all [Col.prefix, Col.model]
  · exact shortName_inj _ _ e
  · exact shortName_inj _ _ e

theorem title_inj (names : List (List Char)) (hn : names.Nodup) (c c' : Col)
    (hc : c.model < names.length) (hc' : c'.model < names.length)
    (h : c.title names = c'.title names) : c = c' := by
  have nobr : '[' ∉ (Col.trueValue).title names := by simp [Col.title]
  have br : ∀ a s : List Char, '[' ∈ tag a s := by intro a s; simp [tag]
  by_cases h1 : c = .trueValue
  · by_cases h2 : c' = .trueValue
    · rw [h1, h2]
    · rw [h1, title_tag names c' h2] at h
      exact absurd (h ▸ br _ _) nobr
  · by_cases h2 : c' = .trueValue
    · rw [h2, title_tag names c h1] at h
      exact absurd (h ▸ br _ _) nobr
    · rw [title_tag names c h1, title_tag names c' h2] at h
      obtain ⟨e1, e2⟩ := tag_inj _ _ _ _ (prefix_free c) (prefix_free c') h
      refine prefix_inj c c' ?_ h1 h2 e1
      rw [List.getD_eq_getElem?_getD, List.getD_eq_getElem?_getD, List.getElem?_eq_getElem hc,
        List.getElem?_eq_getElem hc', Option.getD_some, Option.getD_some] at e2
      exact (List.Nodup.getElem_inj_iff hn).1 e2

theorem colsOf_two (n : Nat) (m : Metric) :
    (∀ c ∈ (List.range n).flatMap fun i => [Col.mean m i, Col.current m i],
      c.metric = m ∧ c.model < n) ∧
    ((List.range n).flatMap fun i => [Col.mean m i, Col.current m i]).Nodup := by
  refine ⟨?_, ?_⟩
  · intro c hc
    obtain ⟨i, hi, hc⟩ := List.mem_flatMap.1 hc
    rw [List.mem_range] at hi
    rcases List.mem_cons.1 hc with rfl | hc
    · exact ⟨rfl, hi⟩
    · rw [List.mem_singleton.1 hc]; exact ⟨rfl, hi⟩
  · rw [List.nodup_flatMap]
    refine ⟨fun i _ => by simp, ?_⟩
    refine List.Pairwise.imp ?_ (List.nodup_range (n := n))
    intro i j hij
    intro c h1 h2
    simp only [List.mem_cons, List.not_mem_nil, or_false] at h1 h2
    rcases h1 with rfl | rfl <;> simp at h2 <;> exact hij h2

theorem colsOf_spec (n : Nat) (hn : 0 < n) (m : Metric) :
    (∀ c ∈ colsOf n m, c.metric = m ∧ c.model < n) ∧ (colsOf n m).Nodup := by
  cases m
  case trueVsPredicted =>
    refine ⟨?_, ?_⟩
    · intro c hc
      rcases List.mem_cons.1 hc with rfl | hc
      · exact ⟨rfl, hn⟩
      · obtain ⟨i, hi, rfl⟩ := List.mem_map.1 hc
        exact ⟨rfl, List.mem_range.1 hi⟩
    · refine List.nodup_cons.2 ⟨by simp, ?_⟩
      exact List.Nodup.map (fun i j h => by injection h) List.nodup_range
  case runningTime =>
    refine ⟨?_, ?_⟩
    · intro c hc
      obtain ⟨i, hi, hc⟩ := List.mem_flatMap.1 hc
      rw [List.mem_range] at hi
      simp only [List.mem_cons, List.not_mem_nil, or_false] at hc
      rcases hc with rfl | rfl | rfl <;> exact ⟨rfl, hi⟩
    · unfold colsOf
      rw [List.nodup_flatMap]
      refine ⟨fun i _ => by simp, ?_⟩
      refine List.Pairwise.imp ?_ (List.nodup_range (n := n))
      intro i j hij c h1 h2
      simp only [List.mem_cons, List.not_mem_nil, or_false] at h1 h2
      rcases h1 with rfl | rfl | rfl <;> simp at h2 <;> exact hij h2
  case modelSize =>
    refine ⟨?_, ?_⟩
    · intro c hc
      obtain ⟨i, hi, rfl⟩ := List.mem_map.1 hc
      exact ⟨rfl, List.mem_range.1 hi⟩
    · exact List.Nodup.map (fun i j h => by injection h) List.nodup_range
  case dataPoints => exact ⟨by simp [colsOf], by simp [colsOf]⟩
  all_goals exact colsOf_two n _

theorem titles_nodup (names : List (List Char)) (hl : 0 < names.length) (hn : names.Nodup)
    (ms : List Metric) (hm : ms.Nodup) :
    ((ms.flatMap (colsOf names.length)).map (Col.title names)).Nodup := by
  have h1 : (ms.flatMap (colsOf names.length)).Nodup := by
    rw [List.nodup_flatMap]
    refine ⟨fun m _ => (colsOf_spec _ hl m).2, ?_⟩
    refine List.Pairwise.imp ?_ hm
    intro m m' hne c c1 c2
    exact hne (((colsOf_spec _ hl m).1 c c1).1.symm.trans ((colsOf_spec _ hl m').1 c c2).1)
  have h2 : ∀ c ∈ ms.flatMap (colsOf names.length), c.model < names.length := by
    intro c hc
    obtain ⟨m, _, hc⟩ := List.mem_flatMap.1 hc
    exact ((colsOf_spec _ hl m).1 c hc).2
  exact List.Nodup.map_on (fun c hc c' hc' h => title_inj names hn c c' (h2 c hc) (h2 c' hc') h) h1

/-! ### Reports one after the other -/

/-- A number of reports: sample id and what the objects answer. -/
def reports (t : Task) (n : Nat) (ms : List Metric) (hist : List (Int × World)) (b : Buf) :
    Except PyErr Buf :=
  hist.foldlM (fun b r => updateMetrics t n r.1 r.2 ms b) b

theorem update_ids (b b' : Buf) (sid : Int) (m : Metric) (k : Key) (v : Val)
    (h : b.update sid m k v = .ok b') : b'.ids = b.ids := by
  by_cases ha : b.ids.any (fun e => e.1 == m) = true
  · obtain ⟨b1, e1, i1, _⟩ := update_spec b sid m k v ha
    rw [e1] at h
    cases h
    exact i1
  · exfalso
    unfold Buf.update at h
    by_cases hs : (b.sampleId != sid) = true
    · simp only [hs, if_true] at h
      rw [if_neg (by simpa [Buf.clear] using ha)] at h
      cases h
    · simp only [hs] at h
      rw [if_neg (by simpa using ha)] at h
      cases h

/-- Computable metrics are those for which a report does not fail. -/
theorem not_computable (t : Task) (n : Nat) (sid : Int) (w : World) (b : Buf) (m : Metric)
    (h : ¬ Computable t n w m) : ∃ e, updateMetric t n sid w b m = .error e := by
  have hgen : ∀ m : Metric, ¬ (n = 0 ∨ hasMethod t m = true) →
      (n > 0 && !hasMethod t m) = true := by
    intro m h
    push Not at h
    simp only [Bool.and_eq_true, decide_eq_true_eq, Bool.not_eq_true']
    exact ⟨by omega, by simpa using h.2⟩
  cases m
  case trueVsPredicted => exact absurd trivial h
  case runningTime => exact absurd trivial h
  case modelSize => exact absurd trivial h
  case dataPoints =>
    have h' : ¬ (0 < n ∧ 2 ≤ w.x.length) := h
    by_cases hn : n = 0
    · exact ⟨.indexError, by simp [updateMetric, hn]⟩
    · refine ⟨.indexError, ?_⟩
      have hx : w.x.length < 2 := by
        by_contra hx; exact h' ⟨by omega, by omega⟩
      match hw : w.x with
      | [] => simp [updateMetric, hn, hw]
      | [_] => simp [updateMetric, hn, hw]
      | x0 :: x1 :: r => rw [hw, List.length_cons, List.length_cons] at hx; omega
  all_goals
    refine ⟨.attributeError, ?_⟩
    simp only [updateMetric, hgen _ h, if_true]

theorem computable_of_ok (t : Task) (n : Nat) (sid : Int) (w : World) (ms : List Metric) (b b' : Buf)
    (h : updateMetrics t n sid w ms b = .ok b') : ∀ m ∈ ms, Computable t n w m := by
  intro m hm
  by_contra hc
  obtain ⟨e, he⟩ := updateMetrics_fail t n sid w ms m hm
    (fun b => not_computable t n sid w b m hc) b
  rw [h] at he
  cases he

theorem reports_fits (t : Task) (n : Nat) (ms : List Metric) (hne : ms ≠ [])
    (hist : List (Int × World)) (b b' : Buf) (hf : Fits b ms)
    (h : reports t n ms hist b = .ok b') : Fits b' ms := by
  induction hist generalizing b with
  | nil => cases h; exact hf
  | cons r hist ih =>
    simp only [reports, List.foldlM_cons] at h
    cases hu : updateMetrics t n r.1 r.2 ms b with
    | error e => rw [hu] at h; cases h
    | ok b1 =>
      rw [hu] at h
      refine ih b1 ?_ h
      obtain ⟨b2, e2, i2, _⟩ := updateMetrics_ok t n r.1 r.2 ms b hne
        (computable_of_ok t n r.1 r.2 ms b b1 hu) hf
      rw [hu] at e2
      cases e2
      intro m hm
      rw [i2]
      exact hf m hm

/-! ### C190 -/

/-- C190: after any earlier reports, the line written by a report has exactly one
value for every column of the header, and it is the value the title of the column
promises; distinct models and metrics give distinct titles. -/
theorem C190_row_matches_header (t : Task) (ms : List Metric) (names : List (List Char))
    (str : Int → List Char) (fmt : ℚ → List Char) (b0 b b' : Buf) (hist : List (Int × World))
    (sid : Int) (w : World) (y : ℚ)
    (hstr : ∀ i, ',' ∉ str i) (hfmt : ∀ v, ',' ∉ fmt v) (hnames : ∀ s ∈ names, ',' ∉ s)
    (hpos : 0 < names.length) (hy : ∀ i < names.length, w.lastTrue i = y)
    (hinit : initBuf ms = .ok b0) (hhist : reports t names.length ms hist b0 = .ok b)
    (hrep : updateMetrics t names.length sid w ms b = .ok b') :
    splitCommas (header names ms) =
      cs!"id" :: (ms.flatMap (colsOf names.length)).map (Col.title names) ∧
    (∃ l, line str fmt b' names.length ms = .ok l ∧
      splitCommas l =
        str sid :: (ms.flatMap (colsOf names.length)).map fun c => fmt (c.value w y)) ∧
    (names.Nodup → ms.Nodup →
      ((ms.flatMap (colsOf names.length)).map (Col.title names)).Nodup) := by
  have hne : ms ≠ [] := by
    rintro rfl
    cases hinit
  have hf0 : Fits b0 ms := by
    obtain ⟨b1, e1, f1⟩ := initBuf_ok ms hne
    rw [hinit] at e1; cases e1
    exact f1
  have hf : Fits b ms := reports_fits t _ ms hne hist b0 b hf0 hhist
  obtain ⟨b2, e2, _, s2, d2⟩ := updateMetrics_ok t names.length sid w ms b hne
    (computable_of_ok t _ sid w ms b b' hrep) hf
  rw [hrep] at e2; cases e2
  refine ⟨?_, ⟨_, line_ok str fmt b' names.length w y ms hpos hy d2, ?_⟩, ?_⟩
  · rw [header_titles]
    refine splitCommas_join _ _ (by decide) ?_
    intro l hl
    obtain ⟨c, _, rfl⟩ := List.mem_map.1 hl
    exact title_comma names hnames c
  · rw [s2]
    refine splitCommas_join _ _ (hstr sid) ?_
    intro l hl
    obtain ⟨c, _, rfl⟩ := List.mem_map.1 hl
    exact hfmt _
  · exact fun h1 h2 => titles_nodup names hpos h1 ms h2

/-! ### C188 -/

theorem within_spec (ms A : List Metric) : within ms A = true ↔ ∀ m ∈ ms, m ∈ A := by
  simp [within, List.all_eq_true]

theorem reorder_mem (ms : List Metric) (m : Metric) : m ∈ reorder ms ↔ m ∈ ms := by
  simp only [reorder, List.mem_append, List.mem_filter]
  by_cases h : (m == .modelSize || m == .runningTime) = true <;> simp [h]

/-- The measurement objects of a task answer the metrics of the task's list. -/
theorem lists_computable (n : Nat) (w : World) (m : Metric)
    (hd : m = .dataPoints → 0 < n ∧ 2 ≤ w.x.length) :
    (m ∈ classificationMetrics → Computable .classification n w m) ∧
    (m ∈ regressionMetrics → Computable .regression n w m) ∧
    (m ∈ mtClassificationMetrics → Computable .mtClassification n w m) ∧
    (m ∈ mtRegressionMetrics → Computable .mtRegression n w m) := by
  cases m
  case dataPoints => exact ⟨fun _ => hd rfl, fun _ => hd rfl, fun _ => hd rfl, fun _ => hd rfl⟩
  case trueVsPredicted => exact ⟨fun _ => trivial, fun _ => trivial, fun _ => trivial, fun _ => trivial⟩
  case runningTime => exact ⟨fun _ => trivial, fun _ => trivial, fun _ => trivial, fun _ => trivial⟩
  case modelSize => exact ⟨fun _ => trivial, fun _ => trivial, fun _ => trivial, fun _ => trivial⟩
  all_goals
    refine ⟨?_, ?_, ?_, ?_⟩ <;>
      first
        | exact fun _ => Or.inr rfl
        | (intro h; exact absurd h (by decide))

/-- What an accepted configuration looks like. -/
theorem config_lists (k : Int) (dp : Bool) (names : List (List Char)) (ms : List Metric) (t : Task)
    (h : checkConfig k dp names = .ok (ms, t)) :
    (∃ l, names.mapM parse = some l ∧ ms = reorder l) ∧
    match t with
    | .classification => k = 1 ∧ (dp = true ∨ ∀ m ∈ ms, m ∈ classificationMetrics)
    | .regression => k = 1 ∧ ∀ m ∈ ms, m ∈ regressionMetrics
    | .mtClassification => k > 1 ∧ ∀ m ∈ ms, m ∈ mtClassificationMetrics
    | .mtRegression => k > 1 ∧ ∀ m ∈ ms, m ∈ mtRegressionMetrics := by
  unfold checkConfig at h
  by_cases hk : k < 1
  · rw [if_pos hk] at h; cases h
  rw [if_neg hk] at h
  cases hp : names.mapM parse with
  | none => rw [hp] at h; cases h
  | some l =>
    rw [hp] at h
    simp only at h
    by_cases h1 : k = 1
    · rw [if_pos h1] at h
      by_cases ha : ((reorder l).all fun m =>
          classificationMetrics.contains m == regressionMetrics.contains m) = true
      · rw [if_pos ha] at h; cases h
      rw [if_neg ha] at h
      by_cases hc : (within (reorder l) classificationMetrics || dp) = true
      · rw [if_pos hc] at h
        cases h
        refine ⟨⟨l, rfl, rfl⟩, h1, ?_⟩
        rcases Bool.or_eq_true _ _ ▸ hc with hc | hc
        · exact Or.inr ((within_spec _ _).1 hc)
        · exact Or.inl hc
      rw [if_neg hc] at h
      by_cases hr : within (reorder l) regressionMetrics = true
      · rw [if_pos hr] at h
        cases h
        exact ⟨⟨l, rfl, rfl⟩, h1, (within_spec _ _).1 hr⟩
      · rw [if_neg hr] at h; cases h
    · rw [if_neg h1] at h
      by_cases hc : within (reorder l) mtClassificationMetrics = true
      · rw [if_pos hc] at h
        cases h
        exact ⟨⟨l, rfl, rfl⟩, by omega, (within_spec _ _).1 hc⟩
      rw [if_neg hc] at h
      by_cases hr : within (reorder l) mtRegressionMetrics = true
      · rw [if_pos hr] at h
        cases h
        exact ⟨⟨l, rfl, rfl⟩, by omega, (within_spec _ _).1 hr⟩
      · rw [if_neg hr] at h; cases h

/-- C188 (partial): without `data_points_for_classification`, a configuration that is
accepted can be reported: no report ever fails (for `data_points` the stream must have
two features).  What is missing is the flag, see `C188_violated`. -/
theorem C188_accepted_reports_partial (k : Int) (names : List (List Char)) (ms : List Metric)
    (t : Task) (n : Nat) (b0 b : Buf) (hist : List (Int × World)) (sid : Int) (w : World)
    (hcfg : checkConfig k false names = .ok (ms, t)) (hinit : initBuf ms = .ok b0)
    (hhist : reports t n ms hist b0 = .ok b)
    (hd : .dataPoints ∈ ms → 0 < n ∧ 2 ≤ w.x.length) :
    ∃ b', updateMetrics t n sid w ms b = .ok b' := by
  have hne : ms ≠ [] := by
    rintro rfl
    cases hinit
  have hf0 : Fits b0 ms := by
    obtain ⟨b1, e1, f1⟩ := initBuf_ok ms hne
    rw [hinit] at e1; cases e1
    exact f1
  have hf : Fits b ms := reports_fits t _ ms hne hist b0 b hf0 hhist
  have hc : ∀ m ∈ ms, Computable t n w m := by
    intro m hm
    have hl := lists_computable n w m (fun e => hd (e ▸ hm))
    have := (config_lists k false names ms t hcfg).2
    cases t with
    | classification =>
      rcases this.2 with h | h
      · cases h
      · exact hl.1 (h m hm)
    | regression => exact hl.2.1 (this.2 m hm)
    | mtClassification => exact hl.2.2.1 (this.2 m hm)
    | mtRegression => exact hl.2.2.2 (this.2 m hm)
  obtain ⟨b', h, _⟩ := updateMetrics_ok t n sid w ms b hne hc hf
  exact ⟨b', h⟩

/-- C188 violated: with `data_points_for_classification` a regression metric is
accepted next to `data_points`, the task is taken to be classification, and every
report of every evaluation fails. -/
theorem C188_violated :
    checkConfig 1 true [cs!"mean_square_error", cs!"data_points"] =
      .ok ([.mse, .dataPoints], .classification) ∧
    ∀ (n : Nat) (sid : Int) (w : World) (b : Buf), 0 < n →
      updateMetrics .classification n sid w [.mse, .dataPoints] b = .error .attributeError := by
  refine ⟨by rfl, ?_⟩
  intro n sid w b hn
  have : (decide (n > 0) && !hasMethod .classification .mse) = true := by simp [hn, hasMethod]
  simp only [updateMetrics, List.foldlM_cons, updateMetric, this, if_true]
  rfl

/-! ### C189 -/

/-- Metrics that say nothing about the task. -/
def neutral : List Metric := [.trueVsPredicted, .runningTime, .modelSize]

/-- C189: for a stream with one target the task follows from the metrics, and metrics
that fit both tasks or neither are refused; for a stream with several targets metrics
that fit both tasks are taken as classification, whatever the stream is. -/
theorem C189_task_inference (names : List (List Char)) (l : List Metric)
    (hl : names.mapM parse = some l) :
    (checkConfig 1 false names = .ok (reorder l, .classification) ↔
      (∀ m ∈ l, m ∈ classificationMetrics) ∧ ∃ m ∈ l, m ∉ neutral) ∧
    (checkConfig 1 false names = .ok (reorder l, .regression) ↔
      (∀ m ∈ l, m ∈ regressionMetrics) ∧ ∃ m ∈ l, m ∉ neutral) ∧
    ((∀ m ∈ l, m ∈ neutral) → ∀ dp, checkConfig 1 dp names = .error .valueError) ∧
    (∀ k : Int, k > 1 → ∀ dp, (∀ m ∈ l, m = .runningTime ∨ m = .modelSize) →
      checkConfig k dp names = .ok (reorder l, .mtClassification)) ∧
    (∀ k : Int, k < 1 → ∀ dp, checkConfig k dp names = .error .valueError) ∧
    (reorder l).Perm l := by
  have both : ∀ m : Metric, m ∈ neutral → m ∈ classificationMetrics ∧ m ∈ regressionMetrics := by
    intro m; cases m <;> decide
  have one : ∀ m : Metric, m ∈ classificationMetrics → m ∈ regressionMetrics → m ∈ neutral := by
    intro m; cases m <;> decide
  -- the test of lines 206-207
  have hall : (((reorder l).all fun m =>
      classificationMetrics.contains m == regressionMetrics.contains m) = true) ↔
      ∀ m ∈ l, (m ∈ classificationMetrics ↔ m ∈ regressionMetrics) := by
    rw [List.all_eq_true]
    constructor
    · intro h m hm
      have := h m ((reorder_mem l m).2 hm)
      rw [beq_iff_eq] at this
      rw [← List.contains_iff_mem, ← List.contains_iff_mem, this]
    · intro h m hm
      have := h m ((reorder_mem l m).1 hm)
      rw [beq_iff_eq, Bool.eq_iff_iff, List.contains_iff_mem, List.contains_iff_mem]
      exact this
  have hw : ∀ A, within (reorder l) A = true ↔ ∀ m ∈ l, m ∈ A := by
    intro A
    rw [within_spec]
    exact ⟨fun h m hm => h m ((reorder_mem l m).2 hm), fun h m hm => h m ((reorder_mem l m).1 hm)⟩
  have e1 : ∀ dp, checkConfig 1 dp names =
      if (reorder l).all fun m => classificationMetrics.contains m == regressionMetrics.contains m then
        .error .valueError
      else if within (reorder l) classificationMetrics || dp then .ok (reorder l, .classification)
      else if within (reorder l) regressionMetrics then .ok (reorder l, .regression)
      else .error .valueError := by
    intro dp
    unfold checkConfig
    rw [if_neg (by omega), hl]
    simp only [if_true]
  refine ⟨?_, ?_, ?_, ?_, ?_, ?_⟩
  · rw [e1]
    constructor
    · intro h
      by_cases ha : ((reorder l).all fun m =>
          classificationMetrics.contains m == regressionMetrics.contains m) = true
      · rw [if_pos ha] at h; cases h
      rw [if_neg ha] at h
      by_cases hc : (within (reorder l) classificationMetrics || false) = true
      · rw [Bool.or_false, hw] at hc
        refine ⟨hc, ?_⟩
        by_contra hn
        push Not at hn
        exact ha (hall.2 fun m hm => ⟨fun _ => (both m (hn m hm)).2, fun _ => (both m (hn m hm)).1⟩)
      · rw [if_neg hc] at h
        by_cases hr : within (reorder l) regressionMetrics = true
        · rw [if_pos hr] at h; cases h
        · rw [if_neg hr] at h; cases h
    · rintro ⟨h1, m, hm, hn⟩
      have ha : ¬ ((reorder l).all fun m =>
          classificationMetrics.contains m == regressionMetrics.contains m) = true := by
        intro ha
        exact hn (one m (h1 m hm) ((hall.1 ha m hm).1 (h1 m hm)))
      rw [if_neg ha, if_pos (by rw [Bool.or_false, hw]; exact h1)]
  · rw [e1]
    constructor
    · intro h
      by_cases ha : ((reorder l).all fun m =>
          classificationMetrics.contains m == regressionMetrics.contains m) = true
      · rw [if_pos ha] at h; cases h
      rw [if_neg ha] at h
      by_cases hc : (within (reorder l) classificationMetrics || false) = true
      · rw [if_pos hc] at h; cases h
      · rw [if_neg hc] at h
        by_cases hr : within (reorder l) regressionMetrics = true
        · rw [hw] at hr
          refine ⟨hr, ?_⟩
          by_contra hn
          push Not at hn
          exact ha (hall.2 fun m hm => ⟨fun _ => (both m (hn m hm)).2, fun _ => (both m (hn m hm)).1⟩)
        · rw [if_neg hr] at h; cases h
    · rintro ⟨h1, m, hm, hn⟩
      have hnc : m ∉ classificationMetrics := fun hc => hn (one m hc (h1 m hm))
      have ha : ¬ ((reorder l).all fun m =>
          classificationMetrics.contains m == regressionMetrics.contains m) = true := by
        intro ha
        exact hnc ((hall.1 ha m hm).2 (h1 m hm))
      have hc : ¬ (within (reorder l) classificationMetrics || false) = true := by
        rw [Bool.or_false, hw]
        intro hc
        exact hnc (hc m hm)
      rw [if_neg ha, if_neg hc, if_pos ((hw _).2 h1)]
  · intro h dp
    rw [e1, if_pos]
    exact hall.2 fun m hm => ⟨fun _ => (both m (h m hm)).2, fun _ => (both m (h m hm)).1⟩
  · intro k hk dp h
    unfold checkConfig
    rw [if_neg (by omega), hl]
    simp only
    rw [if_neg (by omega), if_pos]
    rw [hw]
    intro m hm
    rcases h m hm with rfl | rfl <;> decide
  · intro k hk dp
    unfold checkConfig
    rw [if_pos hk]
  · unfold reorder
    have := List.filter_append_perm (fun m : Metric => !(m == .modelSize || m == .runningTime)) l
    simpa using this

/-! ### C191 -/

/-- C191: the class shown for a data point is the true label of the last scored sample,
never the prediction, and a report on a stream with fewer than two features fails. -/
theorem C191_data_points (t : Task) (n : Nat) (sid : Int) (w : World) (ms : List Metric) (b : Buf)
    (hm : .dataPoints ∈ ms) :
    (w.x.length < 2 → ∃ e, updateMetrics t n sid w ms b = .error e) ∧
    (∀ b', Fits b ms → updateMetrics t n sid w ms b = .ok b' →
      b'.data .dataPoints .predictions = some (some (.num (w.lastTrue 0)))) := by
  refine ⟨?_, ?_⟩
  · intro hx
    refine updateMetrics_fail t n sid w ms .dataPoints hm (fun b => ?_) b
    refine not_computable t n sid w b .dataPoints ?_
    intro hc
    have : 2 ≤ w.x.length := hc.2
    omega
  · intro b' hf h
    have hne : ms ≠ [] := by rintro rfl; cases hm
    obtain ⟨b2, e2, _, _, d2⟩ := updateMetrics_ok t n sid w ms b hne
      (computable_of_ok t n sid w ms b b' h) hf
    rw [h] at e2; cases e2
    exact d2 .dataPoints hm (.predictions, .num (w.lastTrue 0)) (by simp [expected])

/-! ### Examples -/

/-- A world with two models: the true label is 1, model 0 says 0, model 1 says 1. -/
def exWorld : World where
  mean := fun i m => if m = .accuracy then (if i = 0 then 1 / 2 else 3 / 4) else 1 / 8
  current := fun i _ => if i = 0 then 0 else 1
  lastTrue := fun _ => 1
  lastPred := fun i => i
  training := fun i => i + 2
  testing := fun i => i + 1
  total := fun i => 2 * i + 3
  size := fun _ => 10
  x := [5, 7]
  targets := [0, 1]

/-- The configuration is accepted and puts the time last. -/
example : checkConfig 1 false [cs!"Running_Time", cs!"Accuracy", cs!"true_vs_predicted"] =
    .ok ([.accuracy, .trueVsPredicted, .runningTime], .classification) := by rfl

/-- Two models and three metrics: header and a first line (numbers printed as 0/1 for the test). -/
example : (splitCommas (header [cs!"A", cs!"B"] [.accuracy, .trueVsPredicted])) =
    [cs!"id", cs!"mean_acc_[A]", cs!"current_acc_[A]", cs!"mean_acc_[B]", cs!"current_acc_[B]",
     cs!"true_value", cs!"predicted_value_[A]", cs!"predicted_value_[B]"] := by decide +kernel

/-- The hypotheses of C190 can be met: a report from a fresh buffer. -/
example : (do
    let b ← initBuf [.accuracy, .trueVsPredicted]
    let b ← updateMetrics .classification 2 4 exWorld [.accuracy, .trueVsPredicted] b
    line (fun _ => cs!"4") (fun v => if v = 3 / 4 then cs!"0.75" else cs!"x") b 2
      [.accuracy, .trueVsPredicted]).toOption =
    some cs!"4,x,x,0.75,x,x,x,x" := by decide +kernel

/-- A data point is shown with label 1 although model 0 predicted 0. -/
example : (do
    let b ← initBuf [.dataPoints]
    let b ← updateMetrics .classification 2 4 exWorld [.dataPoints] b
    b.get .dataPoints .predictions).toOption = some (some (.num 1)) ∧ exWorld.lastPred 0 = 0 := by
  decide +kernel

/-- A regression metric with running time. -/
example : [cs!"running_time", cs!"mean_absolute_error"].mapM parse = some [.runningTime, .mae] ∧
    (∀ m ∈ [Metric.runningTime, .mae], m ∈ regressionMetrics) ∧
    ∃ m ∈ [Metric.runningTime, .mae], m ∉ neutral := by decide +kernel

end Verif.Evaluation.Report
