import Verif.Evaluation.Plot
import Verif.Buffers.Props
import Mathlib.Tactic.Linarith

/-! C249-C253: what the plots of an evaluation show. -/

namespace Verif.Evaluation.Report

open Verif.Buffers (FastBuffer)

/-! ### Specification -/

/-- A metric shown as lines of mean and current performance. -/
def Metric.Perf (m : Metric) : Prop := m ≠ .trueVsPredicted ∧ m ≠ .dataPoints ∧ m ≠ .runningTime ∧ m ≠ .modelSize

instance (m : Metric) : Decidable m.Perf := inferInstanceAs (Decidable (_ ∧ _))

/-- The true value of a report with `n` models: that of the last model. -/
def lastModelTrue (n : Nat) (w : World) : ℚ := (List.range n).foldl (fun _ i => w.lastTrue i) (-1)

/-! ### Lemmas -/

/-- The buffer holds all a report writes for a metric. -/
def Holds (n : Nat) (w : World) (b : Buf) (m : Metric) : Prop :=
  ∀ e ∈ writes n w m, b.data m e.1 = some (some e.2)

theorem updateMetrics_holds (t : Task) (n : Nat) (sid : Int) (w : World) (ms : List Metric) :
    ∀ (done : List Metric) (b : Buf), (∀ m ∈ ms, Computable t n w m) → Fits b ms →
    (done ≠ [] → b.sampleId = sid) → (∀ m ∈ done, Holds n w b m) →
    ∃ b', updateMetrics t n sid w ms b = .ok b' ∧ b'.ids = b.ids ∧ ∀ m ∈ done ++ ms, Holds n w b' m := by
  induction ms with
  | nil =>
    intro done b _ _ hs hd
    exact ⟨b, rfl, rfl, by simpa using hd⟩
  | cons m ms ih =>
    intro done b hc hf hs hd
    obtain ⟨hk, hne⟩ := writes_nodup n w m
    obtain ⟨b1, e1, i1, s1, d1, f1⟩ := step_ok b sid m (writes n w m) hne hk (hf m (by simp))
    rw [← updateMetric_writes t n sid w b m (hc m (by simp))] at e1
    obtain ⟨b2, e2, i2, d2⟩ := ih (done ++ [m]) b1 (fun m' hm' => hc m' (by simp [hm']))
      (fun m' hm' => by rw [i1]; exact hf m' (by simp [hm'])) (fun _ => s1) (by
        intro m' hm'
        by_cases he : m' = m
        · rw [he]; exact d1
        · have hm2 : m' ∈ done := by
            rcases List.mem_append.1 hm' with h | h
            · exact h
            · exact absurd (List.mem_singleton.1 h) he
          have hne : done ≠ [] := by intro h; rw [h] at hm2; cases hm2
          intro e hee
          rw [f1 m' e.1 (.inl he) (hs hne)]
          exact hd m' hm2 e hee)
    refine ⟨b2, ?_, i2.trans i1, ?_⟩
    · simp only [updateMetrics, List.foldlM_cons, e1]
      exact e2
    · intro m' hm'
      exact d2 m' (by simpa using hm')

/-- The effect of a metric on the plots, by the answers of the objects. -/
def paint (n : Nat) (w : World) (v : Vis) (m : Metric) : Vis :=
  match m with
  | .trueVsPredicted =>
    let l := predLimits (lastModelTrue n w) ((List.range n).map w.lastPred)
    (({ v with truth := v.truth ++ [lastModelTrue n w] } : Vis).extend m .yPred ((List.range n).map w.lastPred)).limit m
      (l.1 - 1 / 10) (l.2 + 1 / 10)
  | .dataPoints => v.point (w.x.getD 0 0) (w.x.getD 1 0) w.targets.length (w.lastTrue 0)
  | .runningTime =>
    { v with latest := fun m' k =>
      if m' = .runningTime then
        (if k = .trainingTime then (List.range n).map w.training
         else if k = .testingTime then (List.range n).map w.testing else (List.range n).map w.total)
      else v.latest m' k }
  | .modelSize => { v with latest := fun m' k => if m' = .modelSize then (List.range n).map w.size else v.latest m' k }
  | m =>
    let mu := (List.range n).map fun i => w.mean i m
    let cu := (List.range n).map fun i => w.current i m
    let l := perfLimits m (mu.zip cu)
    ((v.extend m .mean mu).extend m .current cu).limit m (l.1 - l.2.2) (l.2.1 + l.2.2)

theorem paint_perf (n : Nat) (w : World) (v : Vis) (m : Metric) (h : m.Perf) :
    paint n w v m =
      (let mu := (List.range n).map fun i => w.mean i m
       let cu := (List.range n).map fun i => w.current i m
       let l := perfLimits m (mu.zip cu)
       ((v.extend m .mean mu).extend m .current cu).limit m (l.1 - l.2.2) (l.2.1 + l.2.2)) := by
  obtain ⟨h1, h2, h3, h4⟩ := h
  cases m <;> first | rfl | exact absurd rfl h1 | exact absurd rfl h2 | exact absurd rfl h3 | exact absurd rfl h4

theorem entries_ok (b : Buf) (m : Metric) (k : Key) (n : Nat) (g : Nat → ℚ)
    (h : b.data m k = some (some (.nums ((List.range n).map g)))) :
    (List.range n).mapM (b.entry m k) = .ok ((List.range n).map g) := by
  refine mapM_ok _ _ _ fun i hi => ?_
  exact entry_ok b m k n g h i (by simpa using hi)

theorem plotMetric_paint (n : Nat) (w : World) (b : Buf) (v : Vis) (m : Metric) (h : Holds n w b m) :
    plotMetric n b v m = .ok (paint n w v m) := by
  by_cases hp : m.Perf
  · have h1 := entries_ok b m .mean n (fun i => w.mean i m) (h (.mean, _) (by
      obtain ⟨h1, h2, h3, h4⟩ := hp
      cases m <;> first | exact absurd rfl h1 | exact absurd rfl h2 | exact absurd rfl h3 | exact absurd rfl h4 | simp [writes, expected]))
    have h2 := entries_ok b m .current n (fun i => w.current i m) (h (.current, _) (by
      obtain ⟨h1, h2, h3, h4⟩ := hp
      cases m <;> first | exact absurd rfl h1 | exact absurd rfl h2 | exact absurd rfl h3 | exact absurd rfl h4 | simp [writes, expected]))
    rw [paint_perf n w v m hp]
    obtain ⟨q1, q2, q3, q4⟩ := hp
    cases m <;> first
      | exact absurd rfl q1 | exact absurd rfl q2 | exact absurd rfl q3 | exact absurd rfl q4
      | (simp only [plotMetric, h1, h2]; rfl)
  · by_cases e1 : m = .trueVsPredicted
    · subst e1
      have h1 := num_ok b .trueVsPredicted .yTrue (lastModelTrue n w) (h (.yTrue, _) (by simp [writes, expected, lastModelTrue]))
      have h2 := entries_ok b .trueVsPredicted .yPred n w.lastPred (h (.yPred, _) (by simp [writes, expected]))
      simp only [plotMetric, h1, h2]; rfl
    · by_cases e2 : m = .dataPoints
      · subst e2
        have h1 := h (.x, .feats (w.x.getD 0 0) (w.x.getD 1 0)) (by simp [writes])
        have h2 := h (.targetValues, .nums w.targets) (by simp [writes])
        have h3 := h (.predictions, .num (w.lastTrue 0)) (by simp [writes])
        simp only at h1 h2 h3
        simp only [plotMetric, Buf.get, h1, h2, h3]; rfl
      · by_cases e3 : m = .runningTime
        · subst e3
          have h1 := entries_ok b .runningTime .trainingTime n w.training (h (.trainingTime, _) (by simp [writes, expected]))
          have h2 := entries_ok b .runningTime .testingTime n w.testing (h (.testingTime, _) (by simp [writes, expected]))
          have h3 := entries_ok b .runningTime .totalTime n w.total (h (.totalTime, _) (by simp [writes, expected]))
          simp only [plotMetric, h1, h2, h3]; rfl
        · by_cases e4 : m = .modelSize
          · subst e4
            have h1 := entries_ok b .modelSize .modelSize n w.size (h (.modelSize, _) (by simp [writes, expected]))
            simp only [plotMetric, h1]; rfl
          · exact absurd ⟨e1, e2, e3, e4⟩ hp

theorem plots_paint (n : Nat) (w : World) (b : Buf) (ms : List Metric) (v : Vis) (h : ∀ m ∈ ms, Holds n w b m) :
    ms.foldlM (plotMetric n b) v = .ok (ms.foldl (paint n w) v) := by
  induction ms generalizing v with
  | nil => rfl
  | cons m ms ih =>
    rw [List.foldlM_cons, plotMetric_paint n w b v m (h m (by simp))]
    exact ih _ fun m' hm' => h m' (by simp [hm'])

theorem paint_keeps (n : Nat) (w : World) (v : Vis) (m : Metric) :
    (paint n w v m).ids = v.ids ∧ (paint n w v m).frame = v.frame ∧ (paint n w v m).drawn = v.drawn := by
  cases m <;> exact ⟨rfl, rfl, rfl⟩

theorem paints_keep (n : Nat) (w : World) (ms : List Metric) (v : Vis) :
    (ms.foldl (paint n w) v).ids = v.ids ∧ (ms.foldl (paint n w) v).frame = v.frame ∧ (ms.foldl (paint n w) v).drawn = v.drawn := by
  induction ms generalizing v with
  | nil => exact ⟨rfl, rfl, rfl⟩
  | cons m ms ih =>
    obtain ⟨a, b, c⟩ := ih (paint n w v m)
    obtain ⟨a', b', c'⟩ := paint_keeps n w v m
    exact ⟨a.trans a', b.trans b', c.trans c'⟩

/-- A part of the state that only one metric changes is, after all metrics, as that metric leaves it. -/
theorem paints_part {α : Type} (π : Vis → α) (n : Nat) (w : World) (m : Metric)
    (hπ : ∀ v m', m' ≠ m → π (paint n w v m') = π v) (ms : List Metric) (hn : ms.Nodup) (hm : m ∈ ms) (v : Vis) :
    ∃ v1, π v1 = π v ∧ v1.ids = v.ids ∧ π (ms.foldl (paint n w) v) = π (paint n w v1 m) := by
  have hkeep : ∀ (ms : List Metric) (v : Vis), m ∉ ms → π (ms.foldl (paint n w) v) = π v := by
    intro ms
    induction ms with
    | nil => intro v _; rfl
    | cons a ms ih =>
      intro v h
      rw [List.foldl_cons, ih _ (fun h' => h (by simp [h']))]
      exact hπ v a fun e => h (by simp [e])
  induction ms generalizing v with
  | nil => cases hm
  | cons a ms ih =>
    rw [List.nodup_cons] at hn
    by_cases e : a = m
    · subst e
      exact ⟨v, rfl, rfl, by rw [List.foldl_cons, hkeep ms _ hn.1]⟩
    · have hm' : m ∈ ms := by
        rcases List.mem_cons.1 hm with h | h
        · exact absurd h.symm e
        · exact h
      obtain ⟨v1, h1, h2, h3⟩ := ih hn.2 hm' (paint n w v a)
      exact ⟨v1, h1.trans (hπ v a e), h2.trans (paint_keeps n w v a).1, by rw [List.foldl_cons]; exact h3⟩

theorem paint_curve_ne (n : Nat) (w : World) (m : Metric) (v : Vis) (m' : Metric) (h : m' ≠ m) :
    (paint n w v m').curve m = v.curve m := by
  funext k i
  have h' : m ≠ m' := fun e => h e.symm
  cases m' <;> simp [paint, Vis.extend, Vis.limit, Vis.point, h']

theorem paint_ylim_ne (n : Nat) (w : World) (m : Metric) (v : Vis) (m' : Metric) (h : m' ≠ m) :
    (paint n w v m').ylim m = v.ylim m := by
  have h' : m ≠ m' := fun e => h e.symm
  cases m' <;> simp [paint, Vis.extend, Vis.limit, Vis.point, h']

theorem paint_xlim_ne (n : Nat) (w : World) (m : Metric) (v : Vis) (m' : Metric) (h : m' ≠ m) :
    (paint n w v m').xlim m = v.xlim m := by
  have h' : m ≠ m' := fun e => h e.symm
  cases m' <;> simp [paint, Vis.extend, Vis.limit, Vis.point, h']

theorem paint_latest_ne (n : Nat) (w : World) (m : Metric) (v : Vis) (m' : Metric) (h : m' ≠ m) :
    (paint n w v m').latest m = v.latest m := by
  funext k
  have h' : m ≠ m' := fun e => h e.symm
  cases m' <;> simp [paint, Vis.extend, Vis.limit, Vis.point, h']

theorem paint_truth_ne (n : Nat) (w : World) (v : Vis) (m' : Metric) (h : m' ≠ .trueVsPredicted) :
    (paint n w v m').truth = v.truth := by
  cases m' <;> first | rfl | exact absurd rfl h

theorem paint_points_ne (n : Nat) (w : World) (v : Vis) (m' : Metric) (h : m' ≠ .dataPoints) :
    ((paint n w v m').xs, (paint n w v m').preds, (paint n w v m').clusters) = (v.xs, v.preds, v.clusters) := by
  cases m' <;> first | rfl | exact absurd rfl h

/-- One report: what it does to the visualizer. -/
def report (n : Nat) (ms : List Metric) (now : ℚ) (sid : Int) (w : World) (v : Vis) : Vis × Bool :=
  let v := ms.foldl (paint n w) { v with ids := v.ids ++ [sid] }
  if v.frame = 5 ∨ now - v.drawn > 1 then ({ v with frame := 0, drawn := now }, true)
  else ({ v with frame := v.frame + 1 }, false)

theorem step_report (t : Task) (n : Nat) (ms : List Metric) (now : ℚ) (sid : Int) (w : World) (b : Buf) (v : Vis)
    (hc : ∀ m ∈ ms, Computable t n w m) (hf : Fits b ms) :
    ∃ b', updateMetrics t n sid w ms b = .ok b' ∧ Fits b' ms ∧
      onNewTrainStep n ms now sid b' v = .ok (report n ms now sid w v) := by
  obtain ⟨b', h1, h2, h3⟩ := updateMetrics_holds t n sid w ms [] b hc hf (by simp) (by simp)
  refine ⟨b', h1, fun m hm => by rw [h2]; exact hf m hm, ?_⟩
  rw [onNewTrainStep, plots_paint n w b' ms _ (by simpa using h3)]
  simp only [report]
  by_cases h : (ms.foldl (paint n w) { v with ids := v.ids ++ [sid] }).frame = 5 ∨
      now - (ms.foldl (paint n w) { v with ids := v.ids ++ [sid] }).drawn > 1
  · rw [if_pos h, if_pos h]
  · rw [if_neg h, if_neg h]

/-- All reports. -/
def reportAll (n : Nat) (ms : List Metric) : List (ℚ × Int × World) → Vis → Vis × List Bool
  | [], v => (v, [])
  | (now, sid, w) :: hist, v =>
    let r := report n ms now sid w v
    let q := reportAll n ms hist r.1
    (q.1, r.2 :: q.2)

theorem shows_reports (t : Task) (n : Nat) (ms : List Metric) (hist : List (ℚ × Int × World)) (b : Buf) (v : Vis)
    (hc : ∀ r ∈ hist, ∀ m ∈ ms, Computable t n r.2.2 m) (hf : Fits b ms) :
    ∃ b', shows t n ms hist b v = .ok (b', reportAll n ms hist v) := by
  induction hist generalizing b v with
  | nil => exact ⟨b, rfl⟩
  | cons r hist ih =>
    obtain ⟨now, sid, w⟩ := r
    obtain ⟨b1, h1, h2, h3⟩ := step_report t n ms now sid w b v (hc (now, sid, w) (by simp)) hf
    obtain ⟨b2, h4⟩ := ih b1 (report n ms now sid w v).1 (fun r hr => hc r (by simp [hr])) h2
    refine ⟨b2, ?_⟩
    simp only [shows, h1, h3, h4, reportAll]

theorem report_part {α : Type} (π : Vis → α) (n : Nat) (w : World) (m : Metric)
    (hπ : ∀ v m', m' ≠ m → π (paint n w v m') = π v) (h0 : ∀ (v : Vis) ids fr dr, π { v with ids := ids, frame := fr, drawn := dr } = π v)
    (ms : List Metric) (hn : ms.Nodup) (hm : m ∈ ms) (now : ℚ) (sid : Int) (v : Vis) :
    ∃ v1, π v1 = π v ∧ v1.ids = v.ids ++ [sid] ∧ π (report n ms now sid w v).1 = π (paint n w v1 m) := by
  obtain ⟨v1, h1, h2, h3⟩ := paints_part π n w m hπ ms hn hm { v with ids := v.ids ++ [sid] }
  refine ⟨v1, h1.trans (h0 v _ _ _), h2, ?_⟩
  rw [← h3]
  simp only [report]
  by_cases h : (ms.foldl (paint n w) { v with ids := v.ids ++ [sid] }).frame = 5 ∨
      now - (ms.foldl (paint n w) { v with ids := v.ids ++ [sid] }).drawn > 1
  · rw [if_pos h]; exact h0 _ _ _ _
  · rw [if_neg h]; exact h0 _ _ _ _

theorem report_ids (n : Nat) (ms : List Metric) (now : ℚ) (sid : Int) (w : World) (v : Vis) :
    (report n ms now sid w v).1.ids = v.ids ++ [sid] := by
  have := (paints_keep n w ms { v with ids := v.ids ++ [sid] }).1
  simp only [report]
  by_cases h : (ms.foldl (paint n w) { v with ids := v.ids ++ [sid] }).frame = 5 ∨
      now - (ms.foldl (paint n w) { v with ids := v.ids ++ [sid] }).drawn > 1
  · rw [if_pos h]; exact this
  · rw [if_neg h]; exact this

theorem paint_curve_perf (n : Nat) (w : World) (v : Vis) (m : Metric) (h : m.Perf) (i : Nat) (hi : i < n) :
    (paint n w v m).curve m .mean i = v.curve m .mean i ++ [w.mean i m] ∧
    (paint n w v m).curve m .current i = v.curve m .current i ++ [w.current i m] := by
  rw [paint_perf n w v m h]
  simp [Vis.extend, Vis.limit, hi]

theorem paint_curve_pred (n : Nat) (w : World) (v : Vis) (i : Nat) (hi : i < n) :
    (paint n w v .trueVsPredicted).curve .trueVsPredicted .yPred i = v.curve .trueVsPredicted .yPred i ++ [w.lastPred i] ∧
    (paint n w v .trueVsPredicted).truth = v.truth ++ [lastModelTrue n w] := by
  simp [paint, Vis.extend, Vis.limit, hi]

/-! ### C249 -/

theorem reportAll_curves (n : Nat) (ms : List Metric) (hn : ms.Nodup) (hist : List (ℚ × Int × World)) (v : Vis) :
    (reportAll n ms hist v).1.ids = v.ids ++ hist.map (fun r => r.2.1) ∧
    (∀ m ∈ ms, m.Perf → ∀ i < n,
      (reportAll n ms hist v).1.curve m .mean i = v.curve m .mean i ++ hist.map (fun r => r.2.2.mean i m) ∧
      (reportAll n ms hist v).1.curve m .current i = v.curve m .current i ++ hist.map (fun r => r.2.2.current i m)) ∧
    (.trueVsPredicted ∈ ms → (reportAll n ms hist v).1.truth = v.truth ++ hist.map (fun r => lastModelTrue n r.2.2) ∧
      ∀ i < n, (reportAll n ms hist v).1.curve .trueVsPredicted .yPred i =
        v.curve .trueVsPredicted .yPred i ++ hist.map (fun r => r.2.2.lastPred i)) := by
  induction hist generalizing v with
  | nil => simp [reportAll]
  | cons r hist ih =>
    obtain ⟨now, sid, w⟩ := r
    obtain ⟨i1, i2, i3⟩ := ih (report n ms now sid w v).1
    refine ⟨?_, fun m hm hp i hi => ?_, fun hm => ⟨?_, fun i hi => ?_⟩⟩
    · simp only [reportAll]
      rw [i1, report_ids]; simp
    · obtain ⟨v1, h1, _, h3⟩ := report_part (fun v => v.curve m) n w m (fun v m' h => paint_curve_ne n w m v m' h)
        (fun _ _ _ _ => rfl) ms hn hm now sid v
      obtain ⟨a, b⟩ := paint_curve_perf n w v1 m hp i hi
      simp only [reportAll]
      rw [(i2 m hm hp i hi).1, (i2 m hm hp i hi).2, h3, a, b, h1]
      simp
    · obtain ⟨v1, h1, _, h3⟩ := report_part (fun v => v.truth) n w .trueVsPredicted (fun v m' h => paint_truth_ne n w v m' h)
        (fun _ _ _ _ => rfl) ms hn hm now sid v
      simp only [reportAll]
      rw [(i3 hm).1, h3]
      simp [paint, Vis.extend, Vis.limit, h1]
    · obtain ⟨v1, h1, _, h3⟩ := report_part (fun v => v.curve .trueVsPredicted) n w .trueVsPredicted
        (fun v m' h => paint_curve_ne n w _ v m' h) (fun _ _ _ _ => rfl) ms hn hm now sid v
      simp only [reportAll]
      rw [(i3 hm).2 i hi, h3, (paint_curve_pred n w v1 i hi).1, h1]
      simp

/-- C249: after any sequence of reports that an evaluator can make, the line of every model in the
subplot of every metric is the sequence of its mean (current) values, one per report and in order, over
the sample ids of the reports; so are the lines of true and predicted values. -/
theorem C249_curves (t : Task) (n : Nat) (ms : List Metric) (hne : ms ≠ []) (hn : ms.Nodup) (hist : List (ℚ × Int × World))
    (hc : ∀ r ∈ hist, ∀ m ∈ ms, Computable t n r.2.2 m) :
    ∃ b0 b v ds, initBuf ms = .ok b0 ∧ shows t n ms hist b0 newVis = .ok (b, v, ds) ∧
      v.ids = hist.map (fun r => r.2.1) ∧
      (∀ m ∈ ms, m.Perf → ∀ i < n,
        v.curve m .mean i = hist.map (fun r => r.2.2.mean i m) ∧
        v.curve m .current i = hist.map (fun r => r.2.2.current i m)) ∧
      (.trueVsPredicted ∈ ms → (∀ y : ℚ × Int × World → ℚ, 0 < n → (∀ r ∈ hist, ∀ i < n, r.2.2.lastTrue i = y r) → v.truth = hist.map y) ∧
        ∀ i < n, v.curve .trueVsPredicted .yPred i = hist.map fun r => r.2.2.lastPred i) := by
  obtain ⟨b0, h0, hf⟩ := initBuf_ok ms hne
  obtain ⟨b, h1⟩ := shows_reports t n ms hist b0 newVis hc hf
  obtain ⟨i1, i2, i3⟩ := reportAll_curves n ms hn hist newVis
  refine ⟨b0, b, (reportAll n ms hist newVis).1, (reportAll n ms hist newVis).2, h0, h1, by simpa [newVis] using i1, ?_, ?_⟩
  · intro m hm hp i hi
    obtain ⟨a, b⟩ := i2 m hm hp i hi
    exact ⟨by rw [a]; rfl, by rw [b]; rfl⟩
  · intro hm
    obtain ⟨a, b⟩ := i3 hm
    refine ⟨fun y hpos hy => ?_, fun i hi => by rw [b i hi]; rfl⟩
    rw [a]
    simp only [newVis, List.nil_append]
    apply List.map_congr_left
    intro r hr
    exact foldl_last n r.2.2.lastTrue (-1) (y r) hpos (hy r hr)

/-- The hypotheses are met: two models, two reports of accuracy and of true and predicted values. -/
example : ∃ b v ds, shows .classification 2 [.accuracy, .trueVsPredicted] [(7, 10, exWorld), (9, 20, exWorld)]
    (Buf.clear ⟨[(.accuracy, dataIds .accuracy), (.trueVsPredicted, dataIds .trueVsPredicted)], fun _ _ => none, -1⟩) newVis = .ok (b, v, ds) ∧
    v.ids = [10, 20] ∧ v.curve .accuracy .mean 1 = [3 / 4, 3 / 4] ∧ v.truth = [1, 1] ∧ v.curve .trueVsPredicted .yPred 0 = [0, 0] := by
  obtain ⟨b0, b, v, ds, h0, h1, h2, h3, h4⟩ := C249_curves .classification 2 [.accuracy, .trueVsPredicted] (by decide) (by decide)
    [(7, 10, exWorld), (9, 20, exWorld)] (by
      intro r _ m hm
      simp only [List.mem_cons, List.not_mem_nil, or_false] at hm
      rcases hm with rfl | rfl
      · exact .inr rfl
      · trivial)
  have hb : b0 = Buf.clear ⟨[(.accuracy, dataIds .accuracy), (.trueVsPredicted, dataIds .trueVsPredicted)], fun _ _ => none, -1⟩ := by
    have : initBuf [.accuracy, .trueVsPredicted] = .ok (Buf.clear ⟨[(.accuracy, dataIds .accuracy), (.trueVsPredicted, dataIds .trueVsPredicted)], fun _ _ => none, -1⟩) := rfl
    rw [this] at h0; cases h0; rfl
  subst hb
  refine ⟨b, v, ds, h1, h2, ?_, ?_, ?_⟩
  · rw [(h3 .accuracy (by simp) (by decide) 1 (by omega)).1]; simp [exWorld]
  · rw [(h4 (by simp)).1 (fun _ => 1) (by omega) (by intro r hr i _; simp at hr; rcases hr with rfl | rfl <;> rfl)]; rfl
  · rw [(h4 (by simp)).2 0 (by omega)]; simp [exWorld]

end Verif.Evaluation.Report
