import Verif.Evaluation.PlotProps

/-! C250-C253: axis limits, data points, redrawing and arrangement of the plots of an evaluation. -/

namespace Verif.Evaluation.Report

open Verif.Buffers (FastBuffer addElement_single)

theorem reportAll_append (n : Nat) (ms : List Metric) (h1 h2 : List (ℚ × Int × World)) (v : Vis) :
    (reportAll n ms (h1 ++ h2) v).1 = (reportAll n ms h2 (reportAll n ms h1 v).1).1 := by
  induction h1 generalizing v with
  | nil => rfl
  | cons r h1 ih => exact ih _

/-! ### C250: limits -/

/-- The range a metric's values are expected in: errors are not negative, scores are at most 1, and
except for the kappas with a moving lower limit not negative. -/
def Metric.Usual (m : Metric) (x : ℚ) : Prop :=
  match m with
  | .mse | .mae | .amse | .amae | .armse => 0 ≤ x
  | .kappaT | .kappaM => x ≤ 1
  | _ => 0 ≤ x ∧ x ≤ 1

theorem Metric.usual_iff (m : Metric) (x : ℚ) :
    m.Usual x ↔ if m.isError = true then 0 ≤ x else if m.lowKappa = true then x ≤ 1 else 0 ≤ x ∧ x ≤ 1 := by
  cases m <;> exact Iff.rfl

theorem perfLimits_spec (m : Metric) (rows : List (ℚ × ℚ)) (r : ℚ × ℚ) (hr : r ∈ rows) (x : ℚ) (hx : x = r.1 ∨ x = r.2) (hu : m.Usual x) :
    (perfLimits m rows).1 - (perfLimits m rows).2.2 ≤ x ∧ x ≤ (perfLimits m rows).2.1 + (perfLimits m rows).2.2 := by
  set f : ℚ × ℚ × ℚ → ℚ × ℚ → ℚ × ℚ × ℚ := fun s r =>
    let yMin := if m.lowKappa then min (min r.1 r.2) s.1 else s.1
    if m.isError then
      let yMax := max (max r.1 r.2) s.2.1
      (-1, yMax, 1 / 2 * yMax)
    else (yMin, s.2.1, s.2.2) with hf
  have hstep : ∀ (s : ℚ × ℚ × ℚ) (r : ℚ × ℚ), s.1 ≤ 0 ∧ 1 ≤ s.2.1 ∧ 0 ≤ s.2.2 →
      ((f s r).1 ≤ 0 ∧ 1 ≤ (f s r).2.1 ∧ 0 ≤ (f s r).2.2) ∧
      (m.isError = true → (f s r).2.1 ≥ s.2.1 ∧ r.1 ≤ (f s r).2.1 ∧ r.2 ≤ (f s r).2.1) ∧
      (m.isError = false → m.lowKappa = true → (f s r).1 ≤ s.1 ∧ (f s r).1 ≤ r.1 ∧ (f s r).1 ≤ r.2) := by
    intro s r ⟨a, b, c⟩
    simp only [hf]
    cases he : m.isError with
    | true =>
      simp only [if_true]
      have h1 : s.2.1 ≤ max (max r.1 r.2) s.2.1 := le_max_right _ _
      refine ⟨⟨by norm_num, le_trans b h1, by linarith⟩, fun _ => ⟨h1, ?_, ?_⟩, by simp⟩
      · exact le_trans (le_max_left _ _) (le_max_left _ _)
      · exact le_trans (le_max_right _ _) (le_max_left _ _)
    | false =>
      simp only [Bool.false_eq_true, if_false]
      cases hk : m.lowKappa with
      | true =>
        simp only [if_true]
        refine ⟨⟨le_trans (min_le_right _ _) a, b, c⟩, by simp, fun _ _ => ⟨min_le_right _ _, ?_, ?_⟩⟩
        · exact le_trans (min_le_left _ _) (min_le_left _ _)
        · exact le_trans (min_le_left _ _) (min_le_right _ _)
      | false =>
        simp only [Bool.false_eq_true, if_false]
        exact ⟨⟨a, b, c⟩, by simp, by simp⟩
  have hmono : ∀ (rows : List (ℚ × ℚ)) (s : ℚ × ℚ × ℚ), s.1 ≤ 0 ∧ 1 ≤ s.2.1 ∧ 0 ≤ s.2.2 →
      ((rows.foldl f s).1 ≤ 0 ∧ 1 ≤ (rows.foldl f s).2.1 ∧ 0 ≤ (rows.foldl f s).2.2) ∧
      (m.isError = true → s.2.1 ≤ (rows.foldl f s).2.1 ∧ ∀ r ∈ rows, r.1 ≤ (rows.foldl f s).2.1 ∧ r.2 ≤ (rows.foldl f s).2.1) ∧
      (m.isError = false → m.lowKappa = true → (rows.foldl f s).1 ≤ s.1 ∧ ∀ r ∈ rows, (rows.foldl f s).1 ≤ r.1 ∧ (rows.foldl f s).1 ≤ r.2) := by
    intro rows
    induction rows with
    | nil => intro s hs; exact ⟨hs, fun _ => ⟨le_refl _, by simp⟩, fun _ _ => ⟨le_refl _, by simp⟩⟩
    | cons r rows ih =>
      intro s hs
      obtain ⟨h1, h2, h3⟩ := hstep s r hs
      obtain ⟨i1, i2, i3⟩ := ih (f s r) h1
      refine ⟨i1, fun he => ?_, fun he hk => ?_⟩
      · obtain ⟨a, b⟩ := i2 he
        obtain ⟨c1, c2, c3⟩ := h2 he
        refine ⟨le_trans c1 a, fun q hq => ?_⟩
        rcases List.mem_cons.1 hq with rfl | hq
        · exact ⟨le_trans c2 a, le_trans c3 a⟩
        · exact b q hq
      · obtain ⟨a, b⟩ := i3 he hk
        obtain ⟨c1, c2, c3⟩ := h3 he hk
        refine ⟨le_trans a c1, fun q hq => ?_⟩
        rcases List.mem_cons.1 hq with rfl | hq
        · exact ⟨le_trans a c2, le_trans a c3⟩
        · exact b q hq
  have key := hmono rows (0, 1, 1 / 10) ⟨le_refl _, le_refl _, by norm_num⟩
  have hp : perfLimits m rows = rows.foldl f (0, 1, 1 / 10) := rfl
  rw [hp]
  obtain ⟨⟨k1, k2, k3⟩, k4, k5⟩ := key
  rw [Metric.usual_iff] at hu
  cases he : m.isError with
  | true =>
    rw [if_pos he] at hu
    obtain ⟨a, b⟩ := (k4 he).2 r hr
    rcases hx with rfl | rfl
    · exact ⟨by linarith, by linarith⟩
    · exact ⟨by linarith, by linarith⟩
  | false =>
    rw [if_neg (by simp [he])] at hu
    cases hk : m.lowKappa with
    | true =>
      rw [if_pos hk] at hu
      obtain ⟨a, b⟩ := (k5 he hk).2 r hr
      rcases hx with rfl | rfl
      · exact ⟨by linarith, by linarith⟩
      · exact ⟨by linarith, by linarith⟩
    | false =>
      rw [if_neg (by simp [hk])] at hu
      exact ⟨by linarith [hu.1], by linarith [hu.2]⟩

theorem predLimits_spec (t : ℚ) (ps : List ℚ) :
    ∀ x, (x = t ∨ x ∈ ps) → ps ≠ [] → (predLimits t ps).1 ≤ x ∧ x ≤ (predLimits t ps).2 := by
  have gen : ∀ (ps : List ℚ) (s : ℚ × ℚ),
      let l := ps.foldl (fun s p => (min (min p t) s.1, max (max p t) s.2)) s
      l.1 ≤ s.1 ∧ s.2 ≤ l.2 ∧ ∀ p ∈ ps, (l.1 ≤ p ∧ p ≤ l.2) ∧ l.1 ≤ t ∧ t ≤ l.2 := by
    intro ps
    induction ps with
    | nil => intro s; exact ⟨le_refl _, le_refl _, by simp⟩
    | cons p ps ih =>
      intro s
      obtain ⟨a, b, c⟩ := ih (min (min p t) s.1, max (max p t) s.2)
      simp only [List.foldl_cons] at a b c ⊢
      refine ⟨le_trans a (min_le_right _ _), le_trans (le_max_right _ _) b, fun q hq => ?_⟩
      rcases List.mem_cons.1 hq with rfl | hq
      · exact ⟨⟨le_trans a (le_trans (min_le_left _ _) (min_le_left _ _)), le_trans (le_trans (le_max_left _ _) (le_max_left _ _)) b⟩,
          le_trans a (le_trans (min_le_left _ _) (min_le_right _ _)), le_trans (le_trans (le_max_right _ _) (le_max_left _ _)) b⟩
      · exact c q hq
  intro x hx hne
  obtain ⟨_, _, c⟩ := gen ps (0, 1)
  rcases hx with rfl | hx
  · cases ps with
    | nil => exact absurd rfl hne
    | cons p ps => exact (c p (by simp)).2
  · exact (c x hx).1

theorem last_limits (n : Nat) (ms : List Metric) (hn : ms.Nodup) (now : ℚ) (sid : Int) (w : World) (v : Vis) :
    (∀ m ∈ ms, m.Perf → (report n ms now sid w v).1.xlim m = some (0, sid) ∧
      (let l := perfLimits m (((List.range n).map fun i => w.mean i m).zip ((List.range n).map fun i => w.current i m))
       (report n ms now sid w v).1.ylim m = some (l.1 - l.2.2, l.2.1 + l.2.2))) ∧
    (.trueVsPredicted ∈ ms → (report n ms now sid w v).1.xlim .trueVsPredicted = some (0, sid) ∧
      (let l := predLimits (lastModelTrue n w) ((List.range n).map w.lastPred)
       (report n ms now sid w v).1.ylim .trueVsPredicted = some (l.1 - 1 / 10, l.2 + 1 / 10))) := by
  refine ⟨fun m hm hp => ⟨?_, ?_⟩, fun hm => ⟨?_, ?_⟩⟩
  · obtain ⟨v1, _, h2, h3⟩ := report_part (fun v => v.xlim m) n w m (fun v m' h => paint_xlim_ne n w m v m' h)
      (fun _ _ _ _ => rfl) ms hn hm now sid v
    rw [h3, paint_perf n w v1 m hp]
    simp [Vis.limit, Vis.extend, h2]
  · obtain ⟨v1, _, h2, h3⟩ := report_part (fun v => v.ylim m) n w m (fun v m' h => paint_ylim_ne n w m v m' h)
      (fun _ _ _ _ => rfl) ms hn hm now sid v
    simp only
    rw [h3, paint_perf n w v1 m hp]
    simp [Vis.limit, Vis.extend]
  · obtain ⟨v1, _, h2, h3⟩ := report_part (fun v => v.xlim .trueVsPredicted) n w .trueVsPredicted
      (fun v m' h => paint_xlim_ne n w _ v m' h) (fun _ _ _ _ => rfl) ms hn hm now sid v
    rw [h3]
    simp [paint, Vis.limit, Vis.extend, h2]
  · obtain ⟨v1, _, h2, h3⟩ := report_part (fun v => v.ylim .trueVsPredicted) n w .trueVsPredicted
      (fun v m' h => paint_ylim_ne n w _ v m' h) (fun _ _ _ _ => rfl) ms hn hm now sid v
    simp only
    rw [h3]
    simp [paint, Vis.limit, Vis.extend]

/-- C250 (what holds): the values of the latest report are within the limits of their subplot as long as
errors are not negative, `kappa_t` and `kappa_m` at most 1 and other scores between 0 and 1; the latest true and
predicted values always are. -/
theorem C250_latest_partial (t : Task) (n : Nat) (ms : List Metric) (hne : ms ≠ []) (hn : ms.Nodup) (hist : List (ℚ × Int × World))
    (now : ℚ) (sid : Int) (w : World) (hc : ∀ r ∈ hist ++ [(now, sid, w)], ∀ m ∈ ms, Computable t n r.2.2 m) :
    ∃ b0 b v ds, initBuf ms = .ok b0 ∧ shows t n ms (hist ++ [(now, sid, w)]) b0 newVis = .ok (b, v, ds) ∧
      (∀ m ∈ ms, m.Perf → v.xlim m = some (0, sid) ∧ ∃ lo hi, v.ylim m = some (lo, hi) ∧
        ∀ i < n, (m.Usual (w.mean i m) → lo ≤ w.mean i m ∧ w.mean i m ≤ hi) ∧
          (m.Usual (w.current i m) → lo ≤ w.current i m ∧ w.current i m ≤ hi)) ∧
      (.trueVsPredicted ∈ ms → v.xlim .trueVsPredicted = some (0, sid) ∧ ∃ lo hi, v.ylim .trueVsPredicted = some (lo, hi) ∧
        ∀ i < n, lo ≤ w.lastPred i ∧ w.lastPred i ≤ hi ∧ ((∀ j < n, w.lastTrue j = w.lastTrue i) → lo ≤ w.lastTrue i ∧ w.lastTrue i ≤ hi)) := by
  obtain ⟨b0, h0, hf⟩ := initBuf_ok ms hne
  obtain ⟨b, h1⟩ := shows_reports t n ms (hist ++ [(now, sid, w)]) b0 newVis hc hf
  obtain ⟨l1, l2⟩ := last_limits n ms hn now sid w (reportAll n ms hist newVis).1
  have hv : (reportAll n ms (hist ++ [(now, sid, w)]) newVis).1 = (report n ms now sid w (reportAll n ms hist newVis).1).1 := by
    rw [reportAll_append]; rfl
  refine ⟨b0, b, _, _, h0, h1, fun m hm hp => ?_, fun hm => ?_⟩
  · rw [hv]
    obtain ⟨a1, a2⟩ := l1 m hm hp
    refine ⟨a1, _, _, a2, fun i hi => ?_⟩
    have hr : (w.mean i m, w.current i m) ∈ ((List.range n).map fun i => w.mean i m).zip ((List.range n).map fun i => w.current i m) := by
      rw [List.zip_map', List.mem_map]
      exact ⟨i, by simpa using hi, rfl⟩
    exact ⟨fun hu => perfLimits_spec m _ _ hr _ (.inl rfl) hu, fun hu => perfLimits_spec m _ _ hr _ (.inr rfl) hu⟩
  · rw [hv]
    obtain ⟨a1, a2⟩ := l2 hm
    refine ⟨a1, _, _, a2, fun i hi => ?_⟩
    have hmem : w.lastPred i ∈ (List.range n).map w.lastPred := List.mem_map.2 ⟨i, by simpa using hi, rfl⟩
    have hnn : (List.range n).map w.lastPred ≠ [] := fun h => by rw [h] at hmem; cases hmem
    obtain ⟨p1, p2⟩ := predLimits_spec (lastModelTrue n w) _ _ (.inr hmem) hnn
    refine ⟨by linarith, by linarith, fun hy => ?_⟩
    have ht : lastModelTrue n w = w.lastTrue i := foldl_last n w.lastTrue (-1) _ (by omega) hy
    obtain ⟨q1, q2⟩ := predLimits_spec (lastModelTrue n w) _ _ (.inl rfl) hnn
    rw [ht] at q1 q2 ⊢
    exact ⟨by linarith, by linarith⟩

/-- The hypotheses are met. -/
example : ∀ r ∈ ([(7, 10, exWorld)] : List (ℚ × Int × World)) ++ [(9, 20, exWorld)], ∀ m ∈ [Metric.accuracy, .trueVsPredicted],
    Computable .classification 2 r.2.2 m := by
  intro r _ m hm
  simp only [List.mem_cons, List.not_mem_nil, or_false] at hm
  rcases hm with rfl | rfl
  · exact .inr rfl
  · trivial

/-- C250 (violated): limits follow the latest report only: when the errors of the only model fall to at most 1,
the limits become -3/2 and 3/2 and earlier points of the line above 3/2 are cut off. -/
theorem C250_earlier_violated (t : Task) (m : Metric) (hm : m ∈ [Metric.mse, .mae, .amse, .amae, .armse]) (now₁ now₂ : ℚ) (s₁ s₂ : Int) (w₁ w₂ : World)
    (ht : hasMethod t m = true) (h1 : 3 / 2 < w₁.mean 0 m) (h2 : w₂.mean 0 m ≤ 1) (h3 : w₂.current 0 m ≤ 1) :
    ∃ b0 b v ds, initBuf [m] = .ok b0 ∧ shows t 1 [m] [(now₁, s₁, w₁), (now₂, s₂, w₂)] b0 newVis = .ok (b, v, ds) ∧
      v.curve m .mean 0 = [w₁.mean 0 m, w₂.mean 0 m] ∧ v.ylim m = some (-(3 / 2), 3 / 2) ∧ 3 / 2 < w₁.mean 0 m := by
  have he : m.isError = true := by
    simp only [List.mem_cons, List.not_mem_nil, or_false] at hm
    rcases hm with rfl | rfl | rfl | rfl | rfl <;> rfl
  have hp : m.Perf := by cases m <;> first | decide | cases he
  have hcomp : ∀ r ∈ [(now₁, s₁, w₁), (now₂, s₂, w₂)], ∀ m' ∈ [m], Computable t 1 r.2.2 m' := by
    intro r _ m' hm'
    rw [List.mem_singleton] at hm'
    subst hm'
    obtain ⟨q1, q2, q3, q4⟩ := hp
    cases m' <;> first | exact absurd rfl q1 | exact absurd rfl q2 | exact absurd rfl q3 | exact absurd rfl q4 | exact .inr ht
  obtain ⟨b0, h0, hf⟩ := initBuf_ok [m] (by simp)
  obtain ⟨b, hs⟩ := shows_reports t 1 [m] [(now₁, s₁, w₁), (now₂, s₂, w₂)] b0 newVis hcomp hf
  refine ⟨b0, b, _, _, h0, hs, ?_, ?_, h1⟩
  · have := (reportAll_curves 1 [m] (by simp) [(now₁, s₁, w₁), (now₂, s₂, w₂)] newVis).2.1 m (by simp) hp 0 (by omega)
    exact this.1.trans rfl
  · have hl := ((last_limits 1 [m] (by simp) now₂ s₂ w₂ (report 1 [m] now₁ s₁ w₁ newVis).1).1 m (by simp) hp).2
    simp only at hl
    simp only [reportAll]
    rw [hl]
    have hmax : max (max (w₂.mean 0 m) (w₂.current 0 m)) 1 = 1 := max_eq_right (max_le h2 h3)
    simp [perfLimits, he, hmax]
    norm_num

/-- The hypotheses are met by an error that falls from 5 to 1/8. -/
example : Metric.mse ∈ [Metric.mse, .mae, .amse, .amae, .armse] ∧ hasMethod .regression .mse = true ∧ (3 / 2 : ℚ) < ({ exWorld with mean := fun _ _ => 5 } : World).mean 0 .mse ∧
    exWorld.mean 0 .mse ≤ 1 ∧ exWorld.current 0 .mse ≤ 1 := by
  refine ⟨by simp, rfl, by norm_num, ?_, ?_⟩ <;> decide +kernel

/-- C250 (violated): a `kappa` below -1/10 is outside the limits of its subplot already when it is reported. -/
theorem C250_kappa_violated (now : ℚ) (sid : Int) (w : World) (h : w.mean 0 .kappa < -(1 / 10)) :
    ∃ b0 b v ds, initBuf [.kappa] = .ok b0 ∧ shows .classification 1 [.kappa] [(now, sid, w)] b0 newVis = .ok (b, v, ds) ∧
      v.curve .kappa .mean 0 = [w.mean 0 .kappa] ∧ v.ylim .kappa = some (-(1 / 10), 11 / 10) := by
  obtain ⟨b0, h0, hf⟩ := initBuf_ok [.kappa] (by simp)
  obtain ⟨b, hs⟩ := shows_reports .classification 1 [.kappa] [(now, sid, w)] b0 newVis (by
    intro r _ m hm; rw [List.mem_singleton] at hm; subst hm; exact .inr rfl) hf
  refine ⟨b0, b, _, _, h0, hs, ?_, ?_⟩
  · have := (reportAll_curves 1 [.kappa] (by simp) [(now, sid, w)] newVis).2.1 .kappa (by simp) (by decide) 0 (by omega)
    exact this.1.trans rfl
  · have hl := ((last_limits 1 [.kappa] (by simp) now sid w newVis).1 .kappa (by simp) (by decide)).2
    simp only at hl
    simp only [reportAll]
    rw [hl]
    have e1 : Metric.isError .kappa = false := rfl
    have e2 : Metric.lowKappa .kappa = false := rfl
    simp [perfLimits, e1, e2]
    norm_num

example : ({ exWorld with mean := fun _ _ => -1 } : World).mean 0 .kappa < -(1 / 10) := by norm_num

/-! ### C252: redrawing -/

/-- Which reports redraw, by frame counter and times. -/
def redraws : List ℚ → Nat → ℚ → List Bool
  | [], _, _ => []
  | now :: l, fr, dr =>
    if fr = 5 ∨ now - dr > 1 then true :: redraws l 0 now else false :: redraws l (fr + 1) dr

theorem reportAll_redraws (n : Nat) (ms : List Metric) (hist : List (ℚ × Int × World)) (v : Vis) :
    (reportAll n ms hist v).2 = redraws (hist.map fun r => r.1) v.frame v.drawn := by
  induction hist generalizing v with
  | nil => rfl
  | cons r hist ih =>
    obtain ⟨now, sid, w⟩ := r
    obtain ⟨_, k2, k3⟩ := paints_keep n w ms { v with ids := v.ids ++ [sid] }
    simp only at k2 k3
    simp only [reportAll, List.map_cons, redraws]
    rw [ih]
    simp only [report, k2, k3]
    by_cases h : v.frame = 5 ∨ now - v.drawn > 1
    · simp only [if_pos h]
    · simp only [if_neg h, k3]

theorem redraws_length (l : List ℚ) (fr : Nat) (dr : ℚ) : (redraws l fr dr).length = l.length := by
  induction l generalizing fr dr with
  | nil => rfl
  | cons a l ih =>
    rw [redraws]
    by_cases h : fr = 5 ∨ a - dr > 1
    · rw [if_pos h]; simp [ih]
    · rw [if_neg h]; simp [ih]

/-- Within the next `6 - fr` reports there is a redraw. -/
theorem redraws_soon (l : List ℚ) (fr : Nat) (dr : ℚ) (hf : fr ≤ 5) (hl : 6 - fr ≤ l.length) :
    ∃ k : Nat, k < 6 - fr ∧ (redraws l fr dr)[k]? = some true := by
  induction l generalizing fr dr with
  | nil => simp at hl; omega
  | cons a l ih =>
    rw [redraws]
    by_cases h : fr = 5 ∨ a - dr > 1
    · rw [if_pos h]; exact ⟨0, by omega, rfl⟩
    · rw [if_neg h]
      have h5 : fr ≠ 5 := fun e => h (.inl e)
      obtain ⟨k, h1, h2⟩ := ih (fr + 1) dr (by omega) (by simp at hl; omega)
      exact ⟨k + 1, by omega, by simpa using h2⟩

theorem redraws_often (l : List ℚ) (fr : Nat) (dr : ℚ) (hf : fr ≤ 5) (j : Nat) (hj : j + 6 ≤ l.length) :
    ∃ k : Nat, j ≤ k ∧ k < j + 6 ∧ (redraws l fr dr)[k]? = some true := by
  induction l generalizing fr dr j with
  | nil => simp at hj
  | cons a l ih =>
    cases j with
    | zero =>
      obtain ⟨k, h1, h2⟩ := redraws_soon (a :: l) fr dr hf (by simp at hj ⊢; omega)
      exact ⟨k, by omega, by omega, h2⟩
    | succ j =>
      rw [redraws]
      by_cases h : fr = 5 ∨ a - dr > 1
      · rw [if_pos h]
        obtain ⟨k, h1, h2, h3⟩ := ih 0 a (by omega) j (by simp at hj; omega)
        exact ⟨k + 1, by omega, by omega, by simpa using h3⟩
      · rw [if_neg h]
        have h5 : fr ≠ 5 := fun e => h (.inl e)
        obtain ⟨k, h1, h2, h3⟩ := ih (fr + 1) dr (by omega) j (by simp at hj; omega)
        exact ⟨k + 1, by omega, by omega, by simpa using h3⟩

/-- Until the next redraw: none before means it comes when the counter is 5 or more than a second has passed. -/
theorem redraws_wait (l : List ℚ) (fr : Nat) (dr : ℚ) (hf : fr ≤ 5) (k : Nat) (now : ℚ) (hk : l[k]? = some now)
    (hno : ∀ j < k, (redraws l fr dr)[j]? = some false) :
    (redraws l fr dr)[k]? = some (decide (fr + k = 5 ∨ now - dr > 1)) ∧ fr + k ≤ 5 := by
  induction l generalizing fr k with
  | nil => cases hk
  | cons a l ih =>
    cases k with
    | zero =>
      simp only [List.getElem?_cons_zero, Option.some.injEq] at hk
      subst hk
      rw [redraws]
      by_cases h : fr = 5 ∨ a - dr > 1
      · rw [if_pos h]; exact ⟨by simp [h], by omega⟩
      · rw [if_neg h]; exact ⟨by simp only [Nat.add_zero, List.getElem?_cons_zero]; rw [decide_eq_false h], by omega⟩
    | succ k =>
      have h0 := hno 0 (by omega)
      rw [redraws] at h0 hno ⊢
      by_cases h : fr = 5 ∨ a - dr > 1
      · rw [if_pos h] at h0; cases h0
      · rw [if_neg h] at hno ⊢
        have h5 : fr ≠ 5 := fun e => h (.inl e)
        obtain ⟨r1, r2⟩ := ih (fr + 1) (by omega) k (by simpa using hk) fun j hj => by simpa using hno (j + 1) (by omega)
        refine ⟨?_, by omega⟩
        rw [List.getElem?_cons_succ, r1, show fr + 1 + k = fr + (k + 1) by omega]

theorem redraws_after (l : List ℚ) (fr : Nat) (dr : ℚ) (j : Nat) (a : ℚ) (hj : l[j]? = some a) (hd : (redraws l fr dr)[j]? = some true) :
    (redraws l fr dr).drop (j + 1) = redraws (l.drop (j + 1)) 0 a := by
  induction l generalizing fr dr j with
  | nil => cases hj
  | cons b l ih =>
    rw [redraws] at hd ⊢
    by_cases h : fr = 5 ∨ b - dr > 1
    · rw [if_pos h] at hd ⊢
      cases j with
      | zero => simp only [List.getElem?_cons_zero, Option.some.injEq] at hj; subst hj; rfl
      | succ j => exact ih 0 b j (by simpa using hj) (by simpa using hd)
    · rw [if_neg h] at hd ⊢
      cases j with
      | zero => simp at hd
      | succ j => exact ih (fr + 1) dr j (by simpa using hj) (by simpa using hd)

/-- C252: of any six consecutive reports at least one redraws the figure; and when report `j` redrew it, the next
report `k` that does so is the sixth after it or the first made more than a second later, whichever is
earlier. -/
theorem C252_redraw (t : Task) (n : Nat) (ms : List Metric) (hne : ms ≠ []) (hist : List (ℚ × Int × World))
    (hc : ∀ r ∈ hist, ∀ m ∈ ms, Computable t n r.2.2 m) :
    ∃ b0 b v ds, initBuf ms = .ok b0 ∧ shows t n ms hist b0 newVis = .ok (b, v, ds) ∧ ds.length = hist.length ∧
      (∀ j, j + 6 ≤ hist.length → ∃ k : Nat, j ≤ k ∧ k < j + 6 ∧ ds[k]? = some true) ∧
      ∀ j k : Nat, j < k → ∀ rj rk, hist[j]? = some rj → hist[k]? = some rk → ds[j]? = some true →
        (∀ i, j < i → i < k → ds[i]? = some false) → (ds[k]? = some true ↔ k = j + 6 ∨ rk.1 - rj.1 > 1) := by
  obtain ⟨b0, h0, hf⟩ := initBuf_ok ms hne
  obtain ⟨b, h1⟩ := shows_reports t n ms hist b0 newVis hc hf
  refine ⟨b0, b, (reportAll n ms hist newVis).1, (reportAll n ms hist newVis).2, h0, h1, ?_, ?_, ?_⟩
  · rw [reportAll_redraws, redraws_length, List.length_map]
  · intro j hj
    rw [reportAll_redraws]
    exact redraws_often _ _ _ (by simp [newVis]) j (by simpa using hj)
  · intro j k hjk rj rk hrj hrk hd hno
    rw [reportAll_redraws] at hd hno ⊢
    set l := hist.map fun r => r.1 with hl
    have hlj : l[j]? = some rj.1 := by simp [hl, hrj]
    have hlk : l[k]? = some rk.1 := by simp [hl, hrk]
    have hafter := redraws_after l _ _ j rj.1 hlj hd
    have hw := redraws_wait (l.drop (j + 1)) 0 rj.1 (by omega) (k - (j + 1)) rk.1 (by
      rw [List.getElem?_drop, show j + 1 + (k - (j + 1)) = k by omega]; exact hlk) (by
      intro i hi
      rw [← hafter, List.getElem?_drop]
      exact hno _ (by omega) (by omega))
    rw [← hafter, List.getElem?_drop, show j + 1 + (k - (j + 1)) = k by omega] at hw
    rw [hw.1]
    simp only [Option.some.injEq, decide_eq_true_eq, Nat.zero_add]
    constructor
    · rintro (h | h)
      · exact .inl (by omega)
      · exact .inr h
    · rintro (h | h)
      · exact .inl (by omega)
      · exact .inr h

/-- C252, the beginning: the first report that redraws the figure is the sixth or the first made later than one
second after the epoch, whichever is earlier; so with a clock that counts from 1970 the first report does. -/
theorem C252_first (t : Task) (n : Nat) (ms : List Metric) (hne : ms ≠ []) (hist : List (ℚ × Int × World))
    (hc : ∀ r ∈ hist, ∀ m ∈ ms, Computable t n r.2.2 m) :
    ∃ b0 b v ds, initBuf ms = .ok b0 ∧ shows t n ms hist b0 newVis = .ok (b, v, ds) ∧
      ∀ (k : Nat) rk, hist[k]? = some rk → (∀ i < k, ds[i]? = some false) → (ds[k]? = some true ↔ k = 5 ∨ rk.1 > 1) := by
  obtain ⟨b0, h0, hf⟩ := initBuf_ok ms hne
  obtain ⟨b, h1⟩ := shows_reports t n ms hist b0 newVis hc hf
  refine ⟨b0, b, (reportAll n ms hist newVis).1, (reportAll n ms hist newVis).2, h0, h1, ?_⟩
  intro k rk hrk hno
  rw [reportAll_redraws] at hno ⊢
  have hw := redraws_wait (hist.map fun r => r.1) newVis.frame newVis.drawn (by simp [newVis]) k rk.1 (by simp [hrk]) hno
  rw [hw.1]
  simp [newVis]

/-- Eight quick reports: the first is drawn because a second has passed since time 0, then the sixth after it. -/
example : redraws [100, 100, 100, 100, 100, 100, 100, 100] newVis.frame newVis.drawn =
    [true, false, false, false, false, false, true, false] := by decide +kernel

/-! ### C253: positions and titles -/

theorem positions_plain (ms : List Metric) (base : Nat) (h : ∀ m ∈ ms, m ≠ .runningTime ∧ m ≠ .modelSize) (rest : List Metric)
    (hr : ∀ m ∈ rest, m = .runningTime ∨ m = .modelSize) :
    positions base (ms ++ rest) = ms.zipIdx.map fun e => (e.1, base + e.2) := by
  have hrest : ∀ (rest : List Metric) (base : Nat), (∀ m ∈ rest, m = .runningTime ∨ m = .modelSize) → positions base rest = [] := by
    intro rest
    induction rest with
    | nil => intro _ _; rfl
    | cons a rest ih =>
      intro base h
      have : (a == .runningTime || a == .modelSize) = true := by
        rcases h a (by simp) with rfl | rfl <;> rfl
      rw [positions, if_pos this]
      exact ih _ fun m hm => h m (by simp [hm])
  have gen : ∀ (ms : List Metric) (base k : Nat), (∀ m ∈ ms, m ≠ .runningTime ∧ m ≠ .modelSize) →
      positions (base + k) (ms ++ rest) = (ms.zipIdx k).map fun e => (e.1, base + e.2) := by
    intro ms
    induction ms with
    | nil => intro base k _; exact hrest rest _ hr
    | cons a ms ih =>
      intro base k h
      obtain ⟨h1, h2⟩ := h a (by simp)
      have : (a == .runningTime || a == .modelSize) = false := by simp [h1, h2]
      rw [List.cons_append, positions, if_neg (by simp [this]), List.zipIdx_cons, List.map_cons]
      congr 1
      exact ih base (k + 1) fun m hm => h m (by simp [hm])
  simpa using gen ms base 0 h

theorem subplot_code (N k : Nat) (hN : N ≤ 9) (hk : k < N) : subplot (11 + N * 100 + k) = some (N, 1, k + 1) := by
  unfold subplot
  rw [if_pos (by omega)]
  have h1 : (11 + N * 100 + k) / 100 = N := by omega
  have h2 : (11 + N * 100 + k) / 10 % 10 = 1 := by omega
  have h3 : (11 + N * 100 + k) % 10 = k + 1 := by omega
  simp only [h1, h2, h3]
  rw [if_pos (by omega)]

/-- C253 (what holds): with one to nine plotted metrics (and data points only for a single model) every plotted
metric has its own subplot, one above the other in the order of the metrics. -/
theorem C253_positions_partial (n : Nat) (names : List Metric) (hne : names ≠ []) (hd : .dataPoints ∈ names → n ≤ 1)
    (h9 : (plotted (reorder names)).length ≤ 9) :
    layout n (reorder names) = .ok ((plotted names).zipIdx.map fun e => (e.1, (plotted names).length, 1, e.2 + 1)) := by
  have hpl : ∀ l : List Metric, (l.filter fun m => !(m == .modelSize || m == .runningTime)) = plotted l := by
    intro l
    unfold plotted
    congr 1
    funext m
    rw [Bool.or_comm]
  have hpr : plotted (reorder names) = plotted names := by
    unfold reorder
    rw [hpl]
    unfold plotted
    rw [List.filter_append, List.filter_filter, List.filter_filter]
    have : (names.filter fun m => (!(m == Metric.runningTime || m == .modelSize)) && (m == .modelSize || m == .runningTime)) = [] := by
      rw [List.filter_eq_nil_iff]
      intro m _
      cases m <;> decide
    rw [this, List.append_nil]
    congr 1
    funext m
    simp
  rw [hpr] at h9
  have hempty : (reorder names).isEmpty = false := by
    cases names with
    | nil => exact absurd rfl hne
    | cons a l =>
      have : a ∈ reorder (a :: l) := (reorder_mem (a :: l) a).2 (by simp)
      cases hh : reorder (a :: l) with
      | nil => rw [hh] at this; cases this
      | cons _ _ => rfl
  have hdp : ((reorder names).contains .dataPoints && decide (n > 1)) = false := by
    by_cases h : Metric.dataPoints ∈ names
    · have := hd h
      have : decide (n > 1) = false := by simp; omega
      rw [this, Bool.and_false]
    · have : (reorder names).contains .dataPoints = false := by
        simp only [List.contains_eq_mem, decide_eq_false_iff_not, reorder_mem]
        exact h
      rw [this, Bool.false_and]
  unfold layout
  rw [hempty, hdp, hpr]
  simp only [Bool.false_eq_true, if_false]
  have hpos := positions_plain (plotted names) (11 + (plotted names).length * 100) (by
    intro m hm
    unfold plotted at hm
    rw [List.mem_filter] at hm
    constructor
    · rintro rfl; simp at hm
    · rintro rfl; simp at hm) (names.filter fun m => m == .modelSize || m == .runningTime) (by
    intro m hm
    rw [List.mem_filter] at hm
    simp only [Bool.or_eq_true, beq_iff_eq] at hm
    tauto)
  have hre : reorder names = plotted names ++ names.filter fun m => m == .modelSize || m == .runningTime := by
    unfold reorder; rw [hpl]
  rw [hre, hpos]
  generalize plotted names = l at h9
  have gen : ∀ (q : List (Metric × Nat)), (∀ e ∈ q, e.2 < l.length) →
      (q.map fun e => (e.1, 11 + l.length * 100 + e.2)).mapM (fun e => (subplot e.2).map fun p => (e.1, p)) =
        some (q.map fun e => (e.1, l.length, 1, e.2 + 1)) := by
    intro q
    induction q with
    | nil => intro _; rfl
    | cons e q ih =>
      intro h
      rw [List.map_cons, List.mapM_cons, subplot_code l.length e.2 h9 (h e (by simp)), ih fun e he => h e (by simp [he])]
      rfl
  rw [gen l.zipIdx (by
    intro e he
    obtain ⟨m, k⟩ := e
    have := List.mem_zipIdx he
    simp at this ⊢
    omega)]

/-- Three metrics, two of them plotted. -/
example : layout 2 (reorder [.accuracy, .runningTime, .kappa]) = .ok [(.accuracy, 2, 1, 1), (.kappa, 2, 1, 2)] := by rfl

/-- C253 (violated): with ten or more plotted metrics there is no plot at all: the position code has four digits.
A classification evaluation with all its metrics has ten. -/
theorem C253_ten_violated (n : Nat) (ms : List Metric) (h : 10 ≤ (plotted ms).length) : layout n ms = .error .valueError := by
  have hfail : ∀ (ms : List Metric) (base : Nat), 1000 ≤ base → (plotted ms) ≠ [] →
      (positions base ms).mapM (fun e => (subplot e.2).map fun p => (e.1, p)) = none := by
    intro ms
    induction ms with
    | nil => intro _ _ h; exact absurd rfl h
    | cons a ms ih =>
      intro base hb hne
      rw [positions]
      by_cases ha : (a == .runningTime || a == .modelSize) = true
      · rw [if_pos ha]
        refine ih _ (by omega) ?_
        unfold plotted at hne ⊢
        rwa [List.filter_cons_of_neg (by simp [ha])] at hne
      · rw [if_neg ha, List.mapM_cons]
        have : subplot base = none := by unfold subplot; rw [if_neg (by omega)]
        rw [this]; rfl
  have hne : plotted ms ≠ [] := fun e => by rw [e] at h; simp at h
  unfold layout
  cases hd : (ms.contains .dataPoints && decide (n > 1)) with
  | true => cases ms <;> simp [plotted] at hne ⊢
  | false =>
    cases hm : ms.isEmpty with
    | true => rfl
    | false =>
      simp only [Bool.false_eq_true, if_false]
      rw [hfail ms _ (by omega) hne]

/-- The hypothesis is met by the metrics of classification. -/
example : 10 ≤ (plotted classificationMetrics).length := by decide

/-- C253 (violated): the geometric mean is a metric of classification, but its subplot is titled 'Unknown metric'; the
titles of all other line plots differ. -/
theorem C253_title_violated : .gmean ∈ classificationMetrics ∧ title .gmean = cs!"Unknown metric" ∧
    ∀ m m', m ≠ .dataPoints → m ≠ .runningTime → m ≠ .modelSize → title m = title m' → m = m' := by
  refine ⟨by decide, rfl, ?_⟩
  intro m m' h1 h2 h3 h
  cases m <;> cases m' <;> first | rfl | exact absurd rfl h1 | exact absurd rfl h2 | exact absurd rfl h3 | (exact absurd h (by decide))

/-! ### C251: data points -/

/-- The first two features of the sample of a report. -/
def World.pair (w : World) : ℚ × ℚ := (w.x.getD 0 0, w.x.getD 1 0)

/-- Points of the reports whose true label is `j`, in order. -/
def labelled (j : Nat) (hist : List (ℚ × Int × World)) : List (ℚ × ℚ) :=
  (hist.filter fun r => decide (r.2.2.lastTrue 0 = (j : ℚ))).map fun r => r.2.2.pair

/-- As `labelled`, but only reports made when cluster `j` exists, `c` clusters being there before. -/
def kept (j : Nat) : Nat → List (ℚ × Int × World) → List (ℚ × ℚ)
  | _, [] => []
  | c, r :: hist =>
    (if r.2.2.lastTrue 0 = (j : ℚ) ∧ j < c + r.2.2.targets.length then [r.2.2.pair] else []) ++ kept j (c + r.2.2.targets.length) hist

theorem kept_all (j c : Nat) (hj : j < c) (hist : List (ℚ × Int × World)) : kept j c hist = labelled j hist := by
  induction hist generalizing c with
  | nil => rfl
  | cons r hist ih =>
    rw [kept, ih _ (by omega)]
    by_cases h : r.2.2.lastTrue 0 = (j : ℚ)
    · rw [if_pos ⟨h, by omega⟩]; simp [labelled, h]
    · rw [if_neg (fun e => h e.1)]; simp [labelled, h]

/-- A buffer with the last 100 of a list. -/
def full {α : Type} (l : List α) : FastBuffer α := ⟨100, (lastN 100 l).length, lastN 100 l⟩

theorem full_add {α : Type} (l : List α) (x : α) : ((full l).addElement [x]).2 = full (l ++ [x]) := by
  unfold full
  rw [addElement_single 100 (by omega)]

theorem full_last {α : Type} (l : List α) (x : α) : (full (l ++ [x])).getQueue.getLast? = some x := by
  change (lastN 100 (l ++ [x])).getLast? = some x
  unfold lastN
  rw [List.getLast?_drop, if_neg (by simp; omega)]
  simp

theorem reportAll_points (n : Nat) (ms : List Metric) (hn : ms.Nodup) (hm : .dataPoints ∈ ms) (hist : List (ℚ × Int × World)) (v : Vis)
    (hx : List (ℚ × ℚ)) (hp : List ℚ) (hs : Nat → List (ℚ × ℚ)) (h1 : v.xs = full hx) (h2 : v.preds = full hp)
    (h3 : ∀ j : Nat, v.clusters[j]? = if j < v.clusters.length then some (full (hs j)) else none)
    (h4 : ∀ j, v.clusters.length ≤ j → hs j = []) :
    (reportAll n ms hist v).1.clusters.length = v.clusters.length + (hist.map fun r => r.2.2.targets.length).sum ∧
    ∀ j : Nat, j < (reportAll n ms hist v).1.clusters.length →
      (reportAll n ms hist v).1.clusters[j]? = some (full (hs j ++ kept j v.clusters.length hist)) := by
  induction hist generalizing v hx hp hs with
  | nil =>
    refine ⟨by simp [reportAll], fun j hj => ?_⟩
    simp only [reportAll] at hj ⊢
    rw [h3 j, if_pos hj]; simp [kept]
  | cons r hist ih =>
    obtain ⟨now, sid, w⟩ := r
    obtain ⟨v1, g1, _, g3⟩ := report_part (fun v => (v.xs, v.preds, v.clusters)) n w .dataPoints (fun v m' h => paint_points_ne n w v m' h)
      (fun _ _ _ _ => rfl) ms hn hm now sid v
    simp only [Prod.mk.injEq] at g1 g3
    obtain ⟨a1, a2, a3⟩ := g1
    obtain ⟨b1, b2, b3⟩ := g3
    have e1 : (report n ms now sid w v).1.xs = full (hx ++ [w.pair]) := by
      rw [b1]; simp only [paint, Vis.point, a1, h1]; rw [full_add]; rfl
    have e2 : (report n ms now sid w v).1.preds = full (hp ++ [w.lastTrue 0]) := by
      rw [b2]; simp only [paint, Vis.point, a2, h2]; rw [full_add]
    have e3 : (report n ms now sid w v).1.clusters = (v.clusters ++ List.replicate w.targets.length (FastBuffer.init 100)).mapIdx
        fun j (c : FastBuffer (ℚ × ℚ)) => if w.lastTrue 0 = (j : ℚ) then (c.addElement [w.pair]).2 else c := by
      rw [b3]
      simp only [paint, Vis.point, a1, a2, a3, h1, h2, full_add, full_last]
      rfl
    have el : (report n ms now sid w v).1.clusters.length = v.clusters.length + w.targets.length := by
      rw [e3]; simp
    have hget : ∀ j : Nat, (v.clusters ++ List.replicate w.targets.length (FastBuffer.init 100))[j]? =
        if j < v.clusters.length + w.targets.length then some (full (hs j)) else none := by
      intro j
      by_cases hj : j < v.clusters.length
      · rw [List.getElem?_append_left hj, h3 j, if_pos hj, if_pos (by omega)]
      · rw [List.getElem?_append_right (by omega), List.getElem?_replicate]
        by_cases hj2 : j - v.clusters.length < w.targets.length
        · rw [if_pos hj2, if_pos (by omega), h4 j (by omega)]; rfl
        · rw [if_neg hj2, if_neg (by omega)]
    obtain ⟨i1, i2⟩ := ih (report n ms now sid w v).1 _ _
      (fun j => hs j ++ if w.lastTrue 0 = (j : ℚ) ∧ j < v.clusters.length + w.targets.length then [w.pair] else [])
      e1 e2 (by
        intro j
        rw [el, e3, List.getElem?_mapIdx, hget j]
        by_cases hj : j < v.clusters.length + w.targets.length
        · rw [if_pos hj, if_pos hj]
          by_cases hl : w.lastTrue 0 = (j : ℚ)
          · simp only [Option.map_some, if_pos hl, if_pos (And.intro hl hj), full_add]
          · simp only [Option.map_some, if_neg hl, if_neg (fun e : _ ∧ _ => hl e.1), List.append_nil]
        · rw [if_neg hj, if_neg hj]; rfl) (by
        intro j hj
        rw [el] at hj
        rw [if_neg (by omega), h4 j (by omega)]; rfl)
    refine ⟨?_, fun j hj => ?_⟩
    · simp only [reportAll]
      rw [i1, el]; simp; omega
    · simp only [reportAll] at hj ⊢
      rw [i2 j hj, el, List.append_assoc]; rfl

theorem newVis_points (n : Nat) (ms : List Metric) (hn : ms.Nodup) (hm : .dataPoints ∈ ms) (hist : List (ℚ × Int × World)) :
    (reportAll n ms hist newVis).1.clusters.length = (hist.map fun r => r.2.2.targets.length).sum ∧
    ∀ j : Nat, j < (reportAll n ms hist newVis).1.clusters.length →
      (reportAll n ms hist newVis).1.clusters[j]? = some (full (kept j 0 hist)) := by
  obtain ⟨a, b⟩ := reportAll_points n ms hn hm hist newVis [] [] (fun _ => []) rfl rfl (by simp [newVis]) (by simp)
  exact ⟨by simpa [newVis] using a, fun j hj => by simpa [newVis] using b j hj⟩

/-- C251 (what holds): for every class whose label is less than the number of classes at the first report, the points
shown are the last hundred (first two features) of the samples reported with that label, in order. -/
theorem C251_points_partial (t : Task) (n : Nat) (ms : List Metric) (hn : ms.Nodup) (hm : .dataPoints ∈ ms)
    (r : ℚ × Int × World) (hist : List (ℚ × Int × World)) (hc : ∀ q ∈ r :: hist, ∀ m ∈ ms, Computable t n q.2.2 m) :
    ∃ b0 b v ds, initBuf ms = .ok b0 ∧ shows t n ms (r :: hist) b0 newVis = .ok (b, v, ds) ∧
      ∀ j : Nat, j < r.2.2.targets.length →
        v.clusters[j]?.map FastBuffer.getQueue = some (lastN 100 (labelled j (r :: hist))) := by
  obtain ⟨b0, h0, hf⟩ := initBuf_ok ms (List.ne_nil_of_mem hm)
  obtain ⟨b, h1⟩ := shows_reports t n ms (r :: hist) b0 newVis hc hf
  obtain ⟨p1, p2⟩ := newVis_points n ms hn hm (r :: hist)
  refine ⟨b0, b, (reportAll n ms (r :: hist) newVis).1, (reportAll n ms (r :: hist) newVis).2, h0, h1, fun j hj => ?_⟩
  rw [p2 j (by rw [p1]; simp; omega), kept, kept_all j _ (by omega)]
  have : (if r.2.2.lastTrue 0 = (j : ℚ) ∧ j < 0 + r.2.2.targets.length then [r.2.2.pair] else []) ++ labelled j hist = labelled j (r :: hist) := by
    by_cases h : r.2.2.lastTrue 0 = (j : ℚ)
    · rw [if_pos ⟨h, by omega⟩]; simp [labelled, h]
    · rw [if_neg (fun e => h e.1)]; simp [labelled, h]
  rw [this]; rfl

/-- A sample of two features and two classes; the hypotheses are met. -/
def exPoint (a b y : ℚ) (ts : List ℚ) : World := { exWorld with x := [a, b], lastTrue := fun _ => y, targets := ts }

example : (∀ q ∈ [((9 : ℚ), (1 : Int), exPoint 3 4 1 [0, 1]), (10, 2, exPoint 5 6 0 [0, 1]), (11, 3, exPoint 7 8 1 [0, 1])],
    ∀ m ∈ [Metric.dataPoints], Computable .classification 1 q.2.2 m) ∧
    labelled 1 [((9 : ℚ), (1 : Int), exPoint 3 4 1 [0, 1]), (10, 2, exPoint 5 6 0 [0, 1]), (11, 3, exPoint 7 8 1 [0, 1])] = [(3, 4), (7, 8)] := by
  refine ⟨?_, by decide +kernel⟩
  intro q hq m hm
  rw [List.mem_singleton] at hm
  subst hm
  simp only [List.mem_cons, List.not_mem_nil, or_false] at hq
  rcases hq with rfl | rfl | rfl <;> exact ⟨by omega, le_refl _⟩

/-- C251 (violated): a sample whose label is not less than the number of classes seen by then is in no
cluster: with labels 1 and 2 the first sample of class 2 is never shown. -/
theorem C251_lost_violated (t : Task) (n : Nat) (ms : List Metric) (hn : ms.Nodup) (hm : .dataPoints ∈ ms)
    (r : ℚ × Int × World) (hc : ∀ m ∈ ms, Computable t n r.2.2 m) (j : Nat) (hj : r.2.2.lastTrue 0 = (j : ℚ)) (hbig : r.2.2.targets.length ≤ j) :
    ∃ b0 b v ds, initBuf ms = .ok b0 ∧ shows t n ms [r] b0 newVis = .ok (b, v, ds) ∧ ∀ c ∈ v.clusters, c.getQueue = [] := by
  obtain ⟨b0, h0, hf⟩ := initBuf_ok ms (List.ne_nil_of_mem hm)
  obtain ⟨b, h1⟩ := shows_reports t n ms [r] b0 newVis (by simpa using hc) hf
  obtain ⟨p1, p2⟩ := newVis_points n ms hn hm [r]
  refine ⟨b0, b, (reportAll n ms [r] newVis).1, (reportAll n ms [r] newVis).2, h0, h1, fun c hcm => ?_⟩
  obtain ⟨k, hk⟩ := List.getElem?_of_mem hcm
  have hkl : k < (reportAll n ms [r] newVis).1.clusters.length := (List.getElem?_eq_some_iff.1 hk).1
  rw [p2 k hkl] at hk
  rw [p1] at hkl
  simp at hkl
  have : kept k 0 [r] = [] := by
    rw [kept, if_neg, kept]; rfl
    rintro ⟨e, _⟩
    rw [hj] at e
    have : j = k := by exact_mod_cast e
    omega
  rw [this] at hk
  cases hk
  rfl

/-- The hypotheses are met by label 2 of the labels 1 and 2. -/
example : (exPoint 3 4 2 [1, 2]).lastTrue 0 = ((2 : Nat) : ℚ) ∧ (exPoint 3 4 2 [1, 2]).targets.length ≤ 2 ∧
    Computable .classification 1 (exPoint 3 4 2 [1, 2]) .dataPoints := ⟨by norm_num [exPoint], le_refl _, by omega, le_refl _⟩

/-- C251 (violated): there is not one cluster per class: every report adds as many clusters as there are classes. -/
theorem C251_clusters_violated (t : Task) (n k : Nat) (ms : List Metric) (hn : ms.Nodup) (hm : .dataPoints ∈ ms)
    (hist : List (ℚ × Int × World)) (hc : ∀ q ∈ hist, ∀ m ∈ ms, Computable t n q.2.2 m) (hk : ∀ q ∈ hist, q.2.2.targets.length = k) :
    ∃ b0 b v ds, initBuf ms = .ok b0 ∧ shows t n ms hist b0 newVis = .ok (b, v, ds) ∧ v.clusters.length = hist.length * k := by
  obtain ⟨b0, h0, hf⟩ := initBuf_ok ms (List.ne_nil_of_mem hm)
  obtain ⟨b, h1⟩ := shows_reports t n ms hist b0 newVis hc hf
  obtain ⟨p1, p2⟩ := newVis_points n ms hn hm hist
  refine ⟨b0, b, (reportAll n ms hist newVis).1, (reportAll n ms hist newVis).2, h0, h1, ?_⟩
  rw [p1]
  clear p1 p2 h1 hc
  induction hist with
  | nil => simp
  | cons q hist ih =>
    rw [List.map_cons, List.sum_cons, ih fun q hq => hk q (by simp [hq]), hk q (by simp), List.length_cons]
    ring

end Verif.Evaluation.Report
