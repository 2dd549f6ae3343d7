import Verif.Lazy.KNN
import Verif.Adwin.CutTest
import Verif.Meta.OzaAdwin

/-!
Model of `partial_fit` of `lazy/knn_adwin.py` (KNNADWINClassifier) with the model of ADWIN, and C281:
what kNN-ADWIN tells its change detector and when it asks it.

Simplifications as in `Lazy/KNN.lean`; the cut test of ADWIN is a parameter where it does not matter.
-/

namespace Verif.Lazy

variable {X : Type}

/-- State of `KNNADWINClassifier`: window, `classes`, `adwin`. -/
structure KA (X : Type) where
  win : List (X × Nat)
  classes : List Nat
  det : Adwin.State

/-- `__init__`, knn_adwin.py 89-98 (`reset` is in `KNNLife.lean`). -/
def KA.new : KA X := ⟨[], [], Adwin.init⟩

/-- The value for `add_element`, lines 150-154, once the sample is stored. -/
def judge (k : Nat) (query : List (X × Nat) → X → List Nat) (m : Knn X) (x : X) (y : Nat) : Except PyErr ℚ :=
  if m.win.length ≥ k then
    match m.predict k query [x] with
    | .error e => .error e
    | .ok p => .ok (if p = [y] then 1 else 0)
  else .ok 0

/-- The body of the loop, lines 148-154. -/
def KA.row (w k : Nat) (query : List (X × Nat) → X → List Nat) (s : KA X) (q : X × Nat) : Except PyErr (KA X) :=
  match judge k query ⟨addSample w s.win q, s.classes⟩ q.1 q.2 with
  | .error e => .error e
  | .ok v =>
    match Adwin.addElement s.det v with
    | .error e => .error e
    | .ok d => .ok ⟨addSample w s.win q, s.classes, d⟩

/-- The loop, lines 148-154. -/
def KA.rows (w k : Nat) (query : List (X × Nat) → X → List Nat) : KA X → List (X × Nat) → Except PyErr (KA X)
  | s, [] => .ok s
  | s, q :: qs =>
    match s.row w k query q with
    | .error e => .error e
    | .ok s' => KA.rows w k query s' qs

/-- `partial_fit`, lines 109-161: the check comes once, after all rows. -/
def KA.fit (cut : Adwin.Cut) (w k : Nat) (query : List (X × Nat) → X → List Nat) (s : KA X)
    (batch : List (X × Nat)) (classes : Option (List Nat)) : Except PyErr (KA X) :=
  match KA.rows w k query ⟨s.win, s.classes ++ classes.getD [], s.det⟩ batch with
  | .error e => .error e
  | .ok s =>
    if s.win.length ≥ k then
      match Adwin.step cut s.det .check with
      | none => .error .other
      | some (.error e) => .error e
      | some (.ok r) => .ok ⟨shrink k r.1 r.2.width s.win, s.classes, r.2⟩
    else .ok s

/-- Successive calls of `partial_fit`. -/
def KA.fits (cut : Adwin.Cut) (w k : Nat) (query : List (X × Nat) → X → List Nat) :
    KA X → List (List (X × Nat) × Option (List Nat)) → Except PyErr (KA X)
  | s, [] => .ok s
  | s, c :: cs =>
    match s.fit cut w k query c.1 c.2 with
    | .error e => .error e
    | .ok s' => KA.fits cut w k query s' cs

/-! ### What the detector is told -/

theorem addSample_foldl {α : Type} (w : Nat) (win batch : List α) (hb : batch ≠ []) :
    batch.foldl (addSample w) win = lastN w (win ++ batch) := by
  cases batch with
  | nil => exact absurd rfl hb
  | cons q qs =>
    rw [List.foldl_cons, addSample, fit_window]
    simp

theorem rows_spec (w k : Nat) (query : List (X × Nat) → X → List Nat) (batch : List (X × Nat)) (s s' : KA X)
    (h : KA.rows w k query s batch = .ok s') :
    s'.win = batch.foldl (addSample w) s.win ∧ s'.classes = s.classes ∧
      ∃ hs : List ℚ, hs.length = batch.length ∧
        (∀ cut, Adwin.run cut (hs.map .add) s.det = some (.ok s'.det)) ∧
        ∀ (j : Nat) (q : X × Nat) (v : ℚ), batch[j]? = some q → hs[j]? = some v →
          judge k query ⟨(batch.take (j + 1)).foldl (addSample w) s.win, s.classes⟩ q.1 q.2 = .ok v := by
  induction batch generalizing s with
  | nil =>
    simp only [KA.rows, Except.ok.injEq] at h
    subst h
    exact ⟨rfl, rfl, [], rfl, fun _ => rfl, by simp⟩
  | cons q qs ih =>
    rw [KA.rows] at h
    cases hr : s.row w k query q with
    | error e => rw [hr] at h; cases h
    | ok s1 =>
      rw [hr] at h
      obtain ⟨i1, i2, hs, i3, i4, i5⟩ := ih s1 h
      unfold KA.row at hr
      cases hj : judge k query ⟨addSample w s.win q, s.classes⟩ q.1 q.2 with
      | error e => rw [hj] at hr; cases hr
      | ok v =>
        rw [hj] at hr
        simp only at hr
        cases ha : Adwin.addElement s.det v with
        | error e => rw [ha] at hr; cases hr
        | ok d =>
          rw [ha] at hr
          simp only [Except.ok.injEq] at hr
          subst hr
          refine ⟨i1, i2, v :: hs, by simp [i3], fun cut => ?_, ?_⟩
          · simp only [List.map_cons, Adwin.run, Adwin.step, ha, Except.map]
            exact i4 cut
          · intro j r u hb hu
            cases j with
            | zero =>
              simp only [List.getElem?_cons_zero, Option.some.injEq] at hb hu
              subst hb; subst hu
              simpa using hj
            | succ j =>
              simp only [List.getElem?_cons_succ] at hb hu
              have := i5 j r u hb hu
              simpa using this

/-- C281: a successful pass over the rows of a call gives the detector exactly one value per row, in
order.  The value of row `j` is 0 while the window, with row `j` in it, has fewer than `n_neighbors`
samples; otherwise it is 1 if the prediction made for the row from the window with the row in it is
its label, and 0 if not. -/
theorem C281_told (w k : Nat) (query : List (X × Nat) → X → List Nat) (batch : List (X × Nat)) (s s' : KA X)
    (h : KA.rows w k query s batch = .ok s') :
    ∃ hs : List ℚ, hs.length = batch.length ∧ (∀ cut, Adwin.run cut (hs.map .add) s.det = some (.ok s'.det)) ∧
      ∀ (j : Nat) (x : X) (y : Nat) (v : ℚ), batch[j]? = some (x, y) → hs[j]? = some v →
        let win := lastN w (s.win ++ batch.take (j + 1))
        (win.length < k → v = 0) ∧
        (k ≤ win.length → ∃ p, (⟨win, s.classes⟩ : Knn X).predict k query [x] = .ok p ∧ v = if p = [y] then 1 else 0) := by
  obtain ⟨_, _, hs, h1, h2, h3⟩ := rows_spec w k query batch s s' h
  refine ⟨hs, h1, h2, ?_⟩
  intro j x y v hb hv
  have hj := h3 j (x, y) v hb hv
  have hne : batch.take (j + 1) ≠ [] := by
    intro hh
    rw [List.take_eq_nil_iff] at hh
    rcases hh with hh | hh
    · omega
    · rw [hh] at hb; cases hb
  rw [addSample_foldl w _ _ hne] at hj
  simp only
  unfold judge at hj
  simp only at hj
  constructor
  · intro hl
    rw [if_neg (by omega)] at hj
    exact (Except.ok.inj hj).symm
  · intro hl
    rw [if_pos hl] at hj
    cases hp : (⟨lastN w (s.win ++ batch.take (j + 1)), s.classes⟩ : Knn X).predict k query [x] with
    | error e => rw [hp] at hj; cases hj
    | ok p =>
      rw [hp] at hj
      exact ⟨p, rfl, (Except.ok.inj hj).symm⟩

theorem foldl_all {α : Type} (w : Nat) (hist batch : List α) :
    batch.foldl (addSample w) (lastN w hist) = lastN w (hist ++ batch) := fit_window w hist batch

theorem run_time (cut : Adwin.Cut) (hs : List ℚ) (s s' : Adwin.State) (h : Adwin.run cut (hs.map .add) s = some (.ok s')) :
    s'.time = s.time ∧ s'.clock = s.clock := by
  induction hs generalizing s with
  | nil =>
    simp only [List.map_nil, Adwin.run, Option.some.injEq, Except.ok.injEq] at h
    subst h; exact ⟨rfl, rfl⟩
  | cons v hs ih =>
    simp only [List.map_cons, Adwin.run] at h
    cases hst : Adwin.step cut s (.add v) with
    | none => rw [hst] at h; cases h
    | some r =>
      rw [hst] at h
      cases r with
      | error e => cases h
      | ok r =>
        obtain ⟨i1, i2⟩ := ih r.2 h
        have := Adwin.step_fields cut s r.2 (.add v) r.1 hst
        simp only at this
        exact ⟨by rw [i1, this.1], by rw [i2, this.2.1]⟩

/-- C281: the detector is asked at most once per call and looks only every 32nd time, so that fewer than
32 calls never shorten the window, however many samples they bring and whatever these are: the window
is that of a plain kNN classifier. -/
theorem C281_few_calls (cut : Adwin.Cut) (w k : Nat) (query : List (X × Nat) → X → List Nat)
    (calls : List (List (X × Nat) × Option (List Nat))) (hc : calls.length < 32) (s : KA X)
    (h : KA.fits cut w k query KA.new calls = .ok s) :
    s.win = lastN w (calls.map Prod.fst).flatten ∧ s.det.nDetections = 0 := by
  have gen : ∀ (calls : List (List (X × Nat) × Option (List Nat))) (hist : List (X × Nat)) (t s : KA X),
      t.win = lastN w hist → t.det.clock = 32 → t.det.time + calls.length < 32 → t.det.nDetections = 0 →
      KA.fits cut w k query t calls = .ok s →
      s.win = lastN w (hist ++ (calls.map Prod.fst).flatten) ∧ s.det.nDetections = 0 := by
    intro calls
    induction calls with
    | nil =>
      intro hist t s hw _ _ hn h
      simp only [KA.fits, Except.ok.injEq] at h
      subst h
      exact ⟨by simpa using hw, hn⟩
    | cons c cs ih =>
      intro hist t s hw hcl ht hn h
      simp only [List.length_cons] at ht
      rw [KA.fits] at h
      cases hf : t.fit cut w k query c.1 c.2 with
      | error e => rw [hf] at h; cases h
      | ok t1 =>
        rw [hf] at h
        unfold KA.fit at hf
        cases hr : KA.rows w k query ⟨t.win, t.classes ++ c.2.getD [], t.det⟩ c.1 with
        | error e => rw [hr] at hf; cases hf
        | ok t2 =>
          rw [hr] at hf
          simp only at hf
          obtain ⟨r1, _, hs, _, r4, _⟩ := rows_spec w k query _ _ _ hr
          simp only at r1
          rw [hw, fit_window] at r1
          obtain ⟨r5, r6⟩ := run_time cut hs _ _ (r4 cut)
          simp only at r5 r6
          have r7 : t2.det.nDetections = 0 := by
            have := run_adds_count cut hs _ _ (r4 cut)
            simp only at this
            rw [this]; exact hn
          have key : t1.win = lastN w (hist ++ c.1) ∧ t1.det.clock = 32 ∧ t1.det.time ≤ t.det.time + 1 ∧ t1.det.nDetections = 0 := by
            by_cases hk : t2.win.length ≥ k
            · rw [if_pos hk] at hf
              have hd : Adwin.step cut t2.det .check = some (.ok (false, { t2.det with time := t2.det.time + 1, change := false })) := by
                show Adwin.detectedChange cut (t2.det.width + 1) t2.det = _
                refine Adwin.detect_of_scan cut t2.det (by omega) fun hd => ?_
                have : (t2.det.time + 1) % t2.det.clock = t2.det.time + 1 := Nat.mod_eq_of_lt (by omega)
                omega
              rw [hd] at hf
              simp only [Except.ok.injEq] at hf
              subst hf
              simp only
              refine ⟨?_, by omega, by omega, r7⟩
              rw [C61_shrink, if_neg (by simp)]
              exact r1
            · rw [if_neg hk] at hf
              simp only [Except.ok.injEq] at hf
              subst hf
              exact ⟨r1, by omega, by omega, r7⟩
          obtain ⟨k1, k2, k3, k4⟩ := key
          have := ih (hist ++ c.1) t1 s k1 k2 (by omega) k4 h
          simpa using this
  have := gen calls [] KA.new s (by simp [KA.new, lastN]) rfl (by simpa [KA.new, Adwin.init] using hc) rfl h
  simpa using this
where
  run_adds_count (cut : Adwin.Cut) (hs : List ℚ) (s s' : Adwin.State) (h : Adwin.run cut (hs.map .add) s = some (.ok s')) :
      s'.nDetections = s.nDetections := by
    induction hs generalizing s with
    | nil =>
      simp only [List.map_nil, Adwin.run, Option.some.injEq, Except.ok.injEq] at h
      subst h; rfl
    | cons v hs ih =>
      simp only [List.map_cons, Adwin.run] at h
      cases hst : Adwin.step cut s (.add v) with
      | none => rw [hst] at h; cases h
      | some r =>
        rw [hst] at h
        cases r with
        | error e => cases h
        | ok r =>
          have := Adwin.step_fields cut s r.2 (.add v) r.1 hst
          simp only at this
          rw [ih r.2 h, this.2.2.1]

/-- C61: a call of `partial_fit` stores its rows, keeping the newest `max_window_size` samples.  If the
detector then counted a change, exactly the newest `width` of these are left, all of them if there
are fewer; if not, all of them; a change is never counted while there are fewer than `n_neighbors`.
(A stream on which a change is counted is in `Meta/Parts.lean`.) -/
theorem C61_partial_fit (cut : Adwin.Cut) (w k : Nat) (query : List (X × Nat) → X → List Nat) (s s' : KA X)
    (batch : List (X × Nat)) (hb : batch ≠ []) (classes : Option (List Nat))
    (h : s.fit cut w k query batch classes = .ok s') :
    let stored := lastN w (s.win ++ batch)
    (s'.det.nDetections = s.det.nDetections ∧ s'.win = stored) ∨
    (s'.det.nDetections = s.det.nDetections + 1 ∧ k ≤ stored.length ∧ s'.win = lastN s'.det.width stored) := by
  unfold KA.fit at h
  cases hr : KA.rows w k query ⟨s.win, s.classes ++ classes.getD [], s.det⟩ batch with
  | error e => rw [hr] at h; cases h
  | ok t =>
    rw [hr] at h
    simp only at h
    obtain ⟨r1, _, hs, _, r4, _⟩ := rows_spec w k query _ _ _ hr
    simp only at r1 r4
    rw [addSample_foldl w _ _ hb] at r1
    have hn : t.det.nDetections = s.det.nDetections := C281_few_calls.run_adds_count cut hs _ _ (r4 cut)
    by_cases hk : t.win.length ≥ k
    · rw [if_pos hk] at h
      cases hst : Adwin.step cut t.det .check with
      | none => rw [hst] at h; cases h
      | some r =>
        cases r with
        | error e => rw [hst] at h; cases h
        | ok r =>
          rw [hst] at h
          simp only [Except.ok.injEq] at h
          subst h
          have hc := (Adwin.step_fields cut t.det r.2 .check r.1 hst).2.2.1
          simp only
          rw [C61_shrink, ← r1]
          cases hb : r.1 with
          | false => left; rw [hb] at hc; simp at hc; exact ⟨by omega, by simp⟩
          | true => right; rw [hb] at hc; simp at hc; exact ⟨by omega, hk, by rw [if_pos ⟨hk, rfl⟩]⟩
    · rw [if_neg hk] at h
      simp only [Except.ok.injEq] at h
      subst h
      exact Or.inl ⟨hn, r1⟩

/-! ### One neighbour -/

/-- Specification: the search for one neighbour finds a sample of the window at the smallest distance. -/
def FindsNearest (dist : X → X → ℚ) (query : List (X × Nat) → X → List Nat) : Prop :=
  ∀ win x, win ≠ [] → ∃ i q, query win x = [i] ∧ win[i]? = some q ∧ ∀ r ∈ win, dist x q.1 ≤ dist x r.1

/-- The prediction for a row just stored is its label. -/
theorem judge_one (w : Nat) (hw : 0 < w) (dist : X → X → ℚ) (hd : ∀ a b, 0 ≤ dist a b) (hz : ∀ a b, dist a b = 0 ↔ a = b)
    (query : List (X × Nat) → X → List Nat) (hq : FindsNearest dist query) (hist : List (X × Nat)) (cls : List Nat) (x : X) (y : Nat)
    (hsame : ∀ q ∈ hist, q.1 = x → q.2 = y) :
    judge 1 query ⟨addSample w (lastN w hist) (x, y), cls⟩ x y = .ok 1 := by
  have hwin : addSample w (lastN w hist) (x, y) = lastN w (hist ++ [(x, y)]) := by
    rw [addSample, lastN_lastN_append]
  have hmem : (x, y) ∈ lastN w (hist ++ [(x, y)]) := by
    rw [lastN, List.mem_iff_getElem?]
    refine ⟨(hist ++ [(x, y)]).length - 1 - ((hist ++ [(x, y)]).length - w), ?_⟩
    rw [List.getElem?_drop]
    have : (hist ++ [(x, y)]).length - w + ((hist ++ [(x, y)]).length - 1 - ((hist ++ [(x, y)]).length - w)) = hist.length := by
      simp only [List.length_append, List.length_singleton]; omega
    rw [this]
    simp
  have hlen : 1 ≤ (lastN w (hist ++ [(x, y)])).length := List.length_pos_of_mem hmem
  have hne : ∀ q, query (lastN w (hist ++ [(x, y)])) q ≠ [] := by
    intro q hh
    obtain ⟨i, r, h1, _⟩ := hq (lastN w (hist ++ [(x, y)])) q (List.ne_nil_of_mem hmem)
    rw [hh] at h1; cases h1
  obtain ⟨p, h1, h2, h3⟩ := C31_predict_is_majority w 1 (by omega) query hist [(x, y)] cls none [x]
    (by
      intro z
      obtain ⟨i, r, e1, e2, _⟩ := hq (lastN w (hist ++ [(x, y)])) z (List.ne_nil_of_mem hmem)
      rw [e1]
      refine ⟨rfl, ?_⟩
      intro j hj
      rw [List.mem_singleton] at hj
      subst hj
      by_contra hlt
      rw [List.getElem?_eq_none (by omega)] at e2
      cases e2) hlen
  have hm : ((⟨lastN w hist, cls⟩ : Knn X).fit w [(x, y)] none) = ⟨addSample w (lastN w hist) (x, y), cls⟩ := by
    simp [Knn.fit]
  rw [hm] at h1
  obtain ⟨i, r, e1, e2, e3⟩ := hq (lastN w (hist ++ [(x, y)])) x (List.ne_nil_of_mem hmem)
  have hxx : dist x x = 0 := (hz x x).mpr rfl
  have hr0 : dist x r.1 = 0 := le_antisymm (by rw [← hxx]; exact e3 _ hmem) (hd _ _)
  have hrx : x = r.1 := (hz _ _).mp hr0
  have hry : r.2 = y := by
    have : r ∈ hist ++ [(x, y)] := List.mem_of_mem_drop (List.mem_of_getElem? e2)
    rcases List.mem_append.mp this with h | h
    · exact hsame r h hrx.symm
    · rw [List.mem_singleton] at h; rw [h]
  have hp : p = [y] := by
    match p, h2, h3 with
    | [c], _, h3 =>
      have := (h3 0 x c rfl rfl).1
      rw [labels, e1] at this
      simp only [List.filterMap_cons, e2, Option.map_some, List.filterMap_nil, List.mem_singleton] at this
      rw [this, hry]
  unfold judge
  simp only
  rw [if_pos (by rw [hwin]; exact hlen), h1, hp]
  simp

/-- Only the value 1 was fed, and ADWIN is in the state these calls lead to. -/
def OnlyHits (delta : ℝ) (d : Adwin.State) : Prop :=
  ∃ ops, Adwin.ClockOK ops ∧ (∀ v, Adwin.Op.add v ∈ ops → v = 1) ∧ Adwin.run (Adwin.realCut delta) ops Adwin.init = some (.ok d)

/-- C281: with one neighbour, and as long as equal rows carry equal labels, every sample is its own
nearest neighbour: the detector only ever sees successes, no change is reported, and after any calls
the window is that of a plain kNN classifier, however much the concept has drifted. -/
theorem C281_one_neighbour (delta : ℝ) (h0 : 0 < delta) (h1 : delta ≤ 1) (w : Nat) (hw : 0 < w)
    (dist : X → X → ℚ) (hd : ∀ a b, 0 ≤ dist a b) (hz : ∀ a b, dist a b = 0 ↔ a = b)
    (query : List (X × Nat) → X → List Nat) (hq : FindsNearest dist query)
    (calls : List (List (X × Nat) × Option (List Nat)))
    (hsame : ∀ a ∈ (calls.map Prod.fst).flatten, ∀ b ∈ (calls.map Prod.fst).flatten, a.1 = b.1 → a.2 = b.2) :
    ∃ s, KA.fits (Adwin.realCut delta) w 1 query KA.new calls = .ok s ∧
      s.win = lastN w (calls.map Prod.fst).flatten ∧ s.det.nDetections = 0 := by
  have rowsOk : ∀ (batch hist : List (X × Nat)) (t : KA X), t.win = lastN w hist → OnlyHits delta t.det →
      (∀ a ∈ hist ++ batch, ∀ b ∈ hist ++ batch, a.1 = b.1 → a.2 = b.2) →
      ∃ t', KA.rows w 1 query t batch = .ok t' ∧ t'.win = lastN w (hist ++ batch) ∧ OnlyHits delta t'.det ∧
        t'.det.nDetections = t.det.nDetections := by
    intro batch
    induction batch with
    | nil => intro hist t hwin hh _; exact ⟨t, rfl, by simpa using hwin, hh, rfl⟩
    | cons q qs ih =>
      intro hist t hwin hh hs
      have hj := judge_one w hw dist hd hz query hq hist t.classes q.1 q.2 (fun r hr he =>
        hs r (List.mem_append_left _ hr) q (by simp) he)
      rw [← hwin] at hj
      obtain ⟨ops, o1, o2, o3⟩ := hh
      have hok' : Adwin.ClockOK (ops ++ [.add 1]) := by
        intro c hc
        rcases List.mem_append.mp hc with hc | hc
        · exact o1 c hc
        · simp at hc
      obtain ⟨d, wd, e, _⟩ := Adwin.reach (Adwin.realCut delta) (ops ++ [.add 1]) hok'
      have e' := e
      rw [Meta.Oza.adwin_run_snoc _ _ _ _ _ o3] at e'
      have ha : Adwin.addElement t.det 1 = .ok d := by
        simp only [Adwin.step] at e'
        cases hx : Adwin.addElement t.det 1 with
        | error err => rw [hx] at e'; simp [Except.map] at e'
        | ok d' =>
          rw [hx] at e'
          simp only [Except.map, Option.some.injEq, Except.ok.injEq] at e'
          rw [e']
      have hn : d.nDetections = t.det.nDetections := by
        have := Adwin.step_fields Adwin.never t.det d (.add 1) false (by simp only [Adwin.step, ha, Except.map])
        exact this.2.2.1
      have hrow : t.row w 1 query q = .ok ⟨addSample w t.win q, t.classes, d⟩ := by
        rw [KA.row, hj]
        simp only [ha]
      obtain ⟨t', k1, k2, k3, k4⟩ := ih (hist ++ [q]) ⟨addSample w t.win q, t.classes, d⟩
        (by simp only [hwin, addSample, lastN_lastN_append])
        ⟨ops ++ [.add 1], hok', by
          intro v hv
          rcases List.mem_append.mp hv with hv | hv
          · exact o2 v hv
          · simpa using hv, e⟩ (by simpa using hs)
      refine ⟨t', ?_, by simpa using k2, k3, by rw [k4, ← hn]⟩
      rw [KA.rows, hrow]
      exact k1
  have gen : ∀ (calls : List (List (X × Nat) × Option (List Nat))) (hist : List (X × Nat)) (t : KA X),
      t.win = lastN w hist → OnlyHits delta t.det → t.det.nDetections = 0 →
      (∀ a ∈ hist ++ (calls.map Prod.fst).flatten, ∀ b ∈ hist ++ (calls.map Prod.fst).flatten, a.1 = b.1 → a.2 = b.2) →
      ∃ s, KA.fits (Adwin.realCut delta) w 1 query t calls = .ok s ∧
        s.win = lastN w (hist ++ (calls.map Prod.fst).flatten) ∧ s.det.nDetections = 0 := by
    intro calls
    induction calls with
    | nil => intro hist t hwin _ hn _; exact ⟨t, rfl, by simpa using hwin, hn⟩
    | cons c cs ih =>
      intro hist t hwin hh hn hs
      obtain ⟨t2, r1, r2, r3, r4⟩ := rowsOk c.1 hist ⟨t.win, t.classes ++ c.2.getD [], t.det⟩ hwin hh (by
        intro a ha b hb
        refine hs a ?_ b ?_
        · rcases List.mem_append.mp ha with h | h
          · simp [h]
          · simp [h]
        · rcases List.mem_append.mp hb with h | h
          · simp [h]
          · simp [h])
      simp only at r4
      have key : ∃ t1, t.fit (Adwin.realCut delta) w 1 query c.1 c.2 = .ok t1 ∧ t1.win = lastN w (hist ++ c.1) ∧
          OnlyHits delta t1.det ∧ t1.det.nDetections = 0 := by
        rw [KA.fit, r1]
        simp only
        by_cases hk : t2.win.length ≥ 1
        · rw [if_pos hk]
          obtain ⟨ops, o1, o2, o3⟩ := r3
          obtain ⟨d, e1, d', e2⟩ := Adwin.C280_constant delta h0 h1 1 ops o1 o2
          rw [o3] at e1
          simp only [Option.some.injEq, Except.ok.injEq] at e1
          subst e1
          have hst : Adwin.step (Adwin.realCut delta) t2.det .check = some (.ok (false, d')) := e2
          have hf := Adwin.step_fields _ _ _ _ _ hst
          simp only at hf
          rw [hst]
          refine ⟨_, rfl, ?_, ⟨ops ++ [.check], ?_, ?_, ?_⟩, ?_⟩
          · simp only
            rw [C61_shrink, if_neg (by simp)]
            exact r2
          · intro x hx
            rcases List.mem_append.mp hx with hx | hx
            · exact o1 x hx
            · simp at hx
          · intro v hv
            rcases List.mem_append.mp hv with hv | hv
            · exact o2 v hv
            · simp at hv
          · rw [Meta.Oza.adwin_run_snoc _ _ _ _ _ o3, hst]
          · simp only
            rw [hf.2.2.1, r4, hn]
            rfl
        · rw [if_neg hk]
          exact ⟨t2, rfl, r2, r3, by rw [r4, hn]⟩
      obtain ⟨t1, k1, k2, k3, k4⟩ := key
      obtain ⟨s, q1, q2, q3⟩ := ih (hist ++ c.1) t1 k2 k3 k4 (by simpa using hs)
      refine ⟨s, ?_, by simpa using q2, q3⟩
      rw [KA.fits, k1]
      exact q1
  have := gen calls [] KA.new (by simp [KA.new, lastN]) ⟨[], by intro c hc; simp at hc, by simp, rfl⟩ rfl (by simpa using hsame)
  simpa using this

/-- The nearest of some whole numbers. -/
def pick (x : Int) : List (Int × Nat) → Nat × Int
  | [] => (0, 0)
  | [a] => (0, a.1)
  | a :: b :: l =>
    let r := pick x (b :: l)
    if |x - a.1| ≤ |x - r.2| then (0, a.1) else (r.1 + 1, r.2)

theorem pick_spec (x : Int) : ∀ (win : List (Int × Nat)), win ≠ [] →
    ∃ q, win[(pick x win).1]? = some q ∧ q.1 = (pick x win).2 ∧ ∀ r ∈ win, |x - q.1| ≤ |x - r.1|
  | [], h => absurd rfl h
  | [a], _ => ⟨a, rfl, rfl, by simp⟩
  | a :: b :: l, _ => by
    obtain ⟨q, h1, h2, h3⟩ := pick_spec x (b :: l) (by simp)
    rw [pick]
    by_cases hc : |x - a.1| ≤ |x - (pick x (b :: l)).2|
    · rw [if_pos hc]
      refine ⟨a, rfl, rfl, ?_⟩
      intro r hr
      rcases List.mem_cons.mp hr with rfl | hr
      · exact le_refl _
      · rw [← h2] at hc; exact le_trans hc (h3 r hr)
    · rw [if_neg hc]
      refine ⟨q, by simpa using h1, h2, ?_⟩
      intro r hr
      rcases List.mem_cons.mp hr with rfl | hr
      · rw [h2]; exact le_of_lt (not_le.mp hc)
      · exact h3 r hr

/-- Non-vacuity of `C281_one_neighbour`: whole numbers and their distance. -/
example : FindsNearest (fun a b : Int => ((|a - b| : Int) : ℚ)) (fun win x => [(pick x win).1]) := by
  intro win x hne
  obtain ⟨q, h1, h2, h3⟩ := pick_spec x win hne
  exact ⟨_, q, rfl, h1, fun r hr => by
    show ((|x - q.1| : Int) : ℚ) ≤ ((|x - r.1| : Int) : ℚ)
    exact_mod_cast h3 r hr⟩

example : (pick 8 [(5, 0), (9, 1), (7, 1)]).1 = 1 := by decide

/-- Non-vacuity of `C281_told` and `C281_few_calls`: two calls with two neighbours. -/
example : ((KA.fits Adwin.never 10 2 (fun win _ => [win.length - 2, win.length - 1]) (KA.new : KA Nat)
    [([(0, 1), (1, 1)], none), ([(2, 0), (3, 1)], none)]).toOption.map fun s => (s.win, s.det.total, s.det.width)) =
      some ([(0, 1), (1, 1), (2, 0), (3, 1)], 2, 4) := by decide +kernel

end Verif.Lazy
