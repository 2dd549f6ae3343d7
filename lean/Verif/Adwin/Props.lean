import Verif.Adwin.Check
import Mathlib.Data.Nat.Log

/-!
C12-C15: ADWIN's window, memory, change check and variance.
-/

namespace Verif.Adwin

/-- Specification: the elements added since the last reset. -/
def added : List Op → List ℚ → List ℚ
  | [], acc => acc
  | .add v :: ops, acc => added ops (acc ++ [v])
  | .check :: ops, acc => added ops acc
  | .setClock _ :: ops, acc => added ops acc
  | .reset :: ops, _ => added ops []

/-- The clock is never set to 0 (`mint_time % mint_clock` would raise). -/
def ClockOK (ops : List Op) : Prop := ∀ c, Op.setClock c ∈ ops → 0 < c

/-- Specification: `s` describes the window `w`: reading the buckets from the
oldest to the newest gives consecutive runs of `w`; row `i` holds runs of
exactly `2^i` elements, and each bucket records the sum of its run. -/
def Describes (s : State) (w : List ℚ) : Prop :=
  ∃ ps : List (List (List ℚ)), content ps = w ∧ ps.length = s.rows.length ∧
    ∀ i row p, s.rows[i]? = some row → ps[i]? = some p →
      row.map Bucket.total = p.map List.sum ∧ ∀ r ∈ p, r.length = 2 ^ i

theorem runsOf_get : ∀ {i : Nat} {rows : List (List Bucket)} {ps : List (List (List ℚ))},
    RunsOf i rows ps → ps.length = rows.length ∧ ∀ k row p, rows[k]? = some row → ps[k]? = some p →
      row.map Bucket.total = p.map List.sum ∧ ∀ r ∈ p, r.length = 2 ^ (i + k) := by
  intro i rows ps h
  induction h with
  | nil => simp
  | cons hrow _ ih =>
    rename_i i row p rows ps _
    refine ⟨by simp [ih.1], ?_⟩
    intro k row' p' h1 h2
    cases k with
    | zero =>
      simp only [List.getElem?_cons_zero, Option.some.injEq] at h1 h2
      subst h1; subst h2
      clear ih
      induction hrow with
      | nil => simp
      | cons hb _ ih2 =>
        simp only [List.map_cons, hb.total, ih2.1, List.mem_cons, true_and]
        rintro r (e | e)
        · rw [e, hb.len]; rfl
        · exact ih2.2 r e
    | succ k =>
      simp only [List.getElem?_cons_succ] at h1 h2
      have := ih.2 k row' p' h1 h2
      rw [show i + 1 + k = i + (k + 1) by omega] at this
      exact this

theorem describes_of_inv {s : State} {w : List ℚ} (h : Inv s w) : Describes s w := by
  obtain ⟨ps, hr, hc⟩ := h.runs
  obtain ⟨h1, h2⟩ := runsOf_get hr
  refine ⟨ps, hc, h1, ?_⟩
  intro i row p a b
  simpa using h2 i row p a b

/-- The invariant along a run: the window is a suffix, and the variance is exact
as long as the window is everything that was added. -/
theorem run_ok (cut : Cut) : ∀ (ops : List Op) (s : State) (w xs : List ℚ), ClockOK ops →
    Inv s w → 0 < s.clock → w <:+ xs → (w = xs → s.variance = sumSqDev w) →
    ∃ s' w', run cut ops s = some (.ok s') ∧ Inv s' w' ∧ 0 < s'.clock ∧ w' <:+ added ops xs ∧
      (w' = added ops xs → s'.variance = sumSqDev w') := by
  intro ops
  induction ops with
  | nil => intro s w xs _ h hc hx hv; exact ⟨s, w, rfl, h, hc, hx, hv⟩
  | cons op ops ih =>
    intro s w xs hok h hc hx hv
    have hok' : ClockOK ops := fun c hm => hok c (List.mem_cons_of_mem _ hm)
    cases op with
    | add v =>
      obtain ⟨s1, e, h1, hc1, _, hv1⟩ := add_ok h v
      obtain ⟨s', w', q⟩ := ih s1 (w ++ [v]) (xs ++ [v]) hok' h1 (by omega)
        (by obtain ⟨t, ht⟩ := hx; exact ⟨t, by rw [← ht]; simp⟩)
        (by
          intro he
          have := hv (List.append_cancel_right he)
          linarith)
      refine ⟨s', w', ?_, q.2⟩
      simp only [run, step, e, Except.map, q.1]
    | check =>
      obtain ⟨b, s1, w1, r, e, hw, h1, hc1, _, _, hb, _, hvv, _⟩ :=
        check_ok cut h hc (s.width + 1) (by omega)
      obtain ⟨s', w', q⟩ := ih s1 w1 xs hok' h1 (by omega)
        (by obtain ⟨t, ht⟩ := hx; exact ⟨t ++ r, by rw [← ht, hw]; simp⟩)
        (by
          intro he
          have hr : r = [] := by
            have h1 := hx.length_le
            rw [hw, ← he, List.length_append] at h1
            exact List.length_eq_zero_iff.mp (by omega)
          subst hr
          simp only [List.nil_append] at hw
          subst hw
          rw [hvv rfl]; exact hv he)
      refine ⟨s', w', ?_, q.2⟩
      simp only [run, step, e, q.1]
    | setClock c =>
      obtain ⟨s', w', q⟩ := ih { s with clock := c } w xs hok'
        ⟨h.runs, h.width, h.total, h.var, h.shape, h.last⟩ (hok c (by simp)) hx hv
      refine ⟨s', w', ?_, q.2⟩
      simp only [run, step, q.1]
    | reset =>
      obtain ⟨s', w', q⟩ := ih init [] [] hok' inv_init (by simp [init]) (by simp)
        (by intro _; simp [init, sumSqDev])
      refine ⟨s', w', ?_, q.2⟩
      simp only [run, step, q.1]

theorem reach (cut : Cut) (ops : List Op) (hok : ClockOK ops) :
    ∃ s w, run cut ops init = some (.ok s) ∧ Inv s w ∧ 0 < s.clock ∧ w <:+ added ops [] ∧
      (w = added ops [] → s.variance = sumSqDev w) :=
  run_ok cut ops init [] [] hok inv_init (by simp [init]) (by simp)
    (by intro _; simp [init, sumSqDev])

/-- C12: after any sequence of calls and for any cut test, the calls succeed and
the window is a suffix `w` of the added elements: the width is its length, the
total its sum, the estimation its mean, and the buckets partition it. -/
theorem C12_window_is_a_suffix (cut : Cut) (ops : List Op) (hok : ClockOK ops) :
    ∃ s, run cut ops init = some (.ok s) ∧ ∃ w, w <:+ added ops [] ∧
      s.width = w.length ∧ s.total = w.sum ∧ (w ≠ [] → estimation s = w.sum / w.length) ∧
      (w = [] → estimation s = 0) ∧ Describes s w := by
  obtain ⟨s, w, e, h, _, hx, _⟩ := reach cut ops hok
  refine ⟨s, e, w, hx, h.width, h.total, ?_, ?_, describes_of_inv h⟩
  swap
  · intro hw
    rw [estimation, if_pos (by rw [h.width, hw]; rfl)]
  intro hw
  have : s.width ≠ 0 := by rw [h.width]; simpa using hw
  rw [estimation, if_neg this, h.width, h.total]

/-- C12: an addition appends the element to the window. -/
theorem C12_add_appends (cut : Cut) (ops : List Op) (hok : ClockOK ops) (v : ℚ) :
    ∃ s s' w, run cut ops init = some (.ok s) ∧ addElement s v = .ok s' ∧
      Describes s w ∧ Describes s' (w ++ [v]) ∧ s'.width = s.width + 1 ∧
      s'.total = s.total + v := by
  obtain ⟨s, w, e, h, _, _, _⟩ := reach cut ops hok
  obtain ⟨s', e', h', _⟩ := add_ok h v
  refine ⟨s, s', w, e, e', describes_of_inv h, describes_of_inv h', ?_, ?_⟩
  · rw [h'.width, h.width]; simp
  · rw [h'.total, h.total]; simp

theorem shape_rows : ∀ {rows : List (List Bucket)}, Shape rows →
    ∀ row ∈ rows, row.length ≤ 5 := by
  intro rows
  induction rows with
  | nil => simp
  | cons r rest ih =>
    intro h row hm
    have := shape_cons h
    rcases List.mem_cons.mp hm with e | e
    · rw [e]; exact this.2.1
    · exact ih (this.2.2 (List.ne_nil_of_mem e)).2 row e

theorem shape_size : ∀ {rows : List (List Bucket)} {i : Nat} {ps : List (List (List ℚ))},
    Shape rows → RunsOf i rows ps → 2 ^ (i + rows.length - 1) ≤ (content ps).length := by
  intro rows i ps hs hr
  obtain ⟨_, l, hl, h2, _⟩ := visited_spec rows i ps hs hr
  rw [show i + rows.length - 1 = i + l by omega]
  omega

/-- C13: every row holds at most five buckets, and a non-empty window of `n`
elements has at most `log2 n + 1` rows. -/
theorem C13_logarithmic_memory (cut : Cut) (ops : List Op) (hok : ClockOK ops) :
    ∃ s, run cut ops init = some (.ok s) ∧ (∀ row ∈ s.rows, row.length ≤ 5) ∧
      (0 < s.width → s.rows.length ≤ Nat.log 2 s.width + 1) ∧
      (s.width = 0 → s.rows.length = 1) := by
  obtain ⟨s, w, e, h, _, _, _⟩ := reach cut ops hok
  refine ⟨s, e, ?_, ?_, ?_⟩
  · rcases h.shape with h1 | h1
    · rw [h1]; simp
    · exact shape_rows h1
  · intro hw
    obtain ⟨ps, hr, hc⟩ := h.runs
    have := shape_size (not_shape_of_empty h hw) hr
    rw [hc, ← h.width, Nat.zero_add] at this
    have h2 : s.rows.length - 1 ≤ Nat.log 2 s.width := Nat.le_log_of_pow_le (by norm_num) this
    omega
  · intro hw
    rcases h.shape with h1 | h1
    · rw [h1]; rfl
    · exfalso
      obtain ⟨ps, hr, hc⟩ := h.runs
      have := shape_size h1 hr
      rw [hc, ← h.width, hw] at this
      simp at this

/-- C13, restated for the whole structure: the number of buckets is at most
`5 (log2 n + 1)`. -/
theorem C13_bucket_count (cut : Cut) (ops : List Op) (hok : ClockOK ops) :
    ∃ s, run cut ops init = some (.ok s) ∧
      (0 < s.width → (s.rows.map List.length).sum ≤ 5 * (Nat.log 2 s.width + 1)) := by
  obtain ⟨s, e, h1, h2, _⟩ := C13_logarithmic_memory cut ops hok
  refine ⟨s, e, fun hw => ?_⟩
  have h3 : (s.rows.map List.length).sum ≤ s.rows.length * 5 := by
    clear h2 e
    revert h1
    generalize s.rows = rows
    intro h1
    induction rows with
    | nil => simp
    | cons r rs ih =>
      have a := ih (fun row hm => h1 row (List.mem_cons_of_mem _ hm))
      have b := h1 r (by simp)
      simp only [List.map_cons, List.sum_cons, List.length_cons]
      omega
  have := h2 hw
  omega

/-- C14: in any reachable state the check terminates without an error, the
window afterwards is what remains after dropping the oldest elements `r`, it
returns `True` exactly if `r` is non-empty, at least five elements remain after
a drop, the detection counter counts the `True` answers, and the flag read by
the base class equals the answer.  When the check was due, no admissible cut is
left over. -/
theorem C14_change_check (cut : Cut) (ops : List Op) (hok : ClockOK ops) :
    ∃ s w, run cut ops init = some (.ok s) ∧ Describes s w ∧
      ∃ b s' r w', detectedChange cut (s.width + 1) s = some (.ok (b, s')) ∧
        w = r ++ w' ∧ Describes s' w' ∧ s'.width = w'.length ∧ s.width = w.length ∧
        (b = true ↔ r ≠ []) ∧ (b = true ↔ s'.width < s.width) ∧ (b = true → 5 ≤ s'.width) ∧
        s'.nDetections = s.nDetections + (if b then 1 else 0) ∧ s'.change = b ∧
        ((s.time + 1) % s.clock = 0 → 10 < s.width → NoCut cut s') := by
  obtain ⟨s, w, e, h, hc, _, _⟩ := reach cut ops hok
  obtain ⟨b, s', w', r, q1, q2, q3, q4, q5, q6, q7, q8, _, q10⟩ :=
    check_ok cut h hc (s.width + 1) (by omega)
  refine ⟨s, w, e, describes_of_inv h, b, s', r, w', q1, q2, describes_of_inv q3, q3.width,
    h.width, q7, ?_, q8, q5, q6, q10⟩
  rw [q7, q3.width, h.width, q2, List.length_append, ← List.length_pos_iff]
  omega

/-- Answers of the change checks since construction or the last reset. -/
def answers (cut : Cut) : List Op → State → List Bool → List Bool
  | [], _, acc => acc
  | op :: ops, s, acc =>
    match step cut s op with
    | some (.ok (b, s')) => answers cut ops s' (match op with
      | .check => acc ++ [b]
      | .reset => []
      | _ => acc)
    | _ => acc

/-- The clock in force: the last one set since construction or the last reset. -/
def clockOf : List Op → Nat → Nat
  | [], c => c
  | .setClock c :: ops, _ => clockOf ops c
  | .reset :: ops, _ => clockOf ops 32
  | _ :: ops, c => clockOf ops c

theorem reduce_fields (cut : Cut) : ∀ (fuel : Nat) (chg b : Bool) (s s' : State),
    reduce cut fuel chg s = some (.ok (b, s')) →
    s'.time = s.time ∧ s'.clock = s.clock ∧ s'.nDetections = s.nDetections := by
  intro fuel
  induction fuel with
  | zero => intro chg b s s' h; cases h
  | succ fuel ih =>
    intro chg b s s' h
    rw [reduce] at h
    cases hs : scan cut s.width (s.variance / s.width) 0 s.width 0 s.total (visited 0 s.rows) with
    | error e => rw [hs] at h; cases h
    | ok c =>
      rw [hs] at h
      cases c with
      | false =>
        simp only [Option.some.injEq, Except.ok.injEq, Prod.mk.injEq] at h
        rw [← h.2]; exact ⟨rfl, rfl, rfl⟩
      | true =>
        simp only at h
        cases hd : deleteElement s with
        | error e => rw [hd] at h; cases h
        | ok s1 =>
          rw [hd] at h
          obtain ⟨g1, g2, g3⟩ := ih true b s1 s' h
          have : s1.time = s.time ∧ s1.clock = s.clock ∧ s1.nDetections = s.nDetections := by
            unfold deleteElement at hd
            split at hd
            · cases hd
            · cases hd
            · rename_i b1 row' _
              by_cases hw : s.width ≤ bucketSize s.lastBucketRow
              · simp only [if_pos hw] at hd; cases hd
              · simp only [if_neg hw, Except.ok.injEq] at hd
                rw [← hd]; exact ⟨rfl, rfl, rfl⟩
          rw [g1, g2, g3]; exact this

theorem step_fields (cut : Cut) (s s' : State) (op : Op) (b : Bool) (h : step cut s op = some (.ok (b, s'))) :
    match op with
    | .add _ => s'.time = s.time ∧ s'.clock = s.clock ∧ s'.nDetections = s.nDetections ∧ s'.change = s.change
    | .check => s'.time = s.time + 1 ∧ s'.clock = s.clock ∧
        s'.nDetections = s.nDetections + (if b then 1 else 0) ∧ s'.change = b
    | .setClock c => s'.time = s.time ∧ s'.clock = c ∧ s'.nDetections = s.nDetections ∧ s'.change = s.change
    | .reset => s'.time = 0 ∧ s'.clock = 32 ∧ s'.nDetections = 0 ∧ s'.change = false := by
  cases op with
  | add v =>
    simp only [step, addElement, Option.some.injEq] at h ⊢
    cases hr : s.rows with
    | nil => rw [hr] at h; cases h
    | cons first rest =>
      rw [hr] at h
      simp only [bind, Except.bind] at h
      cases h1 : insertBucket first ⟨v, 0⟩ with
      | error e => rw [h1] at h; cases h
      | ok f =>
        rw [h1] at h
        simp only at h
        cases h2 : compressFrom 0 (f :: rest) with
        | error e => rw [h2] at h; cases h
        | ok t =>
          rw [h2] at h
          obtain ⟨rows, a, m⟩ := t
          simp only [pure, Except.pure, Except.map, Except.ok.injEq, Prod.mk.injEq] at h
          rw [← h.2]; exact ⟨rfl, rfl, rfl, rfl⟩
  | check =>
    simp only [step, detectedChange] at h ⊢
    by_cases hc : s.clock = 0
    · rw [if_pos hc] at h; cases h
    · rw [if_neg hc] at h
      split at h
      · split at h
        · cases h
        · cases h
        · rename_i chg s1 hr
          obtain ⟨g1, g2, g3⟩ := reduce_fields cut _ _ _ _ _ hr
          simp only [Option.some.injEq, Except.ok.injEq, Prod.mk.injEq] at h
          rw [← h.2, ← h.1]
          refine ⟨g1, g2, ?_, rfl⟩
          simp only [g3]
          cases chg <;> rfl
      · simp only [Option.some.injEq, Except.ok.injEq, Prod.mk.injEq] at h
        rw [← h.2, ← h.1]; exact ⟨rfl, rfl, rfl, rfl⟩
  | setClock c =>
    simp only [step, Option.some.injEq, Except.ok.injEq, Prod.mk.injEq] at h ⊢
    rw [← h.2]; exact ⟨rfl, rfl, rfl, rfl⟩
  | reset =>
    simp only [step, Option.some.injEq, Except.ok.injEq, Prod.mk.injEq] at h ⊢
    rw [← h.2]; exact ⟨rfl, rfl, rfl, rfl⟩

theorem run_counters (cut : Cut) (ops : List Op) (s s' : State) (acc : List Bool) (c : Nat)
    (h : run cut ops s = some (.ok s')) (h1 : s.nDetections = acc.count true) (h2 : s.time = acc.length)
    (h3 : s.change = acc.getLastD false) (h4 : s.clock = c) :
    s'.nDetections = (answers cut ops s acc).count true ∧ s'.time = (answers cut ops s acc).length ∧
      s'.change = (answers cut ops s acc).getLastD false ∧ s'.clock = clockOf ops c := by
  induction ops generalizing s acc c with
  | nil =>
    simp only [run, Option.some.injEq, Except.ok.injEq] at h
    subst h
    exact ⟨h1, h2, h3, h4⟩
  | cons op ops ih =>
    rw [run] at h
    cases hs : step cut s op with
    | none => rw [hs] at h; cases h
    | some r =>
      cases r with
      | error e => rw [hs] at h; cases h
      | ok q =>
        obtain ⟨b, s1⟩ := q
        rw [hs] at h
        simp only at h
        have hf := step_fields cut s s1 op b hs
        simp only [answers, hs]
        cases op with
        | add v =>
          obtain ⟨f1, f2, f3, f4⟩ := hf
          exact ih s1 acc c h (by rw [f3, h1]) (by rw [f1, h2]) (by rw [f4, h3]) (by rw [f2, h4])
        | check =>
          obtain ⟨f1, f2, f3, f4⟩ := hf
          refine ih s1 (acc ++ [b]) c h ?_ ?_ ?_ (by rw [f2, h4])
          · rw [f3, h1, List.count_append]; cases b <;> simp
          · rw [f1, h2]; simp
          · rw [f4]; simp
        | setClock d =>
          obtain ⟨f1, f2, f3, f4⟩ := hf
          exact ih s1 acc d h (by rw [f3, h1]) (by rw [f1, h2]) (by rw [f4, h3]) f2
        | reset =>
          obtain ⟨f1, f2, f3, f4⟩ := hf
          exact ih s1 [] 32 h (by rw [f3]; rfl) (by rw [f1]; rfl) (by rw [f4]; rfl) f2

/-- C14: since construction or the last reset, `n_detections` is the number of checks
that answered `True`, the step counter that decides when a check is due is the number
of checks, the flag of the base class is the answer of the last check (`False` before
the first), and the clock is the last one set (32 by default). -/
theorem C14_counters (cut : Cut) (ops : List Op) (s : State) (h : run cut ops init = some (.ok s)) :
    s.nDetections = (answers cut ops init []).count true ∧ s.time = (answers cut ops init []).length ∧
      s.change = (answers cut ops init []).getLastD false ∧ s.clock = clockOf ops 32 :=
  run_counters cut ops init s [] 32 h rfl rfl rfl rfl

/-- Two checks since the reset, none of which found a change. -/
example : answers (fun _ _ _ _ _ _ => true) [.check, .reset, .add 1, .check, .check] init [] = [false, false] := by
  decide +kernel

/-- C14: more loop iterations than elements are never needed: any larger fuel
gives an answer as well. -/
theorem C14_terminates (cut : Cut) (ops : List Op) (hok : ClockOK ops) (fuel : Nat) :
    ∃ s, run cut ops init = some (.ok s) ∧
      (s.width < fuel → ∃ b s', detectedChange cut fuel s = some (.ok (b, s'))) := by
  obtain ⟨s, w, e, h, hc, _, _⟩ := reach cut ops hok
  refine ⟨s, e, fun hf => ?_⟩
  obtain ⟨b, s', _, _, q, _⟩ := check_ok cut h hc fuel hf
  exact ⟨b, s', q⟩

/-- C15 (part): as long as nothing was dropped, `variance` is the mean squared
deviation of the window. -/
theorem C15_variance_exact_partial (cut : Cut) (ops : List Op) (hok : ClockOK ops) :
    ∃ s, run cut ops init = some (.ok s) ∧
      (s.width = (added ops []).length → added ops [] ≠ [] →
        varianceProp s = some (Verif.variance (added ops []))) := by
  obtain ⟨s, w, e, h, _, hx, hv⟩ := reach cut ops hok
  refine ⟨s, e, fun hw hne => ?_⟩
  have : w = added ops [] := hx.eq_of_length (by rw [← h.width, hw])
  have hv' := hv this
  have hn : s.width ≠ 0 := by rw [hw]; simpa using hne
  rw [varianceProp, if_neg hn, hv', this, hw, Verif.variance]

/-- C15 (part): in every reachable state `variance` is at least the mean squared
deviation of the window. -/
theorem C15_variance_never_too_small_partial (cut : Cut) (ops : List Op) (hok : ClockOK ops) :
    ∃ s w, run cut ops init = some (.ok s) ∧ Describes s w ∧ w <:+ added ops [] ∧
      s.width = w.length ∧ (w ≠ [] → ∃ v, varianceProp s = some v ∧ Verif.variance w ≤ v) := by
  obtain ⟨s, w, e, h, _, hx, hv⟩ := reach cut ops hok
  refine ⟨s, w, e, describes_of_inv h, hx, h.width, fun hw => ?_⟩
  have hn : s.width ≠ 0 := by rw [h.width]; simpa using hw
  refine ⟨s.variance / s.width, by rw [varianceProp, if_neg hn], ?_⟩
  rw [Verif.variance, ← h.width]
  exact div_le_div_of_nonneg_right h.var (by positivity)

/-- Twelve additions and more; the sixteenth creates the first row-2 bucket. -/
def witness : List Op := (List.replicate 8 [Op.add 0, Op.add 2]).flatten

def chk (r : Option (Except PyErr State)) (f : State → Bool) : Bool :=
  match r with
  | some (.ok s) => f s
  | _ => false

/-- C15 is violated: after 0, 2, 0, 2, ... (16 elements) and one `delete_element`
the window is the last twelve elements, whose variance is 1, but the reported
variance is 7/6. -/
theorem C15_variance_violated :
    ∃ s s', run (fun _ _ _ _ _ _ => false) witness init = some (.ok s) ∧
      deleteElement s = .ok s' ∧ s'.width = 12 ∧
      Verif.variance ((added witness []).drop 4) = 1 ∧ varianceProp s' = some (7 / 6) := by
  have h : chk (run (fun _ _ _ _ _ _ => false) witness init) (fun s =>
      match deleteElement s with
      | .ok s' => decide (s'.width = 12) && decide (varianceProp s' = some (7 / 6))
      | .error _ => false) = true := by decide +kernel
  cases hr : run (fun _ _ _ _ _ _ => false) witness init with
  | none => rw [hr] at h; simp [chk] at h
  | some x =>
    cases x with
    | error e => rw [hr] at h; simp [chk] at h
    | ok s =>
      rw [hr] at h
      simp only [chk] at h
      cases hd : deleteElement s with
      | error e => rw [hd] at h; simp at h
      | ok s' =>
        rw [hd] at h
        simp only [Bool.and_eq_true, decide_eq_true_eq] at h
        exact ⟨s, s', rfl, hd, h.1, by decide +kernel, h.2⟩

/-- Non-vacuity: a history with a drift, in which the check drops elements. -/
example : chk (run (fun _ n0 n1 u0 u1 _ => decide (u0 / n0 + 1 / 2 < u1 / n1))
    (List.replicate 20 (Op.add 0) ++ List.replicate 20 (Op.add 1) ++ [.setClock 1, .check]) init)
    (fun s => decide (s.width < 40) && decide (s.nDetections = 1) && decide (5 ≤ s.width)) = true := by
  decide +kernel

example : ClockOK (List.replicate 20 (Op.add 0) ++ [.setClock 1, .check]) := by
  intro c h; simp at h; omega

end Verif.Adwin
