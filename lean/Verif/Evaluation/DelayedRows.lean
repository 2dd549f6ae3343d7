import Verif.Evaluation.DelayedProps
import Mathlib.Data.List.Induction

/-!
The rows a delayed prequential evaluation reports
(`evaluation/evaluate_prequential_delayed.py` 320-335 with `_update_metrics`,
`evaluation/base_evaluator.py` 330-333).  Reporting reads the counters and changes
nothing else, so the rows are computed from the log of the model of the evaluator.

Simplifications: a row is its sample id and the number of results the metrics were
computed from; metrics do not raise; `n_wait` is positive.
-/

namespace Verif.Evaluation.Delayed

open Verif.Streams

variable {σ τ X Y P ω : Type}

/-- `global_sample_count`, `update_count`, the number of results added, the rows. -/
structure Tally where
  count : Nat
  upd : Nat
  results : Nat
  rows : List (Int × Nat)

/-- Lines 329-331: the test is against `max_samples`, on the count before the samples
just scored are trained on. -/
def rowDue (nWait maxSamples count upd : Nat) : Bool :=
  count % nWait == 0 || count ≥ maxSamples || count > nWait * (upd + 1)

/-- What an event does to the counters: lines 323-335 for a score, line 318 for a
training step. -/
def tallyStep (nWait maxSamples batch : Nat) (t : Tally) : DEv τ X Y P ω → Tally
  | .score ps =>
    if rowDue nWait maxSamples t.count t.upd then
      ⟨t.count, t.upd + 1, t.results + ps.length,
        t.rows ++ [((t.count : Int) - batch, t.results + ps.length)]⟩
    else ⟨t.count, t.upd, t.results + ps.length, t.rows⟩
  | .train b _ => ⟨t.count + b.length, t.upd, t.results, t.rows⟩
  | _ => t

/-- Counters after the events that follow the pre-training block: `pretrain_size` is
counted at line 419, `update_count` is reset at line 425. -/
def tally (nWait maxSamples batch pre : Nat) (l : List (DEv τ X Y P ω)) : Tally :=
  l.foldl (tallyStep nWait maxSamples batch) ⟨pre, 0, 0, []⟩

/-- The rows of an evaluation. -/
def report (nWait maxSamples batch pre : Nat) (log : List (DEv τ X Y P ω)) : List (Int × Nat) :=
  (tally nWait maxSamples batch pre log.tail).rows

/-! ### Logs -/

variable [LinearOrder τ]

/-- After the pre-training block every score is followed at once by training on the
samples scored. -/
inductive Paired : List (DEv τ X Y P ω) → Prop
  | nil : Paired []
  | predict {l} (ps) : Paired l → Paired (l ++ [.predict ps])
  | drain {l} : Paired l → Paired (l ++ [.drain])
  | step {l} (ps ws) : Paired l → ps ≠ [] → Paired (l ++ [.score ps, .train (ps.map Prod.fst) ws])

theorem Paired.balanced {l : List (DEv τ X Y P ω)} (h : Paired l) :
    (trained l).length = (scored l).length := by
  induction h with
  | nil => rfl
  | predict ps _ ih => simpa [trained_append, scored_append, trained, scored] using ih
  | drain _ ih => simpa [trained_append, scored_append, trained, scored] using ih
  | step ps ws _ _ ih => simpa [trained_append, scored_append, trained, scored] using ih

theorem Paired.before {l : List (DEv τ X Y P ω)} (h : Paired l) :
    ∀ l1 ps l2, l = l1 ++ .score ps :: l2 → (trained l1).length = (scored l1).length := by
  induction h with
  | nil => intro l1 ps l2 e; simp at e
  | predict qs _ ih =>
    intro l1 ps l2 e
    rcases split_snoc e with ⟨l2', h1, -⟩ | ⟨-, h2, -⟩
    · exact ih l1 ps l2' h1
    · cases h2
  | drain _ ih =>
    intro l1 ps l2 e
    rcases split_snoc e with ⟨l2', h1, -⟩ | ⟨-, h2, -⟩
    · exact ih l1 ps l2' h1
    · cases h2
  | @step l qs ws hl _ ih =>
    intro l1 ps l2 e
    rw [show l ++ [DEv.score qs, .train (qs.map Prod.fst) ws] =
      (l ++ [.score qs]) ++ [.train (qs.map Prod.fst) ws] by simp] at e
    rcases split_snoc e with ⟨l2', h1, -⟩ | ⟨-, h2, -⟩
    · rcases split_snoc h1 with ⟨l3, h3, -⟩ | ⟨h3, -, -⟩
      · exact ih l1 ps l3 h3
      · rw [← h3]; exact hl.balanced
    · cases h2

theorem Paired.nonempty {l : List (DEv τ X Y P ω)} (h : Paired l) :
    ∀ l1 ps l2, l = l1 ++ .score ps :: l2 → ps ≠ [] := by
  induction h with
  | nil => intro l1 ps l2 e; simp at e
  | predict qs _ ih =>
    intro l1 ps l2 e
    rcases split_snoc e with ⟨l2', h1, -⟩ | ⟨-, h2, -⟩
    · exact ih l1 ps l2' h1
    · cases h2
  | drain _ ih =>
    intro l1 ps l2 e
    rcases split_snoc e with ⟨l2', h1, -⟩ | ⟨-, h2, -⟩
    · exact ih l1 ps l2' h1
    · cases h2
  | @step l qs ws hl hq ih =>
    intro l1 ps l2 e
    rw [show l ++ [DEv.score qs, .train (qs.map Prod.fst) ws] =
      (l ++ [.score qs]) ++ [.train (qs.map Prod.fst) ws] by simp] at e
    rcases split_snoc e with ⟨l2', h1, -⟩ | ⟨-, h2, -⟩
    · rcases split_snoc h1 with ⟨l3, h3, -⟩ | ⟨-, h3, -⟩
      · exact ih l1 ps l3 h3
      · injection h3 with h3; rw [← h3]; exact hq
    · cases h2

theorem tally_snoc (n m b pre : Nat) (l : List (DEv τ X Y P ω)) (e : DEv τ X Y P ω) :
    tally n m b pre (l ++ [e]) = tallyStep n m b (tally n m b pre l) e := by
  simp [tally]

theorem tally_count (n m b pre : Nat) (l : List (DEv τ X Y P ω)) :
    (tally n m b pre l).count = pre + (trained l).length ∧
      (tally n m b pre l).results = (scored l).length := by
  induction l using List.reverseRecOn with
  | nil => exact ⟨rfl, rfl⟩
  | append_singleton l e ih =>
    rw [tally_snoc]
    cases e with
    | score ps =>
      simp only [tallyStep]
      split <;> simp [trained_append, scored_append, trained, scored, ih.1, ih.2]
    | train c ws => simp [tallyStep, trained_append, scored_append, trained, scored, ih.1, ih.2]; omega
    | predict ps => simp [tallyStep, trained_append, scored_append, trained, scored, ih.1, ih.2]
    | drain => simp [tallyStep, trained_append, scored_append, trained, scored, ih.1, ih.2]

theorem tally_rows (n m b pre : Nat) (l : List (DEv τ X Y P ω)) :
    ∀ r ∈ (tally n m b pre l).rows, ∃ l1 ps l2, l = l1 ++ .score ps :: l2 ∧
      r.1 + b = pre + (trained l1).length ∧ r.2 = (scored l1).length + ps.length := by
  induction l using List.reverseRecOn with
  | nil => intro r hr; cases hr
  | append_singleton l e ih =>
    have lift : ∀ r ∈ (tally n m b pre l).rows, ∃ l1 ps l2, l ++ [e] = l1 ++ .score ps :: l2 ∧
        r.1 + b = pre + (trained l1).length ∧ r.2 = (scored l1).length + ps.length := by
      intro r hr
      obtain ⟨l1, ps, l2, h1, h2⟩ := ih r hr
      exact ⟨l1, ps, l2 ++ [e], by rw [h1]; simp, h2⟩
    intro r hr
    rw [tally_snoc] at hr
    cases e with
    | score ps =>
      simp only [tallyStep] at hr
      split at hr
      · rcases List.mem_append.mp hr with hr | hr
        · exact lift r hr
        · rw [List.mem_singleton] at hr
          subst hr
          obtain ⟨h1, h2⟩ := tally_count n m b pre l
          exact ⟨l, ps, [], rfl, by simp only [h1]; push_cast; ring, by simp only [h2]⟩
      · exact lift r hr
    | train c ws => exact lift r hr
    | predict ps => exact lift r hr
    | drain => exact lift r hr

theorem tally_none (n m b pre : Nat) (l : List (DEv τ X Y P ω)) (hp : 0 < pre)
    (h : ∀ l1 ps l2, l = l1 ++ .score ps :: l2 →
      pre + (trained l1).length < n ∧ pre + (trained l1).length < m) :
    (tally n m b pre l).rows = [] := by
  induction l using List.reverseRecOn with
  | nil => rfl
  | append_singleton l e ih =>
    have ih := ih fun l1 ps l2 e1 => h l1 ps (l2 ++ [e]) (by rw [e1]; simp)
    rw [tally_snoc]
    cases e with
    | score ps =>
      obtain ⟨h1, h2⟩ := h l ps [] rfl
      have hd : rowDue n m (tally n m b pre l).count (tally n m b pre l).upd = false := by
        rw [(tally_count n m b pre l).1]
        have h3 : (pre + (trained l).length) % n = pre + (trained l).length := Nat.mod_eq_of_lt h1
        have h4 : n ≤ n * ((tally n m b pre l).upd + 1) := Nat.le_mul_of_pos_right _ (by omega)
        simp only [rowDue, h3, Bool.or_eq_false_iff, beq_eq_false_iff_ne, ne_eq,
          decide_eq_false_iff_not]
        omega
      simp [tallyStep, hd, ih]
    | train c ws => exact ih
    | predict ps => exact ih
    | drain => exact ih

theorem tally_last (n m b pre : Nat) (l : List (DEv τ X Y P ω)) (ps : List (Sample τ X Y ω × P))
    (ws : Option (List ω)) (h : m ≤ pre + (trained l).length) :
    (tally n m b pre (l ++ [.score ps, .train (ps.map Prod.fst) ws])).rows.getLast? =
      some (((pre + (trained l).length : Nat) : Int) - b, (scored l).length + ps.length) := by
  rw [show l ++ [DEv.score ps, .train (ps.map Prod.fst) ws] =
      (l ++ [.score ps]) ++ [.train (ps.map Prod.fst) ws] by simp, tally_snoc, tally_snoc]
  obtain ⟨h1, h2⟩ := tally_count n m b pre l
  have hd : rowDue n m (tally n m b pre l).count (tally n m b pre l).upd = true := by
    simp [rowDue, h1, h]
  simp only [tallyStep]
  rw [if_pos hd]
  simp only [List.getLast?_concat, h1, h2]

/-! ### Runs -/

/-- The log is the pre-training block followed by a paired log. -/
def Shape (pre : List (Sample τ X Y ω)) (ws : Option (List ω)) (log : List (DEv τ X Y P ω)) : Prop :=
  ∃ rest, log = .train pre ws :: rest ∧ Paired rest

theorem Shape.predict {pre : List (Sample τ X Y ω)} {ws} {log : List (DEv τ X Y P ω)} (ps)
    (h : Shape pre ws log) : Shape pre ws (log ++ [.predict ps]) := by
  obtain ⟨r, rfl, h⟩ := h
  exact ⟨_, rfl, h.predict ps⟩

theorem Shape.drain {pre : List (Sample τ X Y ω)} {ws} {log : List (DEv τ X Y P ω)}
    (h : Shape pre ws log) : Shape pre ws (log ++ [.drain]) := by
  obtain ⟨r, rfl, h⟩ := h
  exact ⟨_, rfl, h.drain⟩

theorem Shape.step {pre : List (Sample τ X Y ω)} {ws} {log : List (DEv τ X Y P ω)} (ps ws')
    (h : Shape pre ws log) (hps : ps ≠ []) :
    Shape pre ws (log ++ [.score ps, .train (ps.map Prod.fst) ws']) := by
  obtain ⟨r, rfl, h⟩ := h
  exact ⟨_, rfl, h.step ps ws' hps⟩

/-- Scoring and training on the samples scored. -/
theorem update_log (M : Methods σ X Y P ω) (amax : Int) (ha : 20 ≤ amax) (d : DState σ τ X Y P ω)
    (ps : List (Sample τ X Y ω × P)) (ws : Option (List ω)) :
    ∃ d1, updateMetrics amax d ps = (d1, .ok ()) ∧
      (updateClassifiers M d1 (ps.map Prod.fst) ws).tm = d.tm ∧
      ((ps = [] ∧ (updateClassifiers M d1 (ps.map Prod.fst) ws).log = d.log) ∨
       ps ≠ [] ∧ (updateClassifiers M d1 (ps.map Prod.fst) ws).log =
          d.log ++ [.score ps, .train (ps.map Prod.fst) ws]) := by
  by_cases hp : ps.length > 0
  · refine ⟨{ d with log := d.log ++ [.score ps] }, ?_, ?_, .inr ⟨List.length_pos_iff.mp hp, ?_⟩⟩
    · simp only [updateMetrics, if_pos hp, checkProgress_ok ha]
    · unfold updateClassifiers; split <;> rfl
    · unfold updateClassifiers
      rw [if_pos (by simpa using hp)]
      simp [fitOn]
  · have hp' : ps = [] := List.eq_nil_of_length_eq_zero (by omega)
    subst hp'
    exact ⟨d, by simp [updateMetrics], by simp [updateClassifiers],
      .inl ⟨rfl, by simp [updateClassifiers]⟩⟩

theorem iter_shape (M : Methods σ X Y P ω) (hM : ∀ s xs, (M.predict s xs).1.length = xs.length)
    (sort : Sorter τ X Y P ω) (hs : TM.Sorts sort) (weighted : Bool) (amax : Int) (ha : 20 ≤ amax)
    (d : DState σ τ X Y P ω) (b : List (Sample τ X Y ω)) (hb : b ≠ []) (pre ws0)
    (h : Shape pre ws0 d.log) :
    ∃ d', iter M sort weighted amax d b = (d', .ok ()) ∧ Shape pre ws0 d'.log ∧ d'.tm.queue ≠ [] := by
  obtain ⟨newest, hnew⟩ : ∃ n, b.getLast? = some n := by
    rw [List.getLast?_eq_getLast_of_ne_nil hb]; exact ⟨_, rfl⟩
  unfold iter
  simp only [hnew]
  obtain ⟨d1, h1, -, h3⟩ := update_log M amax ha
    { d with tm := (TM.getAvailable (TM.updateTimestamp d.tm newest.arrival)).2 }
    ((TM.getAvailable (TM.updateTimestamp d.tm newest.arrival)).1.map TM.Row.payload)
    (weightsOf weighted b)
  rw [h1]
  simp only
  refine ⟨_, rfl, ?_, ?_⟩
  · refine Shape.predict _ ?_
    rcases h3 with ⟨-, h3⟩ | ⟨hps, h3⟩
    · rw [h3]; exact h
    · rw [h3]; exact h.step _ _ hps
  · set d2 := updateClassifiers M d1 (List.map Prod.fst (List.map TM.Row.payload
      (TM.getAvailable (TM.updateTimestamp d.tm newest.arrival)).1)) (weightsOf weighted b)
    have hlen : (predictOn M d2 b).2.length = b.length := by
      simp [predictOn, hM]
    have hbl : 0 < b.length := List.length_pos_iff.mpr hb
    intro e
    have e2 := congrArg List.length e
    have e3 : ∀ (tm : TM.State τ (Sample τ X Y ω × P) ω) q w, (∀ v, w = some v → v.length = q.length) →
        (TM.updateQueue sort tm q w).queue.length ≥ q.length := by
      intro tm q w hw
      cases w with
      | none => simp [TM.updateQueue, (hs _).1.length_eq]
      | some v => simp [TM.updateQueue, (hs _).1.length_eq, hw v rfl]
    have e4 := e3 d2.tm ((predictOn M d2 b).2.map fun q => (q, q.1.arrival, q.1.available))
      (weightsOf weighted b) (by
        intro v hv
        rw [List.length_map, hlen]
        cases weighted <;> simp [weightsOf] at hv
        rw [← hv, List.length_map])
    rw [List.length_map, hlen] at e4
    simp only [List.length_nil] at e2
    have e5 : (TM.updateQueue sort d2.tm ((predictOn M d2 b).2.map fun q =>
      (q, q.1.arrival, q.1.available)) (weightsOf weighted b)).queue.length = 0 := e2
    omega

theorem mainLoop_shape (M : Methods σ X Y P ω) (hM : ∀ s xs, (M.predict s xs).1.length = xs.length)
    (sort : Sorter τ X Y P ω) (hs : TM.Sorts sort) (s : Src (Sample τ X Y ω)) (weighted : Bool)
    (batch : Nat) (hb : 0 < batch) (amax : Int) (ha : 20 ≤ amax) (timeOk : Nat → Bool) (pre ws0) :
    ∀ (fuel k idx : Nat) (d : DState σ τ X Y P ω) (r : Nat × DState σ τ X Y P ω),
    mainLoop M sort s weighted batch amax timeOk fuel k idx d = some r → Shape pre ws0 d.log →
    (d.tm.queue ≠ [] ∨ scored d.log = []) →
    Shape pre ws0 r.2.log ∧ (r.2.tm.queue ≠ [] ∨ scored r.2.log = []) := by
  intro fuel
  induction fuel with
  | zero => intro k idx d r h; cases h
  | succ fuel ih =>
    intro k idx d r h hsh hq
    unfold mainLoop at h
    by_cases hcond : ((d.count : Int) < amax && timeOk k && s.hasMore idx) = true
    · rw [if_pos hcond] at h
      have hmore : s.hasMore idx = true := by
        simp only [Bool.and_eq_true] at hcond; exact hcond.2
      obtain ⟨d', h1, h2, h3⟩ := iter_shape M hM sort hs weighted amax ha d (s.take idx batch)
        (take_ne_nil s _ _ hb hmore) pre ws0 hsh
      simp only [h1] at h
      exact ih _ _ d' r h h2 (.inl h3)
    · rw [if_neg hcond] at h
      cases h
      exact ⟨hsh, hq⟩

theorem drainLoop_shape (M : Methods σ X Y P ω) (batch : Nat) (hb : 0 < batch) (amax : Int)
    (ha : 20 ≤ amax) (pre ws0) :
    ∀ (fuel : Nat) (d d' : DState σ τ X Y P ω),
    drainLoop M batch amax fuel d = some (.ok d') → Shape pre ws0 d.log →
    Shape pre ws0 d'.log ∧
      (d' = d ∧ d.tm.queue = [] ∨ ∃ l ps ws, d'.log = l ++ [.score ps, .train (ps.map Prod.fst) ws] ∧
        ps.length ≤ batch ∧ Shape pre ws0 l) := by
  intro fuel
  induction fuel with
  | zero => intro d d' h; cases h
  | succ fuel ih =>
    intro d d' h hsh
    unfold drainLoop at h
    by_cases hmore : TM.hasMore d.tm = true
    · rw [if_pos hmore] at h
      have hq : d.tm.queue.length > 0 := by simpa [TM.hasMore] using hmore
      cases huw : d.tm.useWeight with
      | true =>
        have hnext : TM.nextSample d.tm batch = .error .keyError := by
          simp [TM.nextSample, huw]
        simp [hnext] at h
      | false =>
        have hnext : TM.nextSample d.tm batch =
            .ok (d.tm.queue.take batch, { d.tm with queue := d.tm.queue.drop batch }) := by
          simp only [TM.nextSample, huw, TM.cleanup_eq, TM.taken_eq]; rfl
        simp only [hnext] at h
        obtain ⟨d1, h1, h2, h3⟩ := update_log M amax ha
          { d with tm := { d.tm with queue := d.tm.queue.drop batch } }
          ((d.tm.queue.take batch).map TM.Row.payload) none
        rw [h1] at h
        simp only at h
        rcases h3 with ⟨h3, -⟩ | ⟨hps, h3⟩
        · have := congrArg List.length h3
          simp only [List.length_map, List.length_take, List.length_nil] at this
          omega
        · simp only at h3
          have hsh1 := hsh.step ((d.tm.queue.take batch).map TM.Row.payload) none hps
          rw [← h3] at hsh1
          obtain ⟨h4, h5⟩ := ih _ d' h hsh1
          refine ⟨h4, .inr ?_⟩
          rcases h5 with ⟨h5, -⟩ | h5
          · exact ⟨d.log, _, none, by rw [h5]; exact h3, by simp, hsh⟩
          · exact h5
    · rw [if_neg hmore] at h
      cases h
      have : ¬ d.tm.queue.length > 0 := by simpa [TM.hasMore] using hmore
      exact ⟨hsh, .inl ⟨rfl, List.eq_nil_of_length_eq_zero (by omega)⟩⟩

theorem evaluate_shape (M : Methods σ X Y P ω) (hM : ∀ s xs, (M.predict s xs).1.length = xs.length)
    (s0 : σ) (sort : Sorter τ X Y P ω) (hs : TM.Sorts sort) (s : Src (Sample τ X Y ω))
    (weighted : Bool) (idx pre batch maxSamples : Nat) (hb : 0 < batch)
    (ha : 20 ≤ actualMax s idx maxSamples) (timeOk : Nat → Bool) (fuel i : Nat)
    (d : DState σ τ X Y P ω)
    (h : evaluate M sort s weighted idx pre batch maxSamples timeOk fuel s0 = some (.ok (i, d))) :
    Shape (s.take idx pre) (weightsOf weighted (s.take idx pre)) d.log ∧
      (scored d.log = [] ∨ ∃ l ps ws, d.log = l ++ [.score ps, .train (ps.map Prod.fst) ws] ∧
        ps.length ≤ batch ∧ Shape (s.take idx pre) (weightsOf weighted (s.take idx pre)) l) := by
  unfold evaluate at h
  simp only at h
  by_cases hp : pre > 0
  · rw [if_pos hp] at h
    cases hl : (s.take idx pre).getLast? with
    | none => rw [hl] at h; cases h
    | some newest =>
      rw [hl] at h
      simp only at h
      split at h
      · cases h
      · rename_i idx' d1 hm
        obtain ⟨h1, h2⟩ := mainLoop_shape M hM sort hs s weighted batch hb _ ha timeOk
          (s.take idx pre) (weightsOf weighted (s.take idx pre)) fuel 0 _ _ _ hm
          ⟨[], rfl, .nil⟩ (.inr rfl)
        split at h
        · cases h
        · cases h
        · rename_i d2 hd
          simp only [Option.some.injEq, Except.ok.injEq, Prod.mk.injEq] at h
          obtain ⟨-, rfl⟩ := h
          obtain ⟨h3, h4⟩ := drainLoop_shape M batch hb _ ha _ _ fuel _ d2 hd h1.drain
          refine ⟨h3, ?_⟩
          rcases h4 with ⟨h4, h5⟩ | h4
          · left
            rw [h4]
            rcases h2 with h2 | h2
            · exact absurd h5 h2
            · simp only [scored_append] at h2 ⊢
              rw [h2]; rfl
          · exact .inr h4
  · rw [if_neg hp] at h; cases h

/-- C263 (partial): in a delayed evaluation that ends without an exception, every row
belongs to one scoring step, covers the results up to and including that step, and has
as id the number of samples trained on before the step (pre-training included) less the
batch size; and if the evaluation counted at least `max_samples + batch_size` samples,
the last row covers every result.  Missing: streams with fewer samples
(`C263_no_rows_violated`). -/
theorem C263_rows_partial (M : Methods σ X Y P ω)
    (hM : ∀ s xs, (M.predict s xs).1.length = xs.length)
    (s0 : σ) (sort : Sorter τ X Y P ω) (hs : TM.Sorts sort) (s : Src (Sample τ X Y ω))
    (weighted : Bool) (idx pre batch maxSamples nWait : Nat) (hb : 0 < batch)
    (ha : 20 ≤ actualMax s idx maxSamples) (timeOk : Nat → Bool) (fuel i : Nat)
    (d : DState σ τ X Y P ω)
    (h : evaluate M sort s weighted idx pre batch maxSamples timeOk fuel s0 = some (.ok (i, d))) :
    (∀ r ∈ report nWait maxSamples batch pre d.log, ∃ l1 ps l2, d.log = l1 ++ .score ps :: l2 ∧
      r.1 + batch = pre + (scored l1).length ∧ r.2 = (scored l1).length + ps.length) ∧
    (scored d.log ≠ [] → maxSamples + batch ≤ pre + (scored d.log).length →
      ∃ id, (report nWait maxSamples batch pre d.log).getLast? = some (id, (scored d.log).length)) := by
  obtain ⟨⟨rest, hr, hp⟩, hlast⟩ :=
    evaluate_shape M hM s0 sort hs s weighted idx pre batch maxSamples hb ha timeOk fuel i d h
  have ht : d.log.tail = rest := by rw [hr]; rfl
  refine ⟨?_, ?_⟩
  · intro r hmem
    rw [report, ht] at hmem
    obtain ⟨l1, ps, l2, h1, h2, h3⟩ := tally_rows nWait maxSamples batch pre rest r hmem
    refine ⟨.train (s.take idx pre) (weightsOf weighted (s.take idx pre)) :: l1, ps, l2,
      by rw [hr, h1]; rfl, ?_, h3⟩
    rw [h2, hp.before l1 ps l2 h1]; rfl
  · intro hne hge
    rcases hlast with h1 | ⟨l, ps, ws, h1, h2, l', rfl, h3⟩
    · exact absurd h1 hne
    · rw [List.cons_append] at h1
      have hsc : (scored d.log).length = (scored l').length + ps.length := by
        rw [h1]; simp [scored, scored_append]
      rw [report, h1, List.tail_cons, tally_last, ← h1, hsc]
      · exact ⟨_, rfl⟩
      · rw [h3.balanced]; omega

theorem tally_upd (n m b pre : Nat) (l : List (DEv τ X Y P ω)) :
    (tally n m b pre l).upd = (tally n m b pre l).rows.length := by
  induction l using List.reverseRecOn with
  | nil => rfl
  | append_singleton l e ih =>
    rw [tally_snoc]
    cases e with
    | score ps =>
      simp only [tallyStep]
      split <;> simp [ih]
    | train c ws => exact ih
    | predict ps => exact ih
    | drain => exact ih

/-- C263 (partial): in a delayed evaluation a scoring step adds a row exactly when the
number `c` of samples counted before it is a multiple of `n_wait`, or has reached
`max_samples`, or exceeds `n_wait` times one more than the rows so far; no other step adds
rows. -/
theorem C263_schedule_partial (M : Methods σ X Y P ω)
    (hM : ∀ s xs, (M.predict s xs).1.length = xs.length)
    (s0 : σ) (sort : Sorter τ X Y P ω) (hs : TM.Sorts sort) (s : Src (Sample τ X Y ω))
    (weighted : Bool) (idx pre batch maxSamples nWait : Nat) (hb : 0 < batch)
    (ha : 20 ≤ actualMax s idx maxSamples) (timeOk : Nat → Bool) (fuel i : Nat)
    (d : DState σ τ X Y P ω)
    (h : evaluate M sort s weighted idx pre batch maxSamples timeOk fuel s0 = some (.ok (i, d)))
    (l1 l2 : List (DEv τ X Y P ω)) (e : DEv τ X Y P ω) (hl : d.log = l1 ++ e :: l2) (hne : l1 ≠ []) :
    let rows := report nWait maxSamples batch pre l1
    let c := pre + (scored l1).length
    (∀ ps, e = .score ps →
      ((nWait ∣ c ∨ maxSamples ≤ c ∨ nWait * (rows.length + 1) < c) →
        report nWait maxSamples batch pre (l1 ++ [e]) =
          rows ++ [((c : Int) - batch, (scored l1).length + ps.length)]) ∧
      (¬ (nWait ∣ c ∨ maxSamples ≤ c ∨ nWait * (rows.length + 1) < c) →
        report nWait maxSamples batch pre (l1 ++ [e]) = rows)) ∧
    ((∀ ps, e ≠ .score ps) → report nWait maxSamples batch pre (l1 ++ [e]) = rows) := by
  obtain ⟨⟨rest, hr, hp⟩, -⟩ :=
    evaluate_shape M hM s0 sort hs s weighted idx pre batch maxSamples hb ha timeOk fuel i d h
  obtain ⟨a, t, rfl⟩ := List.exists_cons_of_ne_nil hne
  rw [hr, List.cons_append] at hl
  injection hl with ha' hrest
  subst ha'
  have htail : ∀ x : DEv τ X Y P ω, (DEv.train (s.take idx pre) (weightsOf weighted (s.take idx pre)) :: t ++ [x]).tail =
      t ++ [x] := fun x => rfl
  simp only [report, htail, List.tail_cons, tally_snoc]
  obtain ⟨hc, hres⟩ := tally_count nWait maxSamples batch pre t
  have hu := tally_upd nWait maxSamples batch pre t
  refine ⟨?_, ?_⟩
  · rintro ps rfl
    have hbal : (trained t).length = (scored t).length := hp.before t ps l2 hrest
    have hsc : (scored (DEv.train (s.take idx pre) (weightsOf weighted (s.take idx pre)) :: t :
        List (DEv τ X Y P ω))) = scored t := rfl
    have hd : rowDue nWait maxSamples (tally nWait maxSamples batch pre t).count
        (tally nWait maxSamples batch pre t).upd = true ↔
        (nWait ∣ pre + (scored t).length ∨ maxSamples ≤ pre + (scored t).length ∨
          nWait * ((tally nWait maxSamples batch pre t).rows.length + 1) < pre + (scored t).length) := by
      rw [hc, hu, hbal]
      simp only [rowDue, Bool.or_eq_true, beq_iff_eq, decide_eq_true_eq, ge_iff_le, gt_iff_lt, or_assoc,
        Nat.dvd_iff_mod_eq_zero]
    rw [hsc]
    refine ⟨fun hdue => ?_, fun hdue => ?_⟩
    · simp only [tallyStep]
      rw [if_pos (hd.mpr hdue)]
      simp only [hc, hres, hbal]
    · simp only [tallyStep]
      rw [if_neg fun hh => hdue (hd.mp hh)]
  · intro hns
    cases e with
    | score ps => exact absurd rfl (hns ps)
    | train c ws => rfl
    | predict ps => rfl
    | drain => rfl

/-- C263 is violated: when a finite stream with no more than `max_samples` samples has
no more than `n_wait` of them, and the pre-training block is shorter than `n_wait`, the
evaluation scores every sample after that block and reports no row at all. -/
theorem C263_no_rows_violated (M : Methods σ X Y P ω)
    (hM : ∀ s xs, (M.predict s xs).1.length = xs.length)
    (s0 : σ) (sort : Sorter τ X Y P ω) (hs : TM.Sorts sort) (s : Src (Sample τ X Y ω)) (L : Nat)
    (hL : s.len = some L) (idx pre batch maxSamples nWait : Nat) (hp : 0 < pre)
    (hb : 0 < batch) (hlen : 20 ≤ L - idx) (hpn : pre < nWait) (hn : L - idx ≤ nWait)
    (hm : L - idx ≤ maxSamples) (timeOk : Nat → Bool) (ht : ∀ k, timeOk k = true) (fuel : Nat)
    (hf : L < fuel) :
    ∃ i d, evaluate M sort s false idx pre batch maxSamples timeOk fuel s0 = some (.ok (i, d)) ∧
      (scored d.log).length = L - idx - pre ∧ report nWait maxSamples batch pre d.log = [] := by
  have ha : 20 ≤ actualMax s idx maxSamples := by
    unfold actualMax
    simp only [Src.nRemaining, hL]
    split <;> omega
  obtain ⟨n, d, h1, h2, h3, h4, -, -, h7⟩ := C27_delayed M hM s0 sort hs s L hL idx pre batch
    maxSamples (by omega) hp hb ha timeOk fuel hf
  have hsc : (scored d.log).length = L - idx - pre := by
    have e := congrArg List.length h2
    rw [List.length_drop, s.length_take, s.length_take, hL, List.length_map] at e
    simp only at e
    rw [h4.length_eq, e]
    rcases h7 ht with h7 | h7 <;> omega
  refine ⟨_, d, h1, hsc, ?_⟩
  obtain ⟨⟨rest, hr, hpd⟩, -⟩ :=
    evaluate_shape M hM s0 sort hs s false idx pre batch maxSamples hb ha timeOk fuel _ d h1
  rw [report, show d.log.tail = rest by rw [hr]; rfl]
  refine tally_none _ _ _ _ _ hp ?_
  intro l1 ps l2 e
  have hb1 := hpd.before l1 ps l2 e
  have hps := hpd.nonempty l1 ps l2 e
  have hl : (scored d.log).length = (scored l1).length + ps.length + (scored l2).length := by
    rw [hr, e]; simp [scored, scored_append]; omega
  have : 0 < ps.length := List.length_pos_iff.mpr hps
  omega

/-- Twenty-two samples, `n_wait` four and four samples of pre-training: the last row
covers 17 of the 18 results, and its id is 19. -/
example : ((evaluate demoM (fun q => q.foldr TM.insertRow []) demo false 0 4 1 100 (fun _ => true) 23
    0).map fun r => r.toOption.map fun q => report 4 100 1 4 q.2.log) =
    some (some [(3, 1), (7, 5), (11, 9), (15, 13), (19, 17)]) := by decide +kernel

/-- With `n_wait` thirty there is no row; with `max_samples` twenty there is one after
every sample from the twentieth on, and the last covers every result. -/
example : ((evaluate demoM (fun q => q.foldr TM.insertRow []) demo false 0 4 1 100 (fun _ => true) 23
    0).map fun r => r.toOption.map fun q => report 30 100 1 4 q.2.log) = some (some []) ∧
    ((evaluate demoM (fun q => q.foldr TM.insertRow []) demo false 0 4 1 20 (fun _ => true) 23
    0).map fun r => r.toOption.map fun q => ((scored q.2.log).length, report 30 20 1 4 q.2.log)) =
    some (some (18, [(19, 17), (20, 18)])) := by decide +kernel

end Verif.Evaluation.Delayed
