import Verif.Evaluation.DelayedRows
import Verif.Evaluation.Honest

/-!
What the rows of a delayed prequential evaluation say about the models: the measurement objects
(evaluation/evaluate_prequential_delayed.py 320-335, evaluation/base_evaluator.py 273-297, 322-530)
put together with the model of the evaluator in `Delayed.lean`.  C279.

Simplifications: those of `Delayed.lean`, and streams without weights (with weights the evaluation
raises, C58); a row holds the measurement objects its scores are read from.
-/

namespace Verif.Evaluation.Delayed

open Verif.Streams Verif.Evaluation.Honest

variable {σ τ X Y P Q ω μ ν : Type}

/-! ### Model -/

/-- Lines 324-328: the results of one model are added one by one to both objects. -/
def addResults (M : Meters Y Q μ ν) : List (Y × Q) → μ × ν → Except PyErr (μ × ν)
  | [], m => .ok m
  | q :: l, m =>
    match M.addMean m.1 q.1 q.2 with
    | .error e => .error e
    | .ok a =>
      match M.addCur m.2 q.1 q.2 with
      | .error e => .error e
      | .ok b => addResults M l (a, b)

/-- The counters of `Tally` with the measurement objects of the models; every model comes with
its column of the predictions (`_transform_predictions_model`, lines 345-353). -/
structure Board (P Q μ ν : Type) where
  count : Nat
  upd : Nat
  meters : List ((P → Q) × μ × ν)
  rows : List (Int × List (μ × ν))

/-- The inner loop of lines 323-328 for one model. -/
def addTo (M : Meters Y Q μ ν) (ps : List (Sample τ X Y ω × P)) (m : (P → Q) × μ × ν) :
    Except PyErr ((P → Q) × μ × ν) :=
  match addResults M (ps.map fun p => (p.1.y, m.1 p.2)) m.2 with
  | .error e => .error e
  | .ok a => .ok (m.1, a)

/-- What an event does: lines 323-335 for a score, line 318 for a training step. -/
def boardStep (M : Meters Y Q μ ν) (nWait maxSamples batch : Nat) (t : Board P Q μ ν) :
    DEv τ X Y P ω → Except PyErr (Board P Q μ ν)
  | .score ps =>
    match each (addTo M ps) t.meters with
    | .error e => .error e
    | .ok ms =>
      if rowDue nWait maxSamples t.count t.upd then
        .ok ⟨t.count, t.upd + 1, ms, t.rows ++ [((t.count : Int) - batch, ms.map Prod.snd)]⟩
      else .ok ⟨t.count, t.upd, ms, t.rows⟩
  | .train b _ => .ok ⟨t.count + b.length, t.upd, t.meters, t.rows⟩
  | _ => .ok t

/-- The events of a log, one after the other. -/
def boardRun (M : Meters Y Q μ ν) (nWait maxSamples batch : Nat) :
    List (DEv τ X Y P ω) → Board P Q μ ν → Except PyErr (Board P Q μ ν)
  | [], t => .ok t
  | e :: l, t =>
    match boardStep M nWait maxSamples batch t e with
    | .error x => .error x
    | .ok t' => boardRun M nWait maxSamples batch l t'

/-- The rows of an evaluation with the models `cols`, from its log (the first event is the
pre-training, lines 394-425) and new measurement objects (base_evaluator.py 273-297). -/
def scoreRows (M : Meters Y Q μ ν) (nWait maxSamples batch pre : Nat) (cols : List (P → Q)) (new : μ × ν)
    (log : List (DEv τ X Y P ω)) : Except PyErr (List (Int × List (μ × ν))) :=
  match boardRun M nWait maxSamples batch log.tail ⟨pre, 0, cols.map fun c => (c, new), []⟩ with
  | .error e => .error e
  | .ok t => .ok t.rows

/-! ### Specification -/

/-- At every scoring step, `ps` and the results before it are predictions made before, each
scored once; unless the main loop is over, they are all but those whose label comes after the
newest arrival of the batch predicted next, and the labels of `ps` are available then. -/
def ScoresAvailable [LinearOrder τ] (log : List (DEv τ X Y P ω)) : Prop :=
  ∀ l1 ps l2, log = l1 ++ .score ps :: l2 → ∃ later, (scored l1 ++ ps ++ later).Perm (predicted l1) ∧
    (drained l1 = true ∨ ∃ b ws qs l3 newest, l2 = .train b ws :: .predict qs :: l3 ∧
      (qs.map Prod.fst).getLast? = some newest ∧ (∀ q ∈ ps, q.1.available ≤ newest.arrival) ∧
      ∀ q ∈ later, newest.arrival < q.1.available)

/-- Labels and predictions of one model. -/
def column (c : P → Q) (ps : List (Sample τ X Y ω × P)) : List (Y × Q) := ps.map fun p => (p.1.y, c p.2)

/-! ### Measurement objects -/

theorem addResults_ok (M : Meters Y Q μ ν) (mean : List (Y × Q) → μ) (cur : List (Y × Q) → ν)
    (hm : ∀ l q, M.addMean (mean l) q.1 q.2 = .ok (mean (l ++ [q])))
    (hc : ∀ l q, M.addCur (cur l) q.1 q.2 = .ok (cur (l ++ [q]))) (l l' : List (Y × Q)) :
    addResults M l' (mean l, cur l) = .ok (mean (l ++ l'), cur (l ++ l')) := by
  induction l' generalizing l with
  | nil => simp [addResults]
  | cons q l' ih =>
    simp only [addResults, hm, hc]
    rw [ih, List.append_assoc]; rfl

theorem each_map {α β γ : Type} (f : β → Except PyErr γ) (g : α → β) (k : α → γ) (l : List α)
    (h : ∀ a, f (g a) = .ok (k a)) : each f (l.map g) = .ok (l.map k) := by
  induction l with
  | nil => rfl
  | cons a l ih => simp only [List.map_cons, each, h, ih]

theorem boardRun_snoc (M : Meters Y Q μ ν) (n m b : Nat) (l : List (DEv τ X Y P ω)) (e : DEv τ X Y P ω)
    (t t' : Board P Q μ ν) (h : boardRun M n m b l t = .ok t') :
    boardRun M n m b (l ++ [e]) t = boardStep M n m b t' e := by
  induction l generalizing t with
  | nil =>
    cases h
    simp only [List.nil_append, boardRun]
    cases boardStep M n m b _ e <;> simp
  | cons a l ih =>
    simp only [List.cons_append, boardRun] at h ⊢
    cases hs : boardStep M n m b t a with
    | error x => rw [hs] at h; cases h
    | ok u => rw [hs] at h; simp only at h ⊢; exact ih u h

variable [LinearOrder τ]

/-- The measurement objects hold the results so far, and the rows are those of `tally`. -/
theorem boardRun_ok (M : Meters Y Q μ ν) (mean : List (Y × Q) → μ) (cur : List (Y × Q) → ν)
    (hm : ∀ l q, M.addMean (mean l) q.1 q.2 = .ok (mean (l ++ [q])))
    (hc : ∀ l q, M.addCur (cur l) q.1 q.2 = .ok (cur (l ++ [q])))
    (n m b pre : Nat) (cols : List (P → Q)) (l : List (DEv τ X Y P ω)) :
    ∃ t, boardRun M n m b l ⟨pre, 0, cols.map fun c => (c, mean [], cur []), []⟩ = .ok t ∧
      t.count = (tally n m b pre l).count ∧ t.upd = (tally n m b pre l).upd ∧
      t.meters = cols.map (fun c => (c, mean (column c (scored l)), cur (column c (scored l)))) ∧
      t.rows.map Prod.fst = (tally n m b pre l).rows.map Prod.fst ∧
      ∀ r ∈ t.rows, ∃ l1 ps l2, l = l1 ++ .score ps :: l2 ∧ r.1 + b = pre + (trained l1).length ∧
        r.2 = cols.map fun c => (mean (column c (scored l1 ++ ps)), cur (column c (scored l1 ++ ps))) := by
  induction l using List.reverseRecOn with
  | nil => exact ⟨_, rfl, rfl, rfl, rfl, rfl, by intro r hr; cases hr⟩
  | append_singleton l e ih =>
    obtain ⟨t, h1, h2, h3, h4, h5, h6⟩ := ih
    rw [boardRun_snoc _ _ _ _ _ _ _ _ h1, tally_snoc]
    have lift : ∀ r ∈ t.rows, ∃ l1 ps l2, l ++ [e] = l1 ++ .score ps :: l2 ∧ r.1 + b = pre + (trained l1).length ∧
        r.2 = cols.map fun c => (mean (column c (scored l1 ++ ps)), cur (column c (scored l1 ++ ps))) := by
      intro r hr
      obtain ⟨l1, ps, l2, g1, g2⟩ := h6 r hr
      exact ⟨l1, ps, l2 ++ [e], by rw [g1]; simp, g2⟩
    cases e with
    | score ps =>
      have hadd : each (addTo M ps) t.meters =
          .ok (cols.map fun c => (c, mean (column c (scored l ++ ps)), cur (column c (scored l ++ ps)))) := by
        rw [h4]
        apply each_map
        intro c
        have hcol : column c (scored l ++ ps) = column c (scored l) ++ ps.map (fun p => (p.1.y, c p.2)) := by
          simp [column]
        simp only [addTo]
        rw [addResults_ok M mean cur hm hc, hcol]
      have hsc : scored (l ++ [DEv.score ps]) = scored l ++ ps := by simp [scored_append, scored]
      simp only [boardStep, hadd, tallyStep, h2, h3, hsc]
      by_cases hd : rowDue n m (tally n m b pre l).count (tally n m b pre l).upd = true
      · rw [if_pos hd, if_pos hd]
        refine ⟨_, rfl, rfl, rfl, rfl, ?_, ?_⟩
        · simp only [List.map_append, h5]; rfl
        · intro r hr
          rcases List.mem_append.mp hr with hr | hr
          · exact lift r hr
          · rw [List.mem_singleton] at hr
            subst hr
            refine ⟨l, ps, [], rfl, ?_, ?_⟩
            · rw [(tally_count n m b pre l).1]; push_cast; ring
            · rw [List.map_map]; rfl
      · rw [if_neg hd, if_neg hd]
        exact ⟨_, rfl, rfl, rfl, rfl, h5, lift⟩
    | train c ws =>
      have hsc : scored (l ++ [DEv.train c ws]) = scored l := by simp [scored_append, scored]
      rw [hsc]
      exact ⟨_, rfl, by simp only [tallyStep, h2], h3, h4, h5, lift⟩
    | predict ps =>
      have hsc : scored (l ++ [DEv.predict ps]) = scored l := by simp [scored_append, scored]
      rw [hsc]
      exact ⟨_, rfl, h2, h3, h4, h5, lift⟩
    | drain =>
      have hsc : scored (l ++ [DEv.drain]) = scored l := by simp [scored_append, scored]
      rw [hsc]
      exact ⟨_, rfl, h2, h3, h4, h5, lift⟩

/-! ### Runs -/

theorem ScoresAvailable.snoc_other {log : List (DEv τ X Y P ω)} (h : ScoresAvailable log) (e : DEv τ X Y P ω)
    (he : ∀ ps, e ≠ .score ps) : ScoresAvailable (log ++ [e]) := by
  intro l1 ps l2 eq
  rcases split_snoc eq with ⟨l2', h1, h2⟩ | ⟨_, h2, _⟩
  · obtain ⟨later, h3, h4⟩ := h l1 ps l2' h1
    refine ⟨later, h3, ?_⟩
    rcases h4 with h4 | ⟨b, ws, qs, l3, n, h4, h5⟩
    · exact .inl h4
    · exact .inr ⟨b, ws, qs, l3 ++ [e], n, by rw [h2, h4]; rfl, h5⟩
  · exact absurd h2 (he ps)

/-- A scoring step with the two steps after it. -/
theorem ScoresAvailable.block {log : List (DEv τ X Y P ω)} (h : ScoresAvailable log)
    (ps : List (Sample τ X Y ω × P)) (tl : List (DEv τ X Y P ω)) (htl : ∀ e ∈ tl, ∀ ps', e ≠ DEv.score ps')
    (later : List (Sample τ X Y ω × P)) (hp : (scored log ++ ps ++ later).Perm (predicted log))
    (hcase : drained log = true ∨ ∃ b ws qs newest, tl = [.train b ws, .predict qs] ∧
      (qs.map Prod.fst).getLast? = some newest ∧ (∀ q ∈ ps, q.1.available ≤ newest.arrival) ∧
      ∀ q ∈ later, newest.arrival < q.1.available) : ScoresAvailable (log ++ .score ps :: tl) := by
  intro l1 ps' l2 eq
  rcases List.append_eq_append_iff.mp eq with ⟨a, h1, h2⟩ | ⟨a, h1, h2⟩
  · -- the new step, or one after it
    cases a with
    | nil =>
      simp only [List.nil_append, List.cons.injEq, DEv.score.injEq] at h2
      obtain ⟨rfl, rfl⟩ := h2
      rw [List.append_nil] at h1
      subst h1
      refine ⟨later, hp, ?_⟩
      rcases hcase with hc | ⟨b, ws, qs, n, hc, h5⟩
      · exact .inl hc
      · exact .inr ⟨b, ws, qs, [], n, hc, h5⟩
    | cons x a =>
      simp only [List.cons_append, List.cons.injEq] at h2
      exact absurd rfl (htl (.score ps') (by rw [h2.2]; simp) ps')
  · cases a with
    | nil =>
      simp only [List.nil_append, List.cons.injEq, DEv.score.injEq] at h2
      obtain ⟨rfl, rfl⟩ := h2
      rw [List.append_nil] at h1
      subst h1
      refine ⟨later, hp, ?_⟩
      rcases hcase with hc | ⟨b, ws, qs, n, hc, h5⟩
      · exact .inl hc
      · exact .inr ⟨b, ws, qs, [], n, hc, h5⟩
    | cons x a =>
      simp only [List.cons_append, List.cons.injEq] at h2
      obtain ⟨rfl, h2⟩ := h2
      obtain ⟨later', h3, h4⟩ := h l1 ps' a h1
      refine ⟨later', h3, ?_⟩
      rcases h4 with h4 | ⟨b, ws, qs, l3, n, h4, h5⟩
      · exact .inl h4
      · exact .inr ⟨b, ws, qs, l3 ++ .score ps :: tl, n, by rw [h2, h4]; rfl, h5⟩

theorem iter_scores (M : Methods σ X Y P ω) (hM : ∀ s xs, (M.predict s xs).1.length = xs.length)
    {s0 : σ} {sort : Sorter τ X Y P ω} {s : Src (Sample τ X Y ω)} {idx pre c : Nat}
    {d : DState σ τ X Y P ω} (hi : Inv M s0 s idx pre c d) (amax : Int) (ha : 20 ≤ amax)
    (b : List (Sample τ X Y ω)) (hb : b ≠ []) (hsa : ScoresAvailable d.log) (d' : DState σ τ X Y P ω)
    (h : iter M sort false amax d b = (d', .ok ())) : ScoresAvailable d'.log := by
  obtain ⟨newest, hnew⟩ : ∃ n, b.getLast? = some n := by
    rw [List.getLast?_eq_getLast_of_ne_nil hb]; exact ⟨_, rfl⟩
  unfold iter at h
  simp only [hnew] at h
  obtain ⟨d1, h1, -, h3⟩ := update_log M amax ha
    { d with tm := (TM.getAvailable (TM.updateTimestamp d.tm newest.arrival)).2 }
    ((TM.getAvailable (TM.updateTimestamp d.tm newest.arrival)).1.map TM.Row.payload)
    (weightsOf false b)
  rw [h1] at h
  simp only [Prod.mk.injEq, and_true] at h
  subst h
  have hlog : ∀ d2 : DState σ τ X Y P ω, (predictOn M d2 b).1.log = d2.log ++ [.predict (predictOn M d2 b).2] :=
    fun d2 => rfl
  have hfst : ∀ d2 : DState σ τ X Y P ω, (predictOn M d2 b).2.map Prod.fst = b := by
    intro d2
    show (b.zip (M.predict d2.learner (b.map Sample.x)).1).map Prod.fst = b
    rw [List.map_fst_zip (by rw [hM]; simp)]
  simp only [hlog]
  rcases h3 with ⟨-, h3⟩ | ⟨hps, h3⟩
  · rw [h3]
    exact hsa.snoc_other _ (by intro ps; simp)
  · rw [h3, List.append_assoc]
    refine hsa.block _ _ (by simp) ((TM.getAvailable (TM.updateTimestamp d.tm newest.arrival)).2.queue.map
      TM.Row.payload) ?_ (.inr ⟨_, _, _, newest, rfl, by rw [hfst, hnew], ?_, ?_⟩)
    · rw [List.append_assoc]
      exact ((filter_perm (TM.updateTimestamp d.tm newest.arrival)).append_left _).trans hi.sc
    · intro q hq
      obtain ⟨r, hr, rfl⟩ := List.mem_map.mp hq
      have g := List.mem_filter.mp hr
      rw [← hi.avail r g.1]
      exact of_decide_eq_true g.2
    · intro q hq
      obtain ⟨r, hr, rfl⟩ := List.mem_map.mp hq
      have g := List.mem_filter.mp hr
      rw [← hi.avail r g.1]
      simpa [TM.updateTimestamp] using g.2

theorem mainLoop_scores (M : Methods σ X Y P ω) (hM : ∀ s xs, (M.predict s xs).1.length = xs.length)
    {s0 : σ} {sort : Sorter τ X Y P ω} (hs : TM.Sorts sort) {s : Src (Sample τ X Y ω)}
    {idx pre batch : Nat} (hb : 0 < batch) (amax : Int) (ha : 20 ≤ amax) (timeOk : Nat → Bool) :
    ∀ (fuel k c : Nat) (d : DState σ τ X Y P ω) (r : Nat × DState σ τ X Y P ω), pre ≤ c →
    Inv M s0 s idx pre c d → ScoresAvailable d.log →
    mainLoop M sort s false batch amax timeOk fuel k (idx + c) d = some r →
    ∃ c', pre ≤ c' ∧ Inv M s0 s idx pre c' r.2 ∧ ScoresAvailable r.2.log := by
  intro fuel
  induction fuel with
  | zero => intro k c d r _ _ _ h; cases h
  | succ fuel ih =>
    intro k c d r hc hi hsa h
    unfold mainLoop at h
    by_cases hcond : ((d.count : Int) < amax && timeOk k && s.hasMore (idx + c)) = true
    · rw [if_pos hcond] at h
      have hmore : s.hasMore (idx + c) = true := by
        simp only [Bool.and_eq_true] at hcond; exact hcond.2
      have hne := take_ne_nil s (idx + c) batch hb hmore
      obtain ⟨d', h1, h2, -, -⟩ := hi.iter hM hs hc batch amax ha hne
      simp only [h1] at h
      exact ih (k + 1) (c + batch) d' r (by omega) h2 (iter_scores M hM hi amax ha _ hne hsa d' h1)
        (by rw [← Nat.add_assoc]; exact h)
    · rw [if_neg hcond] at h
      cases h
      exact ⟨c, hc, hi, hsa⟩

theorem drainLoop_scores (M : Methods σ X Y P ω) {batch : Nat} (hb : 0 < batch) (amax : Int) (ha : 20 ≤ amax) :
    ∀ (fuel : Nat) (d d' : DState σ τ X Y P ω), (scored d.log ++ waiting d).Perm (predicted d.log) →
    drained d.log = true → ScoresAvailable d.log →
    drainLoop M batch amax fuel d = some (.ok d') → ScoresAvailable d'.log := by
  intro fuel
  induction fuel with
  | zero => intro d d' _ _ _ h; cases h
  | succ fuel ih =>
    intro d d' hi hd hsa h
    unfold drainLoop at h
    by_cases hmore : TM.hasMore d.tm = true
    · rw [if_pos hmore] at h
      have hq : d.tm.queue.length > 0 := by simpa [TM.hasMore] using hmore
      cases huw : d.tm.useWeight with
      | true =>
        have hnext : TM.nextSample d.tm batch = .error .keyError := by
          simp [TM.nextSample, huw]
        simp [hnext] at h
      | false =>
        have hnext : TM.nextSample d.tm batch =
            .ok (d.tm.queue.take batch, { d.tm with queue := d.tm.queue.drop batch }) := by
          simp only [TM.nextSample, huw, TM.cleanup_eq, TM.taken_eq]; rfl
        simp only [hnext] at h
        obtain ⟨d1, h1, h2, h3⟩ := update_log M amax ha
          { d with tm := { d.tm with queue := d.tm.queue.drop batch } }
          ((d.tm.queue.take batch).map TM.Row.payload) none
        rw [h1] at h
        simp only at h
        have hw : waiting d = (d.tm.queue.take batch).map TM.Row.payload ++
            (d.tm.queue.drop batch).map TM.Row.payload := by
          rw [waiting, ← List.map_append, List.take_append_drop]
        rcases h3 with ⟨h3, -⟩ | ⟨hps, h3⟩
        · have := congrArg List.length h3
          simp only [List.length_map, List.length_take, List.length_nil] at this
          omega
        · simp only at h3
          refine ih _ d' ?_ ?_ ?_ h
          · rw [h3, waiting, h2]
            simp only [scored_append, scored, predicted_append, predicted, List.append_nil, List.append_assoc]
            rw [← hw]
            exact hi
          · rw [h3, drained_append, hd]; rfl
          · rw [h3]
            refine hsa.block _ _ (by simp) ((d.tm.queue.drop batch).map TM.Row.payload) ?_ (.inl hd)
            rw [List.append_assoc, ← hw]
            exact hi
    · rw [if_neg hmore] at h
      cases h
      exact hsa

/-- Every log of a finished evaluation, for any stream. -/
theorem evaluate_scores (M : Methods σ X Y P ω) (hM : ∀ s xs, (M.predict s xs).1.length = xs.length)
    (s0 : σ) (sort : Sorter τ X Y P ω) (hs : TM.Sorts sort) (s : Src (Sample τ X Y ω))
    (idx pre batch maxSamples : Nat) (hb : 0 < batch)
    (ha : 20 ≤ actualMax s idx maxSamples) (timeOk : Nat → Bool) (fuel i : Nat)
    (d : DState σ τ X Y P ω)
    (h : evaluate M sort s false idx pre batch maxSamples timeOk fuel s0 = some (.ok (i, d))) :
    ScoresAvailable d.log := by
  unfold evaluate at h
  simp only at h
  by_cases hp : pre > 0
  · rw [if_pos hp] at h
    cases hl : (s.take idx pre).getLast? with
    | none => rw [hl] at h; cases h
    | some newest =>
      rw [hl] at h
      simp only at h
      split at h
      · cases h
      · rename_i idx' d1 hm
        have hinv : Inv M s0 s idx pre pre { fitOn M (⟨s0, TM.init newest.arrival, 0, []⟩ : DState σ τ X Y P ω)
            (s.take idx pre) (weightsOf false (s.take idx pre)) with count := pre } := by
          refine ⟨?_, ?_, ?_, ?_, .inr rfl, ?_, ?_, ?_, ?_⟩
          · show (trained [DEv.train (s.take idx pre) none] ++ ([] : List (Sample τ X Y ω))).Perm _
            simp [trained]
          · rw [Nat.sub_self, s.take_zero]; rfl
          · exact .nil
          · intro r hr; cases hr
          · intro l1 b ws l2 eq
            cases l1 with
            | nil => simp [fitOn] at eq; exact .inl ⟨rfl, eq.1.1.symm⟩
            | cons a l1 => simp [fitOn] at eq
          · intro l1 ps l2 eq
            cases l1 with
            | nil => simp [fitOn] at eq
            | cons a l1 => simp [fitOn] at eq
          · rfl
          · simp [fitOn, trained]
        obtain ⟨c, -, h1, h2⟩ := mainLoop_scores M hM hs hb _ ha timeOk fuel 0 pre _ _ (le_refl _) hinv (by
          intro l1 ps l2 eq
          cases l1 with
          | nil => simp [fitOn] at eq
          | cons a l1 => simp [fitOn] at eq) hm
        split at h
        · cases h
        · cases h
        · rename_i d2 hd
          simp only [Option.some.injEq, Except.ok.injEq, Prod.mk.injEq] at h
          obtain ⟨-, rfl⟩ := h
          refine drainLoop_scores M hb _ ha fuel _ d2 ?_ ?_ (h2.snoc_other .drain (by intro ps; simp)) hd
          · have := h1.sc
            simpa [waiting, scored_append, predicted_append, scored, predicted] using this
          · simp [drained_append, drained]
  · rw [if_neg hp] at h; cases h

/-- The rows of a finished evaluation. -/
theorem rows_of (N : Meters Y Q μ ν) (mean : List (Y × Q) → μ) (cur : List (Y × Q) → ν)
    (hm : ∀ l q, N.addMean (mean l) q.1 q.2 = .ok (mean (l ++ [q])))
    (hc : ∀ l q, N.addCur (cur l) q.1 q.2 = .ok (cur (l ++ [q])))
    (M : Methods σ X Y P ω) (hM : ∀ s xs, (M.predict s xs).1.length = xs.length)
    (s0 : σ) (sort : Sorter τ X Y P ω) (hs : TM.Sorts sort) (s : Src (Sample τ X Y ω))
    (idx pre batch maxSamples nWait : Nat) (hb : 0 < batch)
    (ha : 20 ≤ actualMax s idx maxSamples) (timeOk : Nat → Bool) (fuel i : Nat)
    (d : DState σ τ X Y P ω)
    (h : evaluate M sort s false idx pre batch maxSamples timeOk fuel s0 = some (.ok (i, d))) (cols : List (P → Q)) :
    ∃ rows, scoreRows N nWait maxSamples batch pre cols (mean [], cur []) d.log = .ok rows ∧
      rows.map Prod.fst = (report nWait maxSamples batch pre d.log).map Prod.fst ∧
      ∀ r ∈ rows, ∃ l1 ps l2, d.log = l1 ++ .score ps :: l2 ∧ r.1 + batch = pre + (scored l1).length ∧
        r.2 = cols.map fun c => (mean (column c (scored l1 ++ ps)), cur (column c (scored l1 ++ ps))) := by
  obtain ⟨⟨rest, hr, hp⟩, -⟩ :=
    evaluate_shape M hM s0 sort hs s false idx pre batch maxSamples hb ha timeOk fuel i d h
  have ht : d.log.tail = rest := by rw [hr]; rfl
  obtain ⟨t, h1, -, -, -, h5, h6⟩ := boardRun_ok N mean cur hm hc nWait maxSamples batch pre cols rest
  refine ⟨t.rows, ?_, ?_, ?_⟩
  · unfold scoreRows; rw [ht, h1]
  · rw [h5, report, ht]
  · intro r hmem
    obtain ⟨l1, ps, l2, g1, g2, g3⟩ := h6 r hmem
    refine ⟨.train (s.take idx pre) (weightsOf false (s.take idx pre)) :: l1, ps, l2, by rw [hr, g1]; rfl, ?_, g3⟩
    rw [g2, hp.before l1 ps l2 g1]; rfl

/-! ### C279 -/

/-- **C279.** What is scored: at every scoring step of a finished evaluation the results so far
are predictions made before, each once; during the main loop all those whose label is available at
the newest arrival of the next batch are among them. -/
theorem C279_results (M : Methods σ X Y P ω) (hM : ∀ s xs, (M.predict s xs).1.length = xs.length)
    (s0 : σ) (sort : Sorter τ X Y P ω) (hs : TM.Sorts sort) (s : Src (Sample τ X Y ω))
    (idx pre batch maxSamples : Nat) (hb : 0 < batch)
    (ha : 20 ≤ actualMax s idx maxSamples) (timeOk : Nat → Bool) (fuel i : Nat)
    (d : DState σ τ X Y P ω)
    (h : evaluate M sort s false idx pre batch maxSamples timeOk fuel s0 = some (.ok (i, d))) :
    ScoresAvailable d.log :=
  evaluate_scores M hM s0 sort hs s idx pre batch maxSamples hb ha timeOk fuel i d h

/-- **C279 (classification).** No row is lost to an exception of the metrics; each row belongs to a
scoring step, its id is the number of samples counted before less the batch size, and for every
model the mean accuracy is the share of correct results up to and including the step, the current
accuracy the share among the last `n_sliding`. -/
theorem C279_classification (other : Metrics.Eval → Report.Metric → ℚ)
    (M : Methods σ X Int P ω) (hM : ∀ s xs, (M.predict s xs).1.length = xs.length)
    (s0 : σ) (sort : Sorter τ X Int P ω) (hs : TM.Sorts sort) (s : Src (Sample τ X Int ω))
    (idx pre batch maxSamples nWait : Nat) (hb : 0 < batch)
    (ha : 20 ≤ actualMax s idx maxSamples) (timeOk : Nat → Bool) (fuel i : Nat)
    (d : DState σ τ X Int P ω)
    (h : evaluate M sort s false idx pre batch maxSamples timeOk fuel s0 = some (.ok (i, d)))
    (cols : List (P → Int)) (nSliding : Nat) (hn : 1 ≤ nSliding) :
    let N := classMeters other
    ∃ rows, scoreRows N nWait maxSamples batch pre cols (Metrics.Eval.init 2, Metrics.WEval.init 2 nSliding)
        d.log = .ok rows ∧
      rows.map Prod.fst = (report nWait maxSamples batch pre d.log).map Prod.fst ∧
      ∀ r ∈ rows, ∃ l1 ps l2, d.log = l1 ++ .score ps :: l2 ∧ r.1 + batch = pre + (scored l1).length ∧
        r.2.map (fun m => (N.mean m.1 .accuracy, N.cur m.2 .accuracy)) =
          cols.map fun c => (correct (column c (scored l1 ++ ps)), correct (lastN nSliding (column c (scored l1 ++ ps)))) := by
  intro N
  let mean : List (Int × Int) → Metrics.Eval := fun l =>
    (l.map unit).foldl (fun e r => e.addResult r.t r.p r.w) (Metrics.Eval.init 2)
  let cur : List (Int × Int) → Metrics.WEval := fun l =>
    (l.map unit).foldl (fun e r => e.addResult r.t r.p r.w) (Metrics.WEval.init 2 nSliding)
  obtain ⟨rows, h1, h2, h3⟩ := rows_of N mean cur (by intro l q; simp [mean, N, classMeters, unit])
    (by intro l q; simp [cur, N, classMeters, unit]) M hM s0 sort hs s idx pre batch maxSamples nWait hb ha timeOk
    fuel i d h cols
  refine ⟨rows, h1, h2, fun r hr => ?_⟩
  obtain ⟨l1, ps, l2, g1, g2, g3⟩ := h3 r hr
  refine ⟨l1, ps, l2, g1, g2, ?_⟩
  rw [g3, List.map_map]
  apply List.map_congr_left
  intro c _
  simp only [Function.comp, N, classMeters, classMeters.scores, mean, cur, Prod.mk.injEq]
  refine ⟨accuracy_pairs _, ?_⟩
  have hu : ∀ r ∈ (column c (scored l1 ++ ps)).map unit, 0 < r.w := by
    intro r hr; obtain ⟨q, -, rfl⟩ := List.mem_map.mp hr; simp [unit]
  have := (Metrics.C06_window_scores 2 nSliding hn ((column c (scored l1 ++ ps)).map unit) hu).1
  rw [lastN_unit, accuracy_pairs] at this
  exact this

/-- **C279 (regression).** The same for the mean squared and mean absolute errors. -/
theorem C279_regression
    (M : Methods σ X ℚ P ω) (hM : ∀ s xs, (M.predict s xs).1.length = xs.length)
    (s0 : σ) (sort : Sorter τ X ℚ P ω) (hs : TM.Sorts sort) (s : Src (Sample τ X ℚ ω))
    (idx pre batch maxSamples nWait : Nat) (hb : 0 < batch)
    (ha : 20 ≤ actualMax s idx maxSamples) (timeOk : Nat → Bool) (fuel i : Nat)
    (d : DState σ τ X ℚ P ω)
    (h : evaluate M sort s false idx pre batch maxSamples timeOk fuel s0 = some (.ok (i, d)))
    (cols : List (P → ℚ)) (nSliding : Nat) (hn : 1 ≤ nSliding) :
    let N := regMeters
    ∃ rows, scoreRows N nWait maxSamples batch pre cols (Regression.RegEval.init, Regression.WRegEval.init nSliding)
        d.log = .ok rows ∧
      rows.map Prod.fst = (report nWait maxSamples batch pre d.log).map Prod.fst ∧
      ∀ r ∈ rows, ∃ l1 ps l2, d.log = l1 ++ .score ps :: l2 ∧ r.1 + batch = pre + (scored l1).length ∧
        r.2.map (fun m => (N.mean m.1 .mse, N.mean m.1 .mae, N.cur m.2 .mse, N.cur m.2 .mae)) =
          cols.map fun c =>
            let all := column c (scored l1 ++ ps)
            (Regression.mse all, Regression.mae all, Regression.mse (lastN nSliding all),
              Regression.mae (lastN nSliding all)) := by
  intro N
  let mean : List (ℚ × ℚ) → Regression.RegEval := fun l =>
    l.foldl (fun e r => e.addResult r.1 r.2) Regression.RegEval.init
  let cur : List (ℚ × ℚ) → Regression.WRegEval := fun l =>
    (Regression.wregRun nSliding l).toOption.getD (Regression.WRegEval.init nSliding)
  have hcur : ∀ l, Regression.wregRun nSliding l = .ok (cur l) := by
    intro l
    obtain ⟨e, he, -⟩ := Regression.C11_window nSliding hn l
    simp only [cur, he]; rfl
  obtain ⟨rows, h1, h2, h3⟩ := rows_of N mean cur (by intro l q; simp [mean, N, regMeters])
    (by
      intro l q
      have e1 := hcur (l ++ [q])
      have e2 := hcur l
      unfold Regression.wregRun at e1 e2
      rw [List.foldlM_append, e2] at e1
      simp only [bind, Except.bind, List.foldlM_cons, List.foldlM_nil] at e1
      show (cur l).addResult q.1 q.2 = _
      cases hx : (cur l).addResult q.1 q.2 with
      | error x => rw [hx] at e1; cases e1
      | ok v => rw [hx] at e1; exact e1)
    M hM s0 sort hs s idx pre batch maxSamples nWait hb ha timeOk fuel i d h cols
  refine ⟨rows, h1, h2, fun r hr => ?_⟩
  obtain ⟨l1, ps, l2, g1, g2, g3⟩ := h3 r hr
  refine ⟨l1, ps, l2, g1, g2, ?_⟩
  rw [g3, List.map_map]
  apply List.map_congr_left
  intro c _
  obtain ⟨a1, a2, -, -⟩ := Regression.C11_cumulative (column c (scored l1 ++ ps))
  obtain ⟨e', b0, b1, b2, -, -⟩ := Regression.C11_window nSliding hn (column c (scored l1 ++ ps))
  have b3 : e' = cur (column c (scored l1 ++ ps)) := by
    have := b0.symm.trans (hcur _)
    simpa using this
  subst b3
  simp only [Function.comp, N, regMeters, Prod.mk.injEq]
  exact ⟨a1, a2, b1, b2⟩

/-! Two models that predict the number of samples learnt, and always 5: labels 0, 1, 2, ... that
come three time units late. -/

def twoModels : Methods Nat Nat Int (Int × Int) Nat :=
  ⟨fun s b _ => s + b.length, fun s xs => (xs.map fun _ => ((s : Int), 5), s)⟩

def lateLabels : Src (Sample Nat Nat Int Nat) := ⟨fun i => ⟨i, i, i, i + 3, 1⟩, some 24⟩

example : (((evaluate twoModels (fun q => q.foldr TM.insertRow []) lateLabels false 0 2 1 100 (fun _ => true) 30
    0).bind fun r => r.toOption).bind (fun q => (scoreRows (classMeters fun _ _ => 0) 5 100 1 2
      [Prod.fst, Prod.snd] (Metrics.Eval.init 2, Metrics.WEval.init 2 3) q.2.log).toOption)).map
      (fun rows => rows.map fun r => (r.1, r.2.map fun m =>
        ((classMeters fun _ _ => 0).mean m.1 .accuracy, (classMeters fun _ _ => 0).cur m.2 .accuracy))) =
    some [(4, [(1/4, 0), (1/4, 1/3)]), (9, [(1/9, 0), (1/9, 0)]), (14, [(1/14, 0), (1/14, 0)]),
      (19, [(1/19, 0), (1/19, 0)])] := by decide +kernel

end Verif.Evaluation.Delayed
