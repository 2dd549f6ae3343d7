import Verif.Evaluation.DelayedScores

/-!
Several models in one delayed prequential evaluation
(evaluation/evaluate_prequential_delayed.py 290-372, 374-496): every model is scored as if it were
evaluated alone.  C313.

Simplifications: those of `Delayed.lean` and `DelayedScores.lean`; models have no state in common
(no shared random generator), give one prediction for every row and do not raise; `np.asarray`
(line 368) does not convert the predictions of one model to the type of another's.
-/

namespace Verif.Evaluation.Delayed

open Verif.Streams Verif.Evaluation.Honest

variable {σ σ' τ X Y P P' Q ω μ ν : Type}

/-! ### Model -/

/-- Several models: lines 290-318 train every model on the same batch, lines 355-372 ask every
model for its predictions of the batch and put those of one row together. -/
def together {m : Nat} {σs : Fin m → Type} [Inhabited Q] (Ms : (j : Fin m) → Methods (σs j) X Y Q ω) :
    Methods ((j : Fin m) → σs j) X Y (Fin m → Q) ω where
  fit s b w := fun j => (Ms j).fit (s j) b w
  predict s xs := ((List.range xs.length).map fun i j => (((Ms j).predict (s j) xs).1[i]?).getD default,
    fun j => ((Ms j).predict (s j) xs).2)

/-- `queue.sort_values(by='available_time')`, data/time_manager.py 37-40: the rows are taken in an
order computed from the column of the times alone. -/
def byTimes {π : Type} (order : List τ → List Nat) (rows : List (TM.Row τ π ω)) : List (TM.Row τ π ω) :=
  (order (rows.map TM.Row.available)).filterMap fun i => rows[i]?

/-! ### Specification -/

/-- An event with every prediction replaced. -/
def mapE (g : P → P') : DEv τ X Y P ω → DEv τ X Y P' ω
  | .predict ps => .predict (ps.map fun p => (p.1, g p.2))
  | .score ps => .score (ps.map fun p => (p.1, g p.2))
  | .train b w => .train b w
  | .drain => .drain

/-! ### Lemmas -/

def mapR (g : P → P') (r : TM.Row τ (Sample τ X Y ω × P) ω) : TM.Row τ (Sample τ X Y ω × P') ω :=
  ⟨(r.payload.1, g r.payload.2), r.weight, r.arrival, r.available⟩

def mapT (g : P → P') (t : TM.State τ (Sample τ X Y ω × P) ω) : TM.State τ (Sample τ X Y ω × P') ω :=
  ⟨t.timestamp, t.queue.map (mapR g), t.useWeight⟩

def mapD (f : σ → σ') (g : P → P') (d : DState σ τ X Y P ω) : DState σ' τ X Y P' ω :=
  ⟨f d.learner, mapT g d.tm, d.count, d.log.map (mapE g)⟩

theorem byTimes_map (order : List τ → List Nat) (g : P → P') (rows : List (TM.Row τ (Sample τ X Y ω × P) ω)) :
    byTimes order (rows.map (mapR g)) = (byTimes order rows).map (mapR g) := by
  unfold byTimes
  rw [List.map_map, List.map_filterMap]
  have : TM.Row.available ∘ mapR g = (TM.Row.available : TM.Row τ (Sample τ X Y ω × P) ω → τ) := rfl
  rw [this]
  congr 1
  funext i
  simp

section
variable [LinearOrder τ] {f : σ → σ'} {g : P → P'} {M : Methods σ X Y P ω} {M' : Methods σ' X Y P' ω}

theorem getAvailable_map (t : TM.State τ (Sample τ X Y ω × P) ω) :
    TM.getAvailable (mapT g t) = ((TM.getAvailable t).1.map (mapR g), mapT g (TM.getAvailable t).2) := by
  simp only [TM.getAvailable, mapT, List.filter_map]
  rfl

theorem nextSample_map (t : TM.State τ (Sample τ X Y ω × P) ω) (n : Nat) :
    TM.nextSample (mapT g t) n = (TM.nextSample t n).map fun r => (r.1.map (mapR g), mapT g r.2) := by
  simp only [TM.nextSample, mapT, TM.cleanup_eq, List.length_map]
  cases t.useWeight
  · simp only [Bool.false_eq_true, if_false, Except.map, List.map_drop]
    split <;> simp [mapT]
  · rfl

theorem updateQueue_map (order : List τ → List Nat) (t : TM.State τ (Sample τ X Y ω × P) ω)
    (qs : List (Sample τ X Y ω × P)) (ws : Option (List ω)) :
    TM.updateQueue (byTimes order) (mapT g t)
        ((qs.map fun p => (p.1, g p.2)).map fun q => (q, q.1.arrival, q.1.available)) ws =
      mapT g (TM.updateQueue (byTimes order) t (qs.map fun q => (q, q.1.arrival, q.1.available)) ws) := by
  cases ws with
  | none =>
    simp only [TM.updateQueue, mapT, ← byTimes_map, List.map_append, List.map_map]
    rfl
  | some ws =>
    simp only [TM.updateQueue, mapT, ← byTimes_map, List.map_append, List.map_map, List.zip_map_left]
    rfl

theorem updateClassifiers_map (hfit : ∀ s b w, M'.fit (f s) b w = f (M.fit s b w))
    (d : DState σ τ X Y P ω) (b : List (Sample τ X Y ω)) (ws : Option (List ω)) :
    updateClassifiers M' (mapD f g d) b ws = mapD f g (updateClassifiers M d b ws) := by
  unfold updateClassifiers
  split
  · simp [fitOn, mapD, hfit, mapE]
  · rfl

theorem updateMetrics_map (amax : Int) (d : DState σ τ X Y P ω) (ps : List (Sample τ X Y ω × P)) :
    updateMetrics amax (mapD f g d) (ps.map fun p => (p.1, g p.2)) =
      (mapD f g (updateMetrics amax d ps).1, (updateMetrics amax d ps).2) := by
  unfold updateMetrics
  rw [List.length_map]
  split
  · simp [mapD, mapE]
  · rfl

theorem predictOn_map
    (hpred : ∀ s xs, M'.predict (f s) xs = ((M.predict s xs).1.map g, f (M.predict s xs).2))
    (d : DState σ τ X Y P ω) (b : List (Sample τ X Y ω)) :
    predictOn M' (mapD f g d) b =
      (mapD f g (predictOn M d b).1, (predictOn M d b).2.map fun p => (p.1, g p.2)) := by
  simp only [predictOn, mapD, hpred, List.map_append, List.map_cons, List.map_nil, mapE, List.zip_map_right]
  rfl

theorem payload_map (rows : List (TM.Row τ (Sample τ X Y ω × P) ω)) :
    (rows.map (mapR g)).map TM.Row.payload = (rows.map TM.Row.payload).map fun p => (p.1, g p.2) := by
  simp only [List.map_map]; rfl

theorem fst_map (ps : List (Sample τ X Y ω × P)) :
    (ps.map fun p => (p.1, g p.2)).map Prod.fst = ps.map Prod.fst := by
  simp only [List.map_map]; rfl

theorem iter_map (hfit : ∀ s b w, M'.fit (f s) b w = f (M.fit s b w))
    (hpred : ∀ s xs, M'.predict (f s) xs = ((M.predict s xs).1.map g, f (M.predict s xs).2))
    (order : List τ → List Nat) (weighted : Bool) (amax : Int) (d : DState σ τ X Y P ω)
    (b : List (Sample τ X Y ω)) :
    iter M' (byTimes order) weighted amax (mapD f g d) b =
      (mapD f g (iter M (byTimes order) weighted amax d b).1,
        (iter M (byTimes order) weighted amax d b).2) := by
  unfold iter
  cases b.getLast? with
  | none => rfl
  | some newest =>
    dsimp only
    have e : TM.updateTimestamp (mapD f g d).tm newest.arrival =
      mapT g (TM.updateTimestamp d.tm newest.arrival) := rfl
    rw [e, getAvailable_map]
    generalize TM.getAvailable (TM.updateTimestamp d.tm newest.arrival) = ra
    dsimp only
    rw [payload_map]
    have e2 : ({ mapD f g d with tm := mapT g ra.2 } : DState σ' τ X Y P' ω) =
      mapD f g { d with tm := ra.2 } := rfl
    rw [e2, updateMetrics_map]
    rcases updateMetrics amax { d with tm := ra.2 } (ra.1.map TM.Row.payload) with ⟨d1, _ | _⟩
    · rfl
    · dsimp only
      rw [fst_map, updateClassifiers_map hfit, predictOn_map hpred]
      dsimp only
      have e3 : ∀ z : DState σ τ X Y P ω, (mapD f g z).tm = mapT g z.tm := fun _ => rfl
      rw [e3, updateQueue_map]
      rfl

theorem mainLoop_map (hfit : ∀ s b w, M'.fit (f s) b w = f (M.fit s b w))
    (hpred : ∀ s xs, M'.predict (f s) xs = ((M.predict s xs).1.map g, f (M.predict s xs).2))
    (order : List τ → List Nat) (s : Src (Sample τ X Y ω)) (weighted : Bool) (batch : Nat) (amax : Int)
    (timeOk : Nat → Bool) (fuel k idx : Nat) (d : DState σ τ X Y P ω) :
    mainLoop M' (byTimes order) s weighted batch amax timeOk fuel k idx (mapD f g d) =
      (mainLoop M (byTimes order) s weighted batch amax timeOk fuel k idx d).map
        fun r => (r.1, mapD f g r.2) := by
  induction fuel generalizing k idx d with
  | zero => rfl
  | succ n ih =>
    unfold mainLoop
    have e : (mapD f g d).count = d.count := rfl
    rw [e]
    split
    · rw [iter_map hfit hpred]
      rcases iter M (byTimes order) weighted amax d (s.take idx batch) with ⟨d1, _ | _⟩
      · rfl
      · exact ih _ _ _
    · rfl

theorem drainLoop_map (hfit : ∀ s b w, M'.fit (f s) b w = f (M.fit s b w)) (batch : Nat) (amax : Int)
    (fuel : Nat) (d : DState σ τ X Y P ω) :
    drainLoop M' batch amax fuel (mapD f g d) =
      (drainLoop M batch amax fuel d).map fun r => r.map (mapD f g) := by
  induction fuel generalizing d with
  | zero => rfl
  | succ n ih =>
    unfold drainLoop
    have e : TM.hasMore (mapD f g d).tm = TM.hasMore d.tm := by simp [TM.hasMore, mapD, mapT]
    have e1 : (mapD f g d).tm = mapT g d.tm := rfl
    rw [e]
    split
    · rw [e1, nextSample_map]
      rcases TM.nextSample d.tm batch with _ | ⟨rows, tm⟩
      · rfl
      · dsimp only [Except.map]
        rw [payload_map]
        have e2 : ({ mapD f g d with tm := mapT g tm } : DState σ' τ X Y P' ω) =
          mapD f g { d with tm := tm } := rfl
        rw [e2, updateMetrics_map]
        rcases updateMetrics amax { d with tm := tm } (rows.map TM.Row.payload) with ⟨d1, _ | _⟩
        · rfl
        · dsimp only
          rw [fst_map, updateClassifiers_map hfit]
          exact ih _
    · rfl

theorem evaluate_map (hfit : ∀ s b w, M'.fit (f s) b w = f (M.fit s b w))
    (hpred : ∀ s xs, M'.predict (f s) xs = ((M.predict s xs).1.map g, f (M.predict s xs).2))
    (order : List τ → List Nat) (s : Src (Sample τ X Y ω)) (weighted : Bool)
    (idx pretrain batch maxSamples : Nat) (timeOk : Nat → Bool) (fuel : Nat) (s0 : σ) :
    evaluate M' (byTimes order) s weighted idx pretrain batch maxSamples timeOk fuel (f s0) =
      (evaluate M (byTimes order) s weighted idx pretrain batch maxSamples timeOk fuel s0).map
        fun r => r.map fun q => (q.1, mapD f g q.2) := by
  unfold evaluate
  dsimp only
  split
  · cases (s.take idx pretrain).getLast? with
    | none => rfl
    | some newest =>
      dsimp only
      have e : ({ fitOn M' (⟨f s0, TM.init newest.arrival, 0, []⟩ : DState σ' τ X Y P' ω) (s.take idx pretrain)
            (weightsOf weighted (s.take idx pretrain)) with count := pretrain } : DState σ' τ X Y P' ω) =
          mapD f g { fitOn M (⟨s0, TM.init newest.arrival, 0, []⟩ : DState σ τ X Y P ω) (s.take idx pretrain)
            (weightsOf weighted (s.take idx pretrain)) with count := pretrain } := by
        simp [fitOn, mapD, hfit, mapE, TM.init, mapT]
      rw [e, mainLoop_map hfit hpred]
      rcases mainLoop M (byTimes order) s weighted batch (actualMax s idx maxSamples) timeOk fuel 0 (idx + pretrain)
        { fitOn M (⟨s0, TM.init newest.arrival, 0, []⟩ : DState σ τ X Y P ω) (s.take idx pretrain)
            (weightsOf weighted (s.take idx pretrain)) with count := pretrain } with _ | ⟨i, d⟩
      · rfl
      · dsimp only [Option.map]
        have e2 : ({ mapD f g d with log := (mapD f g d).log ++ [.drain] } : DState σ' τ X Y P' ω) =
          mapD f g { d with log := d.log ++ [.drain] } := by simp [mapD, mapE]
        rw [e2, drainLoop_map hfit]
        rcases drainLoop M batch (actualMax s idx maxSamples) fuel { d with log := d.log ++ [.drain] } with
          _ | _ | _ <;> rfl
  · rfl

end

/-! ### Rows -/

theorem addTo_one (M : Meters Y Q μ ν) (c : P → Q) (ps : List (Sample τ X Y ω × P)) (x : μ × ν) :
    addTo M (ps.map fun p => (p.1, c p.2)) ((id : Q → Q), x) =
      (addTo M ps (c, x)).map fun r => ((id : Q → Q), r.2) := by
  unfold addTo
  simp only [List.map_map]
  have : ((fun p : Sample τ X Y ω × Q => (p.1.y, id p.2)) ∘ fun p : Sample τ X Y ω × P => (p.1, c p.2)) =
    fun p => (p.1.y, c p.2) := rfl
  rw [this]
  cases addResults M (ps.map fun p => (p.1.y, c p.2)) x <;> rfl

theorem addTo_fst (M : Meters Y Q μ ν) (ps : List (Sample τ X Y ω × P)) (a b : (P → Q) × μ × ν)
    (h : addTo M ps a = .ok b) : b.1 = a.1 := by
  unfold addTo at h
  split at h
  · cases h
  · cases h; rfl

theorem each_get {α β : Type} (F : α → Except PyErr β) (l : List α) (r : List β) (h : each F l = .ok r)
    (j : Nat) (a : α) (ha : l[j]? = some a) : ∃ b, r[j]? = some b ∧ F a = .ok b := by
  induction l generalizing r j with
  | nil => simp at ha
  | cons x l ih =>
    unfold each at h
    cases hx : F x with
    | error e => rw [hx] at h; cases h
    | ok y =>
      rw [hx] at h
      cases hl : each F l with
      | error e => rw [hl] at h; cases h
      | ok r' =>
        rw [hl] at h
        cases h
        cases j with
        | zero =>
          simp only [List.getElem?_cons_zero, Option.some.injEq] at ha
          exact ⟨y, by simp, ha ▸ hx⟩
        | succ j =>
          simp only [List.getElem?_cons_succ] at ha ⊢
          exact ih r' hl j ha

/-- The board of model `j` alone. -/
def Solo (j : Nat) (c : P → Q) (t : Board P Q μ ν) (u : Board Q Q μ ν) : Prop :=
  u.count = t.count ∧ u.upd = t.upd ∧ (∃ x, t.meters[j]? = some (c, x) ∧ u.meters = [(id, x)]) ∧
    u.rows.map (fun r => (r.1, r.2[0]?)) = t.rows.map (fun r => (r.1, r.2[j]?))

theorem boardStep_solo (M : Meters Y Q μ ν) (n m b : Nat) (j : Nat) (c : P → Q) (t t' : Board P Q μ ν)
    (u : Board Q Q μ ν) (e : DEv τ X Y P ω) (hs : Solo j c t u) (h : boardStep M n m b t e = .ok t') :
    ∃ u', boardStep M n m b u (mapE c e) = .ok u' ∧ Solo j c t' u' := by
  obtain ⟨h1, h2, ⟨x, h3, h4⟩, h5⟩ := hs
  cases e with
  | predict ps => cases h; exact ⟨u, rfl, h1, h2, ⟨x, h3, h4⟩, h5⟩
  | drain => cases h; exact ⟨u, rfl, h1, h2, ⟨x, h3, h4⟩, h5⟩
  | train bb w =>
    cases h
    refine ⟨_, rfl, ?_, h2, ⟨x, h3, h4⟩, h5⟩
    simp only [h1]
  | score ps =>
    simp only [boardStep] at h
    cases he : each (addTo M ps) t.meters with
    | error e => rw [he] at h; cases h
    | ok ms =>
      rw [he] at h
      dsimp only at h
      obtain ⟨⟨c', x'⟩, hj, ha⟩ := each_get _ _ _ he j _ h3
      have hc := addTo_fst M ps _ _ ha
      dsimp only at hc
      subst hc
      simp only [mapE, boardStep, h4, each, addTo_one, ha, Except.map, h1, h2]
      split at h
      · rename_i hd
        cases h
        rw [if_pos hd]
        refine ⟨_, rfl, rfl, rfl, ⟨x', hj, rfl⟩, ?_⟩
        simp [h5, hj]
      · rename_i hd
        cases h
        rw [if_neg hd]
        exact ⟨_, rfl, rfl, rfl, ⟨x', hj, rfl⟩, h5⟩

theorem boardRun_solo (M : Meters Y Q μ ν) (n m b : Nat) (j : Nat) (c : P → Q) (l : List (DEv τ X Y P ω))
    (t t' : Board P Q μ ν) (u : Board Q Q μ ν) (hs : Solo j c t u) (h : boardRun M n m b l t = .ok t') :
    ∃ u', boardRun M n m b (l.map (mapE c)) u = .ok u' ∧ Solo j c t' u' := by
  induction l generalizing t u with
  | nil => cases h; exact ⟨u, rfl, hs⟩
  | cons e l ih =>
    simp only [boardRun] at h
    cases he : boardStep M n m b t e with
    | error x => rw [he] at h; cases h
    | ok t1 =>
      rw [he] at h
      obtain ⟨u1, hu, hs1⟩ := boardStep_solo M n m b j c t t1 u e hs he
      obtain ⟨u', hr, hs'⟩ := ih t1 u1 hs1 h
      exact ⟨u', by simp only [List.map_cons, boardRun, hu, hr], hs'⟩

theorem each_ok {α β : Type} (F : α → Except PyErr β) (l : List α) (h : ∀ a ∈ l, ∃ b, F a = .ok b) :
    ∃ r, each F l = .ok r ∧ r.length = l.length := by
  induction l with
  | nil => exact ⟨[], rfl, rfl⟩
  | cons a l ih =>
    obtain ⟨b, hb⟩ := h a (by simp)
    obtain ⟨r, hr, hl⟩ := ih fun x hx => h x (by simp [hx])
    exact ⟨b :: r, by simp only [each, hb, hr], by simp [hl]⟩

theorem boardStep_all {m : Nat} (M : Meters Y Q μ ν) (n k b : Nat) (t : Board (Fin m → Q) Q μ ν)
    (u : Fin m → Board Q Q μ ν) (e : DEv τ X Y (Fin m → Q) ω) (hl : t.meters.length = m)
    (hs : ∀ j : Fin m, Solo j (fun p : Fin m → Q => p j) t (u j))
    (h : ∀ j : Fin m, ∃ u', boardStep M n k b (u j) (mapE (fun p => p j) e) = .ok u') :
    ∃ t', boardStep M n k b t e = .ok t' ∧ t'.meters.length = m := by
  cases e with
  | predict ps => exact ⟨t, rfl, hl⟩
  | drain => exact ⟨t, rfl, hl⟩
  | train bb w => exact ⟨_, rfl, hl⟩
  | score ps =>
    obtain ⟨r, hr, hrl⟩ := each_ok (addTo M ps) t.meters (by
      intro a ha
      obtain ⟨i, hi, hai⟩ := List.mem_iff_getElem.mp ha
      obtain ⟨_, _, ⟨x, h3, h4⟩, _⟩ := hs ⟨i, hl ▸ hi⟩
      obtain ⟨u', hu⟩ := h ⟨i, hl ▸ hi⟩
      rw [List.getElem?_eq_getElem hi, Option.some.injEq, hai] at h3
      subst h3
      have ho := addTo_one M (fun p : Fin m → Q => p ⟨i, hl ▸ hi⟩) ps x
      simp only [mapE, boardStep, h4, each, ho] at hu
      cases hx : addTo M ps (fun p => p ⟨i, hl ▸ hi⟩, x) with
      | ok y => exact ⟨y, rfl⟩
      | error e => rw [hx] at hu; cases hu)
    simp only [boardStep, hr]
    split
    · exact ⟨_, rfl, hrl.trans hl⟩
    · exact ⟨_, rfl, hrl.trans hl⟩

theorem boardRun_all {m : Nat} (M : Meters Y Q μ ν) (n k b : Nat) (l : List (DEv τ X Y (Fin m → Q) ω))
    (t : Board (Fin m → Q) Q μ ν) (u : Fin m → Board Q Q μ ν) (hl : t.meters.length = m)
    (hs : ∀ j : Fin m, Solo j (fun p : Fin m → Q => p j) t (u j))
    (h : ∀ j : Fin m, ∃ u', boardRun M n k b (l.map (mapE fun p => p j)) (u j) = .ok u') :
    ∃ t', boardRun M n k b l t = .ok t' := by
  induction l generalizing t u with
  | nil => exact ⟨t, rfl⟩
  | cons e l ih =>
    have h1 : ∀ j, ∃ u1, boardStep M n k b (u j) (mapE (fun p => p j) e) = .ok u1 := by
      intro j
      obtain ⟨u', hu⟩ := h j
      simp only [List.map_cons, boardRun] at hu
      cases hx : boardStep M n k b (u j) (mapE (fun p => p j) e) with
      | ok y => exact ⟨y, rfl⟩
      | error e => rw [hx] at hu; cases hu
    obtain ⟨t1, ht1, hl1⟩ := boardStep_all M n k b t u e hl hs h1
    choose v hv hsv using fun j : Fin m => boardStep_solo M n k b j (fun p : Fin m → Q => p j) t t1 (u j) e (hs j) ht1
    obtain ⟨t', ht'⟩ := ih t1 v hl1 hsv (by
      intro j
      obtain ⟨u', hu⟩ := h j
      simp only [List.map_cons, boardRun, hv j] at hu
      exact ⟨u', hu⟩)
    exact ⟨t', by simp only [boardRun, ht1, ht']⟩

/-! ### C313 -/

theorem together_predict {m : Nat} {σs : Fin m → Type} [Inhabited Q]
    (Ms : (j : Fin m) → Methods (σs j) X Y Q ω) (j : Fin m)
    (hlen : ∀ s xs, ((Ms j).predict s xs).1.length = xs.length) (s : (j : Fin m) → σs j) (xs : List X) :
    (Ms j).predict (s j) xs =
      (((together Ms).predict s xs).1.map (fun p => p j), ((together Ms).predict s xs).2 j) := by
  refine Prod.ext ?_ rfl
  simp only [together, List.map_map]
  apply List.ext_getElem
  · simp [hlen]
  · intro i h1 h2
    simp [List.getElem?_eq_getElem h1]

/-- Every model of a delayed evaluation makes, has scored and is trained as in an evaluation of it
alone: the log is the same with its own predictions, and so are its final state, the position in
the stream and the exception, if any. -/
theorem C313_alone [LinearOrder τ] {m : Nat} {σs : Fin m → Type} [Inhabited Q]
    (Ms : (j : Fin m) → Methods (σs j) X Y Q ω) (j : Fin m)
    (hlen : ∀ s xs, ((Ms j).predict s xs).1.length = xs.length)
    (order : List τ → List Nat) (s : Src (Sample τ X Y ω)) (weighted : Bool)
    (idx pretrain batch maxSamples : Nat) (timeOk : Nat → Bool) (fuel : Nat) (s0 : (j : Fin m) → σs j) :
    (evaluate (Ms j) (byTimes order) s weighted idx pretrain batch maxSamples timeOk fuel (s0 j)).map
        (fun r => r.map fun q => (q.1, q.2.learner, q.2.count, q.2.log)) =
      (evaluate (together Ms) (byTimes order) s weighted idx pretrain batch maxSamples timeOk fuel s0).map
        (fun r => r.map fun q => (q.1, q.2.learner j, q.2.count, q.2.log.map (mapE fun p => p j))) := by
  have h := evaluate_map (M := together Ms) (M' := Ms j) (f := fun s => s j) (g := fun p => p j)
    (fun _ _ _ => rfl) (fun s xs => together_predict Ms j hlen s xs) order s weighted idx pretrain batch
    maxSamples timeOk fuel s0
  rw [h]
  rcases evaluate (together Ms) (byTimes order) s weighted idx pretrain batch maxSamples timeOk fuel s0 with
    _ | _ | _ <;> rfl

/-- The rows of a delayed evaluation of several models hold, for every model, at the same ids the
measurements of an evaluation of it alone. -/
theorem C313_same_rows [LinearOrder τ] {m : Nat} {σs : Fin m → Type} [Inhabited Q]
    (Ms : (j : Fin m) → Methods (σs j) X Y Q ω) (j : Fin m)
    (hlen : ∀ s xs, ((Ms j).predict s xs).1.length = xs.length) (N : Meters Y Q μ ν) (new : μ × ν)
    (order : List τ → List Nat) (s : Src (Sample τ X Y ω)) (weighted : Bool)
    (idx pretrain batch maxSamples nWait : Nat) (timeOk : Nat → Bool) (fuel : Nat)
    (s0 : (j : Fin m) → σs j) (q : Nat × DState ((j : Fin m) → σs j) τ X Y (Fin m → Q) ω)
    (R : List (Int × List (μ × ν)))
    (he : evaluate (together Ms) (byTimes order) s weighted idx pretrain batch maxSamples timeOk fuel s0 =
      some (.ok q))
    (hR : scoreRows N nWait maxSamples batch pretrain (List.ofFn fun j p => p j) new q.2.log = .ok R) :
    ∃ q' R', evaluate (Ms j) (byTimes order) s weighted idx pretrain batch maxSamples timeOk fuel (s0 j) =
        some (.ok q') ∧
      scoreRows N nWait maxSamples batch pretrain [id] new q'.2.log = .ok R' ∧
      R'.map (fun r => (r.1, r.2[0]?)) = R.map (fun r => (r.1, r.2[(j : Nat)]?)) := by
  have h := evaluate_map (M := together Ms) (M' := Ms j) (f := fun s => s j) (g := fun p => p j)
    (fun _ _ _ => rfl) (fun s xs => together_predict Ms j hlen s xs) order s weighted idx pretrain batch
    maxSamples timeOk fuel s0
  rw [he] at h
  unfold scoreRows at hR
  cases hb : boardRun N nWait maxSamples batch q.2.log.tail
      ⟨pretrain, 0, (List.ofFn fun j p => p j).map fun c => (c, new), []⟩ with
  | error e => rw [hb] at hR; cases hR
  | ok t =>
    rw [hb] at hR
    cases hR
    obtain ⟨u, hu, hs⟩ := boardRun_solo N nWait maxSamples batch j (fun p : Fin m → Q => p j) _ _ _
      ⟨pretrain, 0, [(id, new)], []⟩
      ⟨rfl, rfl, ⟨new, by simp, rfl⟩, rfl⟩ hb
    refine ⟨_, u.rows, h, ?_, hs.2.2.2⟩
    have : (mapD (fun s : (j : Fin m) → σs j => s j) (fun p : Fin m → Q => p j) q.2).log.tail =
      q.2.log.tail.map (mapE fun p => p j) := by simp [mapD, List.map_tail]
    simp only [scoreRows, this, List.map_cons, List.map_nil, hu]

/-- The scores of several models can be computed if those of every model alone can: no model makes
the evaluation of the others raise that would not raise alone. -/
theorem C313_no_exception [LinearOrder τ] {m : Nat} {σs : Fin m → Type} [Inhabited Q]
    (Ms : (j : Fin m) → Methods (σs j) X Y Q ω)
    (hlen : ∀ j s xs, ((Ms j).predict s xs).1.length = xs.length) (N : Meters Y Q μ ν) (new : μ × ν)
    (order : List τ → List Nat) (s : Src (Sample τ X Y ω)) (weighted : Bool)
    (idx pretrain batch maxSamples nWait : Nat) (timeOk : Nat → Bool) (fuel : Nat)
    (s0 : (j : Fin m) → σs j) (q : Nat × DState ((j : Fin m) → σs j) τ X Y (Fin m → Q) ω)
    (he : evaluate (together Ms) (byTimes order) s weighted idx pretrain batch maxSamples timeOk fuel s0 =
      some (.ok q))
    (hj : ∀ j, ∃ q' R', evaluate (Ms j) (byTimes order) s weighted idx pretrain batch maxSamples timeOk fuel
        (s0 j) = some (.ok q') ∧
      scoreRows N nWait maxSamples batch pretrain [id] new q'.2.log = .ok R') :
    ∃ R, scoreRows N nWait maxSamples batch pretrain (List.ofFn fun j p => p j) new q.2.log = .ok R := by
  obtain ⟨t, ht⟩ := boardRun_all N nWait maxSamples batch q.2.log.tail
    ⟨pretrain, 0, (List.ofFn fun (j : Fin m) (p : Fin m → Q) => p j).map fun c => (c, new), []⟩
    (fun _ => ⟨pretrain, 0, [(id, new)], []⟩) (by simp)
    (fun j => ⟨rfl, rfl, ⟨new, by simp, rfl⟩, rfl⟩) (by
      intro j
      obtain ⟨q', R', h1, h2⟩ := hj j
      have h := evaluate_map (M := together Ms) (M' := Ms j) (f := fun s => s j) (g := fun p => p j)
        (fun _ _ _ => rfl) (fun s xs => together_predict Ms j (hlen j) s xs) order s weighted idx pretrain
        batch maxSamples timeOk fuel s0
      rw [he] at h
      have e : q' = (q.1, mapD (fun s : (j : Fin m) → σs j => s j) (fun p : Fin m → Q => p j) q.2) := by
        have := h1.symm.trans h
        simpa [Except.map] using this
      subst e
      have : (mapD (fun s : (j : Fin m) → σs j => s j) (fun p : Fin m → Q => p j) q.2).log.tail =
        q.2.log.tail.map (mapE fun p => p j) := by simp [mapD, List.map_tail]
      simp only [scoreRows, this, List.map_cons, List.map_nil] at h2
      cases hx : boardRun N nWait maxSamples batch (q.2.log.tail.map (mapE fun p => p j))
          ⟨pretrain, 0, [(id, new)], []⟩ with
      | ok y => exact ⟨y, rfl⟩
      | error e => rw [hx] at h2; cases h2)
  exact ⟨t.rows, by simp only [scoreRows, ht]⟩

/-! The two models of `DelayedScores.lean`, one that predicts the number of samples learnt and one
that always predicts 5, with an order that sorts the times stably. -/

def counter : Methods Nat Nat Int Int Nat := ⟨fun s b _ => s + b.length, fun s xs => (xs.map fun _ => (s : Int), s)⟩

def fives : Methods Nat Nat Int Int Nat := ⟨fun s _ _ => s, fun s xs => (xs.map fun _ => 5, s)⟩

def pair : (j : Fin 2) → Methods Nat Nat Int Int Nat := fun j => if j = 0 then counter else fives

def stable (ts : List Nat) : List Nat :=
  (ts.zipIdx.foldr (fun a l => l.takeWhile (fun b => b.1 < a.1) ++ a :: l.dropWhile (fun b => b.1 < a.1))
    []).map Prod.snd

example : ∀ j s xs, ((pair j).predict s xs).1.length = xs.length := by
  intro j s xs
  unfold pair
  split <;> simp [counter, fives]

def jointRows : Option (List (Int × List (ℚ × ℚ))) :=
  (((evaluate (together pair) (byTimes stable) lateLabels false 0 2 1 100 (fun _ => true) 30
    (fun _ => 0)).bind fun r => r.toOption).bind (fun q => (scoreRows (classMeters fun _ _ => 0) 5 100 1 2
      (List.ofFn fun j p => p j) (Metrics.Eval.init 2, Metrics.WEval.init 2 3) q.2.log).toOption)).map
      (fun rows => rows.map fun r => (r.1, r.2.map fun m =>
        ((classMeters fun _ _ => 0).mean m.1 .accuracy, (classMeters fun _ _ => 0).cur m.2 .accuracy)))

example : jointRows =
    some [(4, [(1/4, 0), (1/4, 1/3)]), (9, [(1/9, 0), (1/9, 0)]), (14, [(1/14, 0), (1/14, 0)]),
      (19, [(1/19, 0), (1/19, 0)])] := by decide +kernel

end Verif.Evaluation.Delayed
