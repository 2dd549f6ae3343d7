import Verif.Evaluation.Delayed

/-! C27, C57, C58: prequential evaluation with delayed labels. -/

namespace Verif.Evaluation.Delayed

open Verif.Streams

variable {σ τ X Y P ω : Type} [LinearOrder τ]

theorem trained_append (a b : List (DEv τ X Y P ω)) : trained (a ++ b) = trained a ++ trained b := by
  induction a with
  | nil => rfl
  | cons e a ih => cases e <;> simp [trained, ih]

theorem predicted_append (a b : List (DEv τ X Y P ω)) :
    predicted (a ++ b) = predicted a ++ predicted b := by
  induction a with
  | nil => rfl
  | cons e a ih => cases e <;> simp [predicted, ih]

theorem scored_append (a b : List (DEv τ X Y P ω)) : scored (a ++ b) = scored a ++ scored b := by
  induction a with
  | nil => rfl
  | cons e a ih => cases e <;> simp [scored, ih]

theorem drained_append (a b : List (DEv τ X Y P ω)) :
    drained (a ++ b) = (drained a || drained b) := by
  induction a with
  | nil => simp [drained]
  | cons e a ih => cases e <;> simp [drained, ih]

theorem replay_append (M : Methods σ X Y P ω) (a b : List (DEv τ X Y P ω)) (s : σ) :
    replay M (a ++ b) s = replay M b (replay M a s) := by
  induction a generalizing s with
  | nil => rfl
  | cons e a ih => cases e <;> simp [replay, ih]

theorem split_snoc {α : Type} {l l1 l2 : List α} {a e : α} (h : l ++ [a] = l1 ++ e :: l2) :
    (∃ l2', l = l1 ++ e :: l2' ∧ l2 = l2' ++ [a]) ∨ (l = l1 ∧ a = e ∧ l2 = []) := by
  rcases List.eq_nil_or_concat l2 with rfl | ⟨l2', z, rfl⟩
  · right
    have := List.append_inj' h rfl
    simp at this
    exact ⟨this.1, this.2, rfl⟩
  · left
    have h' : l ++ [a] = (l1 ++ e :: l2') ++ [z] := by simpa using h
    have := List.append_inj' h' rfl
    simp at this
    exact ⟨l2', this.1, by simp [this.2]⟩

/-- Appending anything but a training step keeps `TrainsAvailable`. -/
theorem TrainsAvailable.snoc_other {pre : List (Sample τ X Y ω)} {log : List (DEv τ X Y P ω)}
    (h : TrainsAvailable pre log) (e : DEv τ X Y P ω) (he : ∀ b ws, e ≠ .train b ws) :
    TrainsAvailable pre (log ++ [e]) := by
  intro l1 b ws l2 eq
  rcases split_snoc eq with ⟨l2', h1, h2⟩ | ⟨_, h2, _⟩
  · rcases h l1 b ws l2' h1 with h3 | ⟨h3, h4, h5⟩
    · exact .inl h3
    · refine .inr ⟨h3, h4, ?_⟩
      rcases h5 with h5 | ⟨ps, l3, n, h5, h6⟩
      · exact .inl h5
      · exact .inr ⟨ps, l3 ++ [e], n, by rw [h2, h5]; rfl, h6⟩
  · exact absurd h2 (he b ws)

theorem PredictsNow.snoc_other {M : Methods σ X Y P ω} {s0 : σ} {log : List (DEv τ X Y P ω)}
    (h : PredictsNow M s0 log) (e : DEv τ X Y P ω) (he : ∀ ps, e ≠ .predict ps) :
    PredictsNow M s0 (log ++ [e]) := by
  intro l1 ps l2 eq
  rcases split_snoc eq with ⟨l2', h1, _⟩ | ⟨_, h2, _⟩
  · exact h l1 ps l2' h1
  · exact absurd h2 (he ps)

theorem PredictsNow.snoc {M : Methods σ X Y P ω} {s0 : σ} {log : List (DEv τ X Y P ω)}
    (h : PredictsNow M s0 log) (ps : List (Sample τ X Y ω × P))
    (hp : ps.map Prod.snd = (M.predict (replay M log s0) (ps.map fun p => p.1.x)).1) :
    PredictsNow M s0 (log ++ [.predict ps]) := by
  intro l1 qs l2 eq
  rcases split_snoc eq with ⟨l2', h1, _⟩ | ⟨h1, h2, _⟩
  · exact h l1 qs l2' h1
  · subst h1
    injection h2 with h2
    subst h2
    exact hp

/-- Samples in the queue. -/
def waiting (d : DState σ τ X Y P ω) : List (Sample τ X Y ω × P) := d.tm.queue.map TM.Row.payload

/-- Invariant after `c` samples were consumed. -/
structure Inv (M : Methods σ X Y P ω) (s0 : σ) (s : Src (Sample τ X Y ω)) (idx pre c : Nat)
    (d : DState σ τ X Y P ω) : Prop where
  once : (trained d.log ++ (waiting d).map Prod.fst).Perm (s.take idx c)
  pred : (predicted d.log).map Prod.fst = s.take (idx + pre) (c - pre)
  sc : (scored d.log ++ waiting d).Perm (predicted d.log)
  avail : ∀ r ∈ d.tm.queue, r.available = r.payload.1.available
  uw : d.tm.useWeight = false ∨ d.tm.queue = []
  ta : TrainsAvailable (s.take idx pre) d.log
  pn : PredictsNow M s0 d.log
  st : d.learner = replay M d.log s0
  cnt : d.count + (s.take idx pre).length = pre + (trained d.log).length

theorem Inv.consumed {M : Methods σ X Y P ω} {s0 : σ} {s : Src (Sample τ X Y ω)} {idx pre c : Nat}
    {d : DState σ τ X Y P ω} (h : Inv M s0 s idx pre c d) (hc : pre ≤ c) :
    s.take idx c = s.take idx pre ++ (predicted d.log).map Prod.fst := by
  rw [h.pred]
  have e : c = pre + (c - pre) := by omega
  conv_lhs => rw [e]
  exact s.take_add idx pre (c - pre)

theorem subperm_wait {M : Methods σ X Y P ω} {s0 : σ} {s : Src (Sample τ X Y ω)} {idx pre c : Nat}
    {d : DState σ τ X Y P ω} (h : Inv M s0 s idx pre c d) (hc : pre ≤ c)
    (ps : List (Sample τ X Y ω × P)) (hs : ps.Subperm (waiting d)) :
    (trained d.log ++ ps.map Prod.fst).Subperm
      (s.take idx pre ++ (predicted d.log).map Prod.fst) := by
  rw [← h.consumed hc]
  refine List.Subperm.trans ?_ h.once.subperm
  obtain ⟨l, hl, hsub⟩ := hs
  refine ⟨trained d.log ++ l.map Prod.fst, (hl.map _).append_left _, ?_⟩
  exact (List.Sublist.refl _).append (hsub.map _)

theorem filter_perm (tm : TM.State τ (Sample τ X Y ω × P) ω) :
    (((TM.getAvailable tm).1.map TM.Row.payload) ++
      (TM.getAvailable tm).2.queue.map TM.Row.payload).Perm (tm.queue.map TM.Row.payload) := by
  rw [← List.map_append]
  exact (TM.filter_split _ _).map _

/-- One iteration of the main loop on a non-empty batch keeps the invariant. -/
theorem Inv.iter {M : Methods σ X Y P ω} (hM : ∀ s xs, (M.predict s xs).1.length = xs.length) {s0 : σ}
    {sort : Sorter τ X Y P ω} (hs : TM.Sorts sort)
    {s : Src (Sample τ X Y ω)} {idx pre c : Nat} {d : DState σ τ X Y P ω}
    (h : Inv M s0 s idx pre c d) (hc : pre ≤ c) (batch : Nat) (amax : Int) (ha : 20 ≤ amax)
    (hne : s.take (idx + c) batch ≠ []) :
    ∃ d', iter M sort false amax d (s.take (idx + c) batch) = (d', .ok ()) ∧
      Inv M s0 s idx pre (c + batch) d' ∧ (drained d'.log = drained d.log) ∧
      d'.tm.queue.length ≤ d.tm.queue.length + batch := by
  set b := s.take (idx + c) batch with hb
  obtain ⟨newest, hnew⟩ : ∃ n, b.getLast? = some n := by
    rw [List.getLast?_eq_getLast_of_ne_nil hne]; exact ⟨_, rfl⟩
  have hcons : s.take idx (c + batch) = s.take idx c ++ b := s.take_add idx c batch
  have htail : s.take (idx + pre) (c + batch - pre) = s.take (idx + pre) (c - pre) ++ b := by
    have e : c + batch - pre = (c - pre) + batch := by omega
    rw [e, s.take_add, hb]
    have e2 : idx + pre + (c - pre) = idx + c := by omega
    rw [e2]
  have hblen : b.length ≤ batch := by
    rw [hb, s.length_take]; cases s.len <;> simp
  set tm1 := TM.updateTimestamp d.tm newest.arrival with htm1
  set rows := (TM.getAvailable tm1).1 with hrows
  set tm2 := (TM.getAvailable tm1).2 with htm2
  set ps := rows.map TM.Row.payload with hps
  have hsplit : (ps ++ tm2.queue.map TM.Row.payload).Perm (waiting d) := filter_perm tm1
  have hq2 : tm2.queue.length ≤ d.tm.queue.length := by
    have := hsplit.length_eq
    simp only [List.length_append, List.length_map, waiting] at this
    omega
  have hpsavail : ∀ x ∈ ps.map Prod.fst, x.available ≤ newest.arrival := by
    intro x hx
    obtain ⟨p, hp, rfl⟩ := List.mem_map.mp hx
    obtain ⟨r, hr, rfl⟩ := List.mem_map.mp hp
    have h1 := List.mem_filter.mp hr
    rw [← h.avail r h1.1]
    simpa [TM.updateTimestamp, htm1] using h1.2
  have hav2 : ∀ r ∈ tm2.queue, r.available = r.payload.1.available :=
    fun r hr => h.avail r (List.mem_filter.mp hr).1
  -- the state after the update of the learner, before the prediction
  have key : ∃ d2 : DState σ τ X Y P ω, d2.tm = tm2 ∧
      Delayed.iter M sort false amax d b =
        ({ (predictOn M d2 b).1 with
           tm := TM.updateQueue sort d2.tm
            ((predictOn M d2 b).2.map fun q => (q, q.1.arrival, q.1.available)) none }, .ok ()) ∧
      trained d2.log = trained d.log ++ ps.map Prod.fst ∧ predicted d2.log = predicted d.log ∧
      scored d2.log = scored d.log ++ ps ∧ d2.count = d.count + ps.length ∧ d2.learner = replay M d2.log s0 ∧
      PredictsNow M s0 d2.log ∧ drained d2.log = drained d.log ∧
      (∀ qs, (qs.map Prod.fst).getLast? = some newest →
        TrainsAvailable (s.take idx pre) (d2.log ++ [.predict qs])) := by
    by_cases hp0 : ps.length > 0
    · refine ⟨updateClassifiers M { d with tm := tm2, log := d.log ++ [.score ps] } (ps.map Prod.fst) none,
        ?_, ?_, ?_⟩
      · unfold updateClassifiers; split <;> rfl
      · unfold Delayed.iter
        simp only [hnew]
        rw [show TM.getAvailable (TM.updateTimestamp d.tm newest.arrival) = (rows, tm2) from rfl]
        simp only [← hps, updateMetrics, if_pos hp0, checkProgress_ok ha]
        rfl
      · have hl : (ps.map Prod.fst).length > 0 := by simpa using hp0
        have hd2 : (updateClassifiers M { d with tm := tm2, log := d.log ++ [.score ps] }
            (ps.map Prod.fst) none).log = d.log ++ [.score ps] ++ [.train (ps.map Prod.fst) none] := by
          unfold updateClassifiers
          rw [if_pos hl]
          rfl
        have hlr : (updateClassifiers M { d with tm := tm2, log := d.log ++ [.score ps] }
            (ps.map Prod.fst) none).learner =
              M.fit d.learner ((ps.map Prod.fst).map fun s => (s.x, s.y)) none := by
          unfold updateClassifiers
          rw [if_pos hl]
          rfl
        have hct : (updateClassifiers M { d with tm := tm2, log := d.log ++ [.score ps] }
            (ps.map Prod.fst) none).count = d.count + ps.length := by
          unfold updateClassifiers
          rw [if_pos hl, List.length_map]
        rw [hlr, hd2, hct]
        refine ⟨?_, ?_, ?_, rfl, ?_, ?_, ?_, ?_⟩
        · simp [trained_append, trained]
        · simp [predicted_append, predicted]
        · simp [scored_append, scored]
        · simp only [replay_append, ← h.st]; simp [replay]
        · exact (h.pn.snoc_other _ (by intro; simp)).snoc_other _ (by intro; simp)
        · simp [drained_append, drained]
        · intro qs hqs l1 b' ws l2 eq
          rcases split_snoc eq with ⟨l2', h1, h2⟩ | ⟨_, h2, _⟩
          · rcases split_snoc h1 with ⟨l3, h3, h4⟩ | ⟨h3, h4, h5⟩
            · rcases h.ta.snoc_other (.score ps) (by intro _ _; simp) l1 b' ws l3 h3 with
                h6 | ⟨h6, h7, h8⟩
              · exact .inl h6
              · refine .inr ⟨h6, h7, ?_⟩
                rcases h8 with h8 | ⟨ps', l4, n, h8, h9⟩
                · exact .inl h8
                · exact .inr ⟨ps', _, n, by rw [h2, h4, h8]; rfl, h9⟩
            · injection h4 with h4 h4'
              subst h4
              subst h3
              refine .inr ⟨?_, ⟨d.log, ps, rfl, rfl⟩, .inr ⟨qs, [], newest, ?_, hqs, hpsavail⟩⟩
              · have := subperm_wait h hc ps
                  ⟨ps, .refl _, ?_⟩
                · simpa [trained_append, predicted_append, trained, predicted] using this
                · exact List.filter_sublist.map _
              · rw [h2, h5]; rfl
          · simp at h2
    · have hp0' : ps = [] := List.eq_nil_of_length_eq_zero (by omega)
      refine ⟨{ d with tm := tm2 }, rfl, ?_, ?_, rfl, ?_, ?_, h.st, h.pn, rfl, ?_⟩
      · unfold Delayed.iter
        simp only [hnew]
        rw [show TM.getAvailable (TM.updateTimestamp d.tm newest.arrival) = (rows, tm2) from rfl]
        simp only [← hps, updateMetrics, if_neg hp0]
        have hl : ¬ (ps.map Prod.fst).length > 0 := by simpa using hp0'
        simp only [updateClassifiers, if_neg hl]
        rfl
      · simp [hp0']
      · simp [hp0']
      · simp [hp0']
      · intro qs _
        exact h.ta.snoc_other _ (by intro _ _; simp)
  obtain ⟨d2, htm, hit, htr, hpr, hsc, hct, hst, hpn, hdr, hta⟩ := key
  have hqs : (predictOn M d2 b).2 = b.zip (M.predict d2.learner (b.map Sample.x)).1 := rfl
  have hzlen : (M.predict d2.learner (b.map Sample.x)).1.length = b.length := by
    rw [hM]; simp
  have hfst : (predictOn M d2 b).2.map Prod.fst = b := by
    rw [hqs, List.map_fst_zip (by omega)]
  have hsnd : (predictOn M d2 b).2.map Prod.snd = (M.predict d2.learner (b.map Sample.x)).1 := by
    rw [hqs, List.map_snd_zip (by omega)]
  have hx : ((predictOn M d2 b).2.map fun p => p.1.x) = b.map Sample.x := by
    conv_rhs => rw [← hfst]
    rw [List.map_map]; rfl
  have hlog : (predictOn M d2 b).1.log = d2.log ++ [.predict (predictOn M d2 b).2] := rfl
  have hlearn : (predictOn M d2 b).1.learner = (M.predict d2.learner (b.map Sample.x)).2 := rfl
  refine ⟨_, hit, ?_, ?_, ?_⟩
  · -- queue after the update
    have hqueue : (TM.updateQueue sort d2.tm
        ((predictOn M d2 b).2.map fun q => (q, q.1.arrival, q.1.available)) none).queue.Perm
        (tm2.queue ++ (predictOn M d2 b).2.map fun q => ⟨q, none, q.1.arrival, q.1.available⟩) := by
      simp only [TM.updateQueue, htm]
      refine (hs _).1.trans ?_
      rw [List.map_map]
      exact .refl _
    have hwait : ((TM.updateQueue sort d2.tm
        ((predictOn M d2 b).2.map fun q => (q, q.1.arrival, q.1.available)) none).queue.map
          TM.Row.payload).Perm (tm2.queue.map TM.Row.payload ++ (predictOn M d2 b).2) := by
      refine (hqueue.map _).trans ?_
      rw [List.map_append, List.map_map]
      apply List.Perm.of_eq
      congr 1
      exact List.map_id _
    refine ⟨?_, ?_, ?_, ?_, .inl rfl, ?_, ?_, ?_, ?_⟩
    · simp only [waiting, hlog, trained_append, htr, hcons]
      simp only [trained, List.append_nil]
      have h1 := (hwait.map Prod.fst).append_left (trained d.log ++ ps.map Prod.fst)
      refine h1.trans ?_
      rw [List.map_append, hfst, ← List.append_assoc]
      refine List.Perm.append_right b ?_
      rw [List.append_assoc, ← List.map_append]
      exact ((hsplit.map Prod.fst).append_left _).trans h.once
    · simp only [hlog, predicted_append, hpr, List.map_append, h.pred, htail]
      simp [predicted, hfst]
    · simp only [waiting, hlog, scored_append, predicted_append, hsc, hpr]
      simp only [scored, predicted, List.append_nil]
      refine (hwait.append_left _).trans ?_
      rw [← List.append_assoc]
      refine List.Perm.append_right _ ?_
      rw [List.append_assoc]
      exact (hsplit.append_left _).trans h.sc
    · intro r hr
      have := hqueue.mem_iff.mp hr
      rcases List.mem_append.mp this with h1 | h1
      · exact hav2 r h1
      · obtain ⟨q, _, rfl⟩ := List.mem_map.mp h1
        rfl
    · simp only [hlog]
      apply hta
      rw [hfst, hnew]
    · simp only [hlog]
      refine hpn.snoc _ ?_
      rw [hsnd, ← hst, hx]
    · simp only [hlog, hlearn, replay_append, ← hst]
      simp [replay, hx]
    · have hc2 : (predictOn M d2 b).1.count = d.count + ps.length := hct
      have := h.cnt
      simp only [hlog, trained_append, htr, hc2, List.length_append, List.length_map]
      simp only [trained, List.length_nil]
      omega
  · simp only [hlog, drained_append, hdr]; simp [drained]
  · have : (TM.updateQueue sort d2.tm
        ((predictOn M d2 b).2.map fun q => (q, q.1.arrival, q.1.available)) none).queue.length =
        tm2.queue.length + b.length := by
      simp only [TM.updateQueue, htm]
      rw [(hs _).1.length_eq]
      have e := congrArg List.length hfst
      simp only [List.length_append, List.length_map] at e ⊢
      omega
    show (TM.updateQueue sort d2.tm _ none).queue.length ≤ _
    rw [this]; omega

theorem take_ne_nil (s : Src (Sample τ X Y ω)) (i batch : Nat) (hb : 0 < batch)
    (hm : s.hasMore i = true) : s.take i batch ≠ [] := by
  intro h
  have hl := s.length_take i batch
  rw [h] at hl
  unfold Src.hasMore at hm
  cases hs : s.len with
  | none => rw [hs] at hl; simp at hl; omega
  | some L =>
    rw [hs] at hl hm
    have : i < L := by simpa using hm
    simp at hl
    omega

theorem mainLoop_spec {M : Methods σ X Y P ω} (hM : ∀ s xs, (M.predict s xs).1.length = xs.length)
    {s0 : σ} {sort : Sorter τ X Y P ω} (hs : TM.Sorts sort) {s : Src (Sample τ X Y ω)} {L : Nat}
    (hL : s.len = some L) {idx pre batch : Nat} (hb : 0 < batch) (amax : Int) (ha : 20 ≤ amax)
    (timeOk : Nat → Bool) :
    ∀ (fuel k c : Nat) (d : DState σ τ X Y P ω), pre ≤ c → 0 < fuel → L < idx + c + fuel →
    Inv M s0 s idx pre c d → drained d.log = false →
    ∃ c' d', mainLoop M sort s false batch amax timeOk fuel k (idx + c) d = some (idx + c', d') ∧
      pre ≤ c' ∧ Inv M s0 s idx pre c' d' ∧ drained d'.log = false ∧
      ((∀ k, timeOk k = true) → amax ≤ d'.count ∨ s.hasMore (idx + c') = false) := by
  intro fuel
  induction fuel with
  | zero => intro k c d _ h0; omega
  | succ fuel ih =>
    intro k c d hc _ hf hi hd
    unfold mainLoop
    by_cases hcond : ((d.count : Int) < amax && timeOk k && s.hasMore (idx + c)) = true
    · rw [if_pos hcond]
      have hmore : s.hasMore (idx + c) = true := by
        simp only [Bool.and_eq_true] at hcond; exact hcond.2
      have hlt : idx + c < L := by
        unfold Src.hasMore at hmore; rw [hL] at hmore; simpa using hmore
      obtain ⟨d', h1, h2, h3, _⟩ := hi.iter hM hs hc batch amax ha (take_ne_nil s _ _ hb hmore)
      simp only [h1]
      obtain ⟨c', d'', h4, h5, h6, h7, h8⟩ := ih (k + 1) (c + batch) d' (by omega) (by omega) (by omega)
        h2 (by rw [h3]; exact hd)
      exact ⟨c', d'', by rw [← h4, Nat.add_assoc], h5, h6, h7, h8⟩
    · rw [if_neg hcond]
      refine ⟨c, d, rfl, hc, hi, hd, ?_⟩
      intro ht
      rw [ht k] at hcond
      by_cases hlt : (d.count : Int) < amax
      · right; simpa [hlt] using hcond
      · left; omega

/-- One round of draining keeps the invariant. -/
theorem drainLoop_spec {M : Methods σ X Y P ω}
    {s0 : σ} {s : Src (Sample τ X Y ω)}
    {idx pre batch c : Nat} (hb : 0 < batch) (hc : pre ≤ c) (amax : Int) (ha : 20 ≤ amax) :
    ∀ (fuel : Nat) (d : DState σ τ X Y P ω), d.tm.queue.length < fuel →
    Inv M s0 s idx pre c d → drained d.log = true →
    ∃ d', drainLoop M batch amax fuel d = some (.ok d') ∧ Inv M s0 s idx pre c d' ∧
      d'.tm.queue = [] := by
  intro fuel
  induction fuel with
  | zero => intro d h; omega
  | succ fuel ih =>
    intro d hf hi hd
    unfold drainLoop
    by_cases hmore : TM.hasMore d.tm = true
    · rw [if_pos hmore]
      have hq : d.tm.queue.length > 0 := by simpa [TM.hasMore] using hmore
      have huw : d.tm.useWeight = false := by
        rcases hi.uw with h | h
        · exact h
        · rw [h] at hq; simp at hq
      have hnext : TM.nextSample d.tm batch =
          .ok (d.tm.queue.take batch, { d.tm with queue := d.tm.queue.drop batch }) := by
        simp only [TM.nextSample, huw, TM.cleanup_eq, TM.taken_eq]; rfl
      simp only [hnext]
      set ps := (d.tm.queue.take batch).map TM.Row.payload with hps
      have hpl : ps.length > 0 := by
        rw [hps, List.length_map, List.length_take]; omega
      have hl : (ps.map Prod.fst).length > 0 := by simpa using hpl
      simp only [updateMetrics, if_pos hpl, checkProgress_ok ha, updateClassifiers, if_pos hl]
      have hw : waiting d = ps ++ (d.tm.queue.drop batch).map TM.Row.payload := by
        rw [waiting, hps, ← List.map_append, List.take_append_drop]
      apply ih
      · show (d.tm.queue.drop batch).length < fuel
        rw [List.length_drop]; omega
      · refine ⟨?_, ?_, ?_, ?_, .inl huw, ?_, ?_, ?_, ?_⟩
        · simp only [fitOn, waiting, trained_append, trained, List.append_nil]
          rw [List.append_assoc, ← List.map_append, ← hw]
          exact hi.once
        · simp only [fitOn, predicted_append, predicted, List.append_nil]
          exact hi.pred
        · simp only [fitOn, scored_append, predicted_append, scored, predicted, List.append_nil, waiting]
          rw [List.append_assoc, ← hw]
          exact hi.sc
        · intro r hr
          exact hi.avail r (List.mem_of_mem_drop hr)
        · intro l1 b' ws l2 eq
          rcases split_snoc eq with ⟨l2', h1, h2⟩ | ⟨h1, h2, h3⟩
          · rcases hi.ta.snoc_other (.score ps) (by intro _ _; simp) l1 b' ws l2' h1 with
              h6 | ⟨h6, h7, h8⟩
            · exact .inl h6
            · refine .inr ⟨h6, h7, ?_⟩
              rcases h8 with h8 | ⟨ps', l4, n, h8, h9⟩
              · exact .inl h8
              · exact .inr ⟨ps', _, n, by rw [h2, h8]; rfl, h9⟩
          · injection h2 with h2 _
            subst h2
            subst h1
            refine .inr ⟨?_, ⟨d.log, ps, rfl, rfl⟩, .inl ?_⟩
            · have := subperm_wait hi hc ps ⟨ps, .refl _, by
                rw [hw]; exact List.sublist_append_left _ _⟩
              simpa [trained_append, predicted_append, trained, predicted] using this
            · rw [drained_append, hd]; rfl
        · exact (hi.pn.snoc_other _ (by intro; simp)).snoc_other _ (by intro; simp)
        · simp only [fitOn, replay_append, ← hi.st]; simp [replay]
        · have := hi.cnt
          simp only [fitOn, trained_append, trained, List.append_nil, List.length_append]
          omega
      · simp only [fitOn, drained_append, hd]; rfl
    · rw [if_neg hmore]
      refine ⟨d, rfl, hi, ?_⟩
      have : ¬ d.tm.queue.length > 0 := by simpa [TM.hasMore] using hmore
      exact List.eq_nil_of_length_eq_zero (by omega)

theorem queue_le {M : Methods σ X Y P ω}
    {s0 : σ} {s : Src (Sample τ X Y ω)} {idx pre c L : Nat} {d : DState σ τ X Y P ω}
    (hL : s.len = some L) (h : Inv M s0 s idx pre c d) : d.tm.queue.length ≤ L := by
  have h1 := h.once.length_eq
  rw [s.length_take, hL] at h1
  simp only [List.length_append, List.length_map, waiting] at h1
  omega

/-- C27: for every finite unweighted temporal stream, delay pattern, batch size and
non-empty pre-training block, with at least 20 samples to evaluate: for some number
`n` of consumed samples, every sample after the pre-training block is predicted
exactly once, in order, by the learner as it is at that moment; the consumed
samples are each trained on exactly once (none is lost), and unless the time is over
they are the whole stream or at least `max_samples`; every prediction is
scored exactly once, against its own sample; training happens only on samples
predicted and scored before, whose labels are available at the newest arrival
time, or after the main loop. -/
theorem C27_delayed (M : Methods σ X Y P ω) (hM : ∀ s xs, (M.predict s xs).1.length = xs.length)
    (s0 : σ) (sort : Sorter τ X Y P ω) (hs : TM.Sorts sort) (s : Src (Sample τ X Y ω)) (L : Nat)
    (hL : s.len = some L) (idx pre batch maxSamples : Nat) (hi : idx < L) (hp : 0 < pre)
    (hb : 0 < batch) (ha : 20 ≤ actualMax s idx maxSamples) (timeOk : Nat → Bool) (fuel : Nat)
    (hf : L < fuel) :
    ∃ n d, evaluate M sort s false idx pre batch maxSamples timeOk fuel s0 = some (.ok (idx + n, d)) ∧
      (predicted d.log).map Prod.fst = (s.take idx n).drop (s.take idx pre).length ∧
      (trained d.log).Perm (s.take idx n) ∧
      (scored d.log).Perm (predicted d.log) ∧
      TrainsAvailable (s.take idx pre) d.log ∧
      PredictsNow M s0 d.log ∧
      ((∀ k, timeOk k = true) → maxSamples ≤ n ∨ L ≤ idx + n) := by
  have hne : s.take idx pre ≠ [] := take_ne_nil s idx pre hp (by simp [Src.hasMore, hL, hi])
  obtain ⟨newest, hnew⟩ : ∃ n, (s.take idx pre).getLast? = some n := by
    rw [List.getLast?_eq_getLast_of_ne_nil hne]; exact ⟨_, rfl⟩
  unfold evaluate
  simp only [if_pos hp, hnew, weightsOf, Bool.false_eq_true, if_false]
  set d0 : DState σ τ X Y P ω :=
    { fitOn M ⟨s0, TM.init newest.arrival, 0, []⟩ (s.take idx pre) none with count := pre } with hd0
  have hlog0 : d0.log = [.train (s.take idx pre) none] := rfl
  have hinv : Inv M s0 s idx pre pre d0 := by
    refine ⟨?_, ?_, ?_, ?_, .inr rfl, ?_, ?_, ?_, ?_⟩
    · rw [hlog0]
      show (trained [.train (s.take idx pre) none] ++ ([] : List (Sample τ X Y ω))).Perm _
      simp [trained]
    · rw [hlog0, Nat.sub_self, s.take_zero]; rfl
    · rw [hlog0]; exact .nil
    · intro r hr; cases hr
    · intro l1 b ws l2 eq
      rw [hlog0] at eq
      cases l1 with
      | nil => simp at eq; exact .inl ⟨rfl, eq.1.1.symm⟩
      | cons a l1 => simp at eq
    · intro l1 ps l2 eq
      rw [hlog0] at eq
      cases l1 with
      | nil => simp at eq
      | cons a l1 => simp at eq
    · rw [hlog0]; rfl
    · rw [hlog0]; simp [trained, hd0]
  obtain ⟨c, d, h1, h2, h3, h4, hend⟩ := mainLoop_spec hM hs hL (idx := idx) hb
    (actualMax s idx maxSamples) ha timeOk fuel 0 pre d0 (le_refl _) (by omega) (by omega) hinv rfl
  simp only [h1]
  have hinv2 : Inv M s0 s idx pre c { d with log := d.log ++ [.drain] } := by
    refine ⟨?_, ?_, ?_, h3.avail, h3.uw, h3.ta.snoc_other _ (by intro _ _; simp),
      h3.pn.snoc_other _ (by intro; simp), ?_, ?_⟩
    · simp only [trained_append, trained, List.append_nil]; exact h3.once
    · simp only [predicted_append, predicted, List.append_nil]; exact h3.pred
    · simp only [scored_append, scored, predicted_append, predicted, List.append_nil]; exact h3.sc
    · simp only [replay_append, ← h3.st]; rfl
    · simp only [trained_append, trained, List.append_nil]; exact h3.cnt
  obtain ⟨d', h5, h6, h7⟩ := drainLoop_spec hb h2 (actualMax s idx maxSamples) ha fuel
    { d with log := d.log ++ [.drain] } (lt_of_le_of_lt (queue_le hL hinv2) hf) hinv2
    (by simp [drained_append, drained])
  refine ⟨c, d', by simp only [h5], ?_, ?_, ?_, h6.ta, h6.pn, ?_⟩
  · rw [h6.consumed h2, List.drop_left]
  · have := h6.once
    simpa [waiting, h7] using this
  · have := h6.sc
    simpa [waiting, h7] using this
  · intro ht
    rcases hend ht with he | he
    · have hcnt := h3.cnt
      have hlen := h3.once.length_eq
      rw [List.length_append] at hlen
      have e1 := s.length_take idx pre
      have e2 := s.length_take idx c
      rw [hL] at e1 e2
      simp only at e1 e2
      unfold actualMax at he
      simp only [Src.nRemaining, hL] at he
      split at he
      · left; omega
      · right; omega
    · right
      unfold Src.hasMore at he
      rw [hL] at he
      simpa using he

/-- C57: without a pre-training block the delayed evaluator always fails with an
`AttributeError`. -/
theorem C57_no_pretrain_raises (M : Methods σ X Y P ω) (s0 : σ) (sort : Sorter τ X Y P ω)
    (s : Src (Sample τ X Y ω)) (weighted : Bool) (idx batch maxSamples : Nat) (timeOk : Nat → Bool)
    (fuel : Nat) :
    evaluate M sort s weighted idx 0 batch maxSamples timeOk fuel s0 =
      some (.error .attributeError) := by
  simp [evaluate]

/-- C58: when delayed samples become available in an iteration over batch `b` of a
weighted stream, the learner is trained on them with the weights of `b`, not with
their own. -/
theorem C58_weights_of_other_samples (M : Methods σ X Y P ω) (sort : Sorter τ X Y P ω) (amax : Int)
    (ha : 20 ≤ amax) (d : DState σ τ X Y P ω) (b : List (Sample τ X Y ω)) (newest : Sample τ X Y ω)
    (hb : b.getLast? = some newest)
    (hav : ∃ r ∈ d.tm.queue, r.available ≤ newest.arrival) :
    ∃ d' due, iter M sort true amax d b = (d', .ok ()) ∧ due ≠ [] ∧
      due = ((d.tm.queue.filter fun r => r.available ≤ newest.arrival).map TM.Row.payload) ∧
      ∃ ps, d'.log = d.log ++
        [.score due, .train (due.map Prod.fst) (some (b.map Sample.weight)), .predict ps] := by
  set due := ((d.tm.queue.filter fun r => r.available ≤ newest.arrival).map TM.Row.payload) with hdue
  have hne : due ≠ [] := by
    obtain ⟨r, hr, hle⟩ := hav
    intro h
    have : r.payload ∈ due := List.mem_map_of_mem (List.mem_filter.mpr ⟨hr, by simpa using hle⟩)
    rw [h] at this
    cases this
  have hl : due.length > 0 := List.length_pos_iff.mpr hne
  have hl2 : (due.map Prod.fst).length > 0 := by simpa using hl
  unfold iter
  simp only [hb]
  rw [show TM.getAvailable (TM.updateTimestamp d.tm newest.arrival) =
    (d.tm.queue.filter fun r => r.available ≤ newest.arrival,
      (TM.getAvailable (TM.updateTimestamp d.tm newest.arrival)).2) from rfl]
  simp only [← hdue, updateMetrics, if_pos hl, checkProgress_ok ha, updateClassifiers, if_pos hl2]
  refine ⟨_, due, rfl, hne, rfl, ?_⟩
  simp only [predictOn, fitOn, weightsOf, if_true]
  have hgen : ∀ q, ∃ ps, d.log ++ [DEv.score due] ++
      [.train (due.map Prod.fst) (some (b.map Sample.weight))] ++ [.predict q] = d.log ++
        [.score due, .train (due.map Prod.fst) (some (b.map Sample.weight)), .predict ps] :=
    fun q => ⟨q, by simp⟩
  exact hgen _

theorem iter_weighted (M : Methods σ X Y P ω) (hM : ∀ s xs, (M.predict s xs).1.length = xs.length)
    (sort : Sorter τ X Y P ω) (hs : TM.Sorts sort) (amax : Int) (ha : 20 ≤ amax)
    (d : DState σ τ X Y P ω) (hu : d.tm.useWeight = true) (b : List (Sample τ X Y ω)) (hb : b ≠ []) :
    ∃ d', iter M sort true amax d b = (d', .ok ()) ∧ d'.tm.useWeight = true ∧ d'.tm.queue ≠ [] := by
  obtain ⟨newest, hnew⟩ : ∃ n, b.getLast? = some n := by
    rw [List.getLast?_eq_getLast_of_ne_nil hb]; exact ⟨_, rfl⟩
  have hmet : ∀ (d : DState σ τ X Y P ω) ps, ∃ d', updateMetrics amax d ps = (d', .ok ()) ∧
      d'.tm = d.tm := by
    intro d ps
    unfold updateMetrics
    split
    · rw [checkProgress_ok ha]; exact ⟨_, rfl, rfl⟩
    · exact ⟨_, rfl, rfl⟩
  have hcls : ∀ (d : DState σ τ X Y P ω) b ws, (updateClassifiers M d b ws).tm = d.tm := by
    intro d b ws
    unfold updateClassifiers
    split <;> rfl
  unfold iter
  simp only [hnew]
  obtain ⟨d1, e1, e2⟩ := hmet { d with tm := (TM.getAvailable (TM.updateTimestamp d.tm newest.arrival)).2 }
    ((TM.getAvailable (TM.updateTimestamp d.tm newest.arrival)).1.map TM.Row.payload)
  rw [show TM.getAvailable (TM.updateTimestamp d.tm newest.arrival) =
    ((TM.getAvailable (TM.updateTimestamp d.tm newest.arrival)).1,
      (TM.getAvailable (TM.updateTimestamp d.tm newest.arrival)).2) from rfl]
  simp only [e1]
  refine ⟨_, rfl, ?_, ?_⟩
  · simp only [weightsOf, if_true, TM.updateQueue, predictOn, hcls, e2]
    exact hu
  · simp only [weightsOf, if_true, TM.updateQueue, predictOn]
    intro h
    have hl := congrArg List.length h
    rw [(hs _).1.length_eq] at hl
    have hbl : b.length > 0 := List.length_pos_iff.mpr hb
    simp only [List.length_nil, List.length_append, List.length_map, List.length_zip, hM] at hl
    omega

theorem mainLoop_weighted (M : Methods σ X Y P ω)
    (hM : ∀ s xs, (M.predict s xs).1.length = xs.length)
    (sort : Sorter τ X Y P ω) (hs : TM.Sorts sort) (s : Src (Sample τ X Y ω)) (L : Nat)
    (hL : s.len = some L) (batch : Nat) (hb : 0 < batch) (amax : Int) (ha : 20 ≤ amax)
    (timeOk : Nat → Bool) :
    ∀ (fuel k idx : Nat) (d : DState σ τ X Y P ω), 0 < fuel → L < idx + fuel →
    d.tm.useWeight = true → (d.tm.queue ≠ [] ∨
      ((d.count : Int) < amax ∧ timeOk k = true ∧ s.hasMore idx = true)) →
    ∃ i d', mainLoop M sort s true batch amax timeOk fuel k idx d = some (i, d') ∧
      d'.tm.useWeight = true ∧ d'.tm.queue ≠ [] := by
  intro fuel
  induction fuel with
  | zero => intro k idx d h0; omega
  | succ fuel ih =>
    intro k idx d _ hf hu hq
    unfold mainLoop
    by_cases hcond : ((d.count : Int) < amax && timeOk k && s.hasMore idx) = true
    · rw [if_pos hcond]
      have hmore : s.hasMore idx = true := by
        simp only [Bool.and_eq_true] at hcond; exact hcond.2
      have hlt : idx < L := by
        unfold Src.hasMore at hmore; rw [hL] at hmore; simpa using hmore
      obtain ⟨d', h1, h2, h3⟩ := iter_weighted M hM sort hs amax ha d hu _ (take_ne_nil s _ _ hb hmore)
      simp only [h1]
      exact ih (k + 1) (idx + batch) d' (by omega) (by omega) h2 (.inl h3)
    · rw [if_neg hcond]
      refine ⟨idx, d, rfl, hu, ?_⟩
      rcases hq with h | ⟨h1, h2, h3⟩
      · exact h
      · exact absurd (by simp [h1, h2, h3]) hcond

/-- C58: on every weighted temporal stream with something to evaluate, the
evaluation ends with a `KeyError`. -/
theorem C58_weighted_run_raises (M : Methods σ X Y P ω)
    (hM : ∀ s xs, (M.predict s xs).1.length = xs.length)
    (s0 : σ) (sort : Sorter τ X Y P ω) (hs : TM.Sorts sort) (s : Src (Sample τ X Y ω)) (L : Nat)
    (hL : s.len = some L) (idx pre batch maxSamples : Nat) (hi : idx + pre < L) (hp : 0 < pre)
    (hb : 0 < batch) (ha : 20 ≤ actualMax s idx maxSamples)
    (hpm : (pre : Int) < actualMax s idx maxSamples) (timeOk : Nat → Bool) (ht : timeOk 0 = true)
    (fuel : Nat) (hf : L < fuel) :
    evaluate M sort s true idx pre batch maxSamples timeOk fuel s0 = some (.error .keyError) := by
  have hne : s.take idx pre ≠ [] := take_ne_nil s idx pre hp (by simp [Src.hasMore, hL]; omega)
  obtain ⟨newest, hnew⟩ : ∃ n, (s.take idx pre).getLast? = some n := by
    rw [List.getLast?_eq_getLast_of_ne_nil hne]; exact ⟨_, rfl⟩
  unfold evaluate
  simp only [if_pos hp, hnew]
  obtain ⟨i, d', h1, h2, h3⟩ := mainLoop_weighted M hM sort hs s L hL batch hb
    (actualMax s idx maxSamples) ha timeOk fuel 0 (idx + pre)
    { fitOn M ⟨s0, TM.init newest.arrival, 0, []⟩ (s.take idx pre) (weightsOf true (s.take idx pre)) with
      count := pre } (by omega) (by omega) rfl (.inr ⟨hpm, ht, by simp [Src.hasMore, hL, hi]⟩)
  simp only [h1]
  obtain ⟨fuel, rfl⟩ : ∃ f, fuel = f + 1 := ⟨fuel - 1, by omega⟩
  unfold drainLoop
  have hm : TM.hasMore d'.tm = true := by
    simp only [TM.hasMore, decide_eq_true_eq]
    exact List.length_pos_iff.mpr h3
  simp only [hm, if_true, TM.nextSample, h2]

/-! ### Non-vacuity -/

/-- Sample `i` of a small stream: arrives at `i`, label available at `i + 3`. -/
def demo : Src (Sample Nat Nat Nat Nat) := ⟨fun i => ⟨i, 10 * i, i, i + 3, 1⟩, some 22⟩

/-- Counts samples seen; predicts that count. -/
def demoM : Methods Nat Nat Nat Nat Nat :=
  ⟨fun s b _ => s + b.length, fun s xs => (xs.map fun _ => s, s)⟩

/-- The stream satisfies the hypotheses of C27; predictions lag by the delay. -/
example : actualMax demo 0 100 = 22 ∧
    (evaluate demoM (fun q => q.foldr TM.insertRow []) demo false 0 4 1 100 (fun _ => true) 23 0).map
      (fun r => r.toOption.map fun q => (q.2.learner, (scored q.2.log).map fun p => (p.1.x, p.2))) =
    some (some (22, [(4, 4), (5, 4), (6, 4)] ++ (List.range' 7 15).map fun i => (i, i - 2))) := by
  decide +kernel

/-- The same stream with weights. -/
example : ((evaluate demoM (fun q => q.foldr TM.insertRow []) demo true 0 4 1 100 (fun _ => true) 23
    0).map fun r => r.toOption.isNone) = some true := by decide +kernel

theorem length_transpose {P : Type} [Inhabited P] (m n : Nat) (a : List (List P)) :
    (transpose m n a).length = n := by simp [transpose]

/-- C27: transposing the predictions to sample by model order for the queue and
back (for `m` models, `n` samples) gives back every model's predictions. -/
theorem C27_transpose_roundtrip {P : Type} [Inhabited P] (m n : Nat) (a : List (List P))
    (ha : a.length = m) (hr : ∀ r ∈ a, r.length = n) :
    transpose n m (transpose m n a) = a := by
  unfold transpose
  apply List.ext_getElem
  · simp [ha]
  · intro i h1 h2
    have hi : (a[i]).length = n := hr _ (List.getElem_mem h2)
    apply List.ext_getElem
    · simp [hi]
    · intro j h3 h4
      have hi' : i < m := by omega
      have hj' : j < n := by omega
      simp [h2, h4, hj', hi']

end Verif.Evaluation.Delayed
