import Verif.Evaluation.Props
import Mathlib.Tactic.Ring
import Mathlib.Tactic.Linarith

/-! C117: when the holdout evaluator tests. -/

namespace Verif.Evaluation

variable {σ X Y P ρ : Type}

/-! ### Specification -/

/-- How many `partial_fit` calls a log holds. -/
def trainCalls : List (Ev X Y P) → Nat
  | [] => 0
  | .train _ :: l => trainCalls l + 1
  | _ :: l => trainCalls l

/-- For every test phase of a log, in order: how many `partial_fit` calls came
before it (`k` of them before the log starts). -/
def testTimes (k : Nat) : List (Ev X Y P) → List Nat
  | [] => []
  | .train _ :: l => testTimes (k + 1) l
  | .predict _ :: l => k :: testTimes k l
  | .score _ _ :: l => testTimes k l

/-- The steps 1..n at which `due` holds. -/
def stepsWhere (due : Nat → Bool) (n : Nat) : List Nat := (List.range' 1 n).filter due

/-! ### Lemmas -/

theorem testTimes_append (a b : List (Ev X Y P)) (k : Nat) :
    testTimes k (a ++ b) = testTimes k a ++ testTimes (k + trainCalls a) b := by
  induction a generalizing k with
  | nil => rfl
  | cons e a ih =>
    cases e <;> simp [testTimes, trainCalls, ih]
    congr 1; omega

theorem trainCalls_append (a b : List (Ev X Y P)) :
    trainCalls (a ++ b) = trainCalls a + trainCalls b := by
  induction a with
  | nil => simp [trainCalls]
  | cons e a ih => cases e <;> simp [trainCalls, ih]; omega

theorem scores_times (q : List (Y × P)) (k : Nat) :
    trainCalls (q.map fun q => (.score q.1 q.2 : Ev X Y P)) = 0 ∧
    testTimes k (q.map fun q => (.score q.1 q.2 : Ev X Y P)) = [] := by
  induction q with
  | nil => exact ⟨rfl, rfl⟩
  | cons a q ih => exact ⟨ih.1, ih.2⟩

theorem stepsWhere_succ (due : Nat → Bool) (n : Nat) :
    stepsWhere due (n + 1) = stepsWhere due n ++ if due (n + 1) then [n + 1] else [] := by
  unfold stepsWhere
  rw [List.range'_concat, List.filter_append]
  cases h : due (n + 1) <;> simp [List.filter, Nat.add_comm 1 n, h]

/-- After `j` steps the test phases of a learner are those due. -/
def OnTime (due : Nat → Bool) (j : Nat) (m : Learner σ X Y P) : Prop :=
  trainCalls m.log = j ∧ testTimes 0 m.log = stepsWhere due j

theorem OnTime.untested {due : Nat → Bool} {j : Nat} {m : Learner σ X Y P} (h : OnTime due j m)
    (hd : due (j + 1) = false) (b : List (X × Y)) : OnTime due (j + 1) (m.train b) := by
  obtain ⟨h1, h2⟩ := h
  refine ⟨?_, ?_⟩
  · simp [Learner.train, trainCalls_append, trainCalls, h1]
  · simp [Learner.train, testTimes_append, testTimes, h2, stepsWhere_succ, hd]

theorem OnTime.tested {due : Nat → Bool} {j : Nat} {m : Learner σ X Y P} (h : OnTime due j m)
    (hd : due (j + 1) = true) (b t : List (X × Y)) :
    OnTime due (j + 1) ((m.train b).test t) := by
  obtain ⟨h1, h2⟩ := h
  have hlog : ((m.train b).test t).log =
      (m.log ++ [.train b]) ++ testLog (m.train b) (m.train b).state t := rfl
  have e1 : trainCalls (testLog (m.train b) (m.train b).state t) = 0 := by
    exact (scores_times _ 0).1
  have e2 : ∀ k, testTimes k (testLog (m.train b) (m.train b).state t) = [k] := by
    intro k; simp [testLog, testTimes, scores_times]
  refine ⟨?_, ?_⟩
  · rw [hlog, trainCalls_append, trainCalls_append, e1, h1]; rfl
  · rw [hlog, testTimes_append, e2, testTimes_append, trainCalls_append, h1, h2, stepsWhere_succ, hd]
    simp [testTimes, trainCalls]

/-- One invariant for both loops: `cntOf j`, `cOf j` are the values of the
counters after `j` steps, as long as the limit is not reached. -/
theorem holdLoop_onTime (s : Src (X × Y)) (dynamic : Bool) (batch nWait ts : Nat) (amax : Int)
    (timeOk : Nat → Bool) (test : List (X × Y)) (due : Nat → Bool) (cntOf cOf : Nat → Nat)
    (hfull : dynamic = true → ∀ i, (s.take i ts).length = ts)
    (hdue : ∀ j, ((cOf j : Nat) : Int) < amax →
      performTest dynamic nWait ts (cOf j + batch) (cntOf j) amax = due (j + 1) ∧
      (((cOf j + batch + (if dynamic && due (j + 1) then ts else 0) : Nat) : Int) < amax →
        cOf (j + 1) = cOf j + batch + (if dynamic && due (j + 1) then ts else 0) ∧
        (cntOf (j + 1) = cntOf j + if due (j + 1) then 1 else 0))) :
    ∀ (fuel k idx c cnt j : Nat) (ms : List (Learner σ X Y P)) (r : Result σ X Y P),
    ((c : Int) < amax → c = cOf j ∧ cnt = cntOf j) →
    (∀ m ∈ ms, OnTime due j m) →
    holdLoop s dynamic batch nWait ts amax timeOk test fuel k idx c cnt ms = some r →
    r.error = none →
    ∃ n, ∀ m ∈ r.learners, OnTime due n m := by
  intro fuel
  induction fuel with
  | zero => intro k idx c cnt j ms r _ _ h; cases h
  | succ fuel ih =>
    intro k idx c cnt j ms r hc hm h he
    unfold holdLoop at h
    by_cases hcond : ((c : Int) < amax && timeOk k && s.hasMore idx) = true
    · rw [if_pos hcond] at h
      have hlt : (c : Int) < amax := by
        simp only [Bool.and_eq_true, decide_eq_true_eq] at hcond
        exact hcond.1.1
      obtain ⟨e1, e2⟩ := hc hlt
      subst e1 e2
      obtain ⟨hd, hn⟩ := hdue j hlt
      cases hcp : checkProgress amax with
      | error e =>
        simp only [hcp] at h
        cases h; cases he
      | ok u =>
        simp only [hcp] at h
        by_cases hz : (!dynamic && nWait == 0) = true
        · rw [if_pos hz] at h; cases h; cases he
        · rw [if_neg hz] at h
          by_cases hp : performTest dynamic nWait ts (cOf j + batch) (cntOf j) amax = true
          · rw [if_pos hp] at h
            rw [hp] at hd
            rw [← hd] at hn
            cases dynamic with
            | true =>
              simp only [if_true] at h
              refine ih _ _ _ _ (j + 1) _ r ?_ ?_ h he
              · rw [hfull rfl]
                intro hl
                have := hn (by simpa using hl)
                simp at this ⊢
                omega
              · intro m hmm
                simp only [List.map_map, List.mem_map] at hmm
                obtain ⟨m', hm', rfl⟩ := hmm
                exact (hm m' hm').tested hd.symm _ _
            | false =>
              simp only [Bool.false_eq_true, if_false] at h
              refine ih _ _ _ _ (j + 1) _ r ?_ ?_ h he
              · intro hl
                have := hn (by simpa using hl)
                simp at this ⊢
                omega
              · intro m hmm
                simp only [List.map_map, List.mem_map] at hmm
                obtain ⟨m', hm', rfl⟩ := hmm
                exact (hm m' hm').tested hd.symm _ _
          · rw [if_neg hp] at h
            have hp' : performTest dynamic nWait ts (cOf j + batch) (cntOf j) amax = false := by
              simpa using hp
            rw [hp'] at hd
            rw [← hd] at hn
            refine ih _ _ _ _ (j + 1) _ r ?_ ?_ h he
            · intro hl
              have := hn (by simpa using hl)
              simp at this ⊢
              omega
            · intro m hmm
              simp only [List.mem_map] at hmm
              obtain ⟨m', hm', rfl⟩ := hmm
              exact (hm m' hm').untested hd.symm _
    · rw [if_neg hcond] at h
      cases h
      exact ⟨j, hm⟩

theorem fresh_onTime (due : Nat → Bool) (m : Learner σ X Y P) (h : m.log = []) : OnTime due 0 m := by
  unfold OnTime; rw [h]; exact ⟨rfl, rfl⟩

/-! ### C117 -/

/-- **C117, partial.** Static test set: with `n` training steps done, a test
follows step `j` exactly when the number `j * batch` of samples drawn for
training is a multiple of `n_wait`, or the sample limit is reached.  The full
claim (a test for every `n_wait` training samples) needs `batch ∣ n_wait`; see
`C117_static_skips_violated`. -/
theorem C117_static_partial (s : Src (X × Y)) (idx batch nWait ts maxSamples : Nat)
    (timeOk : Nat → Bool) (fuel : Nat) (ms : List (Learner σ X Y P)) (r : Result σ X Y P)
    (hm : ∀ m ∈ ms, m.log = [])
    (h : holdout s idx false batch nWait ts maxSamples timeOk fuel ms = some r)
    (he : r.error = none) :
    ∃ n, ∀ m ∈ r.learners, trainCalls m.log = n ∧
      testTimes 0 m.log = stepsWhere (fun j =>
        decide (nWait ∣ j * batch) || decide (actualMax s idx maxSamples ≤ ts + j * batch)) n := by
  unfold holdout at h
  simp only [Bool.false_eq_true, if_false] at h
  let due : Nat → Bool := fun j =>
    decide (nWait ∣ j * batch) || decide (actualMax s idx maxSamples ≤ ts + j * batch)
  refine holdLoop_onTime s false batch nWait ts (actualMax s idx maxSamples) timeOk _ due
    (fun j => (stepsWhere due j).length) (fun j => ts + j * batch) (by simp) ?_ _ _ _ _ _ 0 ms r ?_
    (fun m hmm => fresh_onTime due m (hm m hmm)) h he
  · intro j _
    refine ⟨?_, fun _ => ⟨by simp; ring, ?_⟩⟩
    · have e1 : ((ts + j * batch + batch : Nat) : Int) - ts = (((j + 1) * batch : Nat) : Int) := by
        push_cast; ring
      simp only [performTest, due, Bool.false_eq_true, if_false]
      rw [e1]
      congr 1
      · rw [Bool.eq_iff_iff, beq_iff_eq, decide_eq_true_eq, ← Int.natCast_dvd_natCast]
        exact ⟨Int.dvd_of_emod_eq_zero, Int.emod_eq_zero_of_dvd⟩
      · rw [Bool.eq_iff_iff]; simp only [ge_iff_le, decide_eq_true_eq]
        push_cast
        constructor <;> intro hh <;> linarith
    · show (stepsWhere due (j + 1)).length = _
      rw [stepsWhere_succ, List.length_append]
      cases due (j + 1) <;> rfl
  · intro _; exact ⟨by simp, rfl⟩

/-- Number of multiples of `w` up to `n`: how many tests are due after `n` samples. -/
private theorem div_step (j batch w : Nat) (hw : 0 < w) (hbw : batch ≤ w) :
    (j + 1) * batch / w ≤ j * batch / w + 1 := by
  have : (j + 1) * batch ≤ j * batch + w := by nlinarith
  calc (j + 1) * batch / w ≤ (j * batch + w) / w := Nat.div_le_div_right this
    _ = j * batch / w + 1 := by rw [Nat.add_div_right _ hw]

/-- **C117, partial.** Dynamic test sets on an endless stream, batches no larger
than `n_wait`: a test follows step `j` exactly when that step took the number of
training samples past a further multiple of `n_wait` (or the sample limit, which
counts test samples too, is reached).  Missing: finite streams, whose last test
set may be short, and larger batches (`C117_dynamic_large_batch`). -/
theorem C117_dynamic_partial (s : Src (X × Y)) (idx batch nWait ts maxSamples : Nat)
    (timeOk : Nat → Bool) (fuel : Nat) (ms : List (Learner σ X Y P)) (r : Result σ X Y P)
    (hs : s.len = none) (hw : 0 < nWait) (hbw : batch ≤ nWait)
    (hm : ∀ m ∈ ms, m.log = [])
    (h : holdout s idx true batch nWait ts maxSamples timeOk fuel ms = some r)
    (he : r.error = none) :
    ∃ n, ∀ m ∈ r.learners, trainCalls m.log = n ∧
      testTimes 0 m.log = stepsWhere (fun j =>
        decide ((j - 1) * batch / nWait < j * batch / nWait) ||
        decide (maxSamples ≤ j * batch + ts * ((j - 1) * batch / nWait))) n := by
  unfold holdout at h
  simp only [if_true] at h
  have hmax : actualMax s idx maxSamples = maxSamples := by
    unfold actualMax Src.nRemaining; rw [hs]; simp
  rw [hmax] at h
  refine holdLoop_onTime s true batch nWait ts maxSamples timeOk _ (fun j =>
        decide ((j - 1) * batch / nWait < j * batch / nWait) ||
        decide (maxSamples ≤ j * batch + ts * ((j - 1) * batch / nWait)))
    (fun j => j * batch / nWait) (fun j => j * batch + ts * (j * batch / nWait)) ?_ ?_ _ _ _ _ _ 0
    ms r ?_ (fun m hmm => fresh_onTime _ m (hm m hmm)) h he
  · intro _ i
    unfold Src.take; rw [hs]; simp
  · intro j _
    have hstep := div_step j batch nWait hw hbw
    have hmono : j * batch / nWait ≤ (j + 1) * batch / nWait :=
      Nat.div_le_div_right (Nat.mul_le_mul_right _ (by omega))
    have hiff : nWait * (j * batch / nWait + 1) ≤ (j + 1) * batch ↔
        j * batch / nWait < (j + 1) * batch / nWait := by
      rw [Nat.lt_iff_add_one_le, Nat.le_div_iff_mul_le hw, Nat.mul_comm]
    have hexp : (j + 1) * batch = j * batch + batch := by ring
    refine ⟨?_, ?_⟩
    · rw [Bool.eq_iff_iff]
      simp only [performTest, if_true, Bool.or_eq_true, decide_eq_true_eq, Nat.add_sub_cancel]
      rw [← hiff]
      constructor
      · rintro (h1 | h1)
        · left; omega
        · right; omega
      · rintro (h1 | h1)
        · left; omega
        · right; omega
    · simp only [Nat.add_sub_cancel, Bool.true_and]
      intro hlt
      by_cases hd : j * batch / nWait < (j + 1) * batch / nWait
      · have hq : (j + 1) * batch / nWait = j * batch / nWait + 1 := by omega
        have hb : (decide (j * batch / nWait < (j + 1) * batch / nWait) ||
          decide (maxSamples ≤ (j + 1) * batch + ts * (j * batch / nWait))) = true := by simp [hd]
        rw [hb]
        refine ⟨?_, ?_⟩
        · simp only [if_true]; rw [hq, hexp]; ring
        · simp only [if_true]; exact hq
      · have hq : (j + 1) * batch / nWait = j * batch / nWait := by omega
        have hl : ¬ maxSamples ≤ (j + 1) * batch + ts * (j * batch / nWait) := by
          intro hl
          have : ((j * batch + ts * (j * batch / nWait) + batch : Nat) : Int) < maxSamples := by
            refine lt_of_le_of_lt ?_ hlt
            push_cast
            split <;> push_cast <;> omega
          have h2 : j * batch + ts * (j * batch / nWait) + batch < maxSamples := by exact_mod_cast this
          omega
        have hb : (decide (j * batch / nWait < (j + 1) * batch / nWait) ||
          decide (maxSamples ≤ (j + 1) * batch + ts * (j * batch / nWait))) = false := by
          simp [hd]; omega
        rw [hb]
        refine ⟨?_, ?_⟩
        · simp only [Bool.false_eq_true, if_false]; rw [hq, hexp]; ring
        · simp only [Bool.false_eq_true, if_false]; exact hq
  · intro _; simp

/-- **C117.** Dynamic test sets with batches of at least `n_wait` samples: there
is one test after every batch, not one per `n_wait` samples. -/
theorem C117_dynamic_large_batch (s : Src (X × Y)) (idx batch nWait ts maxSamples : Nat)
    (timeOk : Nat → Bool) (fuel : Nat) (ms : List (Learner σ X Y P)) (r : Result σ X Y P)
    (hs : s.len = none) (hbw : nWait ≤ batch)
    (hm : ∀ m ∈ ms, m.log = [])
    (h : holdout s idx true batch nWait ts maxSamples timeOk fuel ms = some r)
    (he : r.error = none) :
    ∃ n, ∀ m ∈ r.learners, trainCalls m.log = n ∧ testTimes 0 m.log = List.range' 1 n := by
  unfold holdout at h
  simp only [if_true] at h
  have key := holdLoop_onTime s true batch nWait ts (actualMax s idx maxSamples) timeOk []
    (fun _ => true) (fun j => j) (fun j => j * batch + ts * j) ?_ ?_ fuel 0 idx 0 0 0
    ms r ?_ (fun m hmm => fresh_onTime _ m (hm m hmm)) h he
  · obtain ⟨n, hn⟩ := key
    refine ⟨n, fun m hmm => ⟨(hn m hmm).1, ?_⟩⟩
    rw [(hn m hmm).2]; simp [stepsWhere]
  · intro _ i
    unfold Src.take; rw [hs]; simp
  · intro j _
    refine ⟨?_, fun _ => ⟨by simp; ring, by simp⟩⟩
    simp only [performTest, if_true, Bool.or_eq_true, decide_eq_true_eq]
    left
    have : nWait * (j + 1) ≤ batch * (j + 1) := Nat.mul_le_mul_right _ hbw
    nlinarith
  · intro _; simp

/-- Static test set, batches of 3, a test wanted every 4 training samples, limit
far away: 27 samples are trained on, so 6 tests are due; only those after 12 and
24 samples and the one at the limit take place. -/
theorem C117_static_skips_violated :
    ∃ r, holdout (⟨fun i => (i, i), none⟩ : Src (Nat × Nat)) 0 false 3 4 2 28
        (fun _ => true) 30 [counter] = some r ∧ r.error = none ∧
      ∀ m ∈ r.learners, (trained m.log).length = 27 ∧ testTimes 0 m.log = [4, 8, 9] := by
  refine ⟨_, rfl, rfl, ?_⟩
  decide

/-- **C25/C26.** The number of samples to evaluate: the requested maximum, cut
down to what a finite stream still has. -/
theorem C25_sample_limit (s : Src ρ) (idx maxSamples : Nat) :
    (s.len = none → actualMax s idx maxSamples = maxSamples) ∧
    ∀ L, s.len = some L → idx ≤ L → actualMax s idx maxSamples = min maxSamples (L - idx) := by
  unfold actualMax Src.nRemaining
  refine ⟨fun h => by rw [h]; simp, fun L h hi => ?_⟩
  rw [h]
  simp only [Bool.or_eq_true, beq_iff_eq, decide_eq_true_eq]
  split <;> omega

/-- Static: 2 per batch, tests every 4 training samples and at the limit. -/
example : ((holdout (⟨fun i => (i, i), none⟩ : Src (Nat × Nat)) 0 false 2 4 6 20
      (fun _ => true) 24 [counter]).map fun r => (r.error, r.learners.map fun m =>
        (trainCalls m.log, testTimes 0 m.log))) = some (none, [(7, [2, 4, 6, 7])]) := by decide

/-- Dynamic: 3 per batch, tests when 4, 8, 12 samples are passed. -/
example : ((holdout (⟨fun i => (i, i), none⟩ : Src (Nat × Nat)) 0 true 3 4 1 21
      (fun _ => true) 24 [counter]).map fun r => (r.error, r.learners.map fun m =>
        (trainCalls m.log, testTimes 0 m.log))) = some (none, [(6, [2, 3, 4, 6])]) := by decide

end Verif.Evaluation
