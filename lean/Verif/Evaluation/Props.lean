import Verif.Evaluation.Model
import Mathlib.Data.List.Forall2

/-! C25, C26, C56: what the prequential and holdout evaluators feed to the learners. -/

namespace Verif.Evaluation

variable {σ X Y P ρ : Type}

/-! ### Specification: reading a log -/

/-- All samples passed to `partial_fit`, in order. -/
def trained : List (Ev X Y P) → List (X × Y)
  | [] => []
  | .train b :: l => b ++ trained l
  | _ :: l => trained l

/-- All samples passed to `predict`, in order. -/
def predicted : List (Ev X Y P) → List X
  | [] => []
  | .predict xs :: l => xs ++ predicted l
  | _ :: l => predicted l

/-- All scored (label, prediction) pairs, in order. -/
def scored : List (Ev X Y P) → List (Y × P)
  | [] => []
  | .score y p :: l => (y, p) :: scored l
  | _ :: l => scored l

/-- All samples handed to the learner for training or testing, in order. -/
def handed : List (Ev X Y P) → List X
  | [] => []
  | .train b :: l => b.map Prod.fst ++ handed l
  | .predict xs :: l => xs ++ handed l
  | _ :: l => handed l

/-- The state a learner that started in `s` has after the calls of a log. -/
def replay (m : Learner σ X Y P) : List (Ev X Y P) → σ → σ
  | [], s => s
  | .train b :: l, s => replay m l (m.fit s b)
  | .predict xs :: l, s => replay m l (m.predict s xs).2
  | .score _ _ :: l, s => replay m l s

/-- The learner returns one prediction per row. -/
def OnePerRow (m : Learner σ X Y P) : Prop := ∀ s xs, (m.predict s xs).1.length = xs.length

/-- What is logged when `b` is predicted in state `s` and scored. -/
def testLog (m : Learner σ X Y P) (s : σ) (b : List (X × Y)) : List (Ev X Y P) :=
  .predict (b.map Prod.fst) ::
    ((b.map Prod.snd).zip (m.predict s (b.map Prod.fst)).1).map fun q => .score q.1 q.2

/-! ### Lemmas -/

theorem trained_append (a b : List (Ev X Y P)) : trained (a ++ b) = trained a ++ trained b := by
  induction a with
  | nil => rfl
  | cons e a ih => cases e <;> simp [trained, ih]

theorem predicted_append (a b : List (Ev X Y P)) :
    predicted (a ++ b) = predicted a ++ predicted b := by
  induction a with
  | nil => rfl
  | cons e a ih => cases e <;> simp [predicted, ih]

theorem scored_append (a b : List (Ev X Y P)) : scored (a ++ b) = scored a ++ scored b := by
  induction a with
  | nil => rfl
  | cons e a ih => cases e <;> simp [scored, ih]

theorem handed_append (a b : List (Ev X Y P)) : handed (a ++ b) = handed a ++ handed b := by
  induction a with
  | nil => rfl
  | cons e a ih => cases e <;> simp [handed, ih]

theorem replay_append (m : Learner σ X Y P) (a b : List (Ev X Y P)) (s : σ) :
    replay m (a ++ b) s = replay m b (replay m a s) := by
  induction a generalizing s with
  | nil => rfl
  | cons e a ih => cases e <;> simp [replay, ih]

theorem scores_only (q : List (Y × P)) :
    trained (q.map fun q => (.score q.1 q.2 : Ev X Y P)) = [] ∧
    predicted (q.map fun q => (.score q.1 q.2 : Ev X Y P)) = [] ∧
    handed (q.map fun q => (.score q.1 q.2 : Ev X Y P)) = [] ∧
    scored (q.map fun q => (.score q.1 q.2 : Ev X Y P)) = q := by
  induction q with
  | nil => exact ⟨rfl, rfl, rfl, rfl⟩
  | cons a q ih => simp [trained, predicted, scored, handed, ih]

theorem replay_scores (m : Learner σ X Y P) (q : List (Y × P)) (s : σ) :
    replay m (q.map fun q => .score q.1 q.2) s = s := by
  induction q with
  | nil => rfl
  | cons a q ih => simp [replay, ih]

theorem trained_testLog (m : Learner σ X Y P) (s : σ) (b : List (X × Y)) :
    trained (testLog m s b) = [] := by simp [testLog, trained, scores_only]

theorem predicted_testLog (m : Learner σ X Y P) (s : σ) (b : List (X × Y)) :
    predicted (testLog m s b) = b.map Prod.fst := by simp [testLog, predicted, scores_only]

theorem handed_testLog (m : Learner σ X Y P) (s : σ) (b : List (X × Y)) :
    handed (testLog m s b) = b.map Prod.fst := by simp [testLog, handed, scores_only]

theorem scored_testLog (m : Learner σ X Y P) (h : OnePerRow m) (s : σ) (b : List (X × Y)) :
    (scored (testLog m s b)).map Prod.fst = b.map Prod.snd := by
  simp only [testLog, scored, scores_only]
  rw [List.map_fst_zip]
  simp [h s]

theorem replay_testLog (m : Learner σ X Y P) (s : σ) (b : List (X × Y)) (t : σ) :
    replay m (testLog m s b) t = (m.predict t (b.map Prod.fst)).2 := by
  simp [testLog, replay, replay_scores]

theorem Src.take_add (s : Src ρ) (i a b : Nat) :
    s.take i (a + b) = s.take i a ++ s.take (i + a) b := by
  unfold Src.take
  cases s.len with
  | none =>
    simp only
    rw [← List.map_append, List.range'_append_1]
  | some L =>
    simp only
    rw [← List.map_append]
    congr 1
    by_cases h : a ≤ L - i
    · rw [min_eq_left h, List.range'_append_1]
      congr 1
      omega
    · rw [min_eq_right (by omega), min_eq_right (by omega), min_eq_right (by omega)]
      have : L - (i + a) = 0 := by omega
      rw [this]; simp

theorem Src.length_take (s : Src ρ) (i n : Nat) :
    (s.take i n).length = match s.len with | none => n | some L => min n (L - i) := by
  unfold Src.take
  cases s.len <;> simp

/-! ### C25 -/

/-- Specification of test-then-train: wherever the log predicts samples `xs`,
they are a batch `b` directly following the samples trained on before, the
predictions of the learner in its state at that point are scored against the
labels of `b`, and the next thing done with the learner is to train it on `b`. -/
def TestThenTrain (m : Learner σ X Y P) (s0 : σ) (consumed : List (X × Y)) : Prop :=
  ∀ l1 xs l2, m.log = l1 ++ .predict xs :: l2 →
    ∃ b l3, xs = b.map Prod.fst ∧ trained l1 ++ b <+: consumed ∧
      m.log = l1 ++ testLog m (replay m l1 s0) b ++ .train b :: l3

/-- Invariant of the prequential loop for one learner `m` that started as `m0`. -/
structure PreqInv (s : Src (X × Y)) (idx pre : Nat) (c : Nat) (m0 m : Learner σ X Y P) : Prop where
  fit : m.fit = m0.fit
  pred : m.predict = m0.predict
  state : m.state = replay m0 m.log m0.state
  trained : trained m.log = s.take idx c
  predicted : predicted m.log = (s.take (idx + pre) (c - pre)).map Prod.fst
  scored : OnePerRow m0 → (scored m.log).map Prod.fst = (s.take (idx + pre) (c - pre)).map Prod.snd
  ttt : TestThenTrain m m0.state (s.take idx c)

theorem replay_congr {m m' : Learner σ X Y P} (hf : m.fit = m'.fit) (hp : m.predict = m'.predict)
    (l : List (Ev X Y P)) (s : σ) : replay m l s = replay m' l s := by
  induction l generalizing s with
  | nil => rfl
  | cons e l ih => cases e <;> simp [replay, ih, hf, hp]

theorem testLog_congr {m m' : Learner σ X Y P} (hp : m.predict = m'.predict) (s : σ)
    (b : List (X × Y)) : testLog m s b = testLog m' s b := by
  simp [testLog, hp]

/-- Where a prediction can occur in a log extended by one test-then-train chunk. -/
theorem split_chunk (l l1 l2 : List (Ev X Y P)) (x0 xs : List X) (q : List (Y × P))
    (b : List (X × Y))
    (h : l ++ .predict x0 :: (q.map fun q => .score q.1 q.2) ++ [.train b] = l1 ++ .predict xs :: l2) :
    (∃ l2', l = l1 ++ .predict xs :: l2') ∨ (l = l1 ∧ x0 = xs) := by
  rw [List.append_assoc, List.append_eq_append_iff] at h
  rcases h with ⟨a, h1, h2⟩ | ⟨c, h1, h2⟩
  · right
    cases a with
    | nil => simp at h1 h2; exact ⟨h1.symm, h2.1⟩
    | cons e a =>
      exfalso
      simp only [List.cons_append, List.cons.injEq] at h2
      have : (.predict xs : Ev X Y P) ∈ (q.map fun q => (.score q.1 q.2 : Ev X Y P)) ++ [.train b] := by
        rw [h2.2]; simp
      simp at this
  · cases c with
    | nil => simp at h1 h2; right; exact ⟨h1, h2.1.symm⟩
    | cons e c =>
      left
      simp only [List.cons_append, List.cons.injEq] at h2
      exact ⟨c, by rw [h1, h2.1]⟩

theorem PreqInv.step {s : Src (X × Y)} {idx pre c : Nat} {m0 m : Learner σ X Y P}
    (h : PreqInv s idx pre c m0 m) (hc : pre ≤ c) (batch : Nat) :
    PreqInv s idx pre (c + batch) m0
      ((m.test (s.take (idx + c) batch)).train (s.take (idx + c) batch)) := by
  set b := s.take (idx + c) batch with hb
  have hlog : ((m.test b).train b).log = m.log ++ testLog m m.state b ++ [.train b] := rfl
  have hstate : ((m.test b).train b).state = m.fit (m.predict m.state (b.map Prod.fst)).2 b := rfl
  have hcons : s.take idx (c + batch) = s.take idx c ++ b := s.take_add idx c batch
  have htail : s.take (idx + pre) (c + batch - pre) = s.take (idx + pre) (c - pre) ++ b := by
    have e : c + batch - pre = (c - pre) + batch := by omega
    rw [e, s.take_add, hb]
    have e2 : idx + pre + (c - pre) = idx + c := by omega
    rw [e2]
  refine ⟨h.fit, h.pred, ?_, ?_, ?_, ?_, ?_⟩
  · rw [hlog, hstate, replay_append, replay_append, ← h.state]
    have e := replay_testLog m0 m.state b m.state
    rw [testLog_congr h.pred, e]
    simp [replay, h.fit, h.pred]
  · rw [hlog, trained_append, trained_append, trained_testLog, h.trained, hcons]
    simp [Evaluation.trained]
  · rw [hlog, predicted_append, predicted_append, predicted_testLog, h.predicted, htail]
    simp [Evaluation.predicted]
  · intro ho
    have ho' : OnePerRow m := by intro s xs; rw [h.pred]; exact ho s xs
    rw [hlog, scored_append, scored_append, List.map_append, List.map_append, h.scored ho,
      scored_testLog m ho', htail]
    simp [Evaluation.scored]
  · intro l1 xs l2 e
    have hr : ∀ l s', replay ((m.test b).train b) l s' = replay m l s' :=
      fun l s' => replay_congr (m := (m.test b).train b) (m' := m) rfl rfl l s'
    have ht : ∀ s' b', testLog ((m.test b).train b) s' b' = testLog m s' b' :=
      fun s' b' => testLog_congr (m := (m.test b).train b) (m' := m) rfl s' b'
    rw [hlog] at e
    rcases split_chunk _ _ _ _ _ _ _ e with ⟨l2', hl⟩ | ⟨hl, hx⟩
    · obtain ⟨b', l3, h1, h2, h3⟩ := h.ttt l1 xs l2' hl
      refine ⟨b', l3 ++ testLog m m.state b ++ [.train b], h1, ?_, ?_⟩
      · rw [hcons]; exact h2.trans (List.prefix_append _ _)
      · rw [hlog, hr, ht, h3]
        simp [List.append_assoc]
    · subst hl
      refine ⟨b, [], hx.symm, ?_, ?_⟩
      · rw [h.trained, hcons]; exact List.prefix_rfl
      · rw [hlog, hr, ht, replay_congr h.fit h.pred, ← h.state]

theorem preqLoop_spec (s : Src (X × Y)) (idx pre batch : Nat) (amax : Int) (ha : 20 ≤ amax)
    (timeOk : Nat → Bool) (hb : 0 < batch) (ms0 : List (Learner σ X Y P)) :
    ∀ (fuel k c : Nat) ms, pre ≤ c → 0 < fuel → amax < (c : Int) + fuel → List.Forall₂ (PreqInv s idx pre c) ms0 ms →
    ∃ r c', preqLoop s batch amax timeOk fuel k (idx + c) c ms = some r ∧ r.error = none ∧
      r.idx = idx + c' ∧ c ≤ c' ∧ (c' = c ∨ (c' : Int) < amax + batch) ∧
      ((∀ k, timeOk k = true) → amax ≤ c' ∨ s.hasMore (idx + c') = false) ∧
      List.Forall₂ (PreqInv s idx pre c') ms0 r.learners := by
  intro fuel
  induction fuel with
  | zero => intro k c ms _ h0; omega
  | succ fuel ih =>
    intro k c ms hc _ hf hm
    unfold preqLoop
    by_cases hcond : ((c : Int) < amax && timeOk k && s.hasMore (idx + c)) = true
    · rw [if_pos hcond]
      have hck : checkProgress amax = .ok () := by
        unfold checkProgress
        rw [if_neg]
        intro hz
        have : amax / 20 = 0 := by simpa using hz
        omega
      simp only [hck]
      have hlt : (c : Int) < amax := by
        simp only [Bool.and_eq_true, decide_eq_true_eq] at hcond
        exact hcond.1.1
      obtain ⟨r, c', h1, h2, h3, h4, h5, h6, h7⟩ := ih (k + 1) (c + batch)
        ((ms.map fun m => m.test (s.take (idx + c) batch)).map fun m => m.train (s.take (idx + c) batch))
        (by omega) (by push_cast at hf; omega) (by push_cast at hf ⊢; omega) (by
          rw [List.map_map, List.forall₂_map_right_iff]
          exact hm.imp fun _ _ h => h.step hc batch)
      refine ⟨r, c', ?_, h2, h3, by omega, ?_, h6, h7⟩
      · rw [← h1, Nat.add_assoc]
      · right
        rcases h5 with h5 | h5
        · subst h5; push_cast; omega
        · exact h5
    · rw [if_neg hcond]
      refine ⟨⟨ms, idx + c, none⟩, c, rfl, rfl, rfl, le_refl _, .inl rfl, ?_, hm⟩
      intro ht
      rw [ht k] at hcond
      by_cases hlt : (c : Int) < amax
      · right
        simpa [hlt] using hcond
      · left; omega

/-- With the learners fresh, the invariant holds after pre-training. -/
theorem PreqInv.start (s : Src (X × Y)) (idx pre : Nat) (m : Learner σ X Y P) (h : m.log = []) :
    PreqInv s idx pre pre m (if pre > 0 then m.train (s.take idx pre) else m) := by
  have e0 : s.take (idx + pre) (pre - pre) = [] := by
    rw [Nat.sub_self]
    have := s.length_take (idx + pre) 0
    apply List.eq_nil_of_length_eq_zero
    rw [this]; cases s.len <;> simp
  by_cases hp : pre > 0
  · rw [if_pos hp]
    have hlog : (m.train (s.take idx pre)).log = [.train (s.take idx pre)] := by
      simp [Learner.train, h]
    refine ⟨rfl, rfl, ?_, ?_, ?_, ?_, ?_⟩
    · rw [hlog]; rfl
    · rw [hlog]; simp [Evaluation.trained]
    · rw [hlog, e0]; rfl
    · rw [hlog, e0]; intro _; rfl
    · intro l1 xs l2 e
      rw [hlog] at e
      cases l1 with
      | nil => simp at e
      | cons a l1 =>
        simp at e
  · have : pre = 0 := by omega
    subst this
    rw [if_neg hp]
    have e1 : s.take idx 0 = [] := by simpa using e0
    refine ⟨rfl, rfl, ?_, ?_, ?_, ?_, ?_⟩
    · rw [h]; rfl
    · rw [h, e1]; rfl
    · rw [h, e0]; rfl
    · rw [h, e0]; intro _; rfl
    · intro l1 xs l2 e
      rw [h] at e
      cases l1 <;> simp at e

/-- C25: for every learner, stream, batch size and pre-training size, and at
least 20 samples to evaluate, there is a number `n` of consumed samples such that
for every learner: it is trained exactly on the first `n` samples in stream
order; it predicts exactly those after the pre-training block, once each and in
order; the scored labels are theirs; and every prediction is made test-then-train. -/
theorem C25_test_then_train (s : Src (X × Y)) (idx pre batch maxSamples : Nat) (timeOk : Nat → Bool)
    (hb : 0 < batch) (ha : 20 ≤ actualMax s idx maxSamples) (fuel : Nat)
    (hf : actualMax s idx maxSamples < fuel) (ms : List (Learner σ X Y P))
    (hm : ∀ m ∈ ms, m.log = []) :
    ∃ r n, prequential s idx pre batch maxSamples timeOk fuel ms = some r ∧ r.error = none ∧
      List.Forall₂ (fun m0 m => m.predict = m0.predict ∧ m.fit = m0.fit ∧
        trained m.log = s.take idx n ∧
        predicted m.log = ((s.take idx n).drop pre).map Prod.fst ∧
        (OnePerRow m0 → (scored m.log).map Prod.fst = ((s.take idx n).drop pre).map Prod.snd) ∧
        TestThenTrain m m0.state (s.take idx n)) ms r.learners ∧
      ((∀ k, timeOk k = true) → (∀ L, s.len = some L → idx ≤ L) →
        actualMax s idx maxSamples ≤ (s.take idx n).length ∧
        ((s.take idx n).length < actualMax s idx maxSamples + batch ∨ n = pre)) := by
  have hstart : List.Forall₂ (PreqInv s idx pre pre) ms
      (ms.map fun m => if pre > 0 then m.train (s.take idx pre) else m) := by
    rw [List.forall₂_map_right_iff, List.forall₂_same]
    exact fun m h => PreqInv.start s idx pre m (hm m h)
  have hrun : prequential s idx pre batch maxSamples timeOk fuel ms =
      preqLoop s batch (actualMax s idx maxSamples) timeOk fuel 0 (idx + pre) pre
        (ms.map fun m => if pre > 0 then m.train (s.take idx pre) else m) := by
    unfold prequential
    by_cases hp : pre > 0
    · simp only [hp, if_true]
    · have : pre = 0 := by omega
      subst this
      simp
  obtain ⟨r, c, h1, h2, h3, h4, h5, h6, h7⟩ := preqLoop_spec s idx pre batch
    (actualMax s idx maxSamples) ha timeOk hb ms fuel 0 pre _ (le_refl _) (by omega) (by omega) hstart
  have hdrop : (s.take idx c).drop pre = s.take (idx + pre) (c - pre) := by
    have e : c = pre + (c - pre) := by omega
    rw [e, s.take_add]
    have hl := s.length_take idx pre
    have hl2 := s.length_take (idx + pre) (c - pre)
    have e2 : pre + (c - pre) - pre = c - pre := by omega
    rw [e2]
    cases hs : s.len with
    | none =>
      rw [hs] at hl
      rw [List.drop_left' hl]
    | some L =>
      rw [hs] at hl hl2
      simp only at hl hl2
      by_cases hle : pre ≤ L - idx
      · rw [min_eq_left hle] at hl
        rw [List.drop_left' hl]
      · have e3 : s.take (idx + pre) (c - pre) = [] :=
          List.eq_nil_of_length_eq_zero (by rw [hl2]; omega)
        rw [e3, List.append_nil]
        apply List.drop_of_length_le
        rw [hl]; omega
  refine ⟨r, c, by rw [hrun]; exact h1, h2, ?_, ?_⟩
  · refine h7.imp fun m0 m h => ⟨h.pred, h.fit, h.trained, ?_, ?_, h.ttt⟩
    · rw [hdrop]; exact h.predicted
    · rw [hdrop]; exact h.scored
  · intro ht hi
    have h8 := h6 ht
    have hlen := s.length_take idx c
    have hA : (∀ L, s.len = some L → actualMax s idx maxSamples ≤ (L : Int) - idx) := by
      intro L hs
      have := hi L hs
      unfold actualMax Src.nRemaining
      rw [hs]
      simp only [Bool.or_eq_true, beq_iff_eq, decide_eq_true_eq]
      split <;> omega
    cases hs : s.len with
    | none =>
      simp only [hs, Src.hasMore] at hlen h8
      rw [hlen]
      have h9 : actualMax s idx maxSamples ≤ (c : Int) := by
        rcases h8 with h | h
        · exact h
        · cases h
      omega
    | some L =>
      have := hA L hs
      simp only [hs, Src.hasMore, decide_eq_false_iff_not] at hlen h8
      rw [hlen]
      push_cast
      omega

/-! ### C26 -/

/-- Every test phase in the log predicts a test set satisfying `T` completely, in
the state the learner has at that point, and scores the predictions against the
labels of the test set. -/
def TestsAre (T : List (X × Y) → Prop) (m : Learner σ X Y P) (s0 : σ) : Prop :=
  ∀ l1 xs l2, m.log = l1 ++ .predict xs :: l2 →
    ∃ t l3, T t ∧ m.log = l1 ++ testLog m (replay m l1 s0) t ++ l3

theorem TestsAre.mono {T T' : List (X × Y) → Prop} {m : Learner σ X Y P} {s0 : σ}
    (h : TestsAre T m s0) (hT : ∀ t, T t → T' t) : TestsAre T' m s0 := by
  intro l1 xs l2 e
  obtain ⟨t, l3, h1, h2⟩ := h l1 xs l2 e
  exact ⟨t, l3, hT t h1, h2⟩

theorem TestsAre.train {T : List (X × Y) → Prop} {m : Learner σ X Y P} {s0 : σ}
    (h : TestsAre T m s0) (b : List (X × Y)) : TestsAre T (m.train b) s0 := by
  intro l1 xs l2 e
  have hlog : (m.train b).log = m.log ++ [.train b] := rfl
  rw [hlog] at e
  have : ∃ l2', m.log = l1 ++ .predict xs :: l2' := by
    rw [List.append_eq_append_iff] at e
    rcases e with ⟨a, h1, h2⟩ | ⟨c, h1, h2⟩
    · cases a with
      | nil => simp at h2
      | cons z a => simp at h2
    · cases c with
      | nil => simp at h2
      | cons z c =>
        simp only [List.cons_append, List.cons.injEq] at h2
        exact ⟨c, by rw [h1, h2.1]⟩
  obtain ⟨l2', hl⟩ := this
  obtain ⟨t, l3, h1, h2⟩ := h l1 xs l2' hl
  refine ⟨t, l3 ++ [.train b], h1, ?_⟩
  rw [hlog, h2, replay_congr (m := m.train b) (m' := m) rfl rfl,
    testLog_congr (m := m.train b) (m' := m) rfl]
  simp [List.append_assoc]

theorem TestsAre.test {T : List (X × Y) → Prop} {m : Learner σ X Y P} {s0 : σ}
    (h : TestsAre T m s0) (hs : m.state = replay m m.log s0) (b : List (X × Y)) (hb : T b) :
    TestsAre T (m.test b) s0 := by
  intro l1 xs l2 e
  have hlog : (m.test b).log = m.log ++ testLog m m.state b := rfl
  have e' : m.log ++ testLog m m.state b ++ [.train b] = l1 ++ .predict xs :: (l2 ++ [.train b]) := by
    rw [← hlog, e]; simp
  rw [replay_congr (m := m.test b) (m' := m) rfl rfl]
  rcases split_chunk _ _ _ _ _ _ _ e' with ⟨l2', hl⟩ | ⟨hl, hx⟩
  · obtain ⟨t, l3, h1, h2⟩ := h l1 xs l2' hl
    refine ⟨t, l3 ++ testLog m m.state b, h1, ?_⟩
    rw [hlog, h2, testLog_congr (m := m.test b) (m' := m) rfl]
    simp [List.append_assoc]
  · subst hl
    refine ⟨b, [], hb, ?_⟩
    rw [hlog, ← hs, testLog_congr (m := m.test b) (m' := m) rfl]
    simp

/-- Invariant of the static holdout loop. -/
structure HoldInv (s : Src (X × Y)) (idx ts c : Nat) (m0 m : Learner σ X Y P) : Prop where
  fit : m.fit = m0.fit
  pred : m.predict = m0.predict
  state : m.state = replay m m.log m0.state
  trained : trained m.log = s.take (idx + ts) (c - ts)
  tests : TestsAre (· = s.take idx ts) m m0.state

theorem Src.take_zero (s : Src ρ) (i : Nat) : s.take i 0 = [] := by
  apply List.eq_nil_of_length_eq_zero
  rw [s.length_take]; cases s.len <;> simp

theorem HoldInv.train {s : Src (X × Y)} {idx ts c : Nat} {m0 m : Learner σ X Y P}
    (h : HoldInv s idx ts c m0 m) (hc : ts ≤ c) (batch : Nat) :
    HoldInv s idx ts (c + batch) m0 (m.train (s.take (idx + c) batch)) := by
  have hlog : (m.train (s.take (idx + c) batch)).log = m.log ++ [.train (s.take (idx + c) batch)] := rfl
  refine ⟨h.fit, h.pred, ?_, ?_, h.tests.train _⟩
  · rw [hlog, replay_congr (m := m.train (s.take (idx + c) batch)) (m' := m) rfl rfl, replay_append, ← h.state]; rfl
  · rw [hlog, trained_append, h.trained]
    have e : c + batch - ts = (c - ts) + batch := by omega
    rw [e, s.take_add]
    have e2 : idx + ts + (c - ts) = idx + c := by omega
    rw [e2]; simp [Evaluation.trained]

theorem HoldInv.test {s : Src (X × Y)} {idx ts c : Nat} {m0 m : Learner σ X Y P}
    (h : HoldInv s idx ts c m0 m) : HoldInv s idx ts c m0 (m.test (s.take idx ts)) := by
  have hlog : (m.test (s.take idx ts)).log = m.log ++ testLog m m.state (s.take idx ts) := rfl
  refine ⟨h.fit, h.pred, ?_, ?_, h.tests.test h.state _ rfl⟩
  · rw [hlog, replay_congr (m := m.test (s.take idx ts)) (m' := m) rfl rfl, replay_append, ← h.state, replay_testLog]; rfl
  · rw [hlog, trained_append, trained_testLog, h.trained, List.append_nil]

theorem checkProgress_ok {a : Int} (h : 20 ≤ a) : checkProgress a = .ok () := by
  unfold checkProgress
  rw [if_neg]
  intro hz
  have : a / 20 = 0 := by simpa using hz
  omega

theorem holdLoop_static (s : Src (X × Y)) (idx batch nWait ts : Nat) (amax : Int) (ha : 20 ≤ amax)
    (timeOk : Nat → Bool) (hb : 0 < batch) (hw : 0 < nWait) (ms0 : List (Learner σ X Y P)) :
    ∀ (fuel k c cnt : Nat) ms, ts ≤ c → 0 < fuel → amax < (c : Int) + fuel →
    List.Forall₂ (HoldInv s idx ts c) ms0 ms →
    ∃ r c', holdLoop s false batch nWait ts amax timeOk (s.take idx ts) fuel k (idx + c) c cnt ms =
        some r ∧ r.error = none ∧ ts ≤ c' ∧ (c' = c ∧ r.learners = ms ∨ (c' : Int) < amax + batch) ∧
      ((∀ k, timeOk k = true) → amax ≤ c' ∨ s.hasMore (idx + c') = false) ∧
      (((c : Int) < amax ∧ amax ≤ c') → ∀ m ∈ r.learners, ∃ m1 : Learner σ X Y P,
        m = m1.test (s.take idx ts)) ∧
      List.Forall₂ (HoldInv s idx ts c') ms0 r.learners := by
  intro fuel
  induction fuel with
  | zero => intro k c cnt ms _ h0; omega
  | succ fuel ih =>
    intro k c cnt ms hc _ hf hm
    unfold holdLoop
    by_cases hcond : ((c : Int) < amax && timeOk k && s.hasMore (idx + c)) = true
    · rw [if_pos hcond]
      have hlt : (c : Int) < amax := by
        simp only [Bool.and_eq_true, decide_eq_true_eq] at hcond
        exact hcond.1.1
      have hw0 : ¬ ((!false && nWait == 0) = true) := by simp; omega
      simp only [checkProgress_ok ha, if_neg hw0]
      have hm1 : List.Forall₂ (HoldInv s idx ts (c + batch)) ms0
          (ms.map fun m => m.train (s.take (idx + c) batch)) := by
        rw [List.forall₂_map_right_iff]
        exact hm.imp fun _ _ h => h.train hc batch
      by_cases hp : performTest false nWait ts (c + batch) cnt amax = true
      · rw [if_pos hp]
        simp only [Bool.false_eq_true, if_false]
        have hm2 : List.Forall₂ (HoldInv s idx ts (c + batch)) ms0
            ((ms.map fun m => m.train (s.take (idx + c) batch)).map
              fun m => m.test (s.take idx ts)) := by
          rw [List.forall₂_map_right_iff]
          exact hm1.imp fun _ _ h => h.test
        obtain ⟨r, c', h1, h2, h3, h4, h5, h6, h7⟩ := ih (k + 1) (c + batch) (cnt + 1) _ (by omega)
          (by push_cast at hf; omega) (by push_cast at hf ⊢; omega) hm2
        refine ⟨r, c', by rw [← h1, Nat.add_assoc], h2, h3, ?_, h5, ?_, h7⟩
        · right
          rcases h4 with ⟨h4, _⟩ | h4
          · subst h4; push_cast; omega
          · exact h4
        · rintro ⟨_, hge⟩
          by_cases hl2 : ((c + batch : Nat) : Int) < amax
          · exact h6 ⟨hl2, hge⟩
          · rcases h4 with ⟨_, h4⟩ | h4
            · rw [h4]
              intro m hmem
              obtain ⟨m1, _, e⟩ := List.mem_map.mp hmem
              exact ⟨m1, e.symm⟩
            · intro m hmem
              -- the next call leaves at once
              obtain ⟨fuel', rfl⟩ : ∃ f, fuel = f + 1 := ⟨fuel - 1, by push_cast at hf; omega⟩
              rw [show idx + (c + batch) = idx + (c + batch) from rfl] at h1
              unfold holdLoop at h1
              rw [if_neg (by simp only [decide_eq_false hl2]; simp)] at h1
              simp only [Option.some.injEq] at h1
              rw [← h1] at hmem
              obtain ⟨m1, _, e⟩ := List.mem_map.mp hmem
              exact ⟨m1, e.symm⟩
      · rw [if_neg hp]
        obtain ⟨r, c', h1, h2, h3, h4, h5, h6, h7⟩ := ih (k + 1) (c + batch) cnt _ (by omega)
          (by push_cast at hf; omega) (by push_cast at hf ⊢; omega) hm1
        have hl2 : ((c + batch : Nat) : Int) < amax := by
          simp only [performTest, Bool.or_eq_true, decide_eq_true_eq] at hp
          push Not at hp
          exact hp.2
        refine ⟨r, c', by rw [← h1, Nat.add_assoc], h2, h3, ?_, h5, ?_, h7⟩
        · right
          rcases h4 with ⟨h4, _⟩ | h4
          · subst h4; push_cast; omega
          · exact h4
        · rintro ⟨_, hge⟩; exact h6 ⟨hl2, hge⟩
    · rw [if_neg hcond]
      refine ⟨⟨ms, idx + c, none⟩, c, rfl, rfl, hc, .inl ⟨rfl, rfl⟩, ?_, ?_, hm⟩
      · intro ht
        rw [ht k] at hcond
        by_cases hlt : (c : Int) < amax
        · right
          simpa [hlt] using hcond
        · left; omega
      · rintro ⟨h1, h2⟩; omega

/-- `actual_max_samples` never exceeds what a finite stream still has. -/
theorem actualMax_le (s : Src ρ) (idx maxSamples L : Nat) (hs : s.len = some L) (hi : idx ≤ L) :
    actualMax s idx maxSamples ≤ (L : Int) - idx := by
  unfold actualMax Src.nRemaining
  rw [hs]
  simp only [Bool.or_eq_true, beq_iff_eq, decide_eq_true_eq]
  split <;> omega

/-- C26: with a static test set of `ts` samples (the first `ts` of the stream),
for some number `n` of samples consumed after it, every learner is trained on
exactly the `n` samples that follow the test set, in order and once each; every
test phase predicts exactly the whole test set with the learner's current state
and scores it against the test labels; and when no time limit interferes, the
run consumes all samples to be evaluated and ends with such a test phase. -/
theorem C26_static (s : Src (X × Y)) (idx batch nWait ts maxSamples : Nat) (timeOk : Nat → Bool)
    (hb : 0 < batch) (hw : 0 < nWait) (ha : 20 ≤ actualMax s idx maxSamples) (fuel : Nat)
    (hf : actualMax s idx maxSamples < fuel) (ms : List (Learner σ X Y P))
    (hm : ∀ m ∈ ms, m.log = []) :
    ∃ r n, holdout s idx false batch nWait ts maxSamples timeOk fuel ms = some r ∧
      r.error = none ∧
      List.Forall₂ (fun m0 m => m.predict = m0.predict ∧ m.fit = m0.fit ∧
        trained m.log = s.take (idx + ts) n ∧
        TestsAre (· = s.take idx ts) m m0.state) ms r.learners ∧
      ((∀ k, timeOk k = true) → (∀ L, s.len = some L → idx ≤ L) →
        actualMax s idx maxSamples ≤ ts + n ∧
        ((ts : Int) < actualMax s idx maxSamples → ∀ m ∈ r.learners, ∃ l st,
          m.log = l ++ testLog m st (s.take idx ts))) := by
  have hstart : List.Forall₂ (HoldInv s idx ts ts) ms ms := by
    rw [List.forall₂_same]
    intro m h
    have hl := hm m h
    refine ⟨rfl, rfl, ?_, ?_, ?_⟩
    · rw [hl]; rfl
    · rw [hl, Nat.sub_self, s.take_zero]; rfl
    · intro l1 xs l2 e
      rw [hl] at e
      cases l1 <;> simp at e
  obtain ⟨r, c, h1, h2, h3, h4, h5, h6, h7⟩ := holdLoop_static s idx batch nWait ts
    (actualMax s idx maxSamples) ha timeOk hb hw ms fuel 0 ts 0 ms (le_refl _) (by omega) (by omega)
    hstart
  refine ⟨r, c - ts, h1, h2, h7.imp fun m0 m h => ⟨h.pred, h.fit, h.trained, h.tests⟩, ?_⟩
  intro ht hi
  have hc : actualMax s idx maxSamples ≤ c := by
    rcases h5 ht with h | h
    · exact h
    · unfold Src.hasMore at h
      cases hs : s.len with
      | none => rw [hs] at h; cases h
      | some L =>
        have := actualMax_le s idx maxSamples L hs (hi L hs)
        rw [hs] at h
        have : ¬ (idx + c < L) := by simpa using h
        omega
  refine ⟨by omega, fun hlt m hmem => ?_⟩
  obtain ⟨m1, e⟩ := h6 ⟨hlt, hc⟩ m hmem
  exact ⟨m1.log, m1.state, by rw [e]; rfl⟩

/-- Invariant of the dynamic holdout loop; `d` samples were drawn from the stream. -/
structure DynInv (s : Src (X × Y)) (idx d : Nat) (m0 m : Learner σ X Y P) : Prop where
  fit : m.fit = m0.fit
  pred : m.predict = m0.predict
  state : m.state = replay m m.log m0.state
  handed : handed m.log = (s.take idx d).map Prod.fst
  trained : (trained m.log).Sublist (s.take idx d)
  tests : TestsAre (fun t => ∃ a n, t = s.take a n) m m0.state

theorem DynInv.train {s : Src (X × Y)} {idx d : Nat} {m0 m : Learner σ X Y P}
    (h : DynInv s idx d m0 m) (batch : Nat) :
    DynInv s idx (d + batch) m0 (m.train (s.take (idx + d) batch)) := by
  have hlog : (m.train (s.take (idx + d) batch)).log = m.log ++ [.train (s.take (idx + d) batch)] := rfl
  refine ⟨h.fit, h.pred, ?_, ?_, ?_, h.tests.train _⟩
  · rw [hlog, replay_congr (m := m.train (s.take (idx + d) batch)) (m' := m) rfl rfl, replay_append, ← h.state]; rfl
  · rw [hlog, handed_append, h.handed, s.take_add]; simp [Evaluation.handed]
  · rw [hlog, trained_append, s.take_add]
    simp only [Evaluation.trained, List.append_nil]
    exact h.trained.append (List.Sublist.refl _)

theorem DynInv.test {s : Src (X × Y)} {idx d : Nat} {m0 m : Learner σ X Y P}
    (h : DynInv s idx d m0 m) (ts : Nat) :
    DynInv s idx (d + ts) m0 (m.test (s.take (idx + d) ts)) := by
  have hlog : (m.test (s.take (idx + d) ts)).log = m.log ++ testLog m m.state (s.take (idx + d) ts) := rfl
  refine ⟨h.fit, h.pred, ?_, ?_, ?_, h.tests.test h.state _ ⟨_, _, rfl⟩⟩
  · rw [hlog, replay_congr (m := m.test (s.take (idx + d) ts)) (m' := m) rfl rfl, replay_append, ← h.state, replay_testLog]; rfl
  · rw [hlog, handed_append, h.handed, handed_testLog, s.take_add, List.map_append]
  · rw [hlog, trained_append, trained_testLog, s.take_add, List.append_nil]
    exact h.trained.trans (List.sublist_append_left _ _)

theorem holdLoop_dynamic (s : Src (X × Y)) (idx batch nWait ts : Nat) (amax : Int) (ha : 20 ≤ amax)
    (timeOk : Nat → Bool) (hb : 0 < batch) (test : List (X × Y)) (ms0 : List (Learner σ X Y P)) :
    ∀ (fuel k d c cnt : Nat) ms, 0 < fuel → amax < (c : Int) + fuel →
    List.Forall₂ (DynInv s idx d) ms0 ms →
    ∃ r d', holdLoop s true batch nWait ts amax timeOk test fuel k (idx + d) c cnt ms =
        some r ∧ r.error = none ∧ List.Forall₂ (DynInv s idx d') ms0 r.learners := by
  intro fuel
  induction fuel with
  | zero => intro k d c cnt ms h0; omega
  | succ fuel ih =>
    intro k d c cnt ms _ hf hm
    unfold holdLoop
    by_cases hcond : ((c : Int) < amax && timeOk k && s.hasMore (idx + d)) = true
    · rw [if_pos hcond]
      have hlt : (c : Int) < amax := by
        simp only [Bool.and_eq_true, decide_eq_true_eq] at hcond
        exact hcond.1.1
      have hm1 : List.Forall₂ (DynInv s idx (d + batch)) ms0
          (ms.map fun m => m.train (s.take (idx + d) batch)) := by
        rw [List.forall₂_map_right_iff]
        exact hm.imp fun _ _ h => h.train batch
      have hw0 : ¬ ((!true && nWait == 0) = true) := by simp
      simp only [checkProgress_ok ha, if_neg hw0]
      by_cases hp : performTest true nWait ts (c + batch) cnt amax = true
      · rw [if_pos hp]
        simp only [if_true]
        have hm2 : List.Forall₂ (DynInv s idx (d + batch + ts)) ms0
            ((ms.map fun m => m.train (s.take (idx + d) batch)).map
              fun m => m.test (s.take (idx + (d + batch)) ts)) := by
          rw [List.forall₂_map_right_iff]
          exact hm1.imp fun _ _ h => h.test ts
        obtain ⟨r, d', h1, h2, h3⟩ := ih (k + 1) (d + batch + ts)
          (c + batch + (s.take (idx + (d + batch)) ts).length) (cnt + 1) _
          (by push_cast at hf; omega) (by push_cast at hf ⊢; omega) hm2
        refine ⟨r, d', ?_, h2, h3⟩
        rw [← h1]
        have e1 : idx + d + batch = idx + (d + batch) := by omega
        rw [e1, Nat.add_assoc idx]
      · rw [if_neg hp]
        obtain ⟨r, d', h1, h2, h3⟩ := ih (k + 1) (d + batch) (c + batch) cnt _
          (by push_cast at hf; omega) (by push_cast at hf ⊢; omega) hm1
        exact ⟨r, d', by rw [← h1, Nat.add_assoc], h2, h3⟩
    · rw [if_neg hcond]
      exact ⟨⟨ms, idx + d, none⟩, d, rfl, rfl, hm⟩

/-- C26 (dynamic test sets): the samples handed to a learner, for training or
for testing, are together exactly the consumed samples in stream order, so no
sample is used both for testing and for training; the trained samples keep
their labels, and every test phase scores all samples drawn for it. -/
theorem C26_dynamic (s : Src (X × Y)) (idx batch nWait ts maxSamples : Nat) (timeOk : Nat → Bool)
    (hb : 0 < batch) (ha : 20 ≤ actualMax s idx maxSamples) (fuel : Nat)
    (hf : actualMax s idx maxSamples < fuel) (ms : List (Learner σ X Y P))
    (hm : ∀ m ∈ ms, m.log = []) :
    ∃ r n, holdout s idx true batch nWait ts maxSamples timeOk fuel ms = some r ∧
      r.error = none ∧
      List.Forall₂ (fun m0 m => m.predict = m0.predict ∧ m.fit = m0.fit ∧
        handed m.log = (s.take idx n).map Prod.fst ∧
        (trained m.log).Sublist (s.take idx n) ∧
        TestsAre (fun t => ∃ a n, t = s.take a n) m m0.state) ms r.learners := by
  have hstart : List.Forall₂ (DynInv s idx 0) ms ms := by
    rw [List.forall₂_same]
    intro m h
    have hl := hm m h
    refine ⟨rfl, rfl, ?_, ?_, ?_, ?_⟩
    · rw [hl]; rfl
    · rw [hl, s.take_zero]; rfl
    · rw [hl, s.take_zero]; exact List.Sublist.refl _
    · intro l1 xs l2 e
      rw [hl] at e
      cases l1 <;> simp at e
  obtain ⟨r, d, h1, h2, h3⟩ := holdLoop_dynamic s idx batch nWait ts
    (actualMax s idx maxSamples) ha timeOk hb [] ms fuel 0 0 0 0 ms (by omega) (by push_cast; omega)
    hstart
  exact ⟨r, d, h1, h2, h3.imp fun m0 m h => ⟨h.pred, h.fit, h.handed, h.trained, h.tests⟩⟩

/-! ### C56: fewer than 20 samples -/

/-- C56: when fewer than 20 samples are to be evaluated, the prequential
evaluator predicts and scores one batch, swallows the exception raised by the
progress bar and ends: no learner is ever trained beyond the pre-training block. -/
theorem C56_prequential_short (s : Src (X × Y)) (idx pre batch maxSamples : Nat) (timeOk : Nat → Bool)
    (ha : (pre : Int) < actualMax s idx maxSamples) (h20 : actualMax s idx maxSamples < 20)
    (ht : timeOk 0 = true) (hmore : s.hasMore (idx + pre) = true) (fuel : Nat) (hf : 0 < fuel)
    (ms : List (Learner σ X Y P)) (hm : ∀ m ∈ ms, m.log = []) :
    ∃ r, prequential s idx pre batch maxSamples timeOk fuel ms = some r ∧
      r.error = some .zeroDivision ∧
      ∀ m ∈ r.learners, trained m.log = s.take idx pre ∧
        predicted m.log = (s.take (idx + pre) batch).map Prod.fst := by
  have hz : checkProgress (actualMax s idx maxSamples) = .error .zeroDivision := by
    unfold checkProgress
    rw [if_pos]
    have : actualMax s idx maxSamples / 20 = 0 := by omega
    simpa using this
  obtain ⟨fuel, rfl⟩ : ∃ f, fuel = f + 1 := ⟨fuel - 1, by omega⟩
  unfold prequential
  by_cases hp : pre > 0
  · simp only [if_pos hp]
    unfold preqLoop
    rw [if_pos (by simp [ha, ht, hmore])]
    simp only [hz]
    refine ⟨_, rfl, rfl, ?_⟩
    intro m hmem
    simp only [List.map_map, List.mem_map] at hmem
    obtain ⟨m1, h1, rfl⟩ := hmem
    have hlog : ((m1.train (s.take idx pre)).test (s.take (idx + pre) batch)).log =
        m1.log ++ [.train (s.take idx pre)] ++ testLog m1 (m1.fit m1.state (s.take idx pre))
          (s.take (idx + pre) batch) := rfl
    simp only [Function.comp, hlog, hm m1 h1, trained_append, predicted_append, trained_testLog,
      predicted_testLog]
    simp [trained, predicted]
  · have : pre = 0 := by omega
    subst this
    simp only [if_neg hp, Nat.add_zero] at *
    unfold preqLoop
    rw [if_pos (by simp [ht, hmore]; exact ha)]
    simp only [hz]
    refine ⟨_, rfl, rfl, ?_⟩
    intro m hmem
    simp only [List.mem_map] at hmem
    obtain ⟨m1, h1, rfl⟩ := hmem
    have hlog : (m1.test (s.take idx batch)).log =
        m1.log ++ testLog m1 m1.state (s.take idx batch) := rfl
    simp only [hlog, hm m1 h1, trained_append, predicted_append, trained_testLog,
      predicted_testLog, s.take_zero]
    simp [trained, predicted]

/-- C56: when fewer than 20 samples are to be evaluated, the holdout evaluator
trains on one batch and ends: nothing is ever predicted or scored. -/
theorem C56_holdout_short (s : Src (X × Y)) (idx batch nWait ts maxSamples : Nat) (dynamic : Bool)
    (timeOk : Nat → Bool) (ha : (if dynamic then 0 else ts : Int) < actualMax s idx maxSamples)
    (h20 : actualMax s idx maxSamples < 20) (ht : timeOk 0 = true)
    (hmore : s.hasMore (idx + if dynamic then 0 else ts) = true) (fuel : Nat) (hf : 0 < fuel)
    (ms : List (Learner σ X Y P)) (hm : ∀ m ∈ ms, m.log = []) :
    ∃ r, holdout s idx dynamic batch nWait ts maxSamples timeOk fuel ms = some r ∧
      r.error = some .zeroDivision ∧ ∀ m ∈ r.learners, predicted m.log = [] ∧ scored m.log = [] := by
  have hz : checkProgress (actualMax s idx maxSamples) = .error .zeroDivision := by
    unfold checkProgress
    rw [if_pos]
    have : actualMax s idx maxSamples / 20 = 0 := by
      cases dynamic <;> simp at ha <;> omega
    simpa using this
  obtain ⟨fuel, rfl⟩ : ∃ f, fuel = f + 1 := ⟨fuel - 1, by omega⟩
  have key : ∀ (b : List (X × Y)) (m : Learner σ X Y P), m ∈ ms.map (fun m => m.train b) →
      predicted m.log = [] ∧ scored m.log = [] := by
    intro b m hmem
    obtain ⟨m1, h1, rfl⟩ := List.mem_map.mp hmem
    simp [Learner.train, hm m1 h1, predicted, scored]
  unfold holdout
  cases dynamic
  · simp only [Bool.false_eq_true, if_false] at *
    unfold holdLoop
    rw [if_pos (by simp [ha, ht, hmore])]
    simp only [hz]
    exact ⟨_, rfl, rfl, key _⟩
  · simp only [if_true, Nat.add_zero] at *
    unfold holdLoop
    rw [if_pos (by simp [ht, hmore]; exact ha)]
    simp only [hz]
    exact ⟨_, rfl, rfl, key _⟩

/-! ### Non-vacuity -/

/-- A learner that counts what it has seen and predicts that count. -/
def counter : Learner Nat Nat Nat Nat :=
  ⟨fun s b => s + b.length, fun s xs => (xs.map fun _ => s, s), 0, []⟩

/-- A 23 sample stream satisfies the hypotheses of C25; the last batch is short. -/
example : (actualMax (⟨fun i => (i, 10 * i), some 23⟩ : Src (Nat × Nat)) 0 100 = 23) ∧
    ((prequential (⟨fun i => (i, 10 * i), some 23⟩ : Src (Nat × Nat)) 0 5 4 100 (fun _ => true) 24
      [counter]).map fun r => r.learners.map fun m => (m.state, scored m.log)) =
    some [(23, (List.range' 5 18).map fun i => (10 * i, 5 + (i - 5) / 4 * 4))] := by decide

/-- A static holdout run: 6 test samples, tests after 10 and 14 training samples. -/
example : ((holdout (⟨fun i => (i, 10 * i), some 20⟩ : Src (Nat × Nat)) 0 false 2 10 6 100
      (fun _ => true) 24 [counter]).map fun r => r.learners.map fun m => (m.state, scored m.log)) =
    some [(14, ((List.range 6).map fun i => (10 * i, 10)) ++ (List.range 6).map fun i => (10 * i, 14))] := by
  decide

/-- A dynamic holdout run. -/
example : ((holdout (⟨fun i => (i, 10 * i), some 22⟩ : Src (Nat × Nat)) 0 true 4 8 3 100
      (fun _ => true) 24 [counter]).map fun r => r.learners.map fun m =>
        (m.state, (scored m.log).map Prod.fst)) =
    some [(16, [80, 90, 100, 190, 200, 210])] := by decide

/-- A 12 sample stream satisfies the hypotheses of C56. -/
example : ((prequential (⟨fun i => (i, 10 * i), some 12⟩ : Src (Nat × Nat)) 0 2 1 100 (fun _ => true) 24
      [counter]).map fun r => r.learners.map fun m => (m.state, scored m.log)) =
    some [(2, [(20, 2)])] := by decide

end Verif.Evaluation
