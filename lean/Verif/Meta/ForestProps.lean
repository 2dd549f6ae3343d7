import Verif.Meta.Forest
import Mathlib.Data.List.GetD
import Mathlib.Algebra.Order.BigOperators.Group.List

/-!
Theorems about `Meta/Forest.lean`; C131, C132, C133.
-/

namespace Verif.Meta.Forest

variable {X T D R : Type}

/-- Member `i` after the instances `l` (weights other than 0), numbered from 1. -/
def life (E : Env X T D R) (dr : Nat → Nat → Draw R) (i : Nat) (m0 : Mem T D) (l : List (X × Int × ℚ)) : Mem T D :=
  (l.zipIdx 1).foldl (fun m q => feed E m q.1 q.2 (dr q.2 i)) m0

/-- What the detectors of member `i` answered to each instance, newest first: time,
warning, drift, read off the counters of the member. -/
def answers (E : Env X T D R) (dr : Nat → Nat → Draw R) (i : Nat) (m0 : Mem T D) (l : List (X × Int × ℚ)) :
    List (Nat × Bool × Bool) :=
  (List.range l.length).reverse.map fun j =>
    (j + 1, decide ((life E dr i m0 (l.take j)).nWarn < (life E dr i m0 (l.take (j + 1))).nWarn),
      decide ((life E dr i m0 (l.take j)).nDrift < (life E dr i m0 (l.take (j + 1))).nDrift))

/-- The samples with positive Poisson weight of member `i` after time `c`, with these weights. -/
def samplesAfter (dr : Nat → Nat → Draw R) (i : Nat) (l : List (X × Int × ℚ)) (c : Nat) : List (X × Int × Nat) :=
  ((l.zipIdx 1).filter fun q => c < q.2 ∧ 0 < (dr q.2 i).k).map fun q => (q.1.1, q.1.2.1, (dr q.2 i).k)

/-- The prequential results of member `i` after time `c`: prediction before training,
label, weight. -/
def resultsAfter (E : Env X T D R) (dr : Nat → Nat → Draw R) (i : Nat) (m0 : Mem T D) (l : List (X × Int × ℚ)) (c : Nat) :
    List (Int × Int × ℚ) :=
  ((l.zipIdx 1).filter fun q => c < q.2).map fun q =>
    (E.predict (life E dr i m0 (l.take (q.2 - 1))).tree q.1.1, q.1.2.1, q.1.2.2)

/-- The errors of member `i` on its training samples after time `c`, each judged right
after learning the sample. -/
def errorsAfter (E : Env X T D R) (dr : Nat → Nat → Draw R) (i : Nat) (m0 : Mem T D) (l : List (X × Int × ℚ)) (c : Nat) :
    List Bool :=
  ((l.zipIdx 1).filter fun q => c < q.2 ∧ 0 < (dr q.2 i).k).map fun q =>
    decide (E.predict (E.train (dr q.2 i).r1 (q.1.1, q.1.2.1, (dr q.2 i).k)
      (life E dr i m0 (l.take (q.2 - 1))).tree) q.1.1 ≠ q.1.2.1)

/-- Time of the newest drift, 0 if none. -/
def lastDriftOf (log : List (Nat × Bool × Bool)) : Nat := ((log.find? fun e => e.2.2).map fun e => e.1).getD 0

/-- Last time a fresh warning detector was put in place: at a warning, or at a drift with
a background learner. -/
def warnStart : List (Nat × Bool × Bool) → Nat
  | [] => 0
  | (t, w, d) :: l => if w ∨ (d ∧ (Life.pending l).isSome) then t else warnStart l

/-- A detector fed with a list of errors. -/
def fed (E : Env X T D R) (d : D) (l : List Bool) : D := l.foldl (fun d e => (E.add d e).1) d

theorem life_append (E : Env X T D R) (dr : Nat → Nat → Draw R) (i : Nat) (m0 : Mem T D) (l : List (X × Int × ℚ))
    (e : X × Int × ℚ) :
    life E dr i m0 (l ++ [e]) = feed E (life E dr i m0 l) e (l.length + 1) (dr (l.length + 1) i) := by
  unfold life
  rw [List.zipIdx_append, List.foldl_append, Nat.add_comm 1]
  rfl

theorem take_append_le (l : List (X × Int × ℚ)) (e : X × Int × ℚ) (j : Nat) (h : j ≤ l.length) :
    (l ++ [e]).take j = l.take j := List.take_append_of_le_length h

theorem answers_append (E : Env X T D R) (dr : Nat → Nat → Draw R) (i : Nat) (m0 : Mem T D) (l : List (X × Int × ℚ))
    (e : X × Int × ℚ) : answers E dr i m0 (l ++ [e]) =
      (l.length + 1, decide ((life E dr i m0 l).nWarn < (life E dr i m0 (l ++ [e])).nWarn),
        decide ((life E dr i m0 l).nDrift < (life E dr i m0 (l ++ [e])).nDrift)) :: answers E dr i m0 l := by
  unfold answers
  rw [List.length_append, List.length_singleton, List.range_succ, List.reverse_append, List.reverse_singleton,
    List.singleton_append, List.map_cons]
  congr 1
  · rw [take_append_le l e _ (le_refl _), List.take_length, List.take_of_length_le (by simp)]
  · apply List.map_congr_left
    intro j hj
    have : j < l.length := by simpa using hj
    rw [take_append_le l e j (by omega), take_append_le l e (j + 1) (by omega)]

theorem zipIdx_bound (l : List (X × Int × ℚ)) (q : (X × Int × ℚ) × Nat) (h : q ∈ l.zipIdx 1) :
    1 ≤ q.2 ∧ q.2 ≤ l.length := by
  obtain ⟨a, n⟩ := q
  have := List.mem_zipIdx h
  simp only at this ⊢
  omega

theorem zipIdx_snoc (l : List (X × Int × ℚ)) (e : X × Int × ℚ) :
    (l ++ [e]).zipIdx 1 = l.zipIdx 1 ++ [(e, l.length + 1)] := by
  rw [List.zipIdx_append, Nat.add_comm 1]
  rfl

theorem samplesAfter_append (dr : Nat → Nat → Draw R) (i : Nat) (l : List (X × Int × ℚ)) (e : X × Int × ℚ) (c : Nat)
    (hc : c ≤ l.length) : samplesAfter dr i (l ++ [e]) c = samplesAfter dr i l c ++
      if 0 < (dr (l.length + 1) i).k then [(e.1, e.2.1, (dr (l.length + 1) i).k)] else [] := by
  unfold samplesAfter
  rw [zipIdx_snoc, List.filter_append, List.map_append]
  congr 1
  by_cases hk : 0 < (dr (l.length + 1) i).k
  · rw [if_pos hk, List.filter_cons_of_pos (by simp; omega)]; rfl
  · rw [if_neg hk, List.filter_cons_of_neg (by simp; omega)]; rfl

theorem samplesAfter_nil (dr : Nat → Nat → Draw R) (i : Nat) (l : List (X × Int × ℚ)) (c : Nat)
    (hc : l.length ≤ c) : samplesAfter dr i l c = [] := by
  unfold samplesAfter
  rw [List.filter_eq_nil_iff.2]
  · rfl
  · intro q hq
    have := zipIdx_bound l q hq
    simp; omega

theorem resultsAfter_append (E : Env X T D R) (dr : Nat → Nat → Draw R) (i : Nat) (m0 : Mem T D) (l : List (X × Int × ℚ))
    (e : X × Int × ℚ) (c : Nat) (hc : c ≤ l.length) :
    resultsAfter E dr i m0 (l ++ [e]) c = resultsAfter E dr i m0 l c ++
      [(E.predict (life E dr i m0 l).tree e.1, e.2.1, e.2.2)] := by
  unfold resultsAfter
  rw [zipIdx_snoc, List.filter_append, List.map_append]
  congr 1
  · apply List.map_congr_left
    intro q hq
    have := zipIdx_bound l q (List.mem_of_mem_filter hq)
    rw [take_append_le l e _ (by omega)]
  · rw [List.filter_cons_of_pos (by simp; omega), List.filter_nil, List.map_singleton, Nat.add_sub_cancel,
      take_append_le l e _ (le_refl _), List.take_length]

theorem resultsAfter_nil (E : Env X T D R) (dr : Nat → Nat → Draw R) (i : Nat) (m0 : Mem T D) (l : List (X × Int × ℚ))
    (c : Nat) (hc : l.length ≤ c) : resultsAfter E dr i m0 l c = [] := by
  unfold resultsAfter
  rw [List.filter_eq_nil_iff.2]
  · rfl
  · intro q hq
    have := zipIdx_bound l q hq
    simp; omega

theorem errorsAfter_append (E : Env X T D R) (dr : Nat → Nat → Draw R) (i : Nat) (m0 : Mem T D) (l : List (X × Int × ℚ))
    (e : X × Int × ℚ) (c : Nat) (hc : c ≤ l.length) :
    errorsAfter E dr i m0 (l ++ [e]) c = errorsAfter E dr i m0 l c ++
      if 0 < (dr (l.length + 1) i).k then [decide (E.predict (E.train (dr (l.length + 1) i).r1
        (e.1, e.2.1, (dr (l.length + 1) i).k) (life E dr i m0 l).tree) e.1 ≠ e.2.1)] else [] := by
  unfold errorsAfter
  rw [zipIdx_snoc, List.filter_append, List.map_append]
  congr 1
  · apply List.map_congr_left
    intro q hq
    have := zipIdx_bound l q (List.mem_of_mem_filter hq)
    rw [take_append_le l e _ (by omega)]
  · by_cases hk : 0 < (dr (l.length + 1) i).k
    · rw [if_pos hk, List.filter_cons_of_pos (by simp; omega), List.filter_nil, List.map_singleton, Nat.add_sub_cancel,
        take_append_le l e _ (le_refl _), List.take_length]
    · rw [if_neg hk, List.filter_cons_of_neg (by simp; omega)]; rfl

theorem errorsAfter_nil (E : Env X T D R) (dr : Nat → Nat → Draw R) (i : Nat) (m0 : Mem T D) (l : List (X × Int × ℚ))
    (c : Nat) (hc : l.length ≤ c) : errorsAfter E dr i m0 l c = [] := by
  unfold errorsAfter
  rw [List.filter_eq_nil_iff.2]
  · rfl
  · intro q hq
    have := zipIdx_bound l q hq
    simp; omega

/-! ### One member -/

/-- An untrained tree. -/
def IsNew (E : Env X T D R) (t : T) : Prop := ∃ r, t = E.blank r

/-- The event of `Life` for one instance. -/
def ev (E : Env X T D R) (m m' : Mem T D) (e : X × Int × ℚ) (t : Nat) (q : Draw R) : Life.Ev T (X × Int × Nat) R :=
  ⟨t, if 0 < q.k then some (e.1, e.2.1, q.k) else none, q.r1, q.r2, E.blank q.r3, E.blank q.r4,
    decide (m.nWarn < m'.nWarn), decide (m.nDrift < m'.nDrift)⟩

/-- The part of a member that `Life` describes; `c` is the time of creation. -/
def toLife (m : Mem T D) (c : Nat) : Life.Mem T := ⟨m.tree, c, m.bg.map fun b => (b.tree, b.created)⟩

/-- All that one step does. -/
structure StepSpec (E : Env X T D R) (m m' : Mem T D) (e : X × Int × ℚ) (t : Nat) (q : Draw R) : Prop where
  life : ∀ c, Life.step E.train (toLife m c) (ev E m m' e t q) =
    toLife m' (if m.nDrift < m'.nDrift then m'.created else c)
  quiet : q.k = 0 → m'.nWarn = m.nWarn ∧ m'.nDrift = m.nDrift
  created : ¬ m.nDrift < m'.nDrift → m'.created = m.created
  nDrift : m.nDrift ≤ m'.nDrift ∧ m'.nDrift ≤ m.nDrift + 1
  nWarn : m.nWarn ≤ m'.nWarn ∧ m'.nWarn ≤ m.nWarn + 1
  lastDrift : m'.lastDrift = if m.nDrift < m'.nDrift then t else m.lastDrift
  lastWarn : m'.lastWarn = if m.nWarn < m'.nWarn then t else m.lastWarn
  evals : m'.evals = if m.nDrift < m'.nDrift then [] else m.evals ++ [(E.predict m.tree e.1, e.2.1, e.2.2)]
  bgDet : ∀ b, m'.bg = some b → b.drift = E.newDrift ∧ b.warn = E.newWarn
  warnSome : m'.warn.isSome = E.newWarn.isSome
  driftSome : m'.drift.isSome = E.newDrift.isSome
  bgWarn : m'.bg.isSome → E.newWarn.isSome
  driftD : ∀ d0, E.newDrift = some d0 → (∀ l, E.resetD (fed E d0 l) = d0) → ∀ l, m.drift = some (fed E d0 l) →
    m'.drift = some (fed E d0 (if m.nDrift < m'.nDrift then [] else l ++ if 0 < q.k then
      [decide (E.predict (E.train q.r1 (e.1, e.2.1, q.k) m.tree) e.1 ≠ e.2.1)] else []))
  warnD : ∀ w0, E.newWarn = some w0 → E.newDrift.isSome → (∀ l, E.resetD (fed E w0 l) = w0) → ∀ l,
    m.warn = some (fed E w0 l) →
    m'.warn = some (fed E w0 (if m.nWarn < m'.nWarn ∨ (m.nDrift < m'.nDrift ∧ m.bg.isSome) then [] else l ++
      if 0 < q.k then [decide (E.predict (E.train q.r1 (e.1, e.2.1, q.k) m.tree) e.1 ≠ e.2.1)] else []))

theorem fed_append (E : Env X T D R) (d : D) (l : List Bool) (b : Bool) :
    fed E d (l ++ [b]) = (E.add (fed E d l) b).1 := by
  simp [fed]

set_option maxHeartbeats 1000000 in
theorem feed_spec (E : Env X T D R) (m : Mem T D) (e : X × Int × ℚ) (t : Nat) (q : Draw R)
    (hbd : ∀ b, m.bg = some b → b.drift = E.newDrift ∧ b.warn = E.newWarn)
    (hw : m.warn.isSome = E.newWarn.isSome) (hd : m.drift.isSome = E.newDrift.isSome)
    (hbw : m.bg.isSome → E.newWarn.isSome) : StepSpec E m (feed E m e t q) e t q := by
  obtain ⟨x, y, w⟩ := e
  obtain ⟨tree, created, lastDrift, lastWarn, nDrift, nWarn, drift, warn, bg, evals⟩ := m
  simp only at hbd hw hd hbw
  by_cases hk : q.k > 0
  · have hk0 : q.k ≠ 0 := by omega
    cases drift with
    | none =>
      have hm : feed E ⟨tree, created, lastDrift, lastWarn, nDrift, nWarn, none, warn, bg, evals⟩ (x, y, w) t q =
          ⟨E.train q.r1 (x, y, q.k) tree, created, lastDrift, lastWarn, nDrift, nWarn, none, warn,
            bg.map fun b => { b with tree := E.train q.r2 (x, y, q.k) b.tree },
            evals ++ [(E.predict tree x, y, w)]⟩ := by
        simp [feed, fitMem, hk]
      rw [hm]
      have hnd : E.newDrift = none := by cases h : E.newDrift <;> simp_all
      constructor
      · intro c; cases bg <;> simp [Life.step, toLife, ev, hk]
      all_goals first
        | (cases bg <;> simp_all; done)
        | simp_all
    | some d =>
      obtain ⟨d0, hd0⟩ : ∃ d0, E.newDrift = some d0 := by
        cases h : E.newDrift with
        | none => rw [h] at hd; cases hd
        | some d0 => exact ⟨d0, rfl⟩
      set err := decide (E.predict (E.train q.r1 (x, y, q.k) tree) x ≠ y) with herr
      have hfeed : feed E ⟨tree, created, lastDrift, lastWarn, nDrift, nWarn, some d, warn, bg, evals⟩ (x, y, w) t q =
          driftStep E (warnStep E ⟨E.train q.r1 (x, y, q.k) tree, created, lastDrift, lastWarn, nDrift, nWarn, some d, warn,
            bg.map fun b => { b with tree := E.train q.r2 (x, y, q.k) b.tree },
            evals ++ [(E.predict tree x, y, w)]⟩ err t q.r3) err t q.r4 := by
        simp only [feed, fitMem, if_pos hk, Option.isSome_some, if_true]
        rfl
      rw [hfeed]
      obtain ⟨d', c2, hadd⟩ : ∃ d' c2, E.add d err = (d', c2) := ⟨_, _, rfl⟩
      have hfd : ∀ l, d = fed E d0 l → fed E d0 (l ++ [err]) = d' := by
        intro l hl
        rw [fed_append, ← hl, hadd]
      have hdr : ∀ (m' : Mem T D), ¬ nDrift < m'.nDrift → m'.drift = some d' →
          ∀ d1, E.newDrift = some d1 → (∀ l, E.resetD (fed E d1 l) = d1) → ∀ l, some d = some (fed E d1 l) →
          m'.drift = some (fed E d1 (if nDrift < m'.nDrift then [] else l ++ if 0 < q.k then [err] else [])) := by
        intro m' hn hm' d1 h1 _ l hl
        rw [hd0, Option.some.injEq] at h1
        subst h1
        simp only [Option.some.injEq] at hl
        rw [if_neg hn, if_pos hk, hfd l hl, hm']
      have hdr' : ∀ (m' : Mem T D), nDrift < m'.nDrift → m'.drift = some (E.resetD d') ∨ m'.drift = some d0 →
          ∀ d1, E.newDrift = some d1 → (∀ l, E.resetD (fed E d1 l) = d1) → ∀ l, some d = some (fed E d1 l) →
          m'.drift = some (fed E d1 (if nDrift < m'.nDrift then [] else l ++ if 0 < q.k then [err] else [])) := by
        intro m' hn hm' d1 h1 hr l hl
        rw [hd0, Option.some.injEq] at h1
        subst h1
        simp only [Option.some.injEq] at hl
        rw [if_pos hn]
        rcases hm' with hm' | hm'
        · rw [hm', ← hfd l hl, hr]; rfl
        · rw [hm']; rfl
      clear hfeed
      cases warn with
      | none =>
        have hnw : E.newWarn = none := by cases h : E.newWarn <;> simp_all
        have hbg : bg = none := by cases h : bg <;> simp_all
        subst hbg
        cases c2 with
        | false =>
          simp only [warnStep, driftStep, hadd, Bool.false_eq_true, if_false, Option.map_none]
          constructor
          · intro c; simp [Life.step, toLife, ev, hk]
          case driftD => exact hdr _ (by simp) rfl
          all_goals (clear hdr hdr' hfd herr; simp_all)
        | true =>
          simp only [warnStep, driftStep, hadd, if_true, resetMem, Option.isSome_none, Option.map_none, Option.map_some]
          constructor
          · intro c; simp [Life.step, toLife, ev, hk]
          case driftD => exact hdr' _ (by simp) (.inl rfl)
          all_goals (clear hdr hdr' hfd herr; simp_all)
      | some w0 =>
        obtain ⟨w1, hw1⟩ : ∃ w1, E.newWarn = some w1 := by
          cases h : E.newWarn with
          | none => rw [h] at hw; cases hw
          | some d0 => exact ⟨d0, rfl⟩
        obtain ⟨w', c1, hadd2⟩ : ∃ w' c1, E.add w0 err = (w', c1) := ⟨_, _, rfl⟩
        have hfw : ∀ l, w0 = fed E w1 l → fed E w1 (l ++ [err]) = w' := by
          intro l hl
          rw [fed_append, ← hl, hadd2]
        have hwr : ∀ (m' : Mem T D) (p : Prop) [Decidable p], ¬ p → m'.warn = some w' →
            ∀ d1, E.newWarn = some d1 → E.newDrift.isSome → (∀ l, E.resetD (fed E d1 l) = d1) → ∀ l,
            some w0 = some (fed E d1 l) →
            m'.warn = some (fed E d1 (if p then [] else l ++ if 0 < q.k then [err] else [])) := by
          intro m' p _ hn hm' d1 h1 _ _ l hl
          rw [hw1, Option.some.injEq] at h1
          subst h1
          simp only [Option.some.injEq] at hl
          rw [if_neg hn, if_pos hk, hfw l hl, hm']
        have hwr' : ∀ (m' : Mem T D) (p : Prop) [Decidable p], p → m'.warn = some (E.resetD w') ∨ m'.warn = some w1 →
            ∀ d1, E.newWarn = some d1 → E.newDrift.isSome → (∀ l, E.resetD (fed E d1 l) = d1) → ∀ l,
            some w0 = some (fed E d1 l) →
            m'.warn = some (fed E d1 (if p then [] else l ++ if 0 < q.k then [err] else [])) := by
          intro m' p _ hn hm' d1 h1 _ hr l hl
          rw [hw1, Option.some.injEq] at h1
          subst h1
          simp only [Option.some.injEq] at hl
          rw [if_pos hn]
          rcases hm' with hm' | hm'
          · rw [hm', ← hfw l hl, hr]; rfl
          · rw [hm']; rfl
        cases c1 with
        | false =>
          cases c2 with
          | false =>
            simp only [warnStep, driftStep, hadd, hadd2, Bool.false_eq_true, if_false]
            constructor
            · intro c; cases bg <;> simp [Life.step, toLife, ev, hk]
            case driftD => exact hdr _ (by simp) rfl
            case warnD => exact hwr _ _ (by simp) rfl
            case bgDet =>
              intro b hb
              cases bg with
              | none => cases hb
              | some b0 =>
                simp only [Option.map_some, Option.some.injEq] at hb
                subst hb
                exact hbd b0 rfl
            all_goals (clear hdr hdr' hwr hwr' hfd hfw herr; simp_all)
          | true =>
            cases bg with
            | none =>
              simp only [warnStep, driftStep, hadd, hadd2, Bool.false_eq_true, if_false, if_true, resetMem, Option.map_none,
                Option.map_some]
              constructor
              · intro c; simp [Life.step, toLife, ev, hk]
              case driftD => exact hdr' _ (by simp) (.inl rfl)
              case warnD => exact hwr _ _ (by simp) rfl
              all_goals (clear hdr hdr' hwr hwr' hfd hfw herr; simp_all)
            | some b =>
              obtain ⟨hb1, hb2⟩ := hbd b rfl
              simp only [warnStep, driftStep, hadd, hadd2, Bool.false_eq_true, if_false, if_true, resetMem,
                Option.map_some, Option.isSome_some]
              constructor
              · intro c; simp [Life.step, toLife, ev, hk]
              case driftD => exact hdr' _ (by simp) (.inr (by simp [hb1, hd0]))
              case warnD => exact hwr' _ _ (by simp) (.inr (by simp [hb2, hw1]))
              all_goals (clear hdr hdr' hwr hwr' hfd hfw herr; simp_all)
        | true =>
          cases c2 with
          | false =>
            simp only [warnStep, driftStep, hadd, hadd2, Bool.false_eq_true, if_false, if_true]
            constructor
            · intro c; cases bg <;> simp [Life.step, toLife, ev, hk]
            case driftD => exact hdr _ (by simp) rfl
            case warnD => exact hwr' _ _ (by simp) (.inl rfl)
            case bgDet =>
              intro b hb
              simp only [Option.some.injEq] at hb
              subst hb
              exact ⟨rfl, rfl⟩
            all_goals (clear hdr hdr' hwr hwr' hfd hfw herr; simp_all)
          | true =>
            simp only [warnStep, driftStep, hadd, hadd2, if_true, resetMem, Option.isSome_some]
            constructor
            · intro c; cases bg <;> simp [Life.step, toLife, ev, hk]
            case driftD => exact hdr' _ (by simp) (.inr (by simp [hd0]))
            case warnD => exact hwr' _ _ (by simp) (.inr (by simp [hw1]))
            all_goals (clear hdr hdr' hwr hwr' hfd hfw herr; simp_all)
  · have hk0 : q.k = 0 := by omega
    constructor <;>
      simp_all [feed, Life.step, toLife, ev]

/-- Events of member `i`. -/
def events (E : Env X T D R) (dr : Nat → Nat → Draw R) (i : Nat) (m0 : Mem T D) (l : List (X × Int × ℚ)) :
    List (Life.Ev T (X × Int × Nat) R) :=
  (l.zipIdx 1).map fun q => ev E (life E dr i m0 (l.take (q.2 - 1))) (life E dr i m0 (l.take q.2)) q.1 q.2 (dr q.2 i)

theorem events_append (E : Env X T D R) (dr : Nat → Nat → Draw R) (i : Nat) (m0 : Mem T D) (l : List (X × Int × ℚ))
    (e : X × Int × ℚ) : events E dr i m0 (l ++ [e]) = events E dr i m0 l ++
      [ev E (life E dr i m0 l) (life E dr i m0 (l ++ [e])) e (l.length + 1) (dr (l.length + 1) i)] := by
  unfold events
  rw [zipIdx_snoc, List.map_append]
  congr 1
  · apply List.map_congr_left
    intro q hq
    have := zipIdx_bound l q hq
    rw [take_append_le l e _ (by omega), take_append_le l e _ (by omega)]
  · rw [List.map_singleton, Nat.add_sub_cancel, take_append_le l e _ (le_refl _), List.take_length,
      List.take_of_length_le (by simp)]

theorem log_events (E : Env X T D R) (dr : Nat → Nat → Draw R) (i : Nat) (m0 : Mem T D) (l : List (X × Int × ℚ)) :
    Life.log (events E dr i m0 l) = answers E dr i m0 l := by
  induction l using List.reverseRecOn with
  | nil => rfl
  | append_singleton l e ih =>
    rw [events_append, Life.log_append, ih, answers_append]
    rfl

theorem since_events (E : Env X T D R) (dr : Nat → Nat → Draw R) (i : Nat) (m0 : Mem T D) (l : List (X × Int × ℚ))
    (c : Nat) : Life.since c (events E dr i m0 l) = samplesAfter dr i l c := by
  induction l using List.reverseRecOn with
  | nil => rfl
  | append_singleton l e ih =>
    rw [events_append]
    by_cases hc : c ≤ l.length
    · rw [Life.since_append _ _ _ (by simp only [ev]; omega), ih, samplesAfter_append _ _ _ _ _ hc]
      congr 1
      simp only [ev]
      by_cases hk : 0 < (dr (l.length + 1) i).k
      · simp [hk]
      · simp [hk]
    · rw [samplesAfter_nil _ _ _ _ (by simp; omega), Life.since_nil]
      intro e' he'
      rcases List.mem_append.1 he' with he' | he'
      · unfold events at he'
        rw [List.mem_map] at he'
        obtain ⟨q, hq, rfl⟩ := he'
        have := zipIdx_bound l q hq
        simp only [ev]; omega
      · rw [List.mem_singleton] at he'
        rw [he']
        simp only [ev]; omega

/-- State of a member after `l`. -/
structure Inv (E : Env X T D R) (dr : Nat → Nat → Draw R) (i : Nat) (m0 : Mem T D) (l : List (X × Int × ℚ))
    (m : Mem T D) : Prop where
  life : Life.Inv (IsNew E) E.train (events E dr i m0 l) (toLife m (Life.birth (answers E dr i m0 l)))
  created : m.created = if m.nDrift = 0 then m0.created else Life.birth (answers E dr i m0 l)
  nDrift : m.nDrift = ((answers E dr i m0 l).filter fun e => e.2.2).length
  nWarn : m.nWarn = ((answers E dr i m0 l).filter fun e => e.2.1).length
  lastDrift : m.lastDrift = lastDriftOf (answers E dr i m0 l)
  lastWarn : m.lastWarn = (((answers E dr i m0 l).find? fun e => e.2.1).map fun e => e.1).getD 0
  evals : m.evals = resultsAfter E dr i m0 l m.lastDrift
  bgDet : ∀ b, m.bg = some b → b.drift = E.newDrift ∧ b.warn = E.newWarn
  warnSome : m.warn.isSome = E.newWarn.isSome
  driftSome : m.drift.isSome = E.newDrift.isSome
  bgWarn : m.bg.isSome → E.newWarn.isSome
  driftD : ∀ d0, E.newDrift = some d0 → (∀ l, E.resetD (fed E d0 l) = d0) →
    m.drift = some (fed E d0 (errorsAfter E dr i m0 l m.lastDrift))
  warnD : ∀ w0, E.newWarn = some w0 → E.newDrift.isSome → (∀ l, E.resetD (fed E w0 l) = w0) →
    m.warn = some (fed E w0 (errorsAfter E dr i m0 l (warnStart (answers E dr i m0 l))))

theorem answers_time (E : Env X T D R) (dr : Nat → Nat → Draw R) (i : Nat) (m0 : Mem T D) (l : List (X × Int × ℚ))
    (a : Nat × Bool × Bool) (h : a ∈ answers E dr i m0 l) : 1 ≤ a.1 ∧ a.1 ≤ l.length := by
  unfold answers at h
  rw [List.mem_map] at h
  obtain ⟨j, hj, rfl⟩ := h
  have : j < l.length := by simpa using hj
  simp only; omega

theorem lastDriftOf_le (E : Env X T D R) (dr : Nat → Nat → Draw R) (i : Nat) (m0 : Mem T D) (l : List (X × Int × ℚ)) :
    lastDriftOf (answers E dr i m0 l) ≤ l.length := by
  unfold lastDriftOf
  cases h : (answers E dr i m0 l).find? fun e => e.2.2 with
  | none => simp
  | some e => exact (answers_time E dr i m0 l e (List.mem_of_find?_eq_some h)).2

theorem warnStart_le (log : List (Nat × Bool × Bool)) (n : Nat) (h : ∀ a ∈ log, a.1 ≤ n) : warnStart log ≤ n := by
  induction log with
  | nil => simp [warnStart]
  | cons a log ih =>
    obtain ⟨t, w, d⟩ := a
    rw [warnStart]
    split
    · exact h (t, w, d) (by simp)
    · exact ih fun a ha => h a (by simp [ha])

theorem birth_append_quiet (log : List (Nat × Bool × Bool)) (t : Nat) (w : Bool) :
    Life.birth ((t, w, false) :: log) = Life.birth log := by simp [Life.birth]

theorem inv_run (E : Env X T D R) (dr : Nat → Nat → Draw R) (i : Nat) (r : R) (c0 : Nat) (l : List (X × Int × ℚ)) :
    Inv E dr i (newMem E (E.blank r) c0) l (life E dr i (newMem E (E.blank r) c0) l) := by
  set m0 := newMem E (E.blank r) c0 with hm0
  induction l using List.reverseRecOn with
  | nil =>
    refine ⟨Life.inv_new _ _ _ ⟨r, rfl⟩, rfl, rfl, rfl, rfl, rfl, rfl, (fun b hb => nomatch hb), rfl, rfl, (fun h => nomatch h), ?_, ?_⟩
    · intro d0 h _; exact h
    · intro d0 h _ _; exact h
  | append_singleton l e ih =>
    have hs := feed_spec E (life E dr i m0 l) e (l.length + 1) (dr (l.length + 1) i) ih.bgDet ih.warnSome ih.driftSome
      ih.bgWarn
    rw [← life_append] at hs
    have hans := answers_append E dr i m0 l e
    have hld : (life E dr i m0 l).lastDrift ≤ l.length := by rw [ih.lastDrift]; exact lastDriftOf_le E dr i m0 l
    generalize hm : life E dr i m0 l = m at *
    generalize hm' : life E dr i m0 (l ++ [e]) = m' at *
    have hbgp : (m.bg.map fun b => b.created) = Life.pending (answers E dr i m0 l) := by
      have := ih.life.bgTime
      rw [log_events] at this
      rw [← this, toLife]
      cases m.bg <;> rfl
    have hlife : Life.Inv (IsNew E) E.train (events E dr i m0 (l ++ [e]))
        (toLife m' (if m.nDrift < m'.nDrift then m'.created else Life.birth (answers E dr i m0 l))) := by
      rw [events_append, hm, hm', ← hs.life]
      apply Life.inv_step _ _ _ _ _ _ _ _ _ ih.life
      · intro e' he'
        unfold events at he'
        rw [List.mem_map] at he'
        obtain ⟨q, hq, rfl⟩ := he'
        have := zipIdx_bound l q hq
        simp only [ev]; omega
      · simp [ev]
      · exact ⟨⟨_, rfl⟩, ⟨_, rfl⟩⟩
      · intro hn
        simp only [ev] at hn ⊢
        have hk : (dr (l.length + 1) i).k = 0 := by
          by_contra hk
          rw [if_pos (by omega)] at hn
          cases hn
        obtain ⟨a, b⟩ := hs.quiet hk
        simp [a, b]
    have hbirth : (if m.nDrift < m'.nDrift then m'.created else Life.birth (answers E dr i m0 l)) =
        Life.birth (answers E dr i m0 (l ++ [e])) := by
      have := hlife.created
      rw [log_events] at this
      exact this
    refine ⟨by rw [← hbirth]; exact hlife, ?_, ?_, ?_, ?_, ?_, ?_, hs.bgDet, hs.warnSome, hs.driftSome, hs.bgWarn, ?_, ?_⟩
    · rw [← hbirth]
      by_cases hd : m.nDrift < m'.nDrift
      · rw [if_neg (by omega), if_pos hd]
      · have heq : m'.nDrift = m.nDrift := by have := hs.nDrift; omega
        rw [if_neg hd, hs.created hd, ih.created, heq]
    · rw [hans]
      have hle := hs.nDrift
      by_cases hd : m.nDrift < m'.nDrift
      · rw [List.filter_cons_of_pos (by simpa using hd), List.length_cons, ← ih.nDrift]; omega
      · rw [List.filter_cons_of_neg (by simpa using hd), ← ih.nDrift]; omega
    · rw [hans]
      have hle := hs.nWarn
      by_cases hd : m.nWarn < m'.nWarn
      · rw [List.filter_cons_of_pos (by simpa using hd), List.length_cons, ← ih.nWarn]; omega
      · rw [List.filter_cons_of_neg (by simpa using hd), ← ih.nWarn]; omega
    · rw [hans, hs.lastDrift]
      by_cases hd : m.nDrift < m'.nDrift
      · simp [lastDriftOf, hd]
      · rw [if_neg hd, ih.lastDrift]; simp [lastDriftOf, hd]
    · rw [hans, hs.lastWarn]
      by_cases hd : m.nWarn < m'.nWarn
      · simp [hd]
      · rw [if_neg hd, ih.lastWarn]; simp [hd]
    · rw [hs.evals, hs.lastDrift]
      by_cases hd : m.nDrift < m'.nDrift
      · rw [if_pos hd, if_pos hd, resultsAfter_nil _ _ _ _ _ _ (by simp)]
      · rw [if_neg hd, if_neg hd, resultsAfter_append _ _ _ _ _ _ _ hld, ← ih.evals, hm]
    · intro d0 h1 h2
      rw [hs.driftD d0 h1 h2 _ (ih.driftD d0 h1 h2), hs.lastDrift]
      by_cases hd : m.nDrift < m'.nDrift
      · rw [if_pos hd, if_pos hd, errorsAfter_nil _ _ _ _ _ _ (by simp)]
      · rw [if_neg hd, if_neg hd, errorsAfter_append _ _ _ _ _ _ _ hld, hm]
    · intro w0 h1 h2 h3
      rw [hs.warnD w0 h1 h2 h3 _ (ih.warnD w0 h1 h2 h3), hans, warnStart, ← hbgp]
      have hiff : (m.nWarn < m'.nWarn ∨ m.nDrift < m'.nDrift ∧ m.bg.isSome = true) ↔
          (decide (m.nWarn < m'.nWarn) = true ∨ decide (m.nDrift < m'.nDrift) = true ∧
            (m.bg.map fun b => b.created).isSome = true) := by simp
      by_cases hc : m.nWarn < m'.nWarn ∨ m.nDrift < m'.nDrift ∧ m.bg.isSome = true
      · rw [if_pos hc, if_pos (hiff.1 hc), errorsAfter_nil _ _ _ _ _ _ (by simp)]
      · rw [if_neg hc, if_neg (fun h => hc (hiff.2 h)), errorsAfter_append, hm]
        exact warnStart_le _ _ fun a ha => (answers_time E dr i m0 l a ha).2

/-! ### The ensemble -/

/-- The weight a call gives to all its rows: there is only one. -/
def weightOf : Option WArg → ℚ
  | none => 1
  | some (.num w) => w
  | some (.list ws) => ws.headD 0
  | some (.arr ws) => ws.headD 0

/-- The instances used by a sequence of calls, with their weight; weight 0 means: not used. -/
def seen (calls : List (Call X)) : List (X × Int × ℚ) :=
  calls.flatMap fun c => match c with
    | .ask => []
    | .fit rows w _ => if weightOf w = 0 then [] else rows.map fun q => (q.1, q.2, weightOf w)

/-- The forest after the instances `l`: `n_estimators` members living side by side. -/
structure Rel (E : Env X T D R) (N : Nat) (r0 : Nat → R) (dr : Nat → Nat → Draw R) (l : List (X × Int × ℚ))
    (s : St T D) : Prop where
  n : s.n = l.length
  none : s.ensemble = none → l = []
  some : ∀ ms, s.ensemble = some ms → ∃ c0 ≤ 1, ms = (List.range N).map fun i =>
    life E dr i (newMem E (E.blank (r0 i)) c0) l

theorem map_range_zipIdx {α β : Type} (f : Nat → α) (g : α × Nat → β) (N : Nat) :
    (((List.range N).map f).zipIdx).map g = (List.range N).map fun i => g (f i, i) := by
  apply List.ext_getElem
  · simp
  · intro j h1 h2
    simp

theorem rel_fitOne (E : Env X T D R) (N : Nat) (r0 : Nat → R) (dr : Nat → Nat → Draw R) (l : List (X × Int × ℚ))
    (s : St T D) (e : X × Int × ℚ) (h : Rel E N r0 dr l s) : Rel E N r0 dr (l ++ [e]) (fitOne E N r0 dr s e) := by
  obtain ⟨h1, h2, h3⟩ := h
  cases hs : s.ensemble with
  | none =>
    have hl := h2 hs
    subst hl
    simp only [fitOne, ensure, hs, Option.map_some]
    refine ⟨by simpa using h1, by simp, ?_⟩
    intro ms hms
    rw [Option.some.injEq] at hms
    refine ⟨1, le_refl _, ?_⟩
    rw [← hms, map_range_zipIdx, h1]
    rfl
  | some ms0 =>
    obtain ⟨c0, hc0, hms0⟩ := h3 ms0 hs
    simp only [fitOne, ensure, hs, Option.map_some]
    refine ⟨by simpa using h1, by simp, ?_⟩
    intro ms hms
    rw [Option.some.injEq] at hms
    refine ⟨c0, hc0, ?_⟩
    rw [← hms, hms0, map_range_zipIdx]
    apply List.map_congr_left
    intro i _
    rw [life_append, h1]

theorem rel_weight (E : Env X T D R) (N : Nat) (r0 : Nat → R) (dr : Nat → Nat → Draw R) (l : List (X × Int × ℚ))
    (s : St T D) (w : ℚ) (c : Option (List Int)) (h : Rel E N r0 dr l s) :
    Rel E N r0 dr l { s with weight := w, classes := c } := ⟨h.n, h.none, h.some⟩

theorem rel_fitRows (E : Env X T D R) (N : Nat) (r0 : Nat → R) (dr : Nat → Nat → Draw R) (rows : List (X × Int))
    (ws : List ℚ) (w : ℚ) (hw : ∀ j, j < rows.length → ∀ v, ws[j]? = some v → v = w) (l : List (X × Int × ℚ))
    (s s' : St T D) (h : Rel E N r0 dr l s) (he : fitRows E N r0 dr rows ws s = .ok s') :
    Rel E N r0 dr (l ++ if w = 0 then [] else rows.map fun q => (q.1, q.2, w)) s' := by
  induction rows generalizing ws l s with
  | nil =>
    simp only [fitRows, Except.ok.injEq] at he
    subst he
    simpa using h
  | cons q rows ih =>
    obtain ⟨x, y⟩ := q
    cases ws with
    | nil => simp [fitRows] at he
    | cons v ws =>
      have hv : v = w := hw 0 (by simp) v rfl
      subst hv
      have hw' : ∀ j, j < rows.length → ∀ u, ws[j]? = some u → u = v := fun j hj u hu =>
        hw (j + 1) (by simpa using hj) u (by simpa using hu)
      rw [fitRows] at he
      by_cases h0 : v = 0
      · rw [if_neg (by simpa using h0)] at he
        have := ih ws hw' l s h he
        rw [if_pos h0] at this ⊢
        exact this
      · rw [if_pos h0] at he
        have := ih ws hw' (l ++ [(x, y, v)]) _
          (rel_fitOne E N r0 dr l _ (x, y, v) (rel_weight E N r0 dr l s (s.weight + v) s.classes h)) he
        rw [if_neg h0] at this ⊢
        simpa using this

theorem checkWeights_one (w : Option WArg) (n : Nat) (ws : List ℚ) (h : checkWeights (w.getD (.num 1)) n = .ok ws) :
    ∀ j, j < n → ∀ v, ws[j]? = some v → v = weightOf w := by
  intro j hj v hv
  have rep : ∀ u, ws = List.replicate n u → v = u := by
    rintro u rfl
    rw [List.getElem?_replicate, if_pos hj, Option.some.injEq] at hv
    exact hv.symm
  have one : ∀ ws', n = 1 → ws = ws' → v = ws'.headD 0 := by
    rintro ws' rfl rfl
    have : j = 0 := by omega
    subst this
    cases ws with
    | nil => cases hv
    | cons a l => simpa using hv.symm
  cases w with
  | none =>
    simp only [Option.getD_none, checkWeights] at h
    split at h
    · exact rep 1 (by simpa using h.symm)
    · cases h
  | some w =>
    cases w with
    | num w =>
      simp only [Option.getD_some, checkWeights] at h
      split at h
      · exact rep w (by simpa using h.symm)
      · cases h
    | list l =>
      simp only [Option.getD_some, checkWeights] at h
      split at h
      · rename_i hn; exact one l hn (by simpa using h.symm)
      · cases h
    | arr l =>
      simp only [Option.getD_some, checkWeights] at h
      split at h
      · split at h
        · rename_i hn; exact one l hn (by simpa using h.symm)
        · cases h
      · split at h
        · split at h
          · rename_i hn; exact one _ hn (by simpa using h.symm)
          · split at h
            · rename_i u _ _ _
              exact rep u (by simpa using h.symm)
            · cases h
        · cases h

theorem rel_call (E : Env X T D R) (N : Nat) (r0 : Nat → R) (dr : Nat → Nat → Draw R) (c : Call X)
    (l : List (X × Int × ℚ)) (s s' : St T D) (h : Rel E N r0 dr l s) (he : call E N r0 dr s c = .ok s') :
    Rel E N r0 dr (l ++ seen [c]) s' := by
  cases c with
  | ask =>
    simp only [call, Except.ok.injEq] at he
    subst he
    have : seen [(.ask : Call X)] = [] := rfl
    rw [this, List.append_nil]
    cases hs : s.ensemble with
    | some ms => simpa only [ensure, hs] using h
    | none =>
      have hl := h.none hs
      subst hl
      simp only [ensure, hs]
      refine ⟨h.n, by simp, ?_⟩
      intro ms hms
      rw [Option.some.injEq] at hms
      exact ⟨0, by omega, by rw [← hms, h.n]; rfl⟩
  | fit rows w classes =>
    simp only [call] at he
    cases hc : checkWeights (w.getD (.num 1)) rows.length with
    | error e => rw [hc] at he; cases he
    | ok ws =>
      rw [hc] at he
      simp only at he
      have hr : Rel E N r0 dr l (if s.classes = none then { s with classes := classes } else s) := by
        split
        · exact ⟨h.n, h.none, h.some⟩
        · exact h
      have := rel_fitRows E N r0 dr rows ws (weightOf w) (checkWeights_one w _ ws hc) l _ s' hr he
      simpa [seen] using this

theorem rel_run (E : Env X T D R) (N : Nat) (r0 : Nat → R) (dr : Nat → Nat → Draw R) (calls : List (Call X))
    (l : List (X × Int × ℚ)) (s s' : St T D) (h : Rel E N r0 dr l s) (he : run E N r0 dr calls s = .ok s') :
    Rel E N r0 dr (l ++ seen calls) s' := by
  induction calls generalizing l s with
  | nil =>
    simp only [run, Except.ok.injEq] at he
    subst he
    simpa [seen] using h
  | cons c calls ih =>
    rw [run] at he
    cases hc : call E N r0 dr s c with
    | error e => rw [hc] at he; cases he
    | ok s1 =>
      rw [hc] at he
      have := ih _ s1 (rel_call E N r0 dr c l s s1 h hc) he
      have e : seen (c :: calls) = seen [c] ++ seen calls := by simp [seen]
      rw [e, ← List.append_assoc]
      exact this

theorem afterCalls_life (E : Env X T D R) (N : Nat) (r0 : Nat → R) (dr : Nat → Nat → Draw R) (calls : List (Call X))
    (s : St T D) (ms : List (Mem T D)) (hr : run E N r0 dr calls init = .ok s) (hs : s.ensemble = some ms) :
    ms.length = N ∧ s.n = (seen calls).length ∧ ∃ c0 ≤ 1, ∀ i m, ms[i]? = some m →
      m = life E dr i (newMem E (E.blank (r0 i)) c0) (seen calls) := by
  have := rel_run E N r0 dr calls [] init s ⟨rfl, fun _ => rfl, fun _ h => by cases h⟩ hr
  rw [List.nil_append] at this
  obtain ⟨c0, hc, hms⟩ := this.some ms hs
  refine ⟨by rw [hms]; simp, this.n, c0, hc, ?_⟩
  intro i m hm
  rw [hms, List.getElem?_map, Option.map_eq_some_iff] at hm
  obtain ⟨j, hj, e⟩ := hm
  have hij : j = i := by
    rw [List.getElem?_eq_some_iff] at hj
    obtain ⟨h1, h2⟩ := hj
    simpa using h2.symm
  subst hij
  exact e.symm

theorem birth_no_drift (log : List (Nat × Bool × Bool)) (h : (log.filter fun e => e.2.2).length = 0) :
    Life.birth log = 0 := by
  rw [List.length_eq_zero_iff, List.filter_eq_nil_iff] at h
  have : (log.dropWhile fun e => !e.2.2) = [] := by
    clear * - h
    induction log with
    | nil => rfl
    | cons a log ih =>
      have ha := h a (by simp)
      rw [List.dropWhile_cons_of_pos (by simpa using ha)]
      exact ih fun e he => h e (by simp [he])
  simp [Life.birth, this]

/-- **C131.** After any sequence of calls the forest has `n_estimators` members. The tree
of member `i` is an untrained tree that has learned exactly the instances after its
creation, each as often as the member's Poisson draw says; it was created at the last
drift of the member, or at the latest warning between the drift before and that drift, or
is the original tree if there was no drift. `created_on` holds this time from the first
drift on. The same holds for the background tree, which exists iff there was a warning
since the last drift. -/
theorem C131_trained_since_creation (E : Env X T D R) (N : Nat) (r0 : Nat → R) (dr : Nat → Nat → Draw R)
    (calls : List (Call X)) (s : St T D) (ms : List (Mem T D)) (hr : run E N r0 dr calls init = .ok s)
    (hs : s.ensemble = some ms) :
    ms.length = N ∧ s.n = (seen calls).length ∧ ∃ c0 ≤ 1, ∀ i m, ms[i]? = some m →
      let log := answers E dr i (newMem E (E.blank (r0 i)) c0) (seen calls)
      Life.Built (IsNew E) E.train (samplesAfter dr i (seen calls) (Life.birth log)) m.tree ∧
      (m.nDrift = 0 → Life.birth log = 0 ∧ m.created = c0) ∧ (m.nDrift ≠ 0 → m.created = Life.birth log) ∧
      (m.bg.map fun b => b.created) = Life.pending log ∧
      (∀ b, m.bg = some b → Life.Built (IsNew E) E.train (samplesAfter dr i (seen calls) b.created) b.tree) := by
  obtain ⟨h1, h2, c0, hc, h3⟩ := afterCalls_life E N r0 dr calls s ms hr hs
  refine ⟨h1, h2, c0, hc, ?_⟩
  intro i m hm
  have hinv := inv_run E dr i (r0 i) c0 (seen calls)
  rw [← h3 i m hm] at hinv
  have ht := hinv.life.tree
  rw [since_events] at ht
  refine ⟨ht, ?_, ?_, ?_, ?_⟩
  · intro h0
    refine ⟨birth_no_drift _ (by rw [← hinv.nDrift]; exact h0), ?_⟩
    rw [hinv.created, if_pos h0]; rfl
  · intro h0
    rw [hinv.created, if_neg h0]
  · have := hinv.life.bgTime
    rw [log_events] at this
    rw [← this, toLife]
    cases m.bg <;> rfl
  · intro b hb
    have := hinv.life.bgTree b.tree b.created (by simp [toLife, hb])
    rwa [since_events] at this

/-- **C131.** The counters of a member report the answers of its detectors. -/
theorem C131_counters (E : Env X T D R) (N : Nat) (r0 : Nat → R) (dr : Nat → Nat → Draw R)
    (calls : List (Call X)) (s : St T D) (ms : List (Mem T D)) (hr : run E N r0 dr calls init = .ok s)
    (hs : s.ensemble = some ms) : ∃ c0 ≤ 1, ∀ i m, ms[i]? = some m →
      let log := answers E dr i (newMem E (E.blank (r0 i)) c0) (seen calls)
      m.nDrift = (log.filter fun e => e.2.2).length ∧ m.nWarn = (log.filter fun e => e.2.1).length ∧
      m.lastDrift = ((log.find? fun e => e.2.2).map fun e => e.1).getD 0 ∧
      m.lastWarn = ((log.find? fun e => e.2.1).map fun e => e.1).getD 0 := by
  obtain ⟨h1, h2, c0, hc, h3⟩ := afterCalls_life E N r0 dr calls s ms hr hs
  refine ⟨c0, hc, ?_⟩
  intro i m hm
  have hinv := inv_run E dr i (r0 i) c0 (seen calls)
  rw [← h3 i m hm] at hinv
  exact ⟨hinv.nDrift, hinv.nWarn, hinv.lastDrift, hinv.lastWarn⟩

/-! ### C132: what members are judged by -/

/-- **C132, partial.** The evaluator of a member holds its predictions for all instances
after its last drift, each made before the instance was learned. -/
theorem C132_evaluator_partial (E : Env X T D R) (N : Nat) (r0 : Nat → R) (dr : Nat → Nat → Draw R)
    (calls : List (Call X)) (s : St T D) (ms : List (Mem T D)) (hr : run E N r0 dr calls init = .ok s)
    (hs : s.ensemble = some ms) : ∃ c0 ≤ 1, ∀ i m, ms[i]? = some m →
      m.evals = resultsAfter E dr i (newMem E (E.blank (r0 i)) c0) (seen calls) m.lastDrift := by
  obtain ⟨h1, h2, c0, hc, h3⟩ := afterCalls_life E N r0 dr calls s ms hr hs
  refine ⟨c0, hc, ?_⟩
  intro i m hm
  have hinv := inv_run E dr i (r0 i) c0 (seen calls)
  rw [← h3 i m hm] at hinv
  exact hinv.evals

/-- **C132, partial.** With detectors whose `reset` restores the initial state, the drift
detector has seen exactly the errors since the last drift, the warning detector those
since the last warning or replacement by the background learner. The errors are those on
training instances, judged after learning. -/
theorem C132_detectors_partial (E : Env X T D R) (N : Nat) (r0 : Nat → R) (dr : Nat → Nat → Draw R)
    (calls : List (Call X)) (s : St T D) (ms : List (Mem T D)) (hr : run E N r0 dr calls init = .ok s)
    (hs : s.ensemble = some ms) (d0 : D) (hd : E.newDrift = some d0) (hd0 : ∀ l, E.resetD (fed E d0 l) = d0) :
    ∃ c0 ≤ 1, ∀ i m, ms[i]? = some m →
      let m0 := newMem E (E.blank (r0 i)) c0
      m.drift = some (fed E d0 (errorsAfter E dr i m0 (seen calls) m.lastDrift)) ∧
      ∀ w0, E.newWarn = some w0 → (∀ l, E.resetD (fed E w0 l) = w0) →
        m.warn = some (fed E w0 (errorsAfter E dr i m0 (seen calls) (warnStart (answers E dr i m0 (seen calls))))) := by
  obtain ⟨h1, h2, c0, hc, h3⟩ := afterCalls_life E N r0 dr calls s ms hr hs
  refine ⟨c0, hc, ?_⟩
  intro i m hm
  have hinv := inv_run E dr i (r0 i) c0 (seen calls)
  rw [← h3 i m hm] at hinv
  exact ⟨hinv.driftD d0 hd hd0, fun w0 hw hw0 => hinv.warnD w0 hw (by rw [hd]; rfl) hw0⟩

/-- **C132, violated.** The detectors are not fed with prediction errors: with trees that
remember the last sample they only ever see zeros, whatever the predictions before
learning were. -/
theorem C132_errors_after_learning_violated (E : Env X T D R) (dr : Nat → Nat → Draw R) (i : Nat) (m0 : Mem T D)
    (hE : ∀ r x y k t, E.predict (E.train r (x, y, k) t) x = y) (l : List (X × Int × ℚ)) (c : Nat) :
    ∀ b ∈ errorsAfter E dr i m0 l c, b = false := by
  intro b hb
  unfold errorsAfter at hb
  rw [List.mem_map] at hb
  obtain ⟨q, _, rfl⟩ := hb
  simp [hE]

/-! ### C133: voting -/

/-- Share of class `c` in the votes of a member; 0 if the votes have no positive sum. -/
def share (v : List (Int × ℚ)) (c : Int) : ℚ :=
  if 0 < (v.map Prod.snd).sum then (v.lookup c).getD 0 / (v.map Prod.snd).sum else 0

/-- Score of class `c`: the members' shares, weighted by performance if `weighted`. -/
def score (weighted : Bool) (ms : List (ℚ × List (Int × ℚ))) (c : Int) : ℚ :=
  (ms.map fun m => (if weighted then m.1 else 1) * share m.2 c).sum

/-- Total weight of the members that vote. -/
def voters (weighted : Bool) (ms : List (ℚ × List (Int × ℚ))) : ℚ :=
  ((ms.filter fun m => 0 < (m.2.map Prod.snd).sum).map fun m => if weighted then m.1 else 1).sum

theorem lookup_addVote (acc : List (Int × ℚ)) (q : Int × ℚ) (c : Int) :
    ((addVote acc q).lookup c).getD 0 = (acc.lookup c).getD 0 + if q.1 = c then q.2 else 0 := by
  induction acc with
  | nil =>
    obtain ⟨k, v⟩ := q
    by_cases h : k = c
    · subst h; simp [addVote]
    · have : (c == k) = false := by simpa using fun e => h e.symm
      simp [addVote, List.lookup, this, h]
  | cons a acc ih =>
    obtain ⟨k, v⟩ := a
    rw [addVote]
    by_cases hk : k = q.1
    · rw [if_pos hk]
      by_cases h : c = k
      · subst h; simp [List.lookup, hk.symm]
      · have hb : (c == k) = false := by simpa using h
        have : q.1 ≠ c := fun e => h (by rw [hk, e])
        simp [List.lookup, hb, this]
    · rw [if_neg hk]
      by_cases h : c = k
      · subst h
        have : q.1 ≠ c := fun e => hk e.symm
        simp [List.lookup, this]
      · have hb : (c == k) = false := by simpa using h
        simp only [List.lookup, hb]
        exact ih

theorem keys_addVote (acc : List (Int × ℚ)) (q : Int × ℚ) (c : Int) :
    c ∈ (addVote acc q).map Prod.fst ↔ c ∈ acc.map Prod.fst ∨ c = q.1 := by
  induction acc with
  | nil => simp [addVote]
  | cons a acc ih =>
    obtain ⟨k, v⟩ := a
    rw [addVote]
    by_cases hk : k = q.1
    · rw [if_pos hk]
      simp only [List.map_cons, List.mem_cons]
      constructor
      · exact fun h => .inl h
      · rintro (h | h)
        · exact h
        · exact .inl (by rw [h, hk])
    · rw [if_neg hk]
      simp only [List.map_cons, List.mem_cons, ih]
      tauto

theorem nodup_addVote (acc : List (Int × ℚ)) (q : Int × ℚ) (h : (acc.map Prod.fst).Nodup) :
    ((addVote acc q).map Prod.fst).Nodup := by
  induction acc with
  | nil => simp [addVote]
  | cons a acc ih =>
    obtain ⟨k, v⟩ := a
    rw [List.map_cons, List.nodup_cons] at h
    rw [addVote]
    by_cases hk : k = q.1
    · rw [if_pos hk]; exact List.nodup_cons.2 h
    · rw [if_neg hk, List.map_cons, List.nodup_cons, keys_addVote]
      exact ⟨fun hc => hc.elim h.1 hk, ih h.2⟩

theorem sum_addVote (acc : List (Int × ℚ)) (q : Int × ℚ) :
    ((addVote acc q).map Prod.snd).sum = (acc.map Prod.snd).sum + q.2 := by
  induction acc with
  | nil => simp [addVote]
  | cons a acc ih =>
    obtain ⟨k, v⟩ := a
    rw [addVote]
    by_cases hk : k = q.1
    · rw [if_pos hk]; simp only [List.map_cons, List.sum_cons]; ring
    · rw [if_neg hk]; simp only [List.map_cons, List.sum_cons, ih]; ring

/-- Sum of the votes for one class in a list that may repeat keys. -/
def total (v : List (Int × ℚ)) (c : Int) : ℚ := (v.map fun q => if q.1 = c then q.2 else 0).sum

theorem total_lookup (v : List (Int × ℚ)) (c : Int) (hn : (v.map Prod.fst).Nodup) :
    total v c = (v.lookup c).getD 0 := by
  induction v with
  | nil => rfl
  | cons a v ih =>
    obtain ⟨k, x⟩ := a
    rw [List.map_cons, List.nodup_cons] at hn
    have e : total ((k, x) :: v) c = (if k = c then x else 0) + total v c := by simp [total]
    rw [e]
    by_cases h : c = k
    · subst h
      have : total v c = 0 := by
        unfold total
        apply List.sum_eq_zero
        intro y hy
        rw [List.mem_map] at hy
        obtain ⟨q, hq, rfl⟩ := hy
        rw [if_neg]
        rintro rfl
        exact hn.1 (List.mem_map.2 ⟨q, hq, rfl⟩)
      simp [List.lookup, this]
    · have hb : (c == k) = false := by simpa using h
      rw [if_neg (fun e => h e.symm), zero_add, ih hn.2]
      simp [List.lookup, hb]

theorem foldl_addVote (v acc : List (Int × ℚ)) (hn : (acc.map Prod.fst).Nodup) :
    ((v.foldl addVote acc).map Prod.fst).Nodup ∧
    (∀ c, ((v.foldl addVote acc).lookup c).getD 0 = (acc.lookup c).getD 0 + total v c) ∧
    ((v.foldl addVote acc).map Prod.snd).sum = (acc.map Prod.snd).sum + (v.map Prod.snd).sum ∧
    ∀ c, c ∈ (v.foldl addVote acc).map Prod.fst ↔ c ∈ acc.map Prod.fst ∨ c ∈ v.map Prod.fst := by
  induction v generalizing acc with
  | nil => exact ⟨hn, fun c => by simp [total], by simp, fun c => by simp⟩
  | cons q v ih =>
    obtain ⟨a, b, d, e⟩ := ih (addVote acc q) (nodup_addVote acc q hn)
    refine ⟨a, fun c => ?_, ?_, fun c => ?_⟩
    · rw [List.foldl_cons, b, lookup_addVote]; simp [total]; ring
    · rw [List.foldl_cons, d, sum_addVote]; simp; ring
    · rw [List.foldl_cons, e, keys_addVote]; simp; tauto

/-- The weight the code gives to a member. -/
def factor (weighted : Bool) (perf : ℚ) : ℚ := if weighted ∧ perf ≠ 0 then perf else 1

theorem memVote_spec (weighted : Bool) (perf : ℚ) (v : List (Int × ℚ)) (hn : (v.map Prod.fst).Nodup) :
    (∀ c, total (memVote weighted perf v) c = factor weighted perf * share v c) ∧
    ((memVote weighted perf v).map Prod.snd).sum = (if 0 < (v.map Prod.snd).sum then factor weighted perf else 0) ∧
    ((memVote weighted perf v).map Prod.fst) = if 0 < (v.map Prod.snd).sum then v.map Prod.fst else [] := by
  set s := (v.map Prod.snd).sum with hs
  by_cases hp : 0 < s
  · have hf : memVote weighted perf v = v.map fun q => (q.1, q.2 / s * factor weighted perf) := by
      unfold memVote factor
      simp only [← hs]
      rw [if_pos hp]
      by_cases hw : weighted = true ∧ perf ≠ 0
      · rw [if_pos hw, if_pos hw, List.map_map]; rfl
      · rw [if_neg hw, if_neg hw]; simp
    have hmul : ∀ (l : List (Int × ℚ)) (g : Int × ℚ → ℚ) (a : ℚ), (l.map fun q => g q * a).sum = (l.map g).sum * a := by
      intro l g a
      induction l with
      | nil => simp
      | cons q l ih => simp [ih, add_mul]
    rw [hf]
    refine ⟨fun c => ?_, ?_, ?_⟩
    · rw [share, if_pos hp, ← hs, ← total_lookup v c hn]
      unfold total
      rw [List.map_map]
      have : ((fun q : Int × ℚ => if q.1 = c then q.2 else 0) ∘ fun q : Int × ℚ => (q.1, q.2 / s * factor weighted perf)) =
          fun q => (if q.1 = c then q.2 else 0) * (factor weighted perf / s) := by
        funext q
        simp only [Function.comp]
        split <;> ring
      rw [this, hmul]
      ring
    · rw [if_pos hp, List.map_map]
      have : (Prod.snd ∘ fun q : Int × ℚ => (q.1, q.2 / s * factor weighted perf)) =
          fun q => q.2 * (factor weighted perf / s) := by
        funext q; simp only [Function.comp]; ring
      rw [this, hmul, ← hs]
      field_simp
    · rw [if_pos hp, List.map_map]; rfl
  · have hf : memVote weighted perf v = [] := by
      unfold memVote; simp only [← hs]; rw [if_neg hp]
    rw [hf]
    refine ⟨fun c => ?_, by rw [if_neg hp]; rfl, by rw [if_neg hp]; rfl⟩
    rw [share, if_neg (by rw [← hs]; exact hp)]
    simp [total]

theorem combine_spec (weighted : Bool) (ms : List (ℚ × List (Int × ℚ))) (acc : List (Int × ℚ))
    (hacc : (acc.map Prod.fst).Nodup) (hn : ∀ m ∈ ms, (m.2.map Prod.fst).Nodup) :
    let r := ms.foldl (fun acc m => (memVote weighted m.1 m.2).foldl addVote acc) acc
    (r.map Prod.fst).Nodup ∧
    (∀ c, (r.lookup c).getD 0 = (acc.lookup c).getD 0 + (ms.map fun m => factor weighted m.1 * share m.2 c).sum) ∧
    (r.map Prod.snd).sum = (acc.map Prod.snd).sum +
      ((ms.filter fun m => 0 < (m.2.map Prod.snd).sum).map fun m => factor weighted m.1).sum ∧
    ∀ c, c ∈ r.map Prod.fst ↔ c ∈ acc.map Prod.fst ∨
      ∃ m ∈ ms, 0 < (m.2.map Prod.snd).sum ∧ c ∈ m.2.map Prod.fst := by
  induction ms generalizing acc with
  | nil => exact ⟨hacc, fun c => by simp, by simp, fun c => by simp⟩
  | cons m ms ih =>
    obtain ⟨a1, a2, a3, a4⟩ := foldl_addVote (memVote weighted m.1 m.2) acc hacc
    obtain ⟨b1, b2, b3⟩ := memVote_spec weighted m.1 m.2 (hn m (by simp))
    obtain ⟨c1, c2, c3, c4⟩ := ih ((memVote weighted m.1 m.2).foldl addVote acc) a1 fun m' hm' => hn m' (by simp [hm'])
    refine ⟨c1, fun c => ?_, ?_, fun c => ?_⟩
    · rw [List.foldl_cons, c2, a2, b1]; simp; ring
    · rw [List.foldl_cons, c3, a3, b2]
      by_cases hp : 0 < (m.2.map Prod.snd).sum
      · rw [if_pos hp, List.filter_cons_of_pos (by simpa using hp)]; simp; ring
      · rw [if_neg hp, List.filter_cons_of_neg (by simpa using hp)]; ring
    · rw [List.foldl_cons, c4, a4, b3]
      by_cases hp : 0 < (m.2.map Prod.snd).sum
      · rw [if_pos hp]
        constructor
        · rintro ((h | h) | ⟨m', h1, h2⟩)
          · exact .inl h
          · exact .inr ⟨m, by simp, hp, h⟩
          · exact .inr ⟨m', by simp [h1], h2⟩
        · rintro (h | ⟨m', h1, h2, h3⟩)
          · exact .inl (.inl h)
          · rcases List.mem_cons.1 h1 with rfl | h1
            · exact .inl (.inr h3)
            · exact .inr ⟨m', h1, h2, h3⟩
      · rw [if_neg hp]
        constructor
        · rintro ((h | h) | ⟨m', h1, h2⟩)
          · exact .inl h
          · cases h
          · exact .inr ⟨m', by simp [h1], h2⟩
        · rintro (h | ⟨m', h1, h2, h3⟩)
          · exact .inl (.inl h)
          · rcases List.mem_cons.1 h1 with rfl | h1
            · exact absurd h2 hp
            · exact .inr ⟨m', h1, h2, h3⟩

theorem factor_eq (weighted : Bool) (perf : ℚ) (h : weighted = true → perf ≠ 0) :
    factor weighted perf = if weighted then perf else 1 := by
  unfold factor
  cases weighted with
  | false => simp
  | true => simp [h rfl]

/-- **C133, partial.** If no member's performance is exactly 0 (or votes are not
weighted), the combined votes for every class are the members' shares for the class,
weighted by performance. -/
theorem C133_votes_partial (weighted : Bool) (ms : List (ℚ × List (Int × ℚ)))
    (hn : ∀ m ∈ ms, (m.2.map Prod.fst).Nodup) (hp : ∀ m ∈ ms, weighted = true → m.1 ≠ 0) (c : Int) :
    ((combine weighted ms).lookup c).getD 0 = score weighted ms c := by
  obtain ⟨_, h, _⟩ := combine_spec weighted ms [] (by simp) hn
  unfold combine score
  rw [h]
  simp only [List.lookup_nil, Option.getD_none, zero_add]
  congr 1
  apply List.map_congr_left
  intro m hm
  rw [factor_eq _ _ (hp m hm)]

theorem lookup_mem (v : List (Int × ℚ)) (hn : (v.map Prod.fst).Nodup) (q : Int × ℚ) (hq : q ∈ v) :
    (v.lookup q.1).getD 0 = q.2 := by
  rw [Trees.HL.mem_lookup v hn q hq]; rfl

/-- **C133, partial.** If members have positive performance (or votes are not weighted),
votes are not negative and at least one member votes, `predict_proba` answers with the
score of each class divided by the weight of all voters, up to the largest class `top`;
the row sums to one, and `predict` answers with the class of highest score, the smallest
on ties. -/
theorem C133_proba_partial (classes : Option (List Int)) (weighted : Bool) (ms : List (ℚ × List (Int × ℚ))) (top : Nat)
    (htop : Trees.HL.IsTop classes (combine weighted ms) top)
    (hn : ∀ m ∈ ms, (m.2.map Prod.fst).Nodup) (hl : ∀ m ∈ ms, ∀ q ∈ m.2, 0 ≤ q.1 ∧ q.1 ≤ top ∧ 0 ≤ q.2)
    (hp : ∀ m ∈ ms, weighted = true → 0 < m.1) (hv : ∃ m ∈ ms, 0 < (m.2.map Prod.snd).sum) :
    ∃ row, proba classes weighted ms = .ok row ∧ row.length = top + 1 ∧ row.sum = 1 ∧
      (∀ c ≤ top, row[c]? = some (score weighted ms c / voters weighted ms)) ∧
      Lazy.argmax row ≤ top ∧ (∀ c ≤ top, score weighted ms c ≤ score weighted ms (Lazy.argmax row : Nat)) ∧
      ∀ c < Lazy.argmax row, score weighted ms c < score weighted ms (Lazy.argmax row : Nat) := by
  obtain ⟨g1, g2, g3, g4⟩ := combine_spec weighted ms [] (by simp) hn
  have hne0 : ∀ m ∈ ms, weighted = true → m.1 ≠ 0 := fun m hm hw => ne_of_gt (hp m hm hw)
  have hsc := C133_votes_partial weighted ms hn hne0
  change (((combine weighted ms).map Prod.fst).Nodup) at g1
  have hsum : ((combine weighted ms).map Prod.snd).sum = voters weighted ms := by
    unfold combine voters
    rw [g3]
    simp only [List.map_nil, List.sum_nil, zero_add]
    congr 1
    apply List.map_congr_left
    intro m hm
    rw [factor_eq _ _ (hne0 m (List.mem_of_mem_filter hm))]
  have hpos : 0 < voters weighted ms := by
    unfold voters
    obtain ⟨m, hm, hms⟩ := hv
    apply List.sum_pos
    · intro x hx
      rw [List.mem_map] at hx
      obtain ⟨m', hm', rfl⟩ := hx
      cases hw : weighted with
      | false => simp
      | true => simpa using hp m' (List.mem_of_mem_filter hm') hw
    · intro h
      rw [List.map_eq_nil_iff, List.filter_eq_nil_iff] at h
      exact h m hm (by simpa using hms)
  have hkeys : ∀ q ∈ combine weighted ms, 0 ≤ q.1 ∧ q.1 ≤ top := by
    intro q hq
    rcases (g4 q.1).1 (List.mem_map.2 ⟨q, hq, rfl⟩) with h | ⟨m, hm, _, h⟩
    · cases h
    · rw [List.mem_map] at h
      obtain ⟨q', hq', e⟩ := h
      have := hl m hm q' hq'
      rw [← e]; exact ⟨this.1, this.2.1⟩
  have hne : combine weighted ms ≠ [] := by
    intro h
    rw [h] at hsum
    simp at hsum
    rw [← hsum] at hpos
    exact lt_irrefl _ hpos
  obtain ⟨row, r1, r2, r3⟩ := Trees.HL.C126_proba_row_partial classes (combine weighted ms) top htop hne g1 hkeys
    (by rw [hsum]; exact ne_of_gt hpos)
  obtain ⟨row', r1', r4⟩ := Trees.HL.C126_row_sums_to_one_partial classes (combine weighted ms) top htop hne g1 hkeys
    (by rw [hsum]; exact ne_of_gt hpos)
  rw [r1, Except.ok.injEq] at r1'
  subst r1'
  have hval : ∀ c ≤ top, row[c]? = some (score weighted ms c / voters weighted ms) := by
    intro c hc
    rw [r3 c hc, hsum, Trees.HL.voteFor, hsc]
  have hrne : row ≠ [] := by rintro rfl; simp at r2
  obtain ⟨b, a1, a2, a3⟩ := Lazy.argmax_spec row hrne
  have hlt : Lazy.argmax row ≤ top := by
    by_contra hge
    rw [List.getElem?_eq_none (by omega)] at a1; cases a1
  have hb := hval _ hlt
  rw [a1, Option.some.injEq] at hb
  refine ⟨row, r1, r2, r4, hval, hlt, ?_, ?_⟩
  · intro c hc
    have := a2 _ (List.mem_of_getElem? (hval c hc))
    rw [hb] at this
    exact (div_le_div_iff_of_pos_right hpos).1 this
  · intro c hc
    have := a3 c _ hc (hval c (by omega))
    rw [hb] at this
    exact (div_lt_div_iff_of_pos_right hpos).1 this

/-- **C133, violated.** A member that was always wrong (accuracy 0) votes with the same
weight as one that was always right. -/
theorem C133_zero_accuracy_violated (v : List (Int × ℚ)) : memVote true 0 v = memVote true 1 v := by
  unfold memVote
  simp [Function.comp_def]

/-- **C133, violated.** With one member of accuracy 0 voting for class 0 and one of
accuracy 0.9 voting for class 1, the forest predicts class 0. -/
theorem C133_zero_accuracy_wins_violated :
    (proba none true [(0, [(0, 1)]), (9/10, [(1, 1)])]).toOption.map Lazy.argmax = some 0 := by
  decide +kernel

/-- **C133, violated.** With `performance_metric='kappa'` a member may weigh negatively;
the probabilities then leave [0, 1] and the class only the bad member votes for wins. -/
theorem C133_negative_kappa_violated :
    (proba none true [(-1/2, [(0, 1)]), (1/4, [(1, 1)])]).toOption = some [2, -1] := by
  decide +kernel

/-! ### C134: number of features per split -/

/-- **C134, partial.** Whatever `max_features` is, between 1 and all of the features are
considered. -/
theorem C134_range_partial (rs rl : Nat → Int) (m : MaxF) (n : Nat) (hn : 1 ≤ n) :
    1 ≤ maxFeatures rs rl m n ∧ maxFeatures rs rl m n ≤ n := by
  unfold maxFeatures
  simp only
  generalize (match m with
    | .auto => rs n
    | .log2 => rl n
    | .int k => k
    | .float f => if 0 ≤ f then ⌊f * n⌋ else -⌊-(f * n)⌋
    | .none => (n : Int)) = k
  split_ifs <;> omega

/-- **C134, partial.** An integer is taken as it is, a fraction as a share, `None` as all;
an integer below 0 counts from the number of features, as does a negative share. Numbers
out of range become 1 or all. -/
theorem C134_meaning_partial (rs rl : Nat → Int) (n : Nat) :
    (∀ k : Int, 1 ≤ k → k ≤ n → maxFeatures rs rl (.int k) n = k) ∧
    (∀ k : Int, k < 0 → 1 ≤ k + n → maxFeatures rs rl (.int k) n = k + n) ∧
    (∀ f : ℚ, 1 ≤ f * n → f ≤ 1 → maxFeatures rs rl (.float f) n = ⌊f * n⌋) ∧
    (1 ≤ n → maxFeatures rs rl .none n = n) ∧
    (∀ k, rs n = k → 1 ≤ k → k ≤ n → maxFeatures rs rl .auto n = k) ∧
    (1 ≤ n → ∀ k : Int, (k = 0 ∨ k + n ≤ 0 → maxFeatures rs rl (.int k) n = 1) ∧
      (n ≤ k → maxFeatures rs rl (.int k) n = n)) ∧
    (∀ (f : ℚ) (j : Nat), f * n ≤ -j → -j - 1 < f * n → 1 ≤ j → j < n → maxFeatures rs rl (.float f) n = n - j) := by
  refine ⟨fun k h1 h2 => ?_, fun k h1 h2 => ?_, fun f h1 h2 => ?_, fun h => ?_, fun k h1 h2 h3 => ?_,
    fun hn k => ⟨fun h => ?_, fun h => ?_⟩, fun f j h1 h2 h3 h4 => ?_⟩
  · simp only [maxFeatures]; split_ifs <;> omega
  · simp only [maxFeatures]; split_ifs <;> omega
  · have hn : (0 : ℚ) ≤ n := by positivity
    have hf : 0 ≤ f := by
      by_contra h
      have : f * n ≤ 0 := mul_nonpos_of_nonpos_of_nonneg (by linarith) hn
      linarith
    have h3 : 1 ≤ ⌊f * n⌋ := by
      rw [Int.le_floor]; exact_mod_cast h1
    have h4 : ⌊f * n⌋ ≤ n := by
      have : f * n ≤ n := by nlinarith
      have h5 := Int.floor_le_floor this
      simpa using h5
    simp only [maxFeatures, if_pos hf]
    split_ifs <;> omega
  · simp only [maxFeatures]; split_ifs <;> omega
  · simp only [maxFeatures, h1]; split_ifs <;> omega
  · simp only [maxFeatures]; split_ifs <;> omega
  · simp only [maxFeatures]; split_ifs <;> omega
  · have hn : (0 : ℚ) ≤ n := by positivity
    have hj : (1 : ℚ) ≤ j := by exact_mod_cast h3
    have hf : ¬ 0 ≤ f := by
      intro h
      have : 0 ≤ f * n := mul_nonneg h hn
      linarith
    have hfl : ⌊-(f * n)⌋ = j := by
      rw [Int.floor_eq_iff]
      constructor
      · push_cast; linarith
      · push_cast; linarith
    simp only [maxFeatures, if_neg hf, hfl]
    split_ifs <;> omega

/-- **C134, violated.** The computed number replaces the parameter: a forest built with a
share of 0.5 and trained on 4 features still uses 2 features after `reset()` when it is
then trained on 10, where a new one uses 5. -/
theorem C134_parameter_overwritten_violated (rs rl : Nat → Int) :
    maxFeatures rs rl (.int (maxFeatures rs rl (.float (1/2)) 4)) 10 = 2 ∧ maxFeatures rs rl (.float (1/2)) 10 = 5 := by
  have h1 : maxFeatures rs rl (.float (1/2)) 4 = 2 := by
    have := (C134_meaning_partial rs rl 4).2.2.1 (1/2) (by norm_num) (by norm_num)
    rw [this]; norm_num
  have h2 : maxFeatures rs rl (.float (1/2)) 10 = 5 := by
    have := (C134_meaning_partial rs rl 10).2.2.1 (1/2) (by norm_num) (by norm_num)
    rw [this]; norm_num
  rw [h1]
  exact ⟨(C134_meaning_partial rs rl 10).1 2 (by norm_num) (by norm_num), h2⟩

/-! ### C135: sample weights -/

/-- **C135, violated.** One weight per sample, as documented, raises a `ValueError` for
every batch of two or more samples. -/
theorem C135_weights_raise_violated (E : Env X T D R) (N : Nat) (r0 : Nat → R) (dr : Nat → Nat → Draw R)
    (s : St T D) (rows : List (X × Int)) (classes : Option (List Int)) (ws : List ℚ) (h2 : 2 ≤ rows.length)
    (hws : ws.length = rows.length) :
    call E N r0 dr s (.fit rows (some (.arr ws)) classes) = .error .valueError ∧
    call E N r0 dr s (.fit rows (some (.list ws)) classes) = .error .valueError := by
  have h1 : checkWeights (.arr ws) rows.length = .error .valueError := by
    simp only [checkWeights]; rw [if_pos (by omega), if_neg (by omega)]
  have h3 : checkWeights (.list ws) rows.length = .error .valueError := by
    simp only [checkWeights]; rw [if_neg (by omega)]
  constructor
  · simp only [call, Option.getD_some, h1]
  · simp only [call, Option.getD_some, h3]

/-- A member without its evaluator. -/
def bare (m : Mem T D) : Mem T D := { m with evals := [] }

theorem bare_driftStep (E : Env X T D R) (m m' : Mem T D) (b : Bool) (t : Nat) (r : R) (h : bare m = bare m') :
    bare (driftStep E m b t r) = bare (driftStep E m' b t r) := by
  obtain ⟨tree, c, ld, lw, nd, nw, d, w, bg, ev⟩ := m
  obtain ⟨tree', c', ld', lw', nd', nw', d', w', bg', ev'⟩ := m'
  simp only [bare, Mem.mk.injEq, and_true] at h
  obtain ⟨rfl, rfl, rfl, rfl, rfl, rfl, rfl, rfl, rfl⟩ := h
  cases d with
  | none => rfl
  | some d =>
    simp only [driftStep]
    split
    · cases w <;> cases bg <;> rfl
    · rfl

theorem bare_warnStep (E : Env X T D R) (m m' : Mem T D) (b : Bool) (t : Nat) (r : R) (h : bare m = bare m') :
    bare (warnStep E m b t r) = bare (warnStep E m' b t r) := by
  obtain ⟨tree, c, ld, lw, nd, nw, d, w, bg, ev⟩ := m
  obtain ⟨tree', c', ld', lw', nd', nw', d', w', bg', ev'⟩ := m'
  simp only [bare, Mem.mk.injEq, and_true] at h
  obtain ⟨rfl, rfl, rfl, rfl, rfl, rfl, rfl, rfl, rfl⟩ := h
  cases w with
  | none => rfl
  | some w =>
    simp only [warnStep]
    split <;> rfl

theorem bare_feed (E : Env X T D R) (m m' : Mem T D) (x : X) (y : Int) (w w' : ℚ) (t : Nat) (q : Draw R)
    (h : bare m = bare m') : bare (feed E m (x, y, w) t q) = bare (feed E m' (x, y, w') t q) := by
  obtain ⟨tree, c, ld, lw, nd, nw, d, wa, bg, ev⟩ := m
  obtain ⟨tree', c', ld', lw', nd', nw', d', wa', bg', ev'⟩ := m'
  simp only [bare, Mem.mk.injEq, and_true] at h
  obtain ⟨rfl, rfl, rfl, rfl, rfl, rfl, rfl, rfl, rfl⟩ := h
  simp only [feed]
  split
  · simp only [fitMem]
    split
    · apply bare_driftStep
      apply bare_warnStep
      rfl
    · rfl
  · rfl

/-- **C135, violated.** Apart from 0 (ignore the sample) the weight given to a sample does
not matter for training: trees, background trees, detectors and counters are the same for
any two streams that differ only in the weights. -/
theorem C135_weights_ignored_violated (E : Env X T D R) (dr : Nat → Nat → Draw R) (i : Nat) (m0 : Mem T D)
    (l : List (X × Int)) (w w' : X × Int → ℚ) :
    bare (life E dr i m0 (l.map fun q => (q.1, q.2, w q))) = bare (life E dr i m0 (l.map fun q => (q.1, q.2, w' q))) := by
  induction l using List.reverseRecOn with
  | nil => rfl
  | append_singleton l e ih =>
    rw [List.map_append, List.map_append, List.map_singleton, List.map_singleton, life_append, life_append,
      List.length_map, List.length_map]
    exact bare_feed E _ _ _ _ _ _ _ _ ih

/-- **C135, partial.** A sample of weight 0 is not learned, and a single number is the
weight of all rows of the call: the evaluators count with it. -/
theorem C135_zero_weight_partial (E : Env X T D R) (N : Nat) (r0 : Nat → R) (dr : Nat → Nat → Draw R)
    (s : St T D) (rows : List (X × Int)) (hr : rows ≠ []) :
    call E N r0 dr s (.fit rows (some (.num 0)) none) = .ok s := by
  have h1 : checkWeights (.num 0) rows.length = .ok (List.replicate rows.length 0) := by
    simp only [checkWeights]; rw [if_pos (show rows.length ≥ 1 from List.length_pos_of_ne_nil hr)]
  simp only [call, Option.getD_some, h1]
  have hs : (if s.classes = none then { s with classes := none } else s) = s := by
    cases s with
    | mk n w e c => cases c <;> rfl
  rw [hs]
  clear h1 hr hs
  induction rows with
  | nil => rfl
  | cons q rows ih =>
    obtain ⟨x, y⟩ := q
    rw [List.length_cons, List.replicate_succ, fitRows, if_neg (by simp)]
    exact ih

/-- A forest without its classes. -/
def core (s : St T D) : Nat × ℚ × Option (List (Mem T D)) := (s.n, s.weight, s.ensemble)

theorem core_fitRows (E : Env X T D R) (N : Nat) (r0 : Nat → R) (dr : Nat → Nat → Draw R) (rows : List (X × Int))
    (ws : List ℚ) (s s' : St T D) (h : core s = core s') :
    (fitRows E N r0 dr rows ws s).toOption.map core = (fitRows E N r0 dr rows ws s').toOption.map core := by
  induction rows generalizing ws s s' with
  | nil => simp [fitRows, Except.toOption, h]
  | cons q rows ih =>
    obtain ⟨x, y⟩ := q
    cases ws with
    | nil => rfl
    | cons w ws =>
      rw [fitRows, fitRows]
      apply ih
      obtain ⟨n, we, en, cl⟩ := s
      obtain ⟨n', we', en', cl'⟩ := s'
      simp only [core, Prod.mk.injEq] at h
      obtain ⟨rfl, rfl, rfl⟩ := h
      by_cases hw : w ≠ 0
      · rw [if_pos hw, if_pos hw]
        cases en <;> rfl
      · rw [if_neg hw, if_neg hw]; rfl

theorem core_run (E : Env X T D R) (N : Nat) (r0 : Nat → R) (dr : Nat → Nat → Draw R) (calls : List (Call X))
    (s s' : St T D) (h : core s = core s') :
    (run E N r0 dr calls s).toOption.map core = (run E N r0 dr calls s').toOption.map core := by
  induction calls generalizing s s' with
  | nil => simp [run, Except.toOption, h]
  | cons c calls ih =>
    have hc : (call E N r0 dr s c).toOption.map core = (call E N r0 dr s' c).toOption.map core := by
      cases c with
      | ask =>
        obtain ⟨n, we, en, cl⟩ := s
        obtain ⟨n', we', en', cl'⟩ := s'
        simp only [core, Prod.mk.injEq] at h
        obtain ⟨rfl, rfl, rfl⟩ := h
        cases en <;> rfl
      | fit rows w classes =>
        simp only [call]
        cases checkWeights (w.getD (.num 1)) rows.length with
        | error e => rfl
        | ok ws =>
          apply core_fitRows
          split <;> split <;> exact h
    rw [run, run]
    cases h1 : call E N r0 dr s c with
    | error e =>
      rw [h1] at hc
      cases h2 : call E N r0 dr s' c with
      | error e' => rfl
      | ok t' => rw [h2] at hc; cases hc
    | ok t =>
      rw [h1] at hc
      cases h2 : call E N r0 dr s' c with
      | error e' => rw [h2] at hc; cases hc
      | ok t' =>
        rw [h2] at hc
        simp only [Except.toOption, Option.map_some, Option.some.injEq] at hc
        exact ih t t' hc

/-- **C131.** After `reset` any further calls leave the ensemble and the counters as they
would be in a new forest given the same random draws. -/
theorem C131_reset (E : Env X T D R) (N : Nat) (r0 : Nat → R) (dr : Nat → Nat → Draw R) (calls : List (Call X))
    (s : St T D) : (run E N r0 dr calls (reset s)).toOption.map (fun s => (s.n, s.weight, s.ensemble)) =
      (run E N r0 dr calls init).toOption.map (fun s => (s.n, s.weight, s.ensemble)) :=
  core_run E N r0 dr calls (reset s) init rfl

/-! ### Non-vacuity -/

/-- A tree is the list of labels it learned and predicts the smallest of them; a detector
counts errors and fires at 3 (drift) or 2 (warning). -/
def demo : Env Nat (List Int) (Nat × Nat) Unit :=
  ⟨fun _ => [], fun _ s t => t ++ List.replicate s.2.2 s.2.1, fun t _ => t.foldl min 9, fun _ _ => [], some (3, 0), some (2, 0),
    fun d e => ((d.1, if e then d.2 + 1 else d.2), e && d.2 + 1 = d.1), fun d => (d.1, 0)⟩

/-- Two members; member 1 is not trained on every fourth instance. -/
def demoDraw (t i : Nat) : Draw Unit := ⟨if t % 4 = 0 ∧ i = 1 then 0 else 1, (), (), (), ()⟩

/-- Label 1 first, then 2: warnings and drifts, trees replaced by background trees. -/
def demoCalls : List (Call Nat) :=
  [.ask, .fit [(0, 1), (0, 1)] none none, .fit [(0, 2), (0, 2), (0, 2), (0, 2)] (some (.num 2)) none, .fit [(0, 3)] none none]

/-- Trees, times of creation, numbers of drifts and warnings of the members. -/
def demoView : List (List Int × Nat × Nat × Nat) :=
  ((run demo 2 (fun _ => ()) demoDraw demoCalls init).toOption.bind fun s => s.ensemble.map fun ms =>
    ms.map fun m => (m.tree, m.created, m.nWarn, m.nDrift)).getD []

example : demoView = [([2, 2, 3], 4, 1, 1), ([2, 3], 5, 1, 1)] := by decide +kernel

/-- The hypothesis on `reset` of the detectors holds. -/
example : ∀ l, demo.resetD (fed demo (3, 0) l) = (3, 0) := by
  intro l
  have : ∀ l n, ∃ k, fed demo (3, n) l = (3, k) := by
    intro l
    induction l with
    | nil => exact fun n => ⟨n, rfl⟩
    | cons b l ih => intro n; exact ih _
  obtain ⟨k, hk⟩ := this l 0
  rw [hk]; rfl

/-- The hypotheses of `C133_proba_partial`: two members, classes 0 to 2. -/
example : (proba (some [0, 1, 2]) true [(1/2, [(0, 3), (1, 1)]), (9/10, [(1, 2)])]).toOption =
    some [15/56, 41/56, 0] := by decide +kernel

end Verif.Meta.Forest
