import Verif.Meta.ForestReg
import Mathlib.Algebra.BigOperators.Ring.List
import Mathlib.Algebra.Order.BigOperators.Group.List
import Mathlib.Tactic.Linarith
import Mathlib.Tactic.FieldSimp

/-!
Runs of `Meta/ForestReg.lean`; C142, C143.
-/

namespace Verif.Meta.ForestReg

variable {F X T D R : Type} [Field F] [LinearOrder F]

/-- Member `i` as a machine: its model is the tree with the results of its evaluator, its
training samples are the instances with positive weight. -/
def mach (E : Env F X T D R) (dr : Nat → Nat → Forest.Draw R) (i : Nat) :
    Life.Machine (Mem F T D) (X × F) (T × List (F × F)) (X × F × Nat) where
  feed t a m := feed E m a t (dr t i)
  tree m := (m.tree, m.evals)
  created m := m.created
  bg m := m.bg.map fun b => ((b.tree, b.evals), b.created)
  nWarn m := m.nWarn
  nDrift m := m.nDrift
  smp t a := if 0 < (dr t i).k then some (a.1, a.2, (dr t i).k) else none

/-- An untrained tree without results. -/
def IsNew (E : Env F X T D R) (t : T × List (F × F)) : Prop := (∃ r, t.1 = E.blank r) ∧ t.2 = []

/-- Judging and then learning one sample. -/
def judge (E : Env F X T D R) (r : R) (s : X × F × Nat) (t : T × List (F × F)) : T × List (F × F) :=
  (E.train r s t.1, t.2 ++ [(s.2.1, E.predict t.1 s.1)])

/-- What stays true of a member. -/
structure Shape (E : Env F X T D R) (m : Mem F T D) : Prop where
  drift : m.drift.isSome = E.newDrift.isSome
  warn : m.warn.isSome = E.newWarn.isSome
  noBg : E.newWarn = none → m.bg = none
  bg : ∀ b, m.bg = some b → b.drift = E.newDrift ∧ b.warn = E.newWarn

set_option maxHeartbeats 1000000 in
theorem shape_feed (E : Env F X T D R) (m : Mem F T D) (a : X × F) (t : Nat) (q : Forest.Draw R) (h : Shape E m) :
    Shape E (feed E m a t q) := by
  obtain ⟨tree, created, ld, lw, nd, nw, drift, warn, bg, evals, norm⟩ := m
  obtain ⟨x, y⟩ := a
  obtain ⟨h1, h2, h3, h4⟩ := h
  simp only at h1 h2 h3 h4
  by_cases hk : q.k > 0
  · simp only [feed, if_pos hk, fitMem]
    generalize normStep E.sqrt norm (rawInput E.crit y (E.predict tree x)) = nv
    obtain ⟨norm', v⟩ := nv
    cases drift with
    | none =>
      refine ⟨by simpa using h1, by simpa using h2, fun hn => by simp [h3 hn], ?_⟩
      intro b hb
      simp only [Option.isSome_none, Bool.false_eq_true, if_false, Option.map_eq_some_iff] at hb
      obtain ⟨b0, hb0, rfl⟩ := hb
      exact h4 b0 hb0
    | some d =>
      obtain ⟨d', cd, had⟩ : ∃ d' cd, E.add d v = (d', cd) := ⟨_, _, rfl⟩
      cases warn with
      | none =>
        have hb := h3 (by simpa using h2.symm)
        subst hb
        simp only [Option.isSome_some, if_true, warnStep, driftStep, had]
        cases cd
        · exact ⟨by simpa using h1, by simpa using h2, fun _ => rfl, fun b hb => by cases hb⟩
        · exact ⟨by simpa [resetMem] using h1, by simpa [resetMem] using h2, fun _ => rfl, fun b hb => by cases hb⟩
      | some w =>
        obtain ⟨w', cw, haw⟩ : ∃ w' cw, E.add w v = (w', cw) := ⟨_, _, rfl⟩
        simp only [Option.isSome_some, if_true, warnStep, driftStep, haw]
        have hnw : E.newWarn ≠ none := by intro hn; rw [hn] at h2; cases h2
        cases cw <;> simp only [Bool.false_eq_true, if_false, if_true, had] <;> cases cd <;>
          simp only [Bool.false_eq_true, if_false, if_true, resetMem, Option.isSome_some]
        · refine ⟨by simpa using h1, by simpa using h2, fun hn => absurd hn hnw, ?_⟩
          intro b hb
          simp only [Option.map_eq_some_iff] at hb
          obtain ⟨b0, hb0, rfl⟩ := hb
          exact h4 b0 hb0
        · cases bg with
          | none => exact ⟨by simpa using h1, by simpa using h2, fun _ => rfl, fun b hb => by cases hb⟩
          | some b0 =>
            obtain ⟨e1, e2⟩ := h4 b0 rfl
            exact ⟨by simp [e1], by simp [e2], fun _ => rfl, fun b hb => by cases hb⟩
        · refine ⟨by simpa using h1, by simpa using h2, fun hn => absurd hn hnw, ?_⟩
          intro b hb
          simp only [Option.some.injEq] at hb
          rw [← hb]; exact ⟨rfl, rfl⟩
        · exact ⟨rfl, rfl, fun _ => rfl, fun b hb => by cases hb⟩
  · simp only [feed, if_neg hk]
    exact ⟨h1, h2, h3, h4⟩

set_option maxHeartbeats 1000000 in
theorem step_ok (E : Env F X T D R) (dr : Nat → Nat → Forest.Draw R) (i : Nat) (m : Mem F T D) (t : Nat) (a : X × F)
    (h : Shape E m) : (mach E dr i).StepOk (IsNew E) (judge E) m t a := by
  obtain ⟨tree, created, ld, lw, nd, nw, drift, warn, bg, evals, norm⟩ := m
  obtain ⟨x, y⟩ := a
  obtain ⟨h1, h2, h3, h4⟩ := h
  simp only at h1 h2 h3 h4
  by_cases hk : (dr t i).k > 0
  · have hsmp : (mach E dr i).smp t (x, y) = some (x, y, (dr t i).k) := by simp only [mach]; rw [if_pos hk]
    obtain ⟨m', hm'⟩ : ∃ m', (mach E dr i).feed t (x, y)
      ⟨tree, created, ld, lw, nd, nw, drift, warn, bg, evals, norm⟩ = m' := ⟨_, rfl⟩
    have build : ∀ newW newD, IsNew E newW → IsNew E newD →
        (nw ≤ m'.nWarn ∧ m'.nWarn ≤ nw + 1) → (nd ≤ m'.nDrift ∧ m'.nDrift ≤ nd + 1) →
        (¬ nd < m'.nDrift → m'.created = created) →
        (∀ c, Life.step (judge E) ⟨(tree, evals), c, bg.map fun b => ((b.tree, b.evals), b.created)⟩
          ⟨t, some (x, y, (dr t i).k), (dr t i).r1, (dr t i).r2, newW, newD, decide (nw < m'.nWarn), decide (nd < m'.nDrift)⟩ =
          ⟨(m'.tree, m'.evals), if nd < m'.nDrift then m'.created else c,
            m'.bg.map fun b => ((b.tree, b.evals), b.created)⟩) →
        (mach E dr i).StepOk (IsNew E) (judge E)
          ⟨tree, created, ld, lw, nd, nw, drift, warn, bg, evals, norm⟩ t (x, y) := by
      intro newW newD a1 a2 a3 a4 a5 a6
      refine ⟨⟨(dr t i).r1, (dr t i).r2, newW, newD, a1, a2, fun c => ?_⟩, fun hn => ?_, fun hn => ?_, ?_, ?_⟩
      · rw [hsmp, hm']; exact a6 c
      · rw [hsmp] at hn; cases hn
      · rw [hm'] at hn ⊢; exact a5 hn
      · rw [hm']; exact a4
      · rw [hm']; exact a3
    have hn3 : IsNew E (E.blank (dr t i).r3, []) := ⟨⟨_, rfl⟩, rfl⟩
    have hn4 : IsNew E (E.blank (dr t i).r4, []) := ⟨⟨_, rfl⟩, rfl⟩
    have build := build _ _ hn3 hn4
    change feed E _ (x, y) t (dr t i) = m' at hm'
    simp only [feed, if_pos hk, fitMem] at hm'
    clear hsmp h1
    generalize normStep E.sqrt norm (rawInput E.crit y (E.predict tree x)) = nv at hm'
    obtain ⟨norm', v⟩ := nv
    cases drift with
    | none =>
      simp only [Option.isSome_none, Bool.false_eq_true, if_false] at hm'
      subst hm'
      apply build
      · simp
      · simp
      · intro _; rfl
      · intro c
        cases bg <;> simp [Life.step, judge]
    | some d =>
      obtain ⟨d', cd, had⟩ : ∃ d' cd, E.add d v = (d', cd) := ⟨_, _, rfl⟩
      cases warn with
      | none =>
        have hb := h3 (by simpa using h2.symm)
        subst hb
        simp only [Option.isSome_some, if_true, warnStep, driftStep, had] at hm'
        cases cd <;> simp only [Bool.false_eq_true, if_false, if_true, resetMem, Option.isSome_none] at hm' <;>
          subst hm' <;> apply build <;> simp [Life.step, judge]
      | some w =>
        obtain ⟨w', cw, haw⟩ : ∃ w' cw, E.add w v = (w', cw) := ⟨_, _, rfl⟩
        simp only [Option.isSome_some, if_true, warnStep, driftStep, haw] at hm'
        cases cw <;> simp only [Bool.false_eq_true, if_false, if_true, had] at hm' <;> cases cd <;>
          simp only [Bool.false_eq_true, if_false, if_true, resetMem, Option.isSome_some] at hm' <;>
          cases bg <;> (try simp only [Option.map_none, Option.map_some] at hm') <;>
          subst hm' <;> apply build <;> simp [Life.step, judge]
  · have hsmp : (mach E dr i).smp t (x, y) = none := by simp only [mach]; rw [if_neg hk]
    have hf : (mach E dr i).feed t (x, y) ⟨tree, created, ld, lw, nd, nw, drift, warn, bg, evals, norm⟩ =
        ⟨tree, created, ld, lw, nd, nw, drift, warn, bg, evals, norm⟩ := by
      simp only [mach, feed, if_neg hk]
    have hn : IsNew E (E.blank (dr t i).r3, []) := ⟨⟨_, rfl⟩, rfl⟩
    refine ⟨⟨(dr t i).r1, (dr t i).r2, _, _, hn, hn, fun c => ?_⟩, fun _ => ?_, fun _ => ?_, ?_, ?_⟩
    · rw [hsmp, hf]
      simp [Life.step, Life.Machine.toLife]
    all_goals rw [hf]
    · exact ⟨rfl, rfl⟩
    · omega
    · omega

/-! ### What the detectors are fed -/

/-- Arithmetic mean. -/
def avg (l : List F) : F := l.sum / l.length

/-- Sum of the squared deviations from the mean. -/
def sqDev (l : List F) : F := (l.map fun x => (x - avg l) * (x - avg l)).sum

/-- The last value of `l ++ [x]`, in standard deviations from the mean of all, moved from
`[-3, 3]` to `[0, 1]`; 0 for the first value. -/
def scaled (sqrt : F → F) (l : List F) (x : F) : F :=
  if l = [] then 0
  else
    let sd := sqrt (sqDev (l ++ [x]) / l.length)
    ((if sd > 0 then (x - avg (l ++ [x])) / sd else 0) + 3) / 6

/-- The normalisation has seen `l`. -/
def NormIs (n : Norm F) (l : List F) : Prop := n.k = l.length ∧ (l ≠ [] → n.mean = avg l ∧ n.s = sqDev l)

theorem sqDev_eq [CharZero F] (l : List F) (h : l ≠ []) :
    sqDev l = (l.map fun x => x * x).sum - l.sum * l.sum / l.length := by
  have hl : (l.length : F) ≠ 0 := by
    have : l.length ≠ 0 := by simpa using h
    exact_mod_cast this
  have key : ∀ (l : List F) (m : F), (l.map fun x => (x - m) * (x - m)).sum =
      (l.map fun x => x * x).sum - 2 * m * l.sum + l.length * (m * m) := by
    intro l m
    induction l with
    | nil => simp
    | cons a l ih =>
      simp only [List.map_cons, List.sum_cons, List.length_cons, ih]
      push_cast
      ring
  unfold sqDev
  rw [key, avg]
  field_simp
  ring

theorem norm_step [CharZero F] (sqrt : F → F) (n : Norm F) (l : List F) (x : F) (h : NormIs n l) :
    NormIs (normStep sqrt n x).1 (l ++ [x]) ∧ (normStep sqrt n x).2 = scaled sqrt l x := by
  obtain ⟨hk, hm⟩ := h
  by_cases hl : l = []
  · subst hl
    have h0 : n.k = 0 := by simpa using hk
    simp [normStep, h0, scaled, NormIs, avg, sqDev]
  · obtain ⟨h1, h2⟩ := hm hl
    have hlen : l.length ≠ 0 := by simpa using hl
    have hlF : (l.length : F) ≠ 0 := by exact_mod_cast hlen
    have hl1 : ((l.length : F) + 1) ≠ 0 := by exact_mod_cast Nat.succ_ne_zero l.length
    have hne : l ++ [x] ≠ [] := by simp
    have hmean : n.mean + (x - n.mean) / ((n.k + 1 : Nat) : F) = avg (l ++ [x]) := by
      rw [h1, hk]
      simp only [avg, List.sum_append, List.sum_singleton, List.length_append, List.length_singleton]
      push_cast
      field_simp
      ring
    have hs : n.s + (x - n.mean) * (x - avg (l ++ [x])) = sqDev (l ++ [x]) := by
      rw [h2, sqDev_eq l hl, sqDev_eq _ hne, h1]
      simp only [avg, List.sum_append, List.sum_singleton, List.length_append, List.length_singleton, List.map_append,
        List.map_singleton]
      push_cast
      field_simp
      ring
    have hk1 : ¬ n.k + 1 = 1 := by omega
    have hden : (((n.k + 1 : Nat) : F) - 1) = l.length := by rw [hk]; push_cast; ring
    unfold normStep
    simp only [if_neg hk1, hmean, hs, hden]
    refine ⟨⟨by simp [hk], fun _ => ⟨rfl, rfl⟩⟩, ?_⟩
    rw [scaled, if_neg hl]

/-- What the criterion says about target `y` and prediction `p`: their squared distance, their
distance, or the prediction. -/
def watched (c : Crit) (y p : F) : F :=
  match c with
  | .mse => (p - y) ^ 2
  | .mae => max (y - p) (p - y)
  | .predictions => p

theorem rawInput_eq (c : Crit) (y p : F) : rawInput c y p = watched c y p := by
  cases c with
  | mse => simp only [rawInput, watched]; ring
  | mae =>
    show max (y - p) (-(y - p)) = max (y - p) (p - y)
    rw [neg_sub]
  | predictions => rfl

/-- What is monitored at an instance: error or prediction of the tree before learning, for
instances with positive weight. -/
def rawOf (E : Env F X T D R) (dr : Nat → Nat → Forest.Draw R) (i : Nat) (t : Nat) (a : X × F) (m : Mem F T D) : List F :=
  if 0 < (dr t i).k ∧ E.newDrift.isSome then [watched E.crit a.2 (E.predict m.tree a.1)] else []

/-- What is handed to the detectors at an instance, from the state of the normalisation. -/
def normOf (E : Env F X T D R) (dr : Nat → Nat → Forest.Draw R) (i : Nat) (t : Nat) (a : X × F) (m : Mem F T D) : List F :=
  (rawOf E dr i t a m).map fun x => (normStep E.sqrt m.norm x).2

/-- A detector fed with a list of values. -/
def fed (E : Env F X T D R) (d : D) (l : List F) : D := l.foldl (fun d v => (E.add d v).1) d

/-- Restarting at drifts. -/
def atDrift (_ : Option Nat) (_ d : Bool) : Bool := d

/-- Restarting at warnings, and at drifts with a background learner. -/
def atWarn (p : Option Nat) (w d : Bool) : Bool := w || (d && p.isSome)

/-- The detectors' `reset` restores their initial state. -/
def ResetOk (E : Env F X T D R) : Prop :=
  (∀ d, E.newDrift = some d → ∀ l, E.resetD (fed E d l) = d) ∧ ∀ d, E.newWarn = some d → ∀ l, E.resetD (fed E d l) = d

set_option maxHeartbeats 1000000 in
theorem step_fed [CharZero F] (E : Env F X T D R) (hr : ResetOk E) (dr : Nat → Nat → Forest.Draw R) (i : Nat)
    (m : Mem F T D) (t : Nat) (a : X × F) (h : Shape E m) :
    let K := mach E dr i
    let m' := K.feed t a m
    let w := decide (m.nWarn < m'.nWarn)
    let d := decide (m.nDrift < m'.nDrift)
    let p := (K.bg m).map fun b => b.2
    (∀ vs, NormIs m.norm vs → NormIs m'.norm (if atDrift p w d then [] else vs ++ rawOf E dr i t a m)) ∧
    (∀ vs, m.drift = E.newDrift.map (fun d => fed E d vs) →
      m'.drift = E.newDrift.map fun d' => fed E d' (if atDrift p w d then [] else vs ++ normOf E dr i t a m)) ∧
    (∀ vs, m.warn = E.newWarn.map (fun d => fed E d vs) →
      m'.warn = E.newWarn.map fun d' => fed E d' (if atWarn p w d then [] else vs ++ normOf E dr i t a m)) := by
  obtain ⟨tree, created, ld, lw, nd, nw, drift, warn, bg, evals, norm⟩ := m
  obtain ⟨x, y⟩ := a
  obtain ⟨h1, h2, h3, h4⟩ := h
  obtain ⟨hr1, hr2⟩ := hr
  simp only at h1 h2 h3 h4
  intro K m' w d p
  have hp : p = bg.map fun b => b.created := by
    show ((bg.map _).map _ : Option Nat) = _
    rw [Option.map_map]; rfl
  have fed_snoc : ∀ d l v, fed E d (l ++ [v]) = (E.add (fed E d l) v).1 := fun d l v => by simp [fed]
  by_cases hk : (dr t i).k > 0
  · have hm' : m' = feed E ⟨tree, created, ld, lw, nd, nw, drift, warn, bg, evals, norm⟩ (x, y) t (dr t i) := rfl
    simp only [feed, if_pos hk, fitMem] at hm'
    have hk0 : 0 < (dr t i).k := hk
    simp only [rawOf, normOf, hk0, true_and, w, d]
    clear_value m' p
    clear w d K
    subst hp
    have hraw := norm_step E.sqrt norm
    rw [rawInput_eq] at hm'
    set raw := watched E.crit y (E.predict tree x) with hrawdef
    obtain ⟨norm', v, hnv⟩ : ∃ norm' v, normStep E.sqrt norm raw = (norm', v) := ⟨_, _, rfl⟩
    have hraw : ∀ l, NormIs norm l → NormIs norm' (l ++ [raw]) := fun l hl => by
      have := (hraw l raw hl).1
      rwa [hnv] at this
    rw [hnv] at hm'
    clear_value raw
    cases drift with
    | none =>
      have hnd : E.newDrift = none := by simpa using h1.symm
      simp only [Option.isSome_none, Bool.false_eq_true, if_false] at hm'
      subst hm'
      simp [hnd, atDrift, atWarn]
    | some d =>
      obtain ⟨d0, hd0⟩ : ∃ d0, E.newDrift = some d0 := Option.isSome_iff_exists.1 (by rw [← h1]; rfl)
      obtain ⟨d', cd, had⟩ : ∃ d' cd, E.add d v = (d', cd) := ⟨_, _, rfl⟩
      have hr1 := hr1 d0 hd0
      simp only [hd0, Option.isSome_some, if_true, List.map_cons, List.map_nil, hnv, Option.map_some, Option.some.injEq]
      have hd' : ∀ vs, d = fed E d0 vs → d' = fed E d0 (vs ++ [v]) := fun vs hvs => by
        rw [fed_snoc, ← hvs, had]
      cases warn with
      | none =>
        have hnw : E.newWarn = none := by simpa using h2.symm
        have hb := h3 hnw
        subst hb
        simp only [Option.isSome_some, if_true, warnStep, driftStep, had] at hm'
        cases cd <;> simp only [Bool.false_eq_true, if_false, if_true, resetMem, Option.isSome_none] at hm' <;>
          subst hm'
        · simp only [hnw, atDrift, atWarn, lt_irrefl, decide_false, Bool.false_eq_true, if_false, Option.map_none]
          exact ⟨hraw, fun vs hvs => by rw [hd' vs hvs], fun _ _ => trivial⟩
        · simp only [hnw, atDrift, lt_add_iff_pos_right, Nat.lt_one_iff, decide_true, if_true, Option.map_none,
            Option.map_some, Option.some.injEq]
          refine ⟨fun _ _ => ⟨rfl, fun h => absurd rfl h⟩, fun vs hvs => ?_, fun _ _ => trivial⟩
          rw [hd' vs hvs, hr1]
          rfl
      | some w =>
        obtain ⟨w0, hw0⟩ : ∃ w0, E.newWarn = some w0 := Option.isSome_iff_exists.1 (by rw [← h2]; rfl)
        obtain ⟨w', cw, haw⟩ : ∃ w' cw, E.add w v = (w', cw) := ⟨_, _, rfl⟩
        have hr2 := hr2 w0 hw0
        have hw' : ∀ vs, w = fed E w0 vs → w' = fed E w0 (vs ++ [v]) := fun vs hvs => by
          rw [fed_snoc, ← hvs, haw]
        simp only [hw0, Option.map_some, Option.some.injEq]
        simp only [Option.isSome_some, if_true, warnStep, driftStep, haw] at hm'
        have nil : ∀ n : Norm F, NormIs { n with k := 0 } ([] : List F) := fun n => ⟨rfl, fun h => absurd rfl h⟩
        have fd : fed E d0 [] = d0 := rfl
        have fw : fed E w0 [] = w0 := rfl
        cases cw <;> simp only [Bool.false_eq_true, if_false, if_true, had] at hm' <;> cases cd <;>
          simp only [Bool.false_eq_true, if_false, if_true, resetMem, Option.isSome_some] at hm'
        · subst hm'
          simp only [atDrift, atWarn, lt_irrefl, decide_false, Bool.false_eq_true, if_false, Bool.false_and,
            Bool.or_false, Option.some.injEq]
          exact ⟨hraw, hd', hw'⟩
        · cases bg with
          | none =>
            simp only [Option.map_none] at hm'
            subst hm'
            simp only [atDrift, atWarn, lt_irrefl, Nat.lt_add_one, decide_true, decide_false, Bool.false_eq_true, if_false,
              if_true, Option.map_none, Option.isSome_none, Bool.and_false, Bool.or_false, Option.some.injEq,
              Option.map_some]
            exact ⟨fun _ _ => nil _, fun vs hvs => by rw [hd' vs hvs, hr1, fd], hw'⟩
          | some b =>
            obtain ⟨e1, e2⟩ := h4 b rfl
            simp only [Option.map_some] at hm'
            subst hm'
            simp only [atDrift, atWarn, lt_irrefl, Nat.lt_add_one, decide_true, decide_false, if_true,
              Option.map_some, Option.isSome_some, Bool.and_true, Bool.or_true, e1, e2, hd0, hw0, fd, fw]
            exact ⟨fun _ _ => nil _, fun _ _ => trivial, fun _ _ => trivial⟩
        · subst hm'
          simp only [atDrift, atWarn, lt_irrefl, Nat.lt_add_one, decide_true, decide_false, Bool.false_eq_true, if_false,
            if_true, Bool.true_or, Option.some.injEq]
          exact ⟨hraw, hd', fun vs hvs => by rw [hw' vs hvs, hr2, fw]⟩
        · subst hm'
          simp only [atDrift, atWarn, Nat.lt_add_one, decide_true, if_true, Bool.true_or, hd0, hw0, fd, fw]
          exact ⟨fun _ _ => nil _, fun _ _ => trivial, fun _ _ => trivial⟩
  · have hf : m' = ⟨tree, created, ld, lw, nd, nw, drift, warn, bg, evals, norm⟩ := by
      show feed E _ _ _ _ = _
      simp only [feed, if_neg hk]
    have hk' : ¬ 0 < (dr t i).k := hk
    simp only [w, d, hf, lt_irrefl, decide_false, atDrift, atWarn, rawOf, normOf, hk', false_and, if_false,
      List.map_nil, List.append_nil, Bool.false_and, Bool.or_false, Bool.false_eq_true]
    exact ⟨fun _ h => h, fun _ h => h, fun _ h => h⟩

/-! ### One member -/

theorem shape_new (E : Env F X T D R) (tree : T) (t : Nat) : Shape E (newMem E tree t) :=
  ⟨rfl, rfl, fun _ => rfl, (fun b hb => nomatch hb)⟩

theorem shape_life (E : Env F X T D R) (dr : Nat → Nat → Forest.Draw R) (i : Nat) (m0 : Mem F T D) (h0 : Shape E m0)
    (l : List (X × F)) : Shape E ((mach E dr i).life m0 l) := by
  induction l using List.reverseRecOn with
  | nil => exact h0
  | append_singleton l a ih =>
    rw [Life.Machine.life_append]
    exact shape_feed E _ a _ _ ih

theorem known_life (E : Env F X T D R) (dr : Nat → Nat → Forest.Draw R) (i : Nat) (r : R) (t : Nat) (l : List (X × F)) :
    (mach E dr i).Known (IsNew E) (judge E) (newMem E (E.blank r) t) l := by
  apply Life.Machine.known
  · exact ⟨⟨r, rfl⟩, rfl⟩
  · rfl
  · intro l1 a l2 _
    exact step_ok E dr i _ _ a (shape_life E dr i _ (shape_new E _ t) l1)

theorem fed_life [CharZero F] (E : Env F X T D R) (hr : ResetOk E) (dr : Nat → Nat → Forest.Draw R) (i : Nat) (r : R)
    (t : Nat) (l : List (X × F)) :
    let K := mach E dr i
    let m0 := newMem E (E.blank r) t
    let log := K.answers m0 l
    NormIs (K.life m0 l).norm (K.history (rawOf E dr i) m0 l (Life.lastRestart atDrift log)) ∧
    (K.life m0 l).drift =
      E.newDrift.map (fun d => fed E d (K.history (normOf E dr i) m0 l (Life.lastRestart atDrift log))) ∧
    (K.life m0 l).warn =
      E.newWarn.map (fun d => fed E d (K.history (normOf E dr i) m0 l (Life.lastRestart atWarn log))) := by
  intro K m0 log
  have hbg : ∀ l1 l2, l = l1 ++ l2 → (((mach E dr i).bg ((mach E dr i).life m0 l1)).map fun b => b.2) =
      Life.pending ((mach E dr i).answers m0 l1) := fun l1 _ _ => (known_life E dr i r t l1).bgTime
  have hst := fun l1 a => step_fed E hr dr i ((mach E dr i).life m0 l1) (l1.length + 1) a
    (shape_life E dr i _ (shape_new E _ t) l1)
  have hid : ∀ o : Option D, o = o.map fun d => fed E d [] := by
    intro o; cases o <;> rfl
  refine ⟨?_, ?_, ?_⟩
  · refine K.collected atDrift (rawOf E dr i) (fun m vs => NormIs m.norm vs) m0 ⟨rfl, fun h => absurd rfl h⟩ l hbg ?_
    intro l1 a l2 _ vs hvs
    exact (hst l1 a).1 vs hvs
  · refine K.collected atDrift (normOf E dr i) (fun m vs => m.drift = E.newDrift.map fun d => fed E d vs) m0 (hid _) l
      hbg ?_
    intro l1 a l2 _ vs hvs
    exact (hst l1 a).2.1 vs hvs
  · refine K.collected atWarn (normOf E dr i) (fun m vs => m.warn = E.newWarn.map fun d => fed E d vs) m0 (hid _) l
      hbg ?_
    intro l1 a l2 _ vs hvs
    exact (hst l1 a).2.2 vs hvs

/-! ### The ensemble -/

/-- The instances of a sequence of calls. -/
def seen (calls : List (Call F X)) : List (X × F) :=
  calls.flatMap fun q => match q with
    | .ask => []
    | .fit rows => rows

/-- The ensemble after the instances `l`: `N` members living side by side. -/
structure Rel (E : Env F X T D R) (N : Nat) (r0 : Nat → R) (dr : Nat → Nat → Forest.Draw R) (l : List (X × F))
    (s : St F T D) : Prop where
  n : s.n = l.length
  none : s.ensemble = none → l = []
  some : ∀ ms, s.ensemble = some ms → ms = (List.range N).map fun i =>
    (mach E dr i).life (newMem E (E.blank (r0 i)) 0) l

theorem map_range_zipIdx {α β : Type} (f : Nat → α) (g : α × Nat → β) (N : Nat) :
    (((List.range N).map f).zipIdx).map g = (List.range N).map fun i => g (f i, i) := by
  apply List.ext_getElem
  · simp
  · intro j h1 h2
    simp

theorem rel_ensure (E : Env F X T D R) (N : Nat) (r0 : Nat → R) (dr : Nat → Nat → Forest.Draw R) (l : List (X × F))
    (s : St F T D) (h : Rel E N r0 dr l s) : Rel E N r0 dr l (ensure E N r0 s) ∧ (ensure E N r0 s).ensemble ≠ none := by
  cases hs : s.ensemble with
  | some ms =>
    have : ensure E N r0 s = s := by simp only [ensure, hs]
    rw [this, hs]
    exact ⟨h, by simp⟩
  | none =>
    have hl := h.none hs
    subst hl
    simp only [ensure, hs]
    refine ⟨⟨h.n, by simp, ?_⟩, by simp⟩
    intro ms hms
    rw [Option.some.injEq] at hms
    rw [← hms, h.n]
    rfl

theorem rel_fitOne (E : Env F X T D R) (N : Nat) (r0 : Nat → R) (dr : Nat → Nat → Forest.Draw R) (l : List (X × F))
    (s : St F T D) (e : X × F) (h : Rel E N r0 dr l s) (hs : s.ensemble ≠ none) :
    Rel E N r0 dr (l ++ [e]) (fitOne E dr s e) ∧ (fitOne E dr s e).ensemble ≠ none := by
  obtain ⟨h1, h2, h3⟩ := h
  obtain ⟨ms0, hs⟩ := Option.ne_none_iff_exists'.1 hs
  have hms0 := h3 ms0 hs
  refine ⟨⟨by simp [fitOne, h1], by simp [fitOne, hs], ?_⟩, by simp [fitOne, hs]⟩
  intro ms hms
  simp only [fitOne, hs, Option.map_some, Option.some.injEq] at hms
  rw [← hms, hms0, map_range_zipIdx]
  apply List.map_congr_left
  intro i _
  rw [Life.Machine.life_append, h1]
  rfl

theorem rel_call (E : Env F X T D R) (N : Nat) (r0 : Nat → R) (dr : Nat → Nat → Forest.Draw R) (q : Call F X)
    (l : List (X × F)) (s : St F T D) (h : Rel E N r0 dr l s) :
    Rel E N r0 dr (l ++ seen [q]) (call E N r0 dr s q) := by
  obtain ⟨h1, h2⟩ := rel_ensure E N r0 dr l s h
  cases q with
  | ask =>
    have : seen [(.ask : Call F X)] = [] := rfl
    rw [this, List.append_nil]
    exact h1
  | fit rows =>
    have : seen [(.fit rows : Call F X)] = rows := by simp [seen]
    rw [this, call]
    clear this h
    generalize ensure E N r0 s = s at h1 h2
    induction rows generalizing l s with
    | nil => simpa using h1
    | cons e rows ih =>
      obtain ⟨a1, a2⟩ := rel_fitOne E N r0 dr l s e h1 h2
      have := ih (l ++ [e]) _ a1 a2
      simpa using this

theorem rel_run (E : Env F X T D R) (N : Nat) (r0 : Nat → R) (dr : Nat → Nat → Forest.Draw R) (calls : List (Call F X))
    (l : List (X × F)) (s : St F T D) (h : Rel E N r0 dr l s) :
    Rel E N r0 dr (l ++ seen calls) (run E N r0 dr calls s) := by
  induction calls generalizing l s with
  | nil => simpa [seen, run] using h
  | cons q calls ih =>
    have := ih _ _ (rel_call E N r0 dr q l s h)
    have e : seen (q :: calls) = seen [q] ++ seen calls := by simp [seen]
    rw [e, ← List.append_assoc]
    exact this

theorem members_life (E : Env F X T D R) (N : Nat) (r0 : Nat → R) (dr : Nat → Nat → Forest.Draw R)
    (calls : List (Call F X)) (ms : List (Mem F T D)) (hs : (run E N r0 dr calls init).ensemble = some ms) :
    ms.length = N ∧ ∀ i m, ms[i]? = some m → m = (mach E dr i).life (newMem E (E.blank (r0 i)) 0) (seen calls) := by
  have := rel_run E N r0 dr calls [] init ⟨rfl, fun _ => rfl, fun _ h => by cases h⟩
  rw [List.nil_append] at this
  have hms := this.some ms hs
  refine ⟨by rw [hms]; simp, ?_⟩
  intro i m hm
  rw [hms, List.getElem?_map, Option.map_eq_some_iff] at hm
  obtain ⟨j, hj, e⟩ := hm
  have hij : j = i := by
    rw [List.getElem?_eq_some_iff] at hj
    obtain ⟨h1, h2⟩ := hj
    simpa using h2.symm
  subst hij
  exact e.symm

/-- C142: after any sequence of calls there are `N` members. The tree of a member is an
untrained one that has learned exactly the instances after its creation (`created_on`) with
positive weight, and its evaluator holds the tree's predictions for these instances, each
made before learning the instance. It was created at the start, at the last drift, or at
the latest warning between the drift before and that drift. The same holds for the
background tree and its evaluator; it exists iff there was a warning since the last drift.
The counters report the detectors' answers. -/
theorem C142_trained_and_judged (E : Env F X T D R) (N : Nat) (r0 : Nat → R) (dr : Nat → Nat → Forest.Draw R)
    (calls : List (Call F X)) (ms : List (Mem F T D)) (hs : (run E N r0 dr calls init).ensemble = some ms) :
    ms.length = N ∧ ∀ i m, ms[i]? = some m →
      let K := mach E dr i
      let log := K.answers (newMem E (E.blank (r0 i)) 0) (seen calls)
      m.created = Life.birth log ∧
      Life.Built (IsNew E) (judge E) (K.samplesAfter (seen calls) m.created) (m.tree, m.evals) ∧
      (m.bg.map fun b => b.created) = Life.pending log ∧
      (∀ b, m.bg = some b → Life.Built (IsNew E) (judge E) (K.samplesAfter (seen calls) b.created) (b.tree, b.evals)) ∧
      m.nDrift = (log.filter fun e => e.2.2).length ∧ m.nWarn = (log.filter fun e => e.2.1).length := by
  obtain ⟨h1, h3⟩ := members_life E N r0 dr calls ms hs
  refine ⟨h1, ?_⟩
  intro i m hm K log
  have hk := known_life E dr i (r0 i) 0 (seen calls)
  have hm' := h3 i m hm
  obtain ⟨k1, k2, k3, k4, k5, k6⟩ := hk
  rw [← hm'] at k1 k2 k3 k4 k5 k6
  have hd : m.nDrift = (log.filter fun e => e.2.2).length := by
    have : K.nDrift (newMem E (E.blank (r0 i)) 0) = 0 := rfl
    rw [this, Nat.zero_add] at k4
    exact k4
  have hw : m.nWarn = (log.filter fun e => e.2.1).length := by
    have : K.nWarn (newMem E (E.blank (r0 i)) 0) = 0 := rfl
    rw [this, Nat.zero_add] at k5
    exact k5
  have hc : m.created = Life.birth log := by
    have : m.created = _ := k6
    rw [this]
    split
    · rename_i h0
      have hb : Life.birth log = 0 := by
        have h0 : (log.filter fun e => e.2.2).length = 0 := h0
        rw [List.length_eq_zero_iff, List.filter_eq_nil_iff] at h0
        have : (log.dropWhile fun e => !e.2.2) = [] := by
          clear_value log
          clear * - h0
          induction log with
          | nil => rfl
          | cons a log ih =>
            have ha := h0 a (by simp)
            rw [List.dropWhile_cons_of_pos (by simpa using ha)]
            exact ih fun e he => h0 e (by simp [he])
        simp [Life.birth, this]
      rw [hb]; rfl
    · rfl
  refine ⟨hc, ?_, ?_, fun b hb => ?_, hd, hw⟩
  · rw [hc]; exact k1
  · rw [← k2]
    show _ = (m.bg.map _).map _
    rw [Option.map_map]
    rfl
  · exact k3 (b.tree, b.evals) b.created (by show m.bg.map _ = _; rw [hb]; rfl)

/-- C142: `reset` starts anew. -/
theorem C142_reset (E : Env F X T D R) (N : Nat) (r0 : Nat → R) (dr : Nat → Nat → Forest.Draw R)
    (calls calls' : List (Call F X)) :
    run E N r0 dr calls' (reset (run E N r0 dr calls init)) = run E N r0 dr calls' (init : St F T D) := rfl

/-- Time of the latest warning or drift in a log, 0 without any. -/
def latest (log : List (Nat × Bool × Bool)) (f : Bool × Bool → Bool) : Nat :=
  ((log.filter fun e => f e.2).head?.map Prod.fst).getD 0

theorem feed_times (E : Env F X T D R) (m : Mem F T D) (a : X × F) (t : Nat) (q : Forest.Draw R) :
    (feed E m a t q).lastDrift = (if m.nDrift < (feed E m a t q).nDrift then t else m.lastDrift) ∧
    (feed E m a t q).lastWarn = (if m.nWarn < (feed E m a t q).nWarn then t else m.lastWarn) := by
  obtain ⟨tree, created, ld, lw, nd, nw, drift, warn, bg, evals, norm⟩ := m
  unfold feed
  by_cases hk : q.k > 0
  · simp only [if_pos hk, fitMem]
    generalize normStep E.sqrt norm (rawInput E.crit a.2 (E.predict tree a.1)) = nv
    obtain ⟨norm', v⟩ := nv
    cases drift with
    | none => simp
    | some d =>
      obtain ⟨d', cd, had⟩ : ∃ d' cd, E.add d v = (d', cd) := ⟨_, _, rfl⟩
      cases warn with
      | none =>
        simp only [Option.isSome_some, if_true, warnStep, driftStep, had]
        cases cd <;> simp [resetMem]
      | some w =>
        obtain ⟨w', cw, haw⟩ : ∃ w' cw, E.add w v = (w', cw) := ⟨_, _, rfl⟩
        simp only [Option.isSome_some, if_true, warnStep, driftStep, haw]
        cases cw <;> simp only [Bool.false_eq_true, if_false, if_true, had] <;> cases cd <;>
          simp only [Bool.false_eq_true, if_false, if_true, resetMem, Option.isSome_some] <;> cases bg <;> simp
  · simp [if_neg hk]

/-- C142: `last_drift_on` and `last_warning_on` are the times of the last drift and warning (0 if there
was none). -/
theorem C142_last_times (E : Env F X T D R) (N : Nat) (r0 : Nat → R) (dr : Nat → Nat → Forest.Draw R)
    (calls : List (Call F X)) (ms : List (Mem F T D)) (hs : (run E N r0 dr calls init).ensemble = some ms)
    (i : Nat) (m : Mem F T D) (hm : ms[i]? = some m) :
    let log := (mach E dr i).answers (newMem E (E.blank (r0 i)) 0) (seen calls)
    m.lastDrift = latest log (fun e => e.2) ∧ m.lastWarn = latest log (fun e => e.1) := by
  have key : ∀ l : List (X × F),
      ((mach E dr i).life (newMem E (E.blank (r0 i)) 0) l).lastDrift =
        latest ((mach E dr i).answers (newMem E (E.blank (r0 i)) 0) l) (fun e => e.2) ∧
      ((mach E dr i).life (newMem E (E.blank (r0 i)) 0) l).lastWarn =
        latest ((mach E dr i).answers (newMem E (E.blank (r0 i)) 0) l) (fun e => e.1) := by
    intro l
    induction l using List.reverseRecOn with
    | nil => exact ⟨rfl, rfl⟩
    | append_singleton l a ih =>
      rw [Life.Machine.answers_append, Life.Machine.life_append]
      generalize (mach E dr i).answers (newMem E (E.blank (r0 i)) 0) l = log at ih
      generalize (mach E dr i).life (newMem E (E.blank (r0 i)) 0) l = m at ih
      obtain ⟨h1, h2⟩ := feed_times E m a (l.length + 1) (dr (l.length + 1) i)
      have hf : (mach E dr i).feed (l.length + 1) a m = feed E m a (l.length + 1) (dr (l.length + 1) i) := rfl
      rw [hf, h1, h2, ih.1, ih.2]
      simp only [latest, mach]
      constructor
      · by_cases hd : m.nDrift < (feed E m a (l.length + 1) (dr (l.length + 1) i)).nDrift <;> simp [hd]
      · by_cases hd : m.nWarn < (feed E m a (l.length + 1) (dr (l.length + 1) i)).nWarn <;> simp [hd]
  rw [(members_life E N r0 dr calls ms hs).2 i m hm]
  exact key (seen calls)

/-- C143, partial: the drift detector of a member has been fed, since the last drift, and the
warning detector since the last warning or drift with a background learner, with the
monitored values of the instances of positive weight (error or prediction before learning),
each expressed in standard deviations from the mean of all values since the last drift. -/
theorem C143_detectors_partial [CharZero F] (E : Env F X T D R) (hr : ResetOk E) (N : Nat) (r0 : Nat → R)
    (dr : Nat → Nat → Forest.Draw R) (calls : List (Call F X)) (ms : List (Mem F T D))
    (hs : (run E N r0 dr calls init).ensemble = some ms) (i : Nat) (m : Mem F T D) (hm : ms[i]? = some m) :
    let K := mach E dr i
    let m0 := newMem E (E.blank (r0 i)) 0
    let log := fun l => K.answers m0 l
    ∃ val : Nat → X × F → Mem F T D → List F,
      (∀ l a l', seen calls = l ++ a :: l' → val (l.length + 1) a (K.life m0 l) =
        (rawOf E dr i (l.length + 1) a (K.life m0 l)).map
          (scaled E.sqrt (K.history (rawOf E dr i) m0 l (Life.lastRestart atDrift (log l))))) ∧
      m.drift = E.newDrift.map (fun d =>
        fed E d (K.history val m0 (seen calls) (Life.lastRestart atDrift (log (seen calls))))) ∧
      m.warn = E.newWarn.map (fun d =>
        fed E d (K.history val m0 (seen calls) (Life.lastRestart atWarn (log (seen calls))))) := by
  intro K m0 log
  obtain ⟨h1, h3⟩ := members_life E N r0 dr calls ms hs
  have hf := fed_life E hr dr i (r0 i) 0 (seen calls)
  simp only [← h3 i m hm] at hf
  refine ⟨normOf E dr i, ?_, hf.2.1, hf.2.2⟩
  intro l a l' _
  unfold normOf
  apply List.map_congr_left
  intro v _
  exact (norm_step E.sqrt _ _ v (fed_life E hr dr i (r0 i) 0 l).1).2

end Verif.Meta.ForestReg
