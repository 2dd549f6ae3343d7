import Verif.Common
import Mathlib.Data.List.Induction
import Mathlib.Data.List.Basic

/-!
Life cycle of an ensemble member with a background learner, shared by
`AdaptiveRandomForestClassifier`, `AdaptiveRandomForestRegressor` and
`StreamingRandomPatchesClassifier`: what a member's model was trained on, for all
outcomes of the drift and warning detectors.
-/

namespace Verif.Meta.Life

variable {T S R : Type}

/-- `t` results from an untrained model by learning exactly the samples of the list, in
this order, with whatever random draws (`R`). -/
inductive Built (isNew : T → Prop) (train : R → S → T → T) : List S → T → Prop
  | new {t : T} : isNew t → Built isNew train [] t
  | learn {l : List S} {t : T} (r : R) (s : S) : Built isNew train l t → Built isNew train (l ++ [s]) (train r s t)

/-- What happens to a member at time `t`: the sample it is trained on (if any), random
draws, untrained models for a new background learner and for a reset, and the answers of
the warning and the drift detector. -/
structure Ev (T S R : Type) where
  t : Nat
  s : Option S
  r1 : R
  r2 : R
  newW : T
  newD : T
  w : Bool
  d : Bool

/-- Model, time of creation, background model with its time of creation. -/
structure Mem (T : Type) where
  tree : T
  created : Nat
  bg : Option (T × Nat)

/-- One sample (the common part of `ARFBaseLearner.partial_fit`,
`ARFRegBaseLearner.partial_fit` and `StreamingRandomPatchesBaseLearner.partial_fit`). -/
def step (train : R → S → T → T) (m : Mem T) (e : Ev T S R) : Mem T :=
  match e.s with
  | none => m
  | some s =>
    let tree := train e.r1 s m.tree
    let bg := m.bg.map fun b => (train e.r2 s b.1, b.2)
    let bg := if e.w then some (e.newW, e.t) else bg
    if e.d then
      match bg with
      | some b => ⟨b.1, b.2, none⟩
      | none => ⟨e.newD, e.t, none⟩
    else ⟨tree, m.created, bg⟩

/-- Detector answers, newest first. -/
def log (es : List (Ev T S R)) : List (Nat × Bool × Bool) := es.reverse.map fun e => (e.t, e.w, e.d)

/-- Latest warning since the last drift (`log` newest first: time, warning, drift). -/
def pending (log : List (Nat × Bool × Bool)) : Option Nat :=
  ((log.takeWhile fun e => !e.2.2).find? fun e => e.2.1).map fun e => e.1

/-- When the model in use was created: at the last drift, or at the latest warning
between the drift before and that drift; 0 without any drift. -/
def birth (log : List (Nat × Bool × Bool)) : Nat :=
  match log.dropWhile fun e => !e.2.2 with
  | [] => 0
  | (t, w, _) :: before => if w then t else (pending before).getD t

/-- Samples learned after time `c`. -/
def since (c : Nat) (es : List (Ev T S R)) : List S := (es.filter fun e => c < e.t).filterMap fun e => e.s

theorem pending_mem (l : List (Nat × Bool × Bool)) (c : Nat) (h : pending l = some c) : ∃ e ∈ l, e.1 = c := by
  unfold pending at h
  rw [Option.map_eq_some_iff] at h
  obtain ⟨e, he, rfl⟩ := h
  exact ⟨e, (List.takeWhile_sublist _).subset (List.mem_of_find?_eq_some he), rfl⟩

theorem birth_le (l : List (Nat × Bool × Bool)) : birth l = 0 ∨ ∃ e ∈ l, e.1 = birth l := by
  unfold birth
  have hs : (l.dropWhile fun e => !e.2.2).Sublist l := List.dropWhile_sublist _
  split
  · exact .inl rfl
  · rename_i t w d before he
    right
    rw [he] at hs
    by_cases hw : w = true
    · exact ⟨(t, w, d), hs.subset (by simp), by simp [hw]⟩
    · rw [if_neg hw]
      cases hp : pending before with
      | none => exact ⟨(t, w, d), hs.subset (by simp), by simp⟩
      | some c =>
        obtain ⟨e, h1, h2⟩ := pending_mem before c hp
        exact ⟨e, hs.subset (by simp [h1]), by simp [h2]⟩

theorem log_append (es : List (Ev T S R)) (e : Ev T S R) : log (es ++ [e]) = (e.t, e.w, e.d) :: log es := by
  simp [log]

theorem since_append (c : Nat) (es : List (Ev T S R)) (e : Ev T S R) (h : c < e.t) :
    since c (es ++ [e]) = since c es ++ e.s.toList := by
  unfold since
  rw [List.filter_append, List.filterMap_append]
  congr 1
  rw [List.filter_cons_of_pos (by simpa using h), List.filter_nil]
  cases hs : e.s <;> simp [hs]

theorem since_nil (c : Nat) (es : List (Ev T S R)) (h : ∀ e ∈ es, e.t ≤ c) : since c es = [] := by
  unfold since
  rw [List.filter_eq_nil_iff.2]
  · rfl
  · intro e he; simpa using h e he

/-- State of a member that lived through `es`. -/
structure Inv (isNew : T → Prop) (train : R → S → T → T) (es : List (Ev T S R)) (m : Mem T) : Prop where
  created : m.created = birth (log es)
  tree : Built isNew train (since m.created es) m.tree
  bgTime : (m.bg.map fun b => b.2) = pending (log es)
  bgTree : ∀ b c, m.bg = some (b, c) → Built isNew train (since c es) b

theorem inv_step (isNew : T → Prop) (train : R → S → T → T) (es : List (Ev T S R)) (e : Ev T S R) (m : Mem T)
    (ht : ∀ e' ∈ es, e'.t < e.t) (h0 : 0 < e.t) (hn : isNew e.newW ∧ isNew e.newD)
    (hs : e.s = none → e.w = false ∧ e.d = false) (h : Inv isNew train es m) :
    Inv isNew train (es ++ [e]) (step train m e) := by
  obtain ⟨h1, h2, h3, h4⟩ := h
  have hlt : ∀ q ∈ log es, q.1 < e.t := by
    intro q hq
    rw [log, List.mem_map] at hq
    obtain ⟨e', he', rfl⟩ := hq
    exact ht e' (by simpa using he')
  have hc : m.created < e.t := by
    rcases birth_le (log es) with hb | ⟨q, hq, hb⟩
    · omega
    · rw [h1, ← hb]; exact hlt q hq
  have hb : ∀ b c, m.bg = some (b, c) → c < e.t := by
    intro b c hbc
    rw [hbc] at h3
    obtain ⟨q, hq, hqc⟩ := pending_mem _ c h3.symm
    rw [← hqc]; exact hlt q hq
  have hnow : since e.t (es ++ [e]) = [] := since_nil _ _ (by
    intro e' he'
    rcases List.mem_append.1 he' with he' | he'
    · exact (ht e' he').le
    · rw [List.mem_singleton] at he'; rw [he'])
  cases hes : e.s with
  | none =>
    obtain ⟨hw, hd⟩ := hs hes
    have hl : log (es ++ [e]) = (e.t, false, false) :: log es := by rw [log_append, hw, hd]
    have hp : pending ((e.t, false, false) :: log es) = pending (log es) := by simp [pending]
    have hbi : birth ((e.t, false, false) :: log es) = birth (log es) := by simp [birth]
    simp only [step, hes]
    refine ⟨by rw [hl, hbi, h1], ?_, by rw [hl, hp, h3], fun b c hbc => ?_⟩
    · rw [since_append _ _ _ hc, hes]; simpa using h2
    · rw [since_append _ _ _ (hb b c hbc), hes]; simpa using h4 b c hbc
  | some s =>
    have hmain : Built isNew train (since m.created (es ++ [e])) (train e.r1 s m.tree) := by
      rw [since_append _ _ _ hc, hes]
      exact .learn _ _ h2
    have hbg : ∀ b c, m.bg = some (b, c) → Built isNew train (since c (es ++ [e])) (train e.r2 s b) := by
      intro b c hbc
      rw [since_append _ _ _ (hb b c hbc), hes]
      exact .learn _ _ (h4 b c hbc)
    simp only [step, hes]
    by_cases hd : e.d = true
    · rw [if_pos hd]
      by_cases hw : e.w = true
      · simp only [if_pos hw]
        refine ⟨?_, ?_, ?_, fun b c hbc => by cases hbc⟩
        · simp [log_append, birth, hd, hw]
        · simp only [hnow]; exact .new hn.1
        · simp [log_append, pending, hd]
      · simp only [if_neg hw]
        have hw' : e.w = false := by simpa using hw
        cases hbg' : m.bg with
        | none =>
          simp only [Option.map_none]
          have hp : pending (log es) = none := by rw [← h3, hbg']; rfl
          refine ⟨?_, ?_, ?_, fun b c hbc => by cases hbc⟩
          · simp [log_append, birth, hd, hw', hp]
          · simp only [hnow]; exact .new hn.2
          · simp [log_append, pending, hd]
        | some bc =>
          obtain ⟨b, c⟩ := bc
          simp only [Option.map_some]
          have hp : pending (log es) = some c := by rw [← h3, hbg']; rfl
          refine ⟨?_, hbg b c hbg', ?_, fun b c hbc => by cases hbc⟩
          · simp [log_append, birth, hd, hw', hp]
          · simp [log_append, pending, hd]
    · rw [if_neg hd]
      have hd' : e.d = false := by simpa using hd
      have hbi : birth (log (es ++ [e])) = birth (log es) := by simp [log_append, birth, hd']
      by_cases hw : e.w = true
      · simp only [if_pos hw]
        refine ⟨by rw [hbi]; exact h1, hmain, ?_, ?_⟩
        · simp [log_append, pending, hd', hw]
        · intro b c hbc
          simp only [Option.some.injEq, Prod.mk.injEq] at hbc
          obtain ⟨rfl, rfl⟩ := hbc
          rw [hnow]; exact .new hn.1
      · simp only [if_neg hw]
        have hw' : e.w = false := by simpa using hw
        refine ⟨by rw [hbi]; exact h1, hmain, ?_, ?_⟩
        · have : pending (log (es ++ [e])) = pending (log es) := by simp [log_append, pending, hd', hw']
          rw [this, ← h3]
          cases m.bg <;> rfl
        · intro b c hbc
          cases hbg' : m.bg with
          | none => rw [hbg'] at hbc; cases hbc
          | some bc =>
            rw [hbg'] at hbc
            simp only [Option.map_some, Option.some.injEq, Prod.mk.injEq] at hbc
            obtain ⟨rfl, rfl⟩ := hbc
            exact hbg bc.1 bc.2 hbg'

theorem inv_new (isNew : T → Prop) (train : R → S → T → T) (t : T) (h : isNew t) :
    Inv isNew train [] ⟨t, 0, none⟩ :=
  ⟨rfl, .new h, rfl, fun _ _ h => by cases h⟩

end Verif.Meta.Life
