import Verif.Meta.Smote
import Verif.Meta.BoostRun
import Verif.Meta.ForestProps
import Verif.Meta.PatchesProps

/-!
C283: what `reset()` of the ensembles does not forget.

Modelled: `reset` (which is `__configure`) of `OnlineAdaC2Classifier`, `OnlineCSB2Classifier`,
`OnlineRUSBoostClassifier`, `OnlineUnderOverBaggingClassifier`, `OnlineSMOTEBaggingClassifier` and
`OnlineBoostingClassifier` (one more `Scheme`, `BoostRun.lean`), of
`AdaptiveRandomForestClassifier`, and of `StreamingRandomPatchesClassifier` as far as the training
method goes.  The random state is an integer, so `reset` starts the draws again.
-/

namespace Verif.Meta.ResetAll

open Verif.Meta.Oza (checkClasses sameSet)

/-- Specification: the same classes, each as often. -/
def SameClasses (k k' : List Int) : Prop := (∀ x, x ∈ k ↔ x ∈ k') ∧ k.length = k'.length

theorem sameSet_iff (a b : List Int) : sameSet a b = true ↔ ∀ x, x ∈ a ↔ x ∈ b := by
  simp only [sameSet, Bool.and_eq_true, List.all_eq_true, List.contains_iff_mem]
  exact ⟨fun h x => ⟨h.1 x, h.2 x⟩, fun h => ⟨fun x => (h x).1, fun x => (h x).2⟩⟩

/-- What is checked is the same for the same classes. -/
theorem check_same (k k' : List Int) (h : SameClasses k k') (given : Option (List Int)) :
    (∃ e, checkClasses (some k) given = .error e ∧ checkClasses (some k') given = .error e) ∨
    (checkClasses (some k) given = .ok k ∧ checkClasses (some k') given = .ok k') := by
  cases given with
  | none => exact .inr ⟨rfl, rfl⟩
  | some c =>
    have : sameSet k c = sameSet k' c := by
      rw [Bool.eq_iff_iff, sameSet_iff, sameSet_iff]
      exact ⟨fun g x => (h.1 x).symm.trans (g x), fun g x => (h.1 x).trans (g x)⟩
    simp only [checkClasses, this]
    by_cases hs : sameSet k' c = true
    · exact .inr ⟨if_pos hs, if_pos hs⟩
    · exact .inl ⟨_, if_neg hs, if_neg hs⟩

/-! ### The boosting and bagging ensembles -/

section Skew
open Verif.Meta.Skew

variable {σ δ X τ γ : Type}

/-- `reset`, online_boosting.py 149-150, online_adac2.py 160-161, online_csb2.py 154-155,
online_rus_boost.py 158-159, online_under_over_bagging.py 144-145: `__configure` leaves `classes`. -/
def reset (E : Env σ δ X τ γ) (n : Nat) (s : St σ δ τ γ) : St σ δ τ γ := { fresh E n with classes := s.classes }

/-- Everything but the remembered classes. -/
def core (r : List (Visit X) × St σ δ τ γ) := (r.1, r.2.members, r.2.shared, r.2.pos)

theorem trainRow_classes (E : Env σ δ X τ γ) (c : Call X) (x : X) (y : Int) (s : St σ δ τ γ) (k : Option (List Int)) :
    trainRow E c x y { s with classes := k } = (trainRow E c x y s).map fun p => (p.1, { p.2 with classes := k }) := by
  unfold trainRow
  simp only
  cases visitAll E c x y s.members.length s.members 0 1 s.shared s.pos false with
  | error e => rfl
  | ok r => rfl

theorem trainRows_classes (E : Env σ δ X τ γ) (c : Call X) (rows : List (X × Int)) (s : St σ δ τ γ) (k : Option (List Int)) :
    trainRows E c rows { s with classes := k } = (trainRows E c rows s).map fun p => (p.1, { p.2 with classes := k }) := by
  induction rows generalizing s with
  | nil => rfl
  | cons r rows ih =>
    rw [trainRows, trainRows, trainRow_classes]
    cases trainRow E c r.1 r.2 s with
    | error e => rfl
    | ok p =>
      simp only [Except.map]
      rw [ih]
      cases trainRows E c rows p.2 with
      | error e => rfl
      | ok q => rfl

theorem adjust_length (E : Env σ δ X τ γ) (k k' : List Int) (h : k.length = k'.length) (ms : List (M σ δ τ)) :
    adjust E k ms = adjust E k' ms := by
  unfold adjust; rw [h]

/-- Two outcomes agree but for the classes, which are the same sets. -/
def Agree (a b : Except PyErr (List (Visit X) × St σ δ τ γ)) : Prop :=
  a.map core = b.map core ∧ ∀ p q, a = .ok p → b = .ok q → ∃ k k', p.2.classes = some k ∧ q.2.classes = some k' ∧ SameClasses k k'

theorem agree_rows (E : Env σ δ X τ γ) (c : Call X) (s : St σ δ τ γ) (k k' : List Int) (h : SameClasses k k') :
    Agree (trainRows E c c.rows { s with classes := some k }) (trainRows E c c.rows { s with classes := some k' }) := by
  rw [trainRows_classes E c c.rows s (some k), trainRows_classes E c c.rows s (some k')]
  cases trainRows E c c.rows s with
  | error e => exact ⟨rfl, fun p q hp => by cases hp⟩
  | ok r =>
    refine ⟨rfl, fun p q hp hq => ?_⟩
    simp only [Except.map, Except.ok.injEq] at hp hq
    subst hp; subst hq
    exact ⟨k, k', rfl, rfl, h⟩

theorem agree_fit (E : Env σ δ X τ γ) (c : Call X) (s : St σ δ τ γ) (k k' : List Int) (h : SameClasses k k') :
    Agree (partialFit E c { s with classes := some k }) (partialFit E c { s with classes := some k' }) := by
  rcases check_same k k' h c.classes with ⟨e, h1, h2⟩ | ⟨h1, h2⟩
  · unfold partialFit
    simp only [h1, h2]
    exact ⟨rfl, fun p q hp => by cases hp⟩
  · unfold partialFit
    simp only [h1, h2]
    rw [adjust_length E k k' h.2]
    exact agree_rows E c { s with members := adjust E k' s.members } k k' h

theorem agree_run (E : Env σ δ X τ γ) (cs : List (Call X)) (s : St σ δ τ γ) (k k' : List Int) (h : SameClasses k k') :
    (run E cs { s with classes := some k }).map core = (run E cs { s with classes := some k' }).map core := by
  induction cs generalizing s k k' with
  | nil => rfl
  | cons c cs ih =>
    obtain ⟨h1, h2⟩ := agree_fit E c s k k' h
    rw [run, run]
    cases ha : partialFit E c { s with classes := some k } with
    | error e =>
      cases hb : partialFit E c { s with classes := some k' } with
      | error e' => rw [ha, hb] at h1; simp only [Except.map, Except.error.injEq] at h1; subst h1; rfl
      | ok q => rw [ha, hb] at h1; cases h1
    | ok p =>
      cases hb : partialFit E c { s with classes := some k' } with
      | error e' => rw [ha, hb] at h1; cases h1
      | ok q =>
        obtain ⟨l, l', g1, g2, g3⟩ := h2 p q ha hb
        rw [ha, hb] at h1
        obtain ⟨vs, pm, pg, pk, pp⟩ := p
        obtain ⟨vs', qm, qg, qk, qp⟩ := q
        simp only [Except.map, core, Except.ok.injEq, Prod.mk.injEq] at h1 g1 g2
        obtain ⟨rfl, rfl, rfl, rfl⟩ := h1
        subst g1; subst g2
        have := ih ⟨pm, pg, none, pp⟩ l l' g3
        simp only at this ⊢
        cases h3 : run E cs ⟨pm, pg, some l, pp⟩ with
        | error e =>
          cases h4 : run E cs ⟨pm, pg, some l', pp⟩ with
          | error e' => rw [h3, h4] at this; simp only [Except.map, Except.error.injEq] at this; subst this; rfl
          | ok q => rw [h3, h4] at this; cases this
        | ok p =>
          cases h4 : run E cs ⟨pm, pg, some l', pp⟩ with
          | error e' => rw [h3, h4] at this; cases this
          | ok q =>
            rw [h3, h4] at this
            simp only [Except.map, core, Except.ok.injEq, Prod.mk.injEq] at this ⊢
            exact ⟨by rw [this.1], this.2⟩

/-- **C283, partial.** A boosting or bagging ensemble that was reset does what a new one does, in
every sequence of calls whose first names the classes it knew before: the same exceptions, the same
visits (members, rates, draws, answers), the same members and detectors. -/
theorem C283_same_classes_partial (E : Env σ δ X τ γ) (n : Nat) (s : St σ δ τ γ) (k k' : List Int) (c : Call X)
    (cs : List (Call X)) (hs : s.classes = some k) (hc : c.classes = some k') (h : SameClasses k k') :
    (run E (c :: cs) (reset E n s)).map core = (run E (c :: cs) (fresh E n)).map core := by
  have h1 : reset E n s = { fresh E n with classes := some k } := by rw [reset, hs]
  have h2 : run E (c :: cs) (fresh E n) = run E (c :: cs) { fresh E n with classes := some k' } := by
    rw [run, run]
    have : partialFit E c (fresh E n) = partialFit E c { fresh E n with classes := some k' } := by
      unfold partialFit
      have e1 : checkClasses (fresh E n).classes c.classes = .ok k' := by rw [hc]; rfl
      have e2 : checkClasses (some k') c.classes = .ok k' := by
        rw [hc]; simp only [checkClasses]; exact if_pos ((sameSet_iff _ _).2 fun x => Iff.rfl)
      rw [e1]
      simp only [e2]
    rw [this]
  rw [h1, h2]
  exact agree_run E (c :: cs) (fresh E n) k k' h

/-- C283 fails: a reset ensemble refuses other classes, whatever the rest of the call; a new one
accepts them. -/
theorem C283_other_classes_violated (E : Env σ δ X τ γ) (n : Nat) (s : St σ δ τ γ) (k k' : List Int) (x : Int)
    (hs : s.classes = some k) (hx : ¬ (x ∈ k ↔ x ∈ k')) (rows : List (X × Int)) (w : Option (List ℚ)) (cs : List (Call X)) :
    run E (⟨rows, some k', w⟩ :: cs) (reset E n s) = .error .valueError ∧
    (run E [⟨[], some k', w⟩] (fresh E n)).isOk = true := by
  constructor
  · rw [run, partialFit]
    have : checkClasses (reset E n s).classes (some k') = .error .valueError := by
      rw [reset, hs]
      exact if_neg fun g => hx ((sameSet_iff _ _).1 g x)
    rw [this]
  · rfl

/-- C283 fails: a call that names no classes is accepted by a reset ensemble and refused by a new
one. -/
theorem C283_no_classes_violated (E : Env σ δ X τ γ) (n : Nat) (s : St σ δ τ γ) (k : List Int)
    (hs : s.classes = some k) (rows : List (X × Int)) (w : Option (List ℚ)) (cs : List (Call X)) :
    run E (⟨rows, none, w⟩ :: cs) (fresh E n) = .error .valueError ∧
    (run E [⟨[], none, w⟩] (reset E n s)).isOk = true := by
  refine ⟨rfl, ?_⟩
  rw [run, partialFit, reset, hs]
  rfl

/-- A learner that knows the labels it was taught and answers the first of them. -/
def toy : Base (List Int) Nat := ⟨[], fun s _ y _ _ => .ok (s ++ [y]), fun s xs => .ok (xs.map fun _ => s.head?), fun _ => []⟩

/-- Online boosting of two such learners, every draw is 1. -/
def toyEnv : Env (List Int) Unit Nat Boosting.Mem Unit :=
  ⟨boost, toy, ⟨(), fun _ _ => (), fun _ => (false, ()), fun _ => 0⟩, false, fun _ _ => 1⟩

/-- What can be seen of an outcome: label, rate and answer of each visit, and what the members learnt. -/
def seen (r : Except PyErr (List (Visit Nat) × St (List Int) Unit Boosting.Mem Unit)) :
    Option (List (Int × ℚ × Option (Option Int)) × List (List Int)) :=
  r.toOption.map fun r => (r.1.map fun v => (v.y, v.rate, v.seen), r.2.members.map fun m => m.learner)

/-- The ensemble after a first life with the classes 0 and 1. -/
def used : Except PyErr (St (List Int) Unit Boosting.Mem Unit) :=
  (run toyEnv [⟨[(7, 0), (8, 1)], some [0, 1], none⟩] (fresh toyEnv 2)).map Prod.snd

set_option synthInstance.maxSize 5000 in
/-- After a first life the classes are remembered; told the same, in any order, it goes on as if new;
told others, it refuses, and a new one does not. -/
example : used.toOption.map (fun s => s.classes) = some (some [0, 1]) ∧
    (used.toOption.map fun s => seen (run toyEnv [⟨[(7, 1), (8, 0)], some [1, 0], none⟩] (reset toyEnv 2 s))) =
      some (some ([(1, 1, some (some 1)), (1, 1, some (some 1)) , (0, 1, some (some 1)), (0, 1, some (some 1))], [[1, 0], [1, 0]])) ∧
    (used.toOption.map fun s => seen (run toyEnv [⟨[(7, 2)], some [0, 1, 2], none⟩] (reset toyEnv 2 s))) = some none ∧
    seen (run toyEnv [⟨[(7, 2)], some [0, 1, 2], none⟩] (fresh toyEnv 2)) =
      some ([(2, 1, some (some 2)), (2, 1, some (some 2)), (2, 1, some (some 2))], [[2], [2], [2]]) := by
  decide +kernel

end Skew

/-! ### Bagging with synthetic samples -/

section Smote
open Verif.Meta.Skew.Smote (Ens Vec)

variable {σ δ : Type} {d : Nat}

/-- `OnlineSMOTEBaggingClassifier.reset`, online_smote_bagging.py 140-141. -/
def smoteReset (W : Ens σ δ d) (n : Nat) (s : Skew.Smote.St σ δ d) : Skew.Smote.St σ δ d := { Skew.Smote.fresh W n with classes := s.classes }

/-- Everything but the remembered classes. -/
def smoteCore (r : List (Skew.Smote.Visit d) × Skew.Smote.St σ δ d) := (r.1, r.2.members, r.2.ps, r.2.pos)

theorem smote_rows_classes (W : Ens σ δ d) (c : Skew.Call (Vec d)) (rows : List (Vec d × Int)) (s : Skew.Smote.St σ δ d) (k : Option (List Int)) :
    Skew.Smote.trainRows W c rows { s with classes := k } = (Skew.Smote.trainRows W c rows s).map fun p => (p.1, { p.2 with classes := k }) := by
  induction rows generalizing s with
  | nil => rfl
  | cons r rows ih =>
    have h1 : Skew.Smote.trainRow W c r.1 r.2 { s with classes := k } =
        (Skew.Smote.trainRow W c r.1 r.2 s).map fun p => (p.1, { p.2 with classes := k }) := by
      unfold Skew.Smote.trainRow
      simp only
      cases Skew.Smote.visitAll W c r.1 r.2 s.members.length s.members 0 s.ps s.pos false with
      | error e => rfl
      | ok r => rfl
    rw [Skew.Smote.trainRows, Skew.Smote.trainRows, h1]
    cases Skew.Smote.trainRow W c r.1 r.2 s with
    | error e => rfl
    | ok p =>
      simp only [Except.map]
      rw [ih]
      cases Skew.Smote.trainRows W c rows p.2 with
      | error e => rfl
      | ok q => rfl

theorem smote_agree_run (W : Ens σ δ d) (cs : List (Skew.Call (Vec d))) (s : Skew.Smote.St σ δ d) (k k' : List Int) (h : SameClasses k k') :
    (Skew.Smote.run W cs { s with classes := some k }).map smoteCore = (Skew.Smote.run W cs { s with classes := some k' }).map smoteCore := by
  induction cs generalizing s with
  | nil => rfl
  | cons c cs ih =>
    rw [Skew.Smote.run, Skew.Smote.run, Skew.Smote.partialFit, Skew.Smote.partialFit]
    rcases check_same k k' h c.classes with ⟨e, h1, h2⟩ | ⟨h1, h2⟩
    · simp only [h1, h2]
    · have ha : Skew.Smote.adjust W k s.members = Skew.Smote.adjust W k' s.members := by unfold Skew.Smote.adjust; rw [h.2]
      simp only [h1, h2, ha]
      have e1 := smote_rows_classes W c c.rows ⟨Skew.Smote.adjust W k' s.members, s.ps, none, s.pos⟩ (some k)
      have e2 := smote_rows_classes W c c.rows ⟨Skew.Smote.adjust W k' s.members, s.ps, none, s.pos⟩ (some k')
      simp only at e1 e2
      rw [e1, e2]
      cases Skew.Smote.trainRows W c c.rows ⟨Skew.Smote.adjust W k' s.members, s.ps, none, s.pos⟩ with
      | error e => rfl
      | ok p =>
        have := ih p.2
        simp only [Except.map]
        cases h3 : Skew.Smote.run W cs { p.2 with classes := some k } with
        | error e =>
          cases h4 : Skew.Smote.run W cs { p.2 with classes := some k' } with
          | error e' => rw [h3, h4] at this; simp only [Except.map, Except.error.injEq] at this; subst this; rfl
          | ok q => rw [h3, h4] at this; cases this
        | ok p' =>
          cases h4 : Skew.Smote.run W cs { p.2 with classes := some k' } with
          | error e' => rw [h3, h4] at this; cases this
          | ok q =>
            rw [h3, h4] at this
            simp only [Except.map, smoteCore, Except.ok.injEq, Prod.mk.injEq] at this ⊢
            exact ⟨by rw [this.1], this.2⟩

/-- **C283, partial.** The same for `OnlineSMOTEBaggingClassifier`: told the classes it knew, it does
what a new one does; the positive samples it had stored are gone. -/
theorem C283_smote_partial (W : Ens σ δ d) (n : Nat) (s : Skew.Smote.St σ δ d) (k k' : List Int) (c : Skew.Call (Vec d))
    (cs : List (Skew.Call (Vec d))) (hs : s.classes = some k) (hc : c.classes = some k') (h : SameClasses k k') :
    (Skew.Smote.run W (c :: cs) (smoteReset W n s)).map smoteCore = (Skew.Smote.run W (c :: cs) (Skew.Smote.fresh W n)).map smoteCore := by
  have h1 : smoteReset W n s = { Skew.Smote.fresh W n with classes := some k } := by rw [smoteReset, hs]
  have h2 : Skew.Smote.run W (c :: cs) (Skew.Smote.fresh W n) = Skew.Smote.run W (c :: cs) { Skew.Smote.fresh W n with classes := some k' } := by
    rw [Skew.Smote.run, Skew.Smote.run]
    have : Skew.Smote.partialFit W c (Skew.Smote.fresh W n) = Skew.Smote.partialFit W c { Skew.Smote.fresh W n with classes := some k' } := by
      unfold Skew.Smote.partialFit
      have e1 : checkClasses (Skew.Smote.fresh W n).classes c.classes = .ok k' := by rw [hc]; rfl
      have e2 : checkClasses (some k') c.classes = .ok k' := by
        rw [hc]; simp only [checkClasses]; exact if_pos ((sameSet_iff _ _).2 fun x => Iff.rfl)
      rw [e1]
      simp only [e2]
    rw [this]
  rw [h1, h2]
  exact smote_agree_run W (c :: cs) (Skew.Smote.fresh W n) k k' h

/-- C283 fails for it in the same way. -/
theorem C283_smote_other_classes_violated (W : Ens σ δ d) (n : Nat) (s : Skew.Smote.St σ δ d) (k k' : List Int) (x : Int)
    (hs : s.classes = some k) (hx : ¬ (x ∈ k ↔ x ∈ k')) (rows : List (Vec d × Int)) (w : Option (List ℚ))
    (cs : List (Skew.Call (Vec d))) :
    Skew.Smote.run W (⟨rows, some k', w⟩ :: cs) (smoteReset W n s) = .error .valueError ∧
    (Skew.Smote.run W [⟨[], some k', w⟩] (Skew.Smote.fresh W n)).isOk = true := by
  constructor
  · rw [Skew.Smote.run, Skew.Smote.partialFit]
    have : checkClasses (smoteReset W n s).classes (some k') = .error .valueError := by
      rw [smoteReset, hs]
      exact if_neg fun g => hx ((sameSet_iff _ _).1 g x)
    rw [this]
  · rfl

end Smote

/-! ### The adaptive random forest -/

section Forest
open Verif.Meta.Forest

variable {X T D R : Type}

theorem rows_classes (E : Env X T D R) (N : Nat) (r0 : Nat → R) (dr : Nat → Nat → Draw R) (rows : List (X × Int))
    (ws : List ℚ) (s s' : Forest.St T D) (h : fitRows E N r0 dr rows ws s = .ok s') : s'.classes = s.classes := by
  induction rows generalizing ws s with
  | nil => rw [fitRows] at h; cases h; rfl
  | cons q rows ih =>
    cases ws with
    | nil => rw [fitRows] at h; cases h
    | cons w ws =>
      rw [fitRows] at h
      have := ih _ _ h
      rw [this]
      by_cases hw : w ≠ 0
      · rw [if_pos hw]
        simp only [fitOne, ensure]
        cases s.ensemble <;> rfl
      · rw [if_neg hw]

/-- The classes a forest once has it keeps. -/
theorem run_classes (E : Env X T D R) (N : Nat) (r0 : Nat → R) (dr : Nat → Nat → Draw R) (calls : List (Forest.Call X))
    (s s' : Forest.St T D) (k : List Int) (hk : s.classes = some k) (h : Forest.run E N r0 dr calls s = .ok s') :
    s'.classes = some k := by
  induction calls generalizing s with
  | nil => rw [Forest.run] at h; cases h; exact hk
  | cons c calls ih =>
    rw [Forest.run] at h
    cases hc : Forest.call E N r0 dr s c with
    | error e => rw [hc] at h; cases h
    | ok t =>
      rw [hc] at h
      refine ih t ?_ h
      cases c with
      | ask =>
        simp only [Forest.call, Except.ok.injEq] at hc
        subst hc
        unfold ensure
        cases he : s.ensemble with
        | none => exact hk
        | some ms => exact hk
      | fit rows w classes =>
        simp only [Forest.call] at hc
        rw [if_neg (by rw [hk]; simp)] at hc
        cases hw : checkWeights (w.getD (.num 1)) rows.length with
        | error e => rw [hw] at hc; cases hc
        | ok ws =>
          rw [hw] at hc
          rw [rows_classes E N r0 dr rows ws s t hc, hk]

theorem assign_len (a : List ℚ) (k : Int) (v : ℚ) (a' : List ℚ) (h : Trees.HL.assign a k v = .ok a') : a'.length = a.length := by
  unfold Trees.HL.assign at h
  split at h
  · split at h
    · cases h; simp
    · cases h
  · split at h
    · cases h; simp
    · cases h

theorem assignAll_beyond (votes : List (Int × ℚ)) (a : List ℚ) (hr : ∀ q ∈ votes, 0 ≤ q.1) (q : Int × ℚ) (hq : q ∈ votes)
    (hb : (a.length : Int) ≤ q.1) : Trees.HL.assignAll votes a = .error .indexError := by
  induction votes generalizing a with
  | nil => cases hq
  | cons p votes ih =>
    obtain ⟨j, v⟩ := p
    rw [Trees.HL.assignAll]
    have hj := hr (j, v) List.mem_cons_self
    simp only at hj
    cases ha : Trees.HL.assign a j v with
    | error e =>
      unfold Trees.HL.assign at ha
      rw [if_pos hj] at ha
      split at ha
      · cases ha
      · exact ha ▸ rfl
    | ok a' =>
      rcases List.mem_cons.1 hq with rfl | hq
      · unfold Trees.HL.assign at ha
        simp only at hb
        rw [if_pos hj, if_neg (by omega)] at ha
        cases ha
      · exact ih a' (fun r hr' => hr r (List.mem_cons_of_mem _ hr')) hq (by rw [assign_len _ _ _ _ ha]; exact hb)

/-- A vote for a label beyond the known classes. -/
theorem row_beyond (k : List Int) (m : Nat) (hm : (m : Int) ∈ k) (htop : ∀ c ∈ k, c ≤ m) (votes : List (Int × ℚ))
    (hr : ∀ q ∈ votes, 0 ≤ q.1) (q : Int × ℚ) (hq : q ∈ votes) (hb : (m : Int) < q.1) :
    Trees.HL.probaRow (some k) votes = .error .indexError := by
  cases votes with
  | nil => cases hq
  | cons p l =>
    obtain ⟨j, v⟩ := p
    unfold Trees.HL.probaRow
    simp only [Option.getD_some]
    cases k with
    | nil => cases hm
    | cons c cs =>
      simp only
      rw [Trees.HL.foldl_max_top c cs m hm htop, if_neg (by omega)]
      have hlen : ((List.replicate ((m : Int) + 1).toNat (0 : ℚ)).length : Int) = m + 1 := by
        rw [List.length_replicate]; omega
      split
      · refine assignAll_beyond _ _ ?_ (q.1, q.2 / (((j, v) :: l).map Prod.snd).sum) ?_ (by rw [hlen]; simp only; omega)
        · intro r hr'
          obtain ⟨r0, h0, rfl⟩ := List.mem_map.1 hr'
          exact hr r0 h0
        · exact List.mem_map.2 ⟨q, hq, rfl⟩
      · exact assignAll_beyond _ _ hr q hq (by rw [hlen]; omega)

/-- C283 fails: a reset forest keeps the classes of the time before, whatever classes it is given
afterwards. Once its trees vote for a label beyond these, `predict` and `predict_proba` raise; a new
forest given the right classes answers. -/
theorem C283_forest_violated (E : Env X T D R) (N : Nat) (r0 : Nat → R) (dr : Nat → Nat → Draw R) (calls : List (Forest.Call X))
    (s s' : Forest.St T D) (k : List Int) (m : Nat) (hk : s.classes = some k) (hm : (m : Int) ∈ k) (htop : ∀ c ∈ k, c ≤ m)
    (h : Forest.run E N r0 dr calls (Forest.reset s) = .ok s') :
    s'.classes = some k ∧
    ∀ (weighted : Bool) (ms : List (ℚ × List (Int × ℚ))), (∀ q ∈ combine weighted ms, 0 ≤ q.1) →
      (∃ q ∈ combine weighted ms, (m : Int) < q.1) → proba s'.classes weighted ms = .error .indexError := by
  have hc : s'.classes = some k := run_classes E N r0 dr calls (Forest.reset s) s' k hk h
  refine ⟨hc, fun weighted ms hr hb => ?_⟩
  obtain ⟨q, hq, hb⟩ := hb
  rw [hc, proba]
  exact row_beyond k m hm htop _ hr q hq hb

/-- Two classes in the first life, three in the second: the vote of the trees for class 2 ends in an
exception. In a new forest it does not. -/
example :
    ((Forest.run demo 2 (fun _ => ()) demoDraw [.fit [(0, 1)] none (some [0, 1])] init).toOption.bind fun s =>
      (Forest.run demo 2 (fun _ => ()) demoDraw [.fit [(0, 2)] none (some [0, 1, 2])] (Forest.reset s)).toOption.map fun s' =>
        (s'.classes, (proba s'.classes false [(1, [(2, 1)])]).toOption)) = some (some [0, 1], none) ∧
    ((Forest.run demo 2 (fun _ => ()) demoDraw [.fit [(0, 2)] none (some [0, 1, 2])] init).toOption.map fun s' =>
        (s'.classes, (proba s'.classes false [(1, [(2, 1)])]).toOption)) = some (some [0, 1, 2], some [0, 0, 1]) := by
  decide +kernel

end Forest

/-! ### Streaming random patches -/

section Patches
open Verif.Meta.Patches

/-- The training methods in use for the successive lives of a `StreamingRandomPatchesClassifier`, one
life for each number of features: `_init_ensemble` may replace `training_method`
(streaming_random_patches.py 373-376) and `reset` (419-422) leaves it. -/
def lives (fuel : Nat) (choice : Nat → List Nat) (sh : List Nat) (mode : Mode) (size : Int) (N : Nat) :
    Method → List Nat → Option (Except PyErr (List (Method × List (Option (List Nat)))))
  | _, [] => some (.ok [])
  | meth, n :: ns =>
    match assign fuel choice sh meth mode size n N with
    | none => none
    | some (.error e) => some (.error e)
    | some (.ok r) =>
      match lives fuel choice sh mode size N r.1 ns with
      | none => none
      | some (.error e) => some (.error e)
      | some (.ok l) => some (.ok (r :: l))

/-- C283 fails: after one life in which the subspaces would hold all features (or none), every later
life trains all members on all features. -/
theorem C283_patches_violated (fuel : Nat) (choice : Nat → List Nat) (sh : List Nat) (mode : Mode) (size : Int) (N : Nat)
    (meth : Method) (n : Nat) (ns : List Nat) (hn : sizeOf mode size n = 0 ∨ (n : Int) ≤ sizeOf mode size n) :
    lives fuel choice sh mode size N meth (n :: ns) =
      some (.ok ((n :: ns).map fun _ => (.resampling, List.replicate N none))) := by
  have h0 : ∀ m, assign fuel choice sh .resampling mode size m N = some (.ok (.resampling, List.replicate N none)) := by
    intro m; unfold assign start; rw [if_pos rfl]; rfl
  have h1 : assign fuel choice sh meth mode size n N = some (.ok (.resampling, List.replicate N none)) := by
    cases meth with
    | resampling => exact h0 n
    | _ =>
      unfold assign start
      rw [if_neg (by decide), if_neg (by rintro ⟨h, h'⟩; omega)]
      rfl
  have h2 : ∀ l, lives fuel choice sh mode size N .resampling l =
      some (.ok (l.map fun _ => (.resampling, List.replicate N none))) := by
    intro l
    induction l with
    | nil => rfl
    | cons m l ih => rw [lives, h0 m]; simp only; rw [ih]; rfl
  rw [lives, h1]
  simp only
  rw [h2]
  rfl

/-- **C283, partial.** In every life before such a one the members have the subspaces of a new
ensemble. -/
theorem C283_patches_partial (fuel : Nat) (choice : Nat → List Nat) (sh : List Nat) (mode : Mode) (size : Int) (N : Nat)
    (meth : Method) (ns : List Nat) (hn : ∀ n ∈ ns, sizeOf mode size n ≠ 0 ∧ sizeOf mode size n < n)
    (l : List (Method × List (Option (List Nat)))) (h : lives fuel choice sh mode size N meth ns = some (.ok l)) :
    ns.map (fun n => assign fuel choice sh meth mode size n N) = l.map fun r => some (.ok r) := by
  induction ns generalizing l with
  | nil => rw [lives] at h; cases h; rfl
  | cons n ns ih =>
    rw [lives] at h
    cases ha : assign fuel choice sh meth mode size n N with
    | none => rw [ha] at h; cases h
    | some r =>
      cases r with
      | error e => rw [ha] at h; cases h
      | ok r =>
        have hm : r.1 = meth := by
          unfold assign at ha
          cases hs : start fuel choice meth (sizeOf mode size n) n N with
          | none => rw [hs] at ha; cases ha
          | some q =>
            rw [hs] at ha
            cases q with
            | error e => cases ha
            | ok q =>
              have hq : q.1 = meth := by
                unfold start at hs
                by_cases hr : meth = .resampling
                · rw [if_pos hr] at hs; cases hs; rfl
                · rw [if_neg hr, if_pos (hn n List.mem_cons_self)] at hs
                  split at hs
                  · generalize (if sizeOf mode size n = 1 ∧ n > 2 then (2 : Int) else sizeOf mode size n) = kk at hs
                    simp only at hs
                    split at hs
                    · cases hs
                    · rw [Option.map_eq_some_iff] at hs
                      obtain ⟨subs, -, hs⟩ := hs
                      cases hs; rfl
                  · cases hs; rfl
              obtain ⟨q1, q2⟩ := q
              simp only [Option.map_some, Option.some.injEq] at ha
              cases hmm : members sh N q2 with
              | error e => rw [hmm] at ha; cases ha
              | ok f => rw [hmm] at ha; simp only [Except.ok.injEq] at ha; subst ha; exact hq
        rw [ha] at h
        simp only [hm] at h
        cases hl : lives fuel choice sh mode size N meth ns with
        | none => rw [hl] at h; cases h
        | some t =>
          cases t with
          | error e => rw [hl] at h; cases h
          | ok t =>
            rw [hl] at h
            simp only [Option.some.injEq, Except.ok.injEq] at h
            subst h
            rw [List.map_cons, List.map_cons, ha, ih (fun m hm => hn m (List.mem_cons_of_mem _ hm)) t hl]

/-- Subspaces of two features: on four features, on two, on four again. -/
example : lives 1 (fun _ => []) [1, 0] .m 2 2 .patches [4, 2, 4] =
    some (.ok [(.patches, [some [0, 2], some [0, 1]]), (.resampling, [none, none]), (.resampling, [none, none])]) := by
  rfl

end Patches

end Verif.Meta.ResetAll
