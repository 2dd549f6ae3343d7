import Verif.Evaluation.Honest
import Mathlib.Data.List.Forall2

/-!
C290: several models in one prequential evaluation (evaluate_prequential.py 266-394, loops over `self.n_models`).  Model:
that of `Honest.lean`.
-/

namespace Verif.Evaluation.Honest

open Verif.Evaluation Verif.Evaluation.Report

variable {σ X Y P μ ν : Type}

/-! ### Specification -/

/-- The part of a result file about model `j`: sample id, mean and current value of every metric. -/
def about (j : Nat) (rows : List (Int × World)) : List (Int × (Metric → ℚ) × (Metric → ℚ)) :=
  rows.map fun r => (r.1, r.2.mean j, r.2.current j)

/-- The evaluation comes to its end: no model raises an exception. -/
def Finishes {τ : Type} (E : Env τ) (C : Conf) (fuel : Nat) (st : τ) : Prop :=
  ∃ b st1 t, initBuf C.ms = .ok b ∧ (if C.pretrain > 0 then E.pre st else .ok st) = .ok st1 ∧
    loop E C fuel ⟨C.pretrain, 0, 0, st1, b, []⟩ = some t ∧ ((t.count : Int) < C.amax && E.more t.iters) = false

/-- The same evaluation of one model. -/
def Conf.alone (C : Conf) : Conf := { C with n := 1 }

/-! ### Proofs -/

theorem each_iff {α β : Type} (f : α → Except PyErr β) (l : List α) (r : List β) :
    each f l = .ok r ↔ List.Forall₂ (fun a b => f a = .ok b) l r := by
  induction l generalizing r with
  | nil =>
    rw [each, List.forall₂_nil_left_iff]
    simp [eq_comm]
  | cons a l ih =>
    rw [each]
    cases ha : f a with
    | error e =>
      simp only [reduceCtorEq, false_iff]
      intro h
      cases h with
      | cons h _ => rw [ha] at h; cases h
    | ok b =>
      simp only
      cases hl : each f l with
      | error e =>
        simp only [reduceCtorEq, false_iff]
        intro h
        cases h with
        | cons _ h => rw [← ih, hl] at h; cases h
      | ok r' =>
        have h' := (ih r').1 hl
        simp only [Except.ok.injEq]
        constructor
        · rintro rfl; exact .cons ha h'
        · intro h
          cases h with
          | cons h1 h2 =>
            rw [ha] at h1
            rw [← ih, hl] at h2
            cases h1; cases h2; rfl

theorem forall₂_comp {α β γ : Type} (R : α → β → Prop) (S : β → γ → Prop) (l : List α) (n : List γ) :
    (∃ m, List.Forall₂ R l m ∧ List.Forall₂ S m n) ↔ List.Forall₂ (fun a c => ∃ b, R a b ∧ S b c) l n := by
  constructor
  · rintro ⟨m, h1, h2⟩
    induction h1 generalizing n with
    | nil => cases h2; exact .nil
    | cons h _ ih =>
      cases h2 with
      | cons h' h2 => exact .cons ⟨_, h, h'⟩ (ih _ h2)
  · intro h
    induction h with
    | nil => exact ⟨[], .nil, .nil⟩
    | cons h _ ih =>
      obtain ⟨b, h1, h2⟩ := h
      obtain ⟨m, g1, g2⟩ := ih
      exact ⟨b :: m, .cons h1 g1, .cons h2 g2⟩

/-- One model in one iteration. -/
def One (M : Meters Y P μ ν) (amax : Int) (b : List (X × Y)) (m m' : Bundle σ X Y P μ ν) : Prop :=
  checkProgress amax = .ok () ∧ ∃ m1, (∃ q, Bundle.test (b.map Prod.fst) m = .ok q ∧ Bundle.scored M (b.map Prod.snd) b.length q = .ok m1) ∧
    Bundle.train b m1 = .ok m'

theorem test_length (b : List (X × Y)) (m : Bundle σ X Y P μ ν) (h : OneEach m.learner) (q : List P × Bundle σ X Y P μ ν)
    (hq : Bundle.test (b.map Prod.fst) m = .ok q) : q.1.length = b.length := by
  unfold Bundle.test at hq
  cases hp : m.learner.predict m.st (b.map Prod.fst) with
  | error e => rw [hp] at hq; cases hq
  | ok r =>
    rw [hp] at hq
    cases hq
    rw [h _ _ _ _ hp, List.length_map]

theorem testAll_iff (M : Meters Y P μ ν) (b : List (X × Y)) (ms ms' : List (Bundle σ X Y P μ ν)) (h1 : ∀ m ∈ ms, OneEach m.learner) :
    testAll M b ms = .ok ms' ↔ List.Forall₂ (fun m m' => ∃ q, Bundle.test (b.map Prod.fst) m = .ok q ∧
      Bundle.scored M (b.map Prod.snd) b.length q = .ok m') ms ms' := by
  rw [← forall₂_comp]
  unfold testAll
  have hlen : ∀ qs, List.Forall₂ (fun m q => Bundle.test (b.map Prod.fst) m = .ok q) ms qs → qs ≠ [] →
      (match qs with | [] => 0 | q :: _ => q.1.length) = b.length := by
    intro qs h hne
    cases h with
    | nil => exact absurd rfl hne
    | cons h _ => exact test_length b _ (h1 _ (by simp)) _ h
  have hsc : ∀ qs, List.Forall₂ (fun m q => Bundle.test (b.map Prod.fst) m = .ok q) ms qs →
      each (Bundle.scored M (b.map Prod.snd) (match qs with | [] => 0 | q :: _ => q.1.length)) qs =
        each (Bundle.scored M (b.map Prod.snd) b.length) qs := by
    intro qs h
    by_cases hne : qs = []
    · subst hne; rfl
    · rw [hlen qs h hne]
  constructor
  · intro h
    cases ht : each (Bundle.test (b.map Prod.fst)) ms with
    | error e => rw [ht] at h; cases h
    | ok qs =>
      rw [ht] at h
      have hq := (each_iff _ _ _).1 ht
      exact ⟨qs, hq, (each_iff _ _ _).1 ((hsc qs hq).symm.trans h)⟩
  · rintro ⟨qs, hq, hs⟩
    rw [(each_iff _ _ _).2 hq]
    exact (hsc qs hq).trans ((each_iff _ _ _).2 hs)

theorem iteration_iff (M : Meters Y P μ ν) (amax : Int) (b : List (X × Y)) (ms ms' : List (Bundle σ X Y P μ ν)) (hne : ms ≠ [])
    (h1 : ∀ m ∈ ms, OneEach m.learner) : iteration M amax b ms = .ok ms' ↔ List.Forall₂ (One M amax b) ms ms' := by
  unfold iteration
  constructor
  · intro h
    cases ht : testAll M b ms with
    | error e => rw [ht] at h; cases h
    | ok ms1 =>
      rw [ht] at h
      simp only at h
      cases hc : checkProgress amax with
      | error e => rw [hc] at h; cases h
      | ok u =>
        rw [hc] at h
        have := (forall₂_comp _ _ _ _).1 ⟨ms1, (testAll_iff M b ms ms1 h1).1 ht, (each_iff _ _ _).1 h⟩
        exact this.imp fun m m' hm => ⟨hc, hm⟩
  · intro h
    have hc : checkProgress amax = .ok () := by
      cases h with
      | nil => exact absurd rfl hne
      | cons h _ => exact h.1
    obtain ⟨ms1, g1, g2⟩ := (forall₂_comp _ _ _ _).2 (h.imp fun m m' hm => hm.2)
    rw [(testAll_iff M b ms ms1 h1).2 g1]
    simp only [hc]
    exact (each_iff _ _ _).2 g2

theorem one_learner (M : Meters Y P μ ν) (amax : Int) (b : List (X × Y)) (m m' : Bundle σ X Y P μ ν) (h : One M amax b m m') :
    m'.learner = m.learner := by
  obtain ⟨-, m1, ⟨q, h1, h2⟩, h3⟩ := h
  have e1 : q.2.learner = m.learner := by
    unfold Bundle.test at h1
    split at h1 <;> cases h1
    rfl
  have e2 : m1.learner = q.2.learner := by
    unfold Bundle.scored at h2
    split at h2 <;> cases h2
    rfl
  have e3 : m'.learner = m1.learner := by
    unfold Bundle.train at h3
    split at h3 <;> cases h3
    rfl
  rw [e3, e2, e1]

theorem forall₂_get {α β : Type} {R : α → β → Prop} {l : List α} {m : List β} (h : List.Forall₂ R l m) (j : Nat) (a : α)
    (ha : l[j]? = some a) : ∃ b, m[j]? = some b ∧ R a b := by
  induction h generalizing j with
  | nil => simp at ha
  | cons h _ ih =>
    cases j with
    | zero =>
      simp only [List.getElem?_cons_zero, Option.some.injEq] at ha
      subst ha
      exact ⟨_, rfl, h⟩
    | succ j => exact ih j (by simpa using ha)

/-- A state of the joint evaluation and one of that of model `j`, in step. -/
structure InStep (ms : List Metric) (j : Nat) (t u : St (List (Bundle σ X Y P μ ν))) : Prop where
  count : u.count = t.count
  upd : u.upd = t.upd
  iters : u.iters = t.iters
  one : ∀ m ∈ t.st, OneEach m.learner
  st : ∃ m, t.st[j]? = some m ∧ u.st = [m]
  rows : about j t.rows = about 0 u.rows
  fits : Fits t.buf ms
  fits' : Fits u.buf ms

theorem loop_extends {τ : Type} (E : Env τ) (C : Conf) (fuel : Nat) (s s' : St τ) (h : loop E C fuel s = some s') :
    s.rows <+: s'.rows := by
  induction fuel generalizing s with
  | zero => cases h
  | succ fuel ih =>
    rcases loop_cases E C fuel s s' h with ⟨h1, -⟩ | ⟨-, -, -, st', -, hr⟩
    · rw [h1]
    · rcases hr with ⟨-, b', -, h⟩ | ⟨-, h⟩
      · exact (List.prefix_append _ _).trans (ih _ h)
      · exact ih ⟨s.count + C.batch, s.upd, s.iters + 1, st', s.buf, s.rows⟩ h

theorem computable_one (t : Task) (n : Nat) (hn : 0 < n) (w w' : World) (hw : w'.x = w.x) (m : Metric) :
    Computable t n w m ↔ Computable t 1 w' m := by
  have : n ≠ 0 := by omega
  cases m <;> simp [Computable, hn, hw, this]

theorem about_append (j : Nat) (a b : List (Int × World)) : about j (a ++ b) = about j a ++ about j b := List.map_append

theorem fits_after (t : Task) (n : Nat) (sid : Int) (w : World) (ms : List Metric) (hne : ms ≠ []) (b b' : Buf) (hf : Fits b ms)
    (h : updateMetrics t n sid w ms b = .ok b') : Fits b' ms := by
  obtain ⟨b2, e2, i2, -⟩ := updateMetrics_ok t n sid w ms b hne (computable_of_ok t n sid w ms b b' h) hf
  rw [h] at e2
  cases e2
  intro m hm
  rw [i2]
  exact hf m hm

variable (M : Meters Y P μ ν) (rest : World) (s : Src (X × Y)) (idx : Nat) (C : Conf) (timeOk : Nat → Bool)

/-- The loop condition of `_train_and_test`. -/
def goesOn (count : Nat) (iters : Nat) : Bool :=
  (count : Int) < C.amax && (timeOk iters && s.hasMore (idx + C.pretrain + iters * C.batch))

theorem solo_step (j : Nat) (t u : St (List (Bundle σ X Y P μ ν))) (hs : InStep C.ms j t u) (st' : List (Bundle σ X Y P μ ν))
    (h : (env M rest s idx C timeOk).step t.iters t.st = .ok st') :
    (∀ m ∈ st', OneEach m.learner) ∧ ∃ m', st'[j]? = some m' ∧ (env M rest s idx C timeOk).step u.iters u.st = .ok [m'] := by
  obtain ⟨m, hm, hu⟩ := hs.st
  have hne : t.st ≠ [] := by rintro e; rw [e] at hm; simp at hm
  have hf := (iteration_iff M C.amax _ t.st st' hne hs.one).1 h
  refine ⟨?_, ?_⟩
  · intro m' hm'
    obtain ⟨i, hi, rfl⟩ := List.getElem_of_mem hm'
    have hl := hf.length_eq
    obtain ⟨b, hb, ho⟩ := forall₂_get hf i t.st[i] (List.getElem?_eq_getElem (by omega))
    rw [List.getElem?_eq_getElem hi, Option.some.injEq] at hb
    rw [hb, one_learner M _ _ _ _ ho]
    exact hs.one _ (List.getElem_mem _)
  · obtain ⟨m', hm', ho⟩ := forall₂_get hf j m hm
    refine ⟨m', hm', ?_⟩
    rw [hs.iters, hu]
    exact (iteration_iff M C.amax _ [m] [m'] (by simp) (by
      intro a ha; rw [List.mem_singleton] at ha; rw [ha]; exact hs.one m (List.mem_of_getElem? hm))).2 (.cons ho .nil)

theorem world_about (j : Nat) (st' : List (Bundle σ X Y P μ ν)) (m : Bundle σ X Y P μ ν) (hm : st'[j]? = some m) (sid : Int) :
    about j [(sid, world M rest st')] = about 0 [(sid, world M rest [m])] := by
  simp [about, world, hm]

theorem joint_solo (hn : 0 < C.n) (hne : C.ms ≠ []) (j : Nat) (fuel fuel' : Nat) (t t' u u' : St (List (Bundle σ X Y P μ ν)))
    (hs : InStep C.ms j t u) (h : loop (env M rest s idx C timeOk) C fuel t = some t')
    (h' : loop (env M rest s idx C timeOk) (Conf.alone C) fuel' u = some u') :
    about j t'.rows <+: about 0 u'.rows ∧
      (goesOn s idx C timeOk t'.count t'.iters = false → about j t'.rows = about 0 u'.rows) := by
  induction fuel generalizing fuel' t u with
  | zero => cases h
  | succ fuel ih =>
    cases fuel' with
    | zero => cases h'
    | succ fuel' =>
      have hext : about j t.rows <+: about 0 u'.rows := by
        rw [hs.rows]
        exact (loop_extends _ _ _ _ _ h').map _
      unfold loop at h h'
      rw [hs.count, hs.iters] at h'
      by_cases hcond : ((t.count : Int) < C.amax && (env (σ := σ) M rest s idx C timeOk).more t.iters) = true
      · have hgo : goesOn s idx C timeOk t.count t.iters = true := hcond
        rw [if_pos hcond] at h
        rw [if_pos (show ((t.count : Int) < (Conf.alone C).amax && (env (σ := σ) M rest s idx C timeOk).more t.iters) = true from hcond)] at h'
        cases hstep : (env M rest s idx C timeOk).step t.iters t.st with
        | error e =>
          rw [hstep] at h
          cases h
          exact ⟨hext, fun hf => by rw [hgo] at hf; cases hf⟩
        | ok st' =>
          obtain ⟨hone, m', hm', hsolo⟩ := solo_step M rest s idx C timeOk j t u hs st' hstep
          rw [hs.iters] at hsolo
          rw [hstep] at h
          rw [hsolo] at h'
          simp only at h h'
          by_cases hw : C.nWait = 0
          · rw [if_pos hw] at h
            cases h
            exact ⟨hext, fun hf => by rw [hgo] at hf; cases hf⟩
          rw [if_neg hw] at h
          rw [if_neg (show ¬ (Conf.alone C).nWait = 0 from hw), hs.upd] at h'
          have hdue : due (Conf.alone C) (t.count + (Conf.alone C).batch) t.upd = due C (t.count + C.batch) t.upd := rfl
          rw [hdue] at h'
          cases hd : due C (t.count + C.batch) t.upd with
          | false =>
            rw [hd, if_neg (by simp)] at h h'
            exact ih fuel' ⟨t.count + C.batch, t.upd, t.iters + 1, st', t.buf, t.rows⟩ ⟨t.count + C.batch, t.upd, t.iters + 1, [m'], u.buf, u.rows⟩
              ⟨rfl, rfl, rfl, hone, ⟨m', hm', rfl⟩, hs.rows, hs.fits, hs.fits'⟩ h h'
          | true =>
            rw [hd, if_pos rfl] at h h'
            cases hu : updateMetrics C.task C.n (((t.count + C.batch : Nat) : Int) - C.batch) ((env M rest s idx C timeOk).world st') C.ms t.buf with
            | error e =>
              rw [hu] at h
              cases h
              exact ⟨hext, fun hf => by rw [hgo] at hf; cases hf⟩
            | ok b =>
              rw [hu] at h
              have hc := computable_of_ok _ _ _ _ _ _ _ hu
              obtain ⟨b2, e2, -⟩ := updateMetrics_ok C.task 1 (((t.count + C.batch : Nat) : Int) - C.batch)
                ((env M rest s idx C timeOk).world [m']) C.ms u.buf hne
                (fun m hm => (computable_one C.task C.n hn _ ((env M rest s idx C timeOk).world [m']) (by rfl) m).1 (hc m hm)) hs.fits'
              have e2' : updateMetrics (Conf.alone C).task (Conf.alone C).n (((t.count + (Conf.alone C).batch : Nat) : Int) - (Conf.alone C).batch)
                ((env M rest s idx C timeOk).world [m']) (Conf.alone C).ms u.buf = .ok b2 := e2
              rw [e2'] at h'
              refine ih fuel' ⟨t.count + C.batch, t.upd + 1, t.iters + 1, st', b,
                t.rows ++ [(((t.count + C.batch : Nat) : Int) - C.batch, (env M rest s idx C timeOk).world st')]⟩ ⟨t.count + C.batch, t.upd + 1, t.iters + 1, [m'], b2,
                u.rows ++ [(((t.count + C.batch : Nat) : Int) - C.batch, (env M rest s idx C timeOk).world [m'])]⟩ ⟨rfl, rfl, rfl, hone, ⟨m', hm', rfl⟩, ?_, fits_after _ _ _ _ _ hne _ _ hs.fits hu, fits_after _ _ _ _ _ hne _ _ hs.fits' e2⟩ h h'
              simp only [about_append, hs.rows]
              congr 1
              exact world_about M rest j st' m' hm' _
      · rw [if_neg hcond] at h
        rw [if_neg (show ¬ ((t.count : Int) < (Conf.alone C).amax && (env (σ := σ) M rest s idx C timeOk).more t.iters) = true from hcond)] at h'
        cases h; cases h'
        exact ⟨by rw [hs.rows], fun _ => hs.rows⟩

theorem loop_on {τ : Type} (E : Env τ) (C : Conf) (fuel : Nat) (u u' : St τ) (h : loop E C (fuel + 1) u = some u')
    (hon : ((u.count : Int) < C.amax && E.more u.iters) = true) (hoff : ((u'.count : Int) < C.amax && E.more u'.iters) = false) :
    0 < C.nWait ∧ ∃ st', E.step u.iters u.st = .ok st' ∧
        ((due C (u.count + C.batch) u.upd = true ∧
          ∃ b', updateMetrics C.task C.n (u.count : Int) (E.world st') C.ms u.buf = .ok b' ∧
          loop E C fuel ⟨u.count + C.batch, u.upd + 1, u.iters + 1, st', b',
            u.rows ++ [((u.count : Int), E.world st')]⟩ = some u') ∨
        (due C (u.count + C.batch) u.upd = false ∧
          loop E C fuel ⟨u.count + C.batch, u.upd, u.iters + 1, st', u.buf, u.rows⟩ = some u')) := by
  rcases loop_cases E C fuel u u' h with ⟨-, h2, h3, -⟩ | ⟨-, -, hw, st', h1, h2⟩
  · rw [h2, h3, hon] at hoff; cases hoff
  · exact ⟨hw, st', h1, h2⟩

theorem forall₂_of_get {α β : Type} (R : α → β → Prop) (l : List α) (h : ∀ (j : Nat) a, l[j]? = some a → ∃ b, R a b) :
    ∃ m, List.Forall₂ R l m := by
  induction l with
  | nil => exact ⟨[], .nil⟩
  | cons a l ih =>
    obtain ⟨b, hb⟩ := h 0 a rfl
    obtain ⟨m, hm⟩ := ih fun j a' ha' => h (j + 1) a' (by simpa using ha')
    exact ⟨b :: m, .cons hb hm⟩

theorem solos_joint (hn : 0 < C.n) (hne : C.ms ≠ []) (fuel : Nat) (t t' : St (List (Bundle σ X Y P μ ν))) (hpos : t.st ≠ [])
    (hone : ∀ m ∈ t.st, OneEach m.learner) (hfits : Fits t.buf C.ms)
    (hs : ∀ (j : Nat) m, t.st[j]? = some m → ∃ u u' fuel', u.st = [m] ∧ u.count = t.count ∧ u.upd = t.upd ∧ u.iters = t.iters ∧ Fits u.buf C.ms ∧
      loop (env M rest s idx C timeOk) (Conf.alone C) fuel' u = some u' ∧ goesOn s idx C timeOk u'.count u'.iters = false)
    (h : loop (env M rest s idx C timeOk) C fuel t = some t') : goesOn s idx C timeOk t'.count t'.iters = false := by
  induction fuel generalizing t with
  | zero => cases h
  | succ fuel ih =>
    by_cases hgo : goesOn s idx C timeOk t.count t.iters = true
    · -- every model alone takes one more step
      let R : Bundle σ X Y P μ ν → Bundle σ X Y P μ ν → Prop := fun m m' =>
        One M C.amax (s.take (idx + C.pretrain + t.iters * C.batch) C.batch) m m' ∧
          0 < C.nWait ∧ (due C (t.count + C.batch) t.upd = true → ∀ k ∈ C.ms, Computable C.task C.n (world M rest ([] : List (Bundle σ X Y P μ ν))) k) ∧
          ∃ u u' fuel', u.st = [m'] ∧ u.count = t.count + C.batch ∧
            u.upd = (if due C (t.count + C.batch) t.upd then t.upd + 1 else t.upd) ∧ u.iters = t.iters + 1 ∧ Fits u.buf C.ms ∧
            loop (env M rest s idx C timeOk) (Conf.alone C) fuel' u = some u' ∧ goesOn s idx C timeOk u'.count u'.iters = false
      have hstep : ∀ (j : Nat) m, t.st[j]? = some m → ∃ m', R m m' := by
        intro j m hm
        obtain ⟨u, u', fuel', h1, h2, h3, h4, h5, h6, h7⟩ := hs j m hm
        cases fuel' with
        | zero => cases h6
        | succ fuel' =>
          obtain ⟨hw, st', g1, g2⟩ := loop_on _ _ fuel' u u' h6 (by rw [h2, h4]; exact hgo) h7
          have hO : OneEach m.learner := hone m (List.mem_of_getElem? hm)
          have g1' : iteration M C.amax (s.take (idx + C.pretrain + t.iters * C.batch) C.batch) [m] = .ok st' := by
            rw [h1, h4] at g1; exact g1
          have hf := (iteration_iff M C.amax _ [m] st' (by simp) (by intro a ha; rw [List.mem_singleton] at ha; rw [ha]; exact hO)).1 g1'
          cases hf with
          | @cons _ m' _ r ho hr =>
          cases hr
          refine ⟨m', ho, hw, ?_, ?_⟩
          · intro hd k hk
            rcases g2 with ⟨-, b', e1, -⟩ | ⟨hd', -⟩
            · have hc := computable_of_ok _ _ _ _ _ _ _ e1 k hk
              exact (computable_one C.task C.n hn _ ((env M rest s idx C timeOk).world [m']) (by rfl) k).2 hc
            · rw [h2, h3] at hd'
              rw [show due (Conf.alone C) (t.count + (Conf.alone C).batch) t.upd = due C (t.count + C.batch) t.upd from rfl, hd] at hd'
              cases hd'
          · rcases g2 with ⟨hd, b', e1, g3⟩ | ⟨hd, g3⟩
            · rw [h2, h3] at hd
              have hd' : due C (t.count + C.batch) t.upd = true := hd
              refine ⟨_, u', fuel', rfl, ?_, ?_, ?_, ?_, g3, h7⟩
              · simp only [h2]; rfl
              · simp only [h3, hd', if_true]
              · simp only [h4]
              · exact fits_after _ _ _ _ _ hne _ _ h5 e1
            · rw [h2, h3] at hd
              have hd' : due C (t.count + C.batch) t.upd = false := hd
              refine ⟨⟨u.count + (Conf.alone C).batch, u.upd, u.iters + 1, [m'], u.buf, u.rows⟩, u', fuel', rfl, ?_, ?_, ?_, h5, g3, h7⟩
              · simp only [h2]; rfl
              · simp [h3, hd']
              · simp only [h4]
      obtain ⟨st', hR⟩ := forall₂_of_get R t.st hstep
      have hf : List.Forall₂ (One M C.amax (s.take (idx + C.pretrain + t.iters * C.batch) C.batch)) t.st st' := hR.imp fun _ _ h => h.1
      have hit : (env M rest s idx C timeOk).step t.iters t.st = .ok st' := (iteration_iff M C.amax _ t.st st' hpos hone).2 hf
      have hpos' : st' ≠ [] := by
        rintro e
        have := hf.length_eq
        rw [e, List.length_nil] at this
        exact hpos (List.eq_nil_of_length_eq_zero this)
      have hone' : ∀ m ∈ st', OneEach m.learner := by
        intro m' hm'
        obtain ⟨i, hi, rfl⟩ := List.getElem_of_mem hm'
        have hl := hf.length_eq
        obtain ⟨b, hb, ho⟩ := forall₂_get hf i t.st[i] (List.getElem?_eq_getElem (by omega))
        rw [List.getElem?_eq_getElem hi, Option.some.injEq] at hb
        rw [hb, one_learner M _ _ _ _ ho]
        exact hone _ (List.getElem_mem _)
      have hget : ∀ (j : Nat) m', st'[j]? = some m' → ∃ m, R m m' := by
        intro j m' hm'
        have hj : j < st'.length := (List.getElem?_eq_some_iff.mp hm').1
        have hl := hf.length_eq
        obtain ⟨b, hb, ho⟩ := forall₂_get hR j t.st[j] (List.getElem?_eq_getElem (by omega))
        rw [hm', Option.some.injEq] at hb
        exact ⟨_, hb ▸ ho⟩
      obtain ⟨m0, hm0⟩ := hget 0 (st'[0]'(List.length_pos_of_ne_nil hpos')) (List.getElem?_eq_getElem _)
      have hw : C.nWait ≠ 0 := by have := hm0.2.1; omega
      unfold loop at h
      rw [if_pos (show ((t.count : Int) < C.amax && (env (σ := σ) M rest s idx C timeOk).more t.iters) = true from hgo), hit] at h
      simp only [if_neg hw] at h
      cases hd : due C (t.count + C.batch) t.upd with
      | false =>
        rw [hd, if_neg (by simp)] at h
        refine ih ⟨t.count + C.batch, t.upd, t.iters + 1, st', t.buf, t.rows⟩ hpos' hone' hfits ?_ h
        intro j m' hm'
        obtain ⟨m, -, -, -, u, u', fuel', g1, g2, g3, g4, g5, g6, g7⟩ := hget j m' hm'
        rw [hd, if_neg (by simp)] at g3
        exact ⟨u, u', fuel', g1, g2, g3, g4, g5, g6, g7⟩
      | true =>
        rw [hd, if_pos rfl] at h
        obtain ⟨b, e, -⟩ := updateMetrics_ok C.task C.n (((t.count + C.batch : Nat) : Int) - C.batch)
          ((env M rest s idx C timeOk).world st') C.ms t.buf hne
          (fun k hk => by
            have := (computable_one C.task C.n hn _ (world M rest st') rfl k).1 (hm0.2.2.1 hd k hk)
            exact (computable_one C.task C.n hn (world M rest st') (world M rest st') rfl k).2 this) hfits
        rw [e] at h
        refine ih ⟨t.count + C.batch, t.upd + 1, t.iters + 1, st', b, _⟩ hpos' hone' (fits_after _ _ _ _ _ hne _ _ hfits e) ?_ h
        intro j m' hm'
        obtain ⟨m, -, -, -, u, u', fuel', g1, g2, g3, g4, g5, g6, g7⟩ := hget j m' hm'
        rw [hd, if_pos rfl] at g3
        exact ⟨u, u', fuel', g1, g2, g3, g4, g5, g6, g7⟩
    · unfold loop at h
      rw [if_neg (show ¬ ((t.count : Int) < C.amax && (env (σ := σ) M rest s idx C timeOk).more t.iters) = true from hgo)] at h
      cases h
      simpa using hgo

/-! ### C290 -/

theorem pre_iff (ms ms' : List (Bundle σ X Y P μ ν)) :
    (if C.pretrain > 0 then (env M rest s idx C timeOk).pre ms else .ok ms) = .ok ms' ↔
      List.Forall₂ (fun m m' => (if C.pretrain > 0 then Bundle.train (s.take idx C.pretrain) m else .ok m) = .ok m') ms ms' := by
  by_cases hp : C.pretrain > 0
  · simp only [if_pos hp]
    exact each_iff _ _ _
  · simp only [if_neg hp, Except.ok.injEq]
    rw [List.forall₂_eq_eq_eq]

theorem pre_one (ms : List (Bundle σ X Y P μ ν)) (ms' : List (Bundle σ X Y P μ ν)) (h1 : ∀ m ∈ ms, OneEach m.learner)
    (h : (if C.pretrain > 0 then (env M rest s idx C timeOk).pre ms else .ok ms) = .ok ms') : ∀ m ∈ ms', OneEach m.learner := by
  have hf := (pre_iff M rest s idx C timeOk ms ms').1 h
  intro m' hm'
  obtain ⟨i, hi, rfl⟩ := List.getElem_of_mem hm'
  have hl := hf.length_eq
  obtain ⟨b, hb, ho⟩ := forall₂_get hf i ms[i] (List.getElem?_eq_getElem (by omega))
  rw [List.getElem?_eq_getElem hi, Option.some.injEq] at hb
  rw [hb]
  have : b.learner = ms[i].learner := by
    split at ho
    · unfold Bundle.train at ho
      split at ho <;> cases ho
      rfl
    · cases ho; rfl
  rw [this]
  exact h1 _ (List.getElem_mem _)

theorem evaluate_state {τ : Type} (E : Env τ) (C : Conf) (hne : C.ms ≠ []) (fuel : Nat) (st : τ) (o : Outcome)
    (h : evaluate E C fuel st = some o) :
    (∃ e, (if C.pretrain > 0 then E.pre st else .ok st) = .error e ∧ o.rows = []) ∨
    ∃ b st1 t, initBuf C.ms = .ok b ∧ Fits b C.ms ∧ (if C.pretrain > 0 then E.pre st else .ok st) = .ok st1 ∧
      loop E C fuel ⟨C.pretrain, 0, 0, st1, b, []⟩ = some t ∧ o.rows = t.rows := by
  obtain ⟨b, hb, hf⟩ := initBuf_ok C.ms hne
  unfold evaluate at h
  rw [hb] at h
  simp only at h
  cases hp : (if C.pretrain > 0 then E.pre st else .ok st) with
  | error e => rw [hp] at h; cases h; exact .inl ⟨e, rfl, rfl⟩
  | ok st1 =>
    rw [hp] at h
    simp only at h
    cases hl : loop E C fuel ⟨C.pretrain, 0, 0, st1, b, []⟩ with
    | none => rw [hl] at h; cases h
    | some t =>
      rw [hl] at h
      simp only at h
      refine .inr ⟨b, st1, t, hb, hf, rfl, hl, ?_⟩
      split at h
      · split at h <;> cases h <;> rfl
      · cases h; rfl

theorem together (hn : 0 < C.n) (hne : C.ms ≠ []) (models : List (Bundle σ X Y P μ ν)) (h1 : ∀ m ∈ models, OneEach m.learner)
    (fuel : Nat) (o : Outcome) (h : evaluate (env M rest s idx C timeOk) C fuel models = some o)
    (j : Nat) (m : Bundle σ X Y P μ ν) (hm : models[j]? = some m) (fuel' : Nat) (o' : Outcome)
    (h' : evaluate (env M rest s idx C timeOk) (Conf.alone C) fuel' [m] = some o') :
    about j o.rows <+: about 0 o'.rows ∧
      (Finishes (env M rest s idx C timeOk) C fuel models → about j o.rows = about 0 o'.rows) := by
  rcases evaluate_state _ C hne fuel models o h with ⟨e, he, hr⟩ | ⟨b, st1, t, hb, hf, hp, hl, hr⟩
  · rw [hr]
    refine ⟨List.nil_prefix, ?_⟩
    rintro ⟨b, st1, t, -, hp, -⟩
    rw [he] at hp; cases hp
  · have hpf := (pre_iff M rest s idx C timeOk models st1).1 hp
    obtain ⟨m1, hm1, ht⟩ := forall₂_get hpf j m hm
    have hp' : (if (Conf.alone C).pretrain > 0 then (env M rest s idx C timeOk).pre [m] else .ok [m]) = .ok [m1] :=
      (pre_iff M rest s idx C timeOk [m] [m1]).2 (.cons ht .nil)
    rcases evaluate_state _ (Conf.alone C) hne fuel' [m] o' h' with ⟨e, he, -⟩ | ⟨b', st2, t', hb', hf', hq, hl', hr'⟩
    · rw [hp'] at he; cases he
    · rw [hp'] at hq
      cases hq
      have hb2 : b' = b := by
        have : initBuf C.ms = .ok b' := hb'
        rw [hb] at this; cases this; rfl
      subst hb2
      have key := joint_solo M rest s idx C timeOk hn hne j fuel fuel' ⟨C.pretrain, 0, 0, st1, b', []⟩ t ⟨C.pretrain, 0, 0, [m1], b', []⟩ t'
        ⟨rfl, rfl, rfl, pre_one M rest s idx C timeOk models st1 h1 hp, ⟨m1, hm1, rfl⟩, rfl, hf, hf⟩ hl hl'
      rw [hr, hr']
      refine ⟨key.1, ?_⟩
      rintro ⟨b2, st3, t2, e1, e2, e3, e4⟩
      rw [hb] at e1; cases e1
      rw [hp] at e2; cases e2
      rw [hl] at e3; cases e3
      exact key.2 e4

/-- **C290** (part): in an evaluation of several models, what is reported about each model is the beginning of what is
reported when it is evaluated alone: no model changes the figures of another. -/
theorem C290_beginning (hn : 0 < C.n) (hne : C.ms ≠ []) (models : List (Bundle σ X Y P μ ν)) (h1 : ∀ m ∈ models, OneEach m.learner)
    (fuel : Nat) (o : Outcome) (h : evaluate (env M rest s idx C timeOk) C fuel models = some o)
    (j : Nat) (m : Bundle σ X Y P μ ν) (hm : models[j]? = some m) (fuel' : Nat) (o' : Outcome)
    (h' : evaluate (env M rest s idx C timeOk) (Conf.alone C) fuel' [m] = some o') :
    about j o.rows <+: about 0 o'.rows :=
  (together M rest s idx C timeOk hn hne models h1 fuel o h j m hm fuel' o' h').1

/-- **C290**: if each model alone is evaluated to the end, then so are all together, and what is reported about each is
what is reported when it is evaluated alone. -/
theorem C290_same_reports (hn : 0 < C.n) (hne : C.ms ≠ []) (models : List (Bundle σ X Y P μ ν)) (hpos : models ≠ [])
    (h1 : ∀ m ∈ models, OneEach m.learner) (fuel fuel' : Nat) (o : Outcome)
    (h : evaluate (env M rest s idx C timeOk) C fuel models = some o)
    (hfin : ∀ m ∈ models, Finishes (env M rest s idx C timeOk) (Conf.alone C) fuel' [m])
    (j : Nat) (m : Bundle σ X Y P μ ν) (hm : models[j]? = some m) (o' : Outcome)
    (h' : evaluate (env M rest s idx C timeOk) (Conf.alone C) fuel' [m] = some o') :
    Finishes (env M rest s idx C timeOk) C fuel models ∧ about j o.rows = about 0 o'.rows := by
  have hF : Finishes (env M rest s idx C timeOk) C fuel models := by
    have hsolo : ∀ m ∈ models, ∃ b t m1, initBuf C.ms = .ok b ∧
        (if C.pretrain > 0 then Bundle.train (s.take idx C.pretrain) m else .ok m) = .ok m1 ∧
        loop (env M rest s idx C timeOk) (Conf.alone C) fuel' ⟨C.pretrain, 0, 0, [m1], b, []⟩ = some t ∧
        goesOn s idx C timeOk t.count t.iters = false := by
      intro m hm
      obtain ⟨b, st1, t, e1, e2, e3, e4⟩ := hfin m hm
      have := (pre_iff M rest s idx C timeOk [m] st1).1 e2
      cases this with
      | cons ho hr =>
        cases hr
        exact ⟨b, t, _, e1, ho, e3, e4⟩
    rcases evaluate_state _ C hne fuel models o h with ⟨e, he, -⟩ | ⟨b, st1, t, hb, hf, hp, hl, -⟩
    · obtain ⟨st1, hst⟩ := forall₂_of_get (fun m m' => (if C.pretrain > 0 then Bundle.train (s.take idx C.pretrain) m else .ok m) = .ok m')
        models (fun i m hm => by obtain ⟨-, -, m1, -, h, -⟩ := hsolo m (List.mem_of_getElem? hm); exact ⟨m1, h⟩)
      rw [(pre_iff M rest s idx C timeOk models st1).2 hst] at he
      cases he
    · refine ⟨b, st1, t, hb, hp, hl, ?_⟩
      have hpf := (pre_iff M rest s idx C timeOk models st1).1 hp
      refine solos_joint M rest s idx C timeOk hn hne fuel ⟨C.pretrain, 0, 0, st1, b, []⟩ t ?_
        (pre_one M rest s idx C timeOk models st1 h1 hp) hf ?_ hl
      · rintro e
        have := hpf.length_eq
        simp only at e
        rw [e, List.length_nil] at this
        exact hpos (List.eq_nil_of_length_eq_zero this)
      · intro i m1 hm1
        have hlt : i < st1.length := (List.getElem?_eq_some_iff.mp hm1).1
        have hleq := hpf.length_eq
        have hi : models[i]? = some (models[i]'(by omega)) := List.getElem?_eq_getElem _
        obtain ⟨m2, hm2, ho⟩ := forall₂_get hpf i _ hi
        obtain ⟨b', t', m3, e1, e2, e3, e4⟩ := hsolo _ (List.mem_of_getElem? hi)
        rw [ho] at e2
        cases e2
        simp only at hm1
        rw [hm1] at hm2
        cases hm2
        rw [hb] at e1
        cases e1
        exact ⟨⟨C.pretrain, 0, 0, [m1], b, []⟩, t', fuel', rfl, rfl, rfl, rfl, hf, e3, e4⟩
  exact ⟨hF, (together M rest s idx C timeOk hn hne models h1 fuel o h j m hm fuel' o' h').2 hF⟩

/-! ### Examples -/

/-- A learner that always says 1 and, if its state is positive, fails when it has counted down to zero. -/
def brittle : Learner Int Nat Int Int where
  fit := fun s _ => if s = 1 then .error .valueError else .ok (s - 1)
  predict := fun s xs => .ok (xs.map fun _ => 1, s)

/-- Two models. -/
def two (k : Int) : List (Bundle Int Nat Int Int Metrics.Eval Metrics.WEval) := [(lastLabel, 7), (brittle, k)].map (newClassifier 3)

/-- The configuration for two models. -/
def conf2 : Conf := { conf with n := 2 }

/-- What is reported about model `j`: sample id, mean and current accuracy. -/
def shown (j : Nat) (o : Option Outcome) : Option (List (Int × ℚ × ℚ)) :=
  o.map fun o => o.rows.map fun r => (r.1, r.2.mean j .accuracy, r.2.current j .accuracy)

/-- No exception: each model gets the figures it gets alone. -/
example : shown 0 (evaluate (env (classMeters fun _ _ => 0) noWorld pairsOfTwo 0 conf2 fun _ => true) conf2 40 (two 0)) =
      some [(7, 4/7, 2/3), (15, 8/15, 2/3), (23, 12/23, 2/3), (29, 15/29, 2/3)] ∧
    shown 1 (evaluate (env (classMeters fun _ _ => 0) noWorld pairsOfTwo 0 conf2 fun _ => true) conf2 40 (two 0)) =
      shown 0 (evaluate (env (classMeters fun _ _ => 0) noWorld pairsOfTwo 0 conf2 fun _ => true) (Conf.alone conf2) 40
        ([(brittle, (0 : Int))].map (newClassifier 3))) := by
  constructor <;> decide +kernel

/-- The second model fails after twenty rows: the reports about the first end there, too. -/
example : shown 0 (evaluate (env (classMeters fun _ _ => 0) noWorld pairsOfTwo 0 conf2 fun _ => true) conf2 40 (two 20)) =
      some [(7, 4/7, 2/3), (15, 8/15, 2/3)] := by
  decide +kernel

end Verif.Evaluation.Honest
