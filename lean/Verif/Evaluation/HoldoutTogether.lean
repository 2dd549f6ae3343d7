import Verif.Evaluation.HoldoutRows
import Verif.Evaluation.Together

/-!
C312: several models in one holdout evaluation (evaluate_holdout.py 228-345, loops over `self.n_models`).  Model: that of
`HoldoutRows.lean`.
-/

namespace Verif.Evaluation.HoldoutRows

open Verif.Evaluation Verif.Evaluation.Report Verif.Evaluation.Honest

variable {σ X Y P μ ν : Type}

/-! ### Specification -/

/-- The same evaluation of one model. -/
def HConf.alone (C : HConf) : HConf := { C with n := 1 }

/-- From state `a` the loop comes to its end: no iteration raises an exception. -/
def LoopEnds (M : Meters Y P μ ν) (rest : World) (s : Src (X × Y)) (C : HConf) (timeOk : Nat → Bool) (T : List (X × Y)) :
    Nat → HSt (Bundle σ X Y P μ ν) → Prop
  | 0, _ => False
  | fuel + 1, a => ((a.count : Int) < C.amax && timeOk a.k && s.hasMore a.idx) = true →
      ∃ a', step M rest s C T a = .ok a' ∧ LoopEnds M rest s C timeOk T fuel a'

/-- The evaluation comes to its end: no model raises an exception. -/
def Ends (M : Meters Y P μ ν) (rest : World) (s : Src (X × Y)) (idx : Nat) (C : HConf) (timeOk : Nat → Bool)
    (fuel : Nat) (ms : List (Bundle σ X Y P μ ν)) : Prop :=
  ∃ b, initBuf C.ms = .ok b ∧
    if C.dynamic then LoopEnds M rest s C timeOk [] fuel ⟨0, idx, 0, 0, ms, b, []⟩
    else LoopEnds M rest s C timeOk (s.take idx C.testSize) fuel ⟨0, idx + C.testSize, C.testSize, 0, ms, b, []⟩

/-! ### Proofs -/

/-- The test set of an iteration, if there is a test. -/
private def testSet (s : Src (X × Y)) (C : HConf) (T : List (X × Y)) (idx count cnt : Nat) : Option (List (X × Y)) :=
  if performTest C.dynamic C.nWait C.testSize (count + C.batch) cnt C.amax then
    some (if C.dynamic then s.take (idx + C.batch) C.testSize else T)
  else none

/-- Position and count after a test. -/
private def after (C : HConf) (idx count len : Nat) : Nat × Nat :=
  if C.dynamic then (idx + C.batch + C.testSize, count + C.batch + len) else (idx + C.batch, count + C.batch)

/-- What an iteration does with a model. -/
private def OneH (M : Meters Y P μ ν) (b : List (X × Y)) (t : Option (List (X × Y))) (m m' : Bundle σ X Y P μ ν) : Prop :=
  ∃ m1, Bundle.train b m = .ok m1 ∧
    match t with
    | none => m' = m1
    | some t => ∃ q, Bundle.test (t.map Prod.fst) m1 = .ok q ∧ Bundle.scored M (t.map Prod.snd) t.length q = .ok m'

private theorem train_learner (b : List (X × Y)) (m m' : Bundle σ X Y P μ ν) (h : Bundle.train b m = .ok m') : m'.learner = m.learner := by
  unfold Bundle.train at h
  split at h <;> cases h
  rfl

private theorem oneH_learner (M : Meters Y P μ ν) (b : List (X × Y)) (t : Option (List (X × Y))) (m m' : Bundle σ X Y P μ ν)
    (h : OneH M b t m m') : m'.learner = m.learner := by
  obtain ⟨m1, h1, h2⟩ := h
  have e1 := train_learner b m m1 h1
  cases t with
  | none => simp only at h2; rw [h2, e1]
  | some t =>
    obtain ⟨q, h3, h4⟩ := h2
    have e2 : q.2.learner = m1.learner := by
      unfold Bundle.test at h3
      split at h3 <;> cases h3
      rfl
    have e3 : m'.learner = q.2.learner := by
      unfold Bundle.scored at h4
      split at h4 <;> cases h4
      rfl
    rw [e3, e2, e1]

variable (M : Meters Y P μ ν) (rest : World) (s : Src (X × Y)) (C : HConf) (timeOk : Nat → Bool) (T : List (X × Y))

/-- The outcome of an iteration with the states `ms'` of the models after it. -/
private def Out (C : HConf) (a : HSt (Bundle σ X Y P μ ν)) (ms' : List (Bundle σ X Y P μ ν)) (a' : HSt (Bundle σ X Y P μ ν)) : Prop :=
  match testSet s C T a.idx a.count a.cnt with
  | none => a' = ⟨a.k + 1, a.idx + C.batch, a.count + C.batch, a.cnt, ms', a.buf, a.rows⟩
  | some t => ∃ b', updateMetrics C.task C.n ((after C a.idx a.count t.length).2 : Int) (world M rest ms') C.ms a.buf = .ok b' ∧
      a' = ⟨a.k + 1, (after C a.idx a.count t.length).1, (after C a.idx a.count t.length).2, a.cnt + 1, ms', b',
        a.rows ++ [(((after C a.idx a.count t.length).2 : Int), world M rest ms')]⟩

private theorem step_iff (a a' : HSt (Bundle σ X Y P μ ν)) (h1 : ∀ m ∈ a.ms, OneEach m.learner) :
    step M rest s C T a = .ok a' ↔ checkProgress C.amax = .ok () ∧ (!C.dynamic && C.nWait == 0) = false ∧
      ∃ ms', List.Forall₂ (OneH M (s.take a.idx C.batch) (testSet s C T a.idx a.count a.cnt)) a.ms ms' ∧ Out M rest s T C a ms' a' := by
  have hone : ∀ ms1, List.Forall₂ (fun m m' => Bundle.train (s.take a.idx C.batch) m = .ok m') a.ms ms1 → ∀ m ∈ ms1, OneEach m.learner := by
    intro ms1 hf m' hm'
    obtain ⟨i, hi, rfl⟩ := List.getElem_of_mem hm'
    have hl := hf.length_eq
    obtain ⟨b, hb, ho⟩ := forall₂_get hf i a.ms[i] (List.getElem?_eq_getElem (by omega))
    rw [List.getElem?_eq_getElem hi, Option.some.injEq] at hb
    rw [hb, train_learner _ _ _ ho]
    exact h1 _ (List.getElem_mem _)
  have hphase : ∀ (t : List (X × Y)) (ms1 : List (Bundle σ X Y P μ ν)) (i c : Nat), (∀ m ∈ ms1, OneEach m.learner) →
      (testPhase M rest C t i c ms1 a = .ok a' ↔ ∃ ms2, List.Forall₂ (fun m m' => ∃ q, Bundle.test (t.map Prod.fst) m = .ok q ∧
        Bundle.scored M (t.map Prod.snd) t.length q = .ok m') ms1 ms2 ∧ ∃ b', updateMetrics C.task C.n (c : Int) (world M rest ms2) C.ms a.buf = .ok b' ∧
        a' = ⟨a.k + 1, i, c, a.cnt + 1, ms2, b', a.rows ++ [((c : Int), world M rest ms2)]⟩) := by
    intro t ms1 i c hms
    unfold testPhase
    constructor
    · intro h
      cases ht : testAll M t ms1 with
      | error e => rw [ht] at h; cases h
      | ok ms2 =>
        rw [ht] at h
        simp only at h
        cases hu : updateMetrics C.task C.n (c : Int) (world M rest ms2) C.ms a.buf with
        | error e => rw [hu] at h; cases h
        | ok b' =>
          rw [hu] at h
          simp only [Except.ok.injEq] at h
          exact ⟨ms2, (testAll_iff M t ms1 ms2 hms).1 ht, b', hu, h.symm⟩
    · rintro ⟨ms2, hf, b', hu, rfl⟩
      rw [(testAll_iff M t ms1 ms2 hms).2 hf]
      simp only [hu]
  unfold step
  constructor
  · intro h
    cases htr : each (Bundle.train (s.take a.idx C.batch)) a.ms with
    | error e => rw [htr] at h; cases h
    | ok ms1 =>
      rw [htr] at h
      simp only at h
      have hf := (each_iff _ _ _).1 htr
      cases hc : checkProgress C.amax with
      | error e => rw [hc] at h; cases h
      | ok w =>
        rw [hc] at h
        simp only at h
        by_cases hz : (!C.dynamic && C.nWait == 0) = true
        · rw [if_pos hz] at h; cases h
        rw [if_neg hz] at h
        refine ⟨rfl, by simpa using hz, ?_⟩
        unfold Out testSet after
        by_cases hp : performTest C.dynamic C.nWait C.testSize (a.count + C.batch) a.cnt C.amax = true
        · rw [if_pos hp] at h
          simp only [if_pos hp]
          by_cases hd : C.dynamic = true
          · rw [if_pos hd] at h
            simp only [if_pos hd]
            obtain ⟨ms2, g1, g2⟩ := (hphase _ _ _ _ (hone ms1 hf)).1 h
            exact ⟨ms2, (forall₂_comp _ _ _ _).1 ⟨ms1, hf, g1⟩, g2⟩
          · rw [if_neg hd] at h
            simp only [if_neg hd]
            obtain ⟨ms2, g1, g2⟩ := (hphase _ _ _ _ (hone ms1 hf)).1 h
            exact ⟨ms2, (forall₂_comp _ _ _ _).1 ⟨ms1, hf, g1⟩, g2⟩
        · rw [if_neg hp] at h
          simp only [if_neg hp]
          cases h
          exact ⟨ms1, hf.imp fun m m' h => ⟨m', h, rfl⟩, rfl⟩
  · rintro ⟨hc, hz, ms', hf, ho⟩
    unfold Out testSet after at ho
    unfold testSet at hf
    by_cases hp : performTest C.dynamic C.nWait C.testSize (a.count + C.batch) a.cnt C.amax = true
    · simp only [if_pos hp] at hf ho
      obtain ⟨ms1, g1, g2⟩ := (forall₂_comp (fun m m' => Bundle.train (s.take a.idx C.batch) m = .ok m') _ _ _).2 hf
      rw [(each_iff _ _ _).2 g1]
      simp only [hc, hz, Bool.false_eq_true, if_false, if_pos hp]
      by_cases hd : C.dynamic = true
      · simp only [if_pos hd] at g2 ho ⊢
        exact (hphase _ _ _ _ (hone ms1 g1)).2 ⟨ms', g2, ho⟩
      · simp only [if_neg hd] at g2 ho ⊢
        exact (hphase _ _ _ _ (hone ms1 g1)).2 ⟨ms', g2, ho⟩
    · simp only [if_neg hp] at hf ho
      have hf' : List.Forall₂ (fun m m' => Bundle.train (s.take a.idx C.batch) m = .ok m') a.ms ms' :=
        hf.imp fun m m' h => by obtain ⟨m1, h1, h2⟩ := h; rw [h2]; exact h1
      rw [(each_iff _ _ _).2 hf']
      simp only [hc, hz, Bool.false_eq_true, if_false, if_neg hp]
      rw [ho]

/-- A state of the joint evaluation and one of that of model `j`, in step. -/
private structure InStep (ms : List Metric) (j : Nat) (a u : HSt (Bundle σ X Y P μ ν)) : Prop where
  k : u.k = a.k
  idx : u.idx = a.idx
  count : u.count = a.count
  cnt : u.cnt = a.cnt
  one : ∀ m ∈ a.ms, OneEach m.learner
  st : ∃ m, a.ms[j]? = some m ∧ u.ms = [m]
  rows : about j a.rows = about 0 u.rows
  fits : Fits a.buf ms
  fits' : Fits u.buf ms

private theorem out_solo (hn : 0 < C.n) (hne : C.ms ≠ []) (j : Nat) (a u : HSt (Bundle σ X Y P μ ν)) (hs : InStep C.ms j a u)
    (ms' : List (Bundle σ X Y P μ ν)) (a' : HSt (Bundle σ X Y P μ ν)) (m' : Bundle σ X Y P μ ν) (hm' : ms'[j]? = some m')
    (h1 : ∀ m ∈ ms', OneEach m.learner) (h : Out M rest s T C a ms' a') :
    ∃ u', Out M rest s T C.alone u [m'] u' ∧ InStep C.ms j a' u' := by
  have hts : testSet s C.alone T u.idx u.count u.cnt = testSet s C T a.idx a.count a.cnt := by
    rw [hs.idx, hs.count, hs.cnt]; rfl
  have haf : ∀ n, after C.alone u.idx u.count n = after C a.idx a.count n := by
    intro n; rw [hs.idx, hs.count]; rfl
  unfold Out at h ⊢
  rw [hts]
  cases ht : testSet s C T a.idx a.count a.cnt with
  | none =>
    rw [ht] at h
    simp only at h ⊢
    refine ⟨_, rfl, ?_⟩
    rw [h]
    exact ⟨by simp [hs.k], by simp [hs.idx, HConf.alone], by simp [hs.count, HConf.alone], hs.cnt, h1, ⟨m', hm', rfl⟩, hs.rows, hs.fits, hs.fits'⟩
  | some t =>
    rw [ht] at h
    simp only [haf] at h ⊢
    obtain ⟨b', hu, ha'⟩ := h
    have hc := computable_of_ok _ _ _ _ _ _ _ hu
    obtain ⟨b2, e2, -⟩ := updateMetrics_ok C.task 1 ((after C a.idx a.count t.length).2 : Int) (world M rest [m']) C.ms u.buf hne
      (fun m hm => (computable_one C.task C.n hn _ (world M rest [m']) (by rfl) m).1 (hc m hm)) hs.fits'
    refine ⟨_, ⟨b2, e2, rfl⟩, ?_⟩
    rw [ha']
    refine ⟨by simp [hs.k], rfl, rfl, by simp [hs.cnt], h1, ⟨m', hm', rfl⟩, ?_, fits_after _ _ _ _ _ hne _ _ hs.fits hu, fits_after _ _ _ _ _ hne _ _ hs.fits' e2⟩
    simp only [about_append, hs.rows]
    congr 1
    exact world_about M rest j ms' m' hm' _

private theorem learners {R : Bundle σ X Y P μ ν → Bundle σ X Y P μ ν → Prop} (hR : ∀ m m', R m m' → m'.learner = m.learner)
    (l l' : List (Bundle σ X Y P μ ν)) (h : List.Forall₂ R l l') (h1 : ∀ m ∈ l, OneEach m.learner) : ∀ m ∈ l', OneEach m.learner := by
  induction h with
  | nil => simp
  | cons h _ ih =>
    intro m hm
    rcases List.mem_cons.1 hm with rfl | hm
    · rw [hR _ _ h]; exact h1 _ (by simp)
    · exact ih (fun m hm => h1 m (List.mem_cons_of_mem _ hm)) m hm

private theorem step_solo (hn : 0 < C.n) (hne : C.ms ≠ []) (j : Nat) (a u : HSt (Bundle σ X Y P μ ν)) (hs : InStep C.ms j a u)
    (a' : HSt (Bundle σ X Y P μ ν)) (h : step M rest s C T a = .ok a') :
    ∃ u', step M rest s C.alone T u = .ok u' ∧ InStep C.ms j a' u' := by
  obtain ⟨hc, hz, ms', hf, ho⟩ := (step_iff M rest s C T a a' hs.one).1 h
  obtain ⟨m, hm, hu⟩ := hs.st
  obtain ⟨m', hm', hone⟩ := forall₂_get hf j m hm
  obtain ⟨u', hu', hs'⟩ := out_solo M rest s C T hn hne j a u hs ms' a' m' hm' (learners (oneH_learner M _ _) _ _ hf hs.one) ho
  refine ⟨u', ?_, hs'⟩
  refine (step_iff M rest s C.alone T u u' ?_).2 ⟨hc, hz, [m'], ?_, hu'⟩
  · intro x hx
    rw [hu, List.mem_singleton] at hx
    rw [hx]
    exact hs.one m (List.mem_of_getElem? hm)
  · rw [hu, hs.idx, hs.count, hs.cnt]
    exact .cons hone .nil

private theorem rows_extend (fuel : Nat) (C : HConf) (a : HSt (Bundle σ X Y P μ ν)) (R : List (Int × World))
    (h : loop M rest s C timeOk T fuel a = some R) : a.rows <+: R := by
  induction fuel generalizing a with
  | zero => cases h
  | succ fuel ih =>
    unfold loop at h
    split at h
    · cases hst : step M rest s C T a with
      | error e => rw [hst] at h; cases h; exact List.prefix_rfl
      | ok a' =>
        rw [hst] at h
        refine List.IsPrefix.trans ?_ (ih a' h)
        unfold step at hst
        split at hst
        · cases hst
        · split at hst
          · cases hst
          · split at hst
            · cases hst
            · split at hst
              · split at hst <;>
                · unfold testPhase at hst
                  split at hst
                  · cases hst
                  · split at hst
                    · cases hst
                    · cases hst; exact List.prefix_append _ _
              · cases hst; exact List.prefix_rfl
    · cases h; exact List.prefix_rfl

private theorem loop_solo (hn : 0 < C.n) (hne : C.ms ≠ []) (j : Nat) (fuel fuel' : Nat) (a u : HSt (Bundle σ X Y P μ ν))
    (hs : InStep C.ms j a u) (R R' : List (Int × World)) (h : loop M rest s C timeOk T fuel a = some R)
    (h' : loop M rest s C.alone timeOk T fuel' u = some R') :
    about j R <+: about 0 R' ∧ (LoopEnds M rest s C timeOk T fuel a → about j R = about 0 R') := by
  induction fuel generalizing fuel' a u with
  | zero => cases h
  | succ fuel ih =>
    cases fuel' with
    | zero => cases h'
    | succ fuel' =>
      have hext : about j a.rows <+: about 0 R' := by
        rw [hs.rows]
        exact (rows_extend M rest s timeOk T _ _ _ _ h').map _
      unfold loop at h h'
      rw [hs.count, hs.k, hs.idx] at h'
      by_cases hcond : ((a.count : Int) < C.amax && timeOk a.k && s.hasMore a.idx) = true
      · rw [if_pos hcond] at h
        rw [if_pos (show ((a.count : Int) < C.alone.amax && timeOk a.k && s.hasMore a.idx) = true from hcond)] at h'
        cases hst : step M rest s C T a with
        | error e =>
          rw [hst] at h
          cases h
          refine ⟨hext, fun he => ?_⟩
          obtain ⟨a', ha', -⟩ := he hcond
          rw [hst] at ha'
          cases ha'
        | ok a' =>
          obtain ⟨u', hu', hs'⟩ := step_solo M rest s C T hn hne j a u hs a' hst
          rw [hst] at h
          rw [hu'] at h'
          obtain ⟨k1, k2⟩ := ih fuel' a' u' hs' h h'
          refine ⟨k1, fun he => k2 ?_⟩
          obtain ⟨a2, ha2, he2⟩ := he hcond
          rw [hst] at ha2
          cases ha2
          exact he2
      · rw [if_neg hcond] at h
        rw [if_neg (show ¬ ((a.count : Int) < C.alone.amax && timeOk a.k && s.hasMore a.idx) = true from hcond)] at h'
        cases h; cases h'
        exact ⟨by rw [hs.rows], fun _ => hs.rows⟩

/-- If all models alone come to the end, so do all together. -/
private theorem ends_joint (hn : 0 < C.n) (hne : C.ms ≠ []) (fuel : Nat) (a : HSt (Bundle σ X Y P μ ν)) (hpos : a.ms ≠ [])
    (hone : ∀ m ∈ a.ms, OneEach m.learner) (hfit : Fits a.buf C.ms)
    (hs : ∀ (j : Nat) m, a.ms[j]? = some m → ∃ u, InStep C.ms j a u ∧ LoopEnds M rest s C.alone timeOk T fuel u) :
    LoopEnds M rest s C timeOk T fuel a := by
  induction fuel generalizing a with
  | zero =>
    obtain ⟨m, l, hml⟩ := List.exists_cons_of_ne_nil hpos
    obtain ⟨u, -, hu⟩ := hs 0 m (by rw [hml]; rfl)
    exact hu
  | succ fuel ih =>
    intro hcond
    have hsolo : ∀ (j : Nat) m, a.ms[j]? = some m → ∃ u u', InStep C.ms j a u ∧ step M rest s C.alone T u = .ok u' ∧
        LoopEnds M rest s C.alone timeOk T fuel u' := by
      intro j m hm
      obtain ⟨u, hi, he⟩ := hs j m hm
      obtain ⟨u', h1, h2⟩ := he (by rw [hi.count, hi.k, hi.idx]; exact hcond)
      exact ⟨u, u', hi, h1, h2⟩
    have hdetail : ∀ (j : Nat) m, a.ms[j]? = some m → checkProgress C.amax = .ok () ∧ (!C.dynamic && C.nWait == 0) = false ∧
        ∃ m', OneH M (s.take a.idx C.batch) (testSet s C T a.idx a.count a.cnt) m m' ∧
          (∀ t, testSet s C T a.idx a.count a.cnt = some t → ∀ m ∈ C.ms, Computable C.task 1 (world M rest [m']) m) := by
      intro j m hm
      obtain ⟨u, u', hi, h1, -⟩ := hsolo j m hm
      obtain ⟨m0, hm0, hu⟩ := hi.st
      rw [hm] at hm0
      cases hm0
      obtain ⟨hc, hz, ms', hf, ho⟩ := (step_iff M rest s C.alone T u u' (by
        intro x hx
        rw [hu, List.mem_singleton] at hx
        rw [hx]
        exact hone m (List.mem_of_getElem? hm))).1 h1
      rw [hu, hi.idx, hi.count, hi.cnt] at hf
      obtain ⟨m', hm', hms'⟩ : ∃ m', ms' = [m'] ∧ OneH M (s.take a.idx C.batch) (testSet s C T a.idx a.count a.cnt) m m' := by
        cases hf with
        | cons h1 h2 => cases h2; exact ⟨_, rfl, h1⟩
      refine ⟨hc, hz, m', hms', ?_⟩
      intro t ht
      unfold Out at ho
      rw [hi.idx, hi.count, hi.cnt] at ho
      rw [show testSet s C.alone T a.idx a.count a.cnt = some t from ht, hm'] at ho
      obtain ⟨b', hb', -⟩ := ho
      exact computable_of_ok _ _ _ _ _ _ _ hb'
    obtain ⟨m0, l0, hml⟩ := List.exists_cons_of_ne_nil hpos
    obtain ⟨hc, hz, -⟩ := hdetail 0 m0 (by rw [hml]; rfl)
    obtain ⟨ms', hf'⟩ := forall₂_of_get (fun m m' => OneH M (s.take a.idx C.batch) (testSet s C T a.idx a.count a.cnt) m m' ∧
        (∀ t, testSet s C T a.idx a.count a.cnt = some t → ∀ x ∈ C.ms, Computable C.task 1 (world M rest [m']) x)) a.ms
      (fun j m hm => (hdetail j m hm).2.2)
    have hf : List.Forall₂ (OneH M (s.take a.idx C.batch) (testSet s C T a.idx a.count a.cnt)) a.ms ms' := hf'.imp fun _ _ h => h.1
    obtain ⟨m0', -, hcomp⟩ : ∃ m0', ms'[0]? = some m0' ∧ ∀ t, testSet s C T a.idx a.count a.cnt = some t →
        ∀ x ∈ C.ms, Computable C.task 1 (world M rest [m0']) x := by
      obtain ⟨m0', e, -, h⟩ := forall₂_get hf' 0 m0 (by rw [hml]; rfl)
      exact ⟨m0', e, h⟩
    obtain ⟨a', ho⟩ : ∃ a', Out M rest s T C a ms' a' := by
      unfold Out
      cases ht : testSet s C T a.idx a.count a.cnt with
      | none => exact ⟨_, rfl⟩
      | some t =>
        obtain ⟨b2, e2, -⟩ := updateMetrics_ok C.task C.n ((after C a.idx a.count t.length).2 : Int) (world M rest ms') C.ms a.buf hne
          (fun m hm => (computable_one C.task C.n hn (world M rest ms') (world M rest [m0']) (by rfl) m).2 (hcomp t ht m hm)) hfit
        exact ⟨_, b2, e2, rfl⟩
    have hstep : step M rest s C T a = .ok a' := (step_iff M rest s C T a a' hone).2 ⟨hc, hz, ms', hf, ho⟩
    refine ⟨a', hstep, ?_⟩
    have hone' := learners (oneH_learner M _ _) _ _ hf hone
    have hms : a'.ms = ms' ∧ Fits a'.buf C.ms := by
      unfold Out at ho
      cases ht : testSet s C T a.idx a.count a.cnt with
      | none => rw [ht] at ho; rw [ho]; exact ⟨rfl, hfit⟩
      | some t =>
        rw [ht] at ho
        obtain ⟨b', hu, ha'⟩ := ho
        rw [ha']
        exact ⟨rfl, fits_after _ _ _ _ _ hne _ _ hfit hu⟩
    refine ih a' ?_ ?_ hms.2 ?_
    · rw [hms.1]
      intro h0
      have := hf.length_eq
      rw [h0, hml] at this
      simp at this
    · rw [hms.1]; exact hone'
    · intro j m' hm'
      have hj : j < a.ms.length := by
        rw [hms.1] at hm'
        rw [hf.length_eq]
        exact (List.getElem?_eq_some_iff.1 hm').1
      obtain ⟨u, u', hi, h1, h2⟩ := hsolo j a.ms[j] (List.getElem?_eq_getElem hj)
      obtain ⟨u2, g1, g2⟩ := step_solo M rest s C T hn hne j a u hi a' hstep
      rw [h1] at g1
      cases g1
      exact ⟨u', g2, h2⟩

/-! ### The property -/

private theorem together (hn : 0 < C.n) (hne : C.ms ≠ []) (idx : Nat) (models : List (Bundle σ X Y P μ ν))
    (h1 : ∀ m ∈ models, OneEach m.learner) (fuel : Nat) (R : List (Int × World)) (h : holdoutRows M rest s idx C timeOk fuel models = some R)
    (j : Nat) (m : Bundle σ X Y P μ ν) (hm : models[j]? = some m) (fuel' : Nat) (R' : List (Int × World))
    (h' : holdoutRows M rest s idx C.alone timeOk fuel' [m] = some R') :
    about j R <+: about 0 R' ∧ (Ends M rest s idx C timeOk fuel models → about j R = about 0 R') := by
  obtain ⟨b, hb, hf⟩ := initBuf_ok C.ms hne
  have hb' : initBuf C.alone.ms = .ok b := hb
  unfold holdoutRows at h h'
  rw [hb] at h
  rw [hb'] at h'
  simp only at h h'
  have hst : ∀ i c : Nat, InStep C.ms j ⟨0, i, c, 0, models, b, []⟩ ⟨0, i, c, 0, [m], b, []⟩ :=
    fun i c => ⟨rfl, rfl, rfl, rfl, h1, ⟨m, hm, rfl⟩, rfl, hf, hf⟩
  by_cases hd : C.dynamic = true
  · rw [if_pos hd] at h
    rw [if_pos (show C.alone.dynamic = true from hd)] at h'
    obtain ⟨k1, k2⟩ := loop_solo M rest s C timeOk [] hn hne j fuel fuel' _ _ (hst _ _) R R' h h'
    refine ⟨k1, ?_⟩
    rintro ⟨b2, e2, he⟩
    rw [hb] at e2
    cases e2
    rw [if_pos hd] at he
    exact k2 he
  · rw [if_neg hd] at h
    rw [if_neg (show ¬ C.alone.dynamic = true from hd)] at h'
    obtain ⟨k1, k2⟩ := loop_solo M rest s C timeOk _ hn hne j fuel fuel' _ _ (hst _ _) R R' h h'
    refine ⟨k1, ?_⟩
    rintro ⟨b2, e2, he⟩
    rw [hb] at e2
    cases e2
    rw [if_neg hd] at he
    exact k2 he

/-- **C312** (part): in a holdout evaluation of several models, what is reported about each model is the beginning of what is reported when it
is evaluated alone. -/
theorem C312_beginning (hn : 0 < C.n) (hne : C.ms ≠ []) (idx : Nat) (models : List (Bundle σ X Y P μ ν))
    (h1 : ∀ m ∈ models, OneEach m.learner) (fuel : Nat) (R : List (Int × World)) (h : holdoutRows M rest s idx C timeOk fuel models = some R)
    (j : Nat) (m : Bundle σ X Y P μ ν) (hm : models[j]? = some m) (fuel' : Nat) (R' : List (Int × World))
    (h' : holdoutRows M rest s idx C.alone timeOk fuel' [m] = some R') : about j R <+: about 0 R' :=
  (together M rest s C timeOk hn hne idx models h1 fuel R h j m hm fuel' R' h').1

/-- **C312**: if each model alone is evaluated to the end, then so are all together, and what is reported about each is what is reported when it
is evaluated alone. -/
theorem C312_same_reports (hn : 0 < C.n) (hne : C.ms ≠ []) (idx : Nat) (models : List (Bundle σ X Y P μ ν)) (hpos : models ≠ [])
    (h1 : ∀ m ∈ models, OneEach m.learner) (fuel : Nat) (R : List (Int × World)) (h : holdoutRows M rest s idx C timeOk fuel models = some R)
    (hfin : ∀ m ∈ models, Ends M rest s idx C.alone timeOk fuel [m])
    (j : Nat) (m : Bundle σ X Y P μ ν) (hm : models[j]? = some m) (fuel' : Nat) (R' : List (Int × World))
    (h' : holdoutRows M rest s idx C.alone timeOk fuel' [m] = some R') :
    Ends M rest s idx C timeOk fuel models ∧ about j R = about 0 R' := by
  have hF : Ends M rest s idx C timeOk fuel models := by
    obtain ⟨b, hb, hf⟩ := initBuf_ok C.ms hne
    refine ⟨b, hb, ?_⟩
    by_cases hd : C.dynamic = true
    · rw [if_pos hd]
      refine ends_joint M rest s C timeOk [] hn hne fuel _ hpos h1 hf ?_
      intro j m hm
      obtain ⟨b2, e2, he⟩ := hfin m (List.mem_of_getElem? hm)
      rw [show initBuf C.alone.ms = .ok b from hb] at e2
      cases e2
      rw [if_pos (show C.alone.dynamic = true from hd)] at he
      exact ⟨⟨0, idx, 0, 0, [m], b, []⟩, ⟨rfl, rfl, rfl, rfl, h1, ⟨m, hm, rfl⟩, rfl, hf, hf⟩, he⟩
    · rw [if_neg hd]
      refine ends_joint M rest s C timeOk _ hn hne fuel _ hpos h1 hf ?_
      intro j m hm
      obtain ⟨b2, e2, he⟩ := hfin m (List.mem_of_getElem? hm)
      rw [show initBuf C.alone.ms = .ok b from hb] at e2
      cases e2
      rw [if_neg (show ¬ C.alone.dynamic = true from hd)] at he
      exact ⟨⟨0, idx + C.testSize, C.testSize, 0, [m], b, []⟩, ⟨rfl, rfl, rfl, rfl, h1, ⟨m, hm, rfl⟩, rfl, hf, hf⟩, he⟩
  exact ⟨hF, (together M rest s C timeOk hn hne idx models h1 fuel R h j m hm fuel' R' h').2 hF⟩

/-! ### Examples -/

/-- The configuration for two models. -/
def confTwo (dynamic : Bool) : HConf := { conf dynamic with n := 2 }

/-- What is reported about model `j`: sample id, mean and current accuracy. -/
def shownH (j : Nat) (o : Option (List (Int × World))) : Option (List (Int × ℚ × ℚ)) :=
  o.map fun o => o.map fun r => (r.1, r.2.mean j .accuracy, r.2.current j .accuracy)

/-- No exception: each model gets the figures it gets alone. -/
example (d : Bool) : shownH 0 (holdoutRows (classMeters fun _ _ => 0) noWorld pairsOfTwo 0 (confTwo d) (fun _ => true) 40 (two 0)) =
      shownH 0 (holdoutRows (classMeters fun _ _ => 0) noWorld pairsOfTwo 0 (confTwo d).alone (fun _ => true) 40
        ([(lastLabel, (7 : Int))].map (newClassifier 3))) ∧
    ((shownH 0 (holdoutRows (classMeters fun _ _ => 0) noWorld pairsOfTwo 0 (confTwo d) (fun _ => true) 40 (two 0))).map List.length) =
      some (if d then 3 else 4) := by
  cases d <;> constructor <;> decide +kernel

/-- Each of these models alone comes to the end. -/
example : ∀ m ∈ two 0, Ends (classMeters fun _ _ => 0) noWorld pairsOfTwo 0 (confTwo false).alone (fun _ => true) 40 [m] := by
  intro m hm
  simp only [two, List.map_cons, List.map_nil, List.mem_cons, List.not_mem_nil, or_false] at hm
  rcases hm with rfl | rfl
  all_goals
    refine ⟨_, rfl, ?_⟩
    show LoopEnds _ _ _ _ _ _ _ _
    refine fun _ => ⟨_, rfl, fun _ => ⟨_, rfl, fun _ => ⟨_, rfl, fun _ => ⟨_, rfl, fun h => absurd h ?_⟩⟩⟩⟩
    decide +kernel

/-- The second model fails in the third iteration: the reports about the first end there, too. -/
example : ((shownH 0 (holdoutRows (classMeters fun _ _ => 0) noWorld pairsOfTwo 0 (confTwo false) (fun _ => true) 40 (two 3))).map List.length) =
    some 2 := by
  decide +kernel

end Verif.Evaluation.HoldoutRows
