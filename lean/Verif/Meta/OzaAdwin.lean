import Verif.Meta.OzaProps
import Verif.Adwin.Props

/-!
Model of `meta/oza_bagging_adwin.py` (OzaBaggingADWINClassifier); C120, C121.

Simplifications as in `Meta/Oza.lean`; here the base learner is trained on whole
batches, and its `predict` either raises `ValueError` (which the code swallows)
or returns one prediction per row, `none` for a Python `None`.  The change
detector is a parameter (`Det`); `adwinDet` is the model of ADWIN.
-/

namespace Verif.Meta.Oza

variable {σ δ X Y : Type}

/-- A change detector: `ADWIN()`, `add_element`, `detected_change`, `estimation`. -/
structure Det (δ : Type) where
  new : δ
  add : δ → Bool → δ
  check : δ → Bool × δ
  est : δ → ℚ

/-- What the ensemble uses of its base learner. -/
structure BaseA (σ X Y : Type) where
  init : σ
  fit : σ → List (X × Y) → Option (List Int) → σ
  predict : σ → List X → Option (List (Option Y))
  reset : σ → σ

/-- Members with their detectors. -/
structure StA (σ δ : Type) where
  members : List (σ × δ)
  classes : Option (List Int)
  pos : Nat

/-- `__init__`, lines 93-100. -/
def freshA (b : BaseA σ X Y) (d : Det δ) (n : Nat) : StA σ δ :=
  ⟨List.replicate n (b.init, d.new), none, 0⟩

/-- `reset`, lines 102-104: only the detectors are renewed. -/
def resetA (d : Det δ) (s : StA σ δ) : StA σ δ :=
  { s with members := s.members.map fun m => (m.1, d.new) }

/-- `__adjust_ensemble_size`, lines 204-210. -/
def adjustA (b : BaseA σ X Y) (d : Det δ) (classes : List Int) (ms : List (σ × δ)) : List (σ × δ) :=
  if classes.length ≠ ms.length then
    if classes.length > ms.length then
      ms ++ List.replicate (classes.length - ms.length) (b.init, d.new)
    else ms
  else ms

/-- Lines 171-173: `k` times `partial_fit` on the whole batch. -/
def trainBatch (b : BaseA σ X Y) (c : Option (List Int)) (rows : List (X × Y)) : Nat → σ → σ
  | 0, s => s
  | k + 1, s => trainBatch b c rows k (b.fit s rows c)

/-- Lines 178-183: 1 for a right prediction, 0 for a wrong one, nothing for `None`. -/
def feed [DecidableEq Y] (d : Det δ) (a : δ) : List (Option Y × Y) → δ
  | [] => a
  | (none, _) :: l => feed d a l
  | (some p, y) :: l => feed d (d.add a (decide (p = y))) l

/-- Lines 170-189 for one member: the new member and the new `change_detected`. -/
def visit [DecidableEq Y] (b : BaseA σ X Y) (d : Det δ) (k : Nat) (c : Option (List Int))
    (rows : List (X × Y)) (m : σ × δ) (change : Bool) : (σ × δ) × Bool :=
  let s := trainBatch b c rows k m.1
  match b.predict s (rows.map Prod.fst) with
  | none => ((s, m.2), false)
  | some pred =>
    let before := d.est m.2
    let a := feed d m.2 (pred.zip (rows.map Prod.snd))
    let r := d.check a
    ((s, r.2), if r.1 && decide (d.est r.2 > before) then true else change)

/-- Lines 169-189. -/
def visitAll [DecidableEq Y] (b : BaseA σ X Y) (d : Det δ) (poisson : Nat → Nat)
    (c : Option (List Int)) (rows : List (X × Y)) :
    List (σ × δ) → Nat → Bool → List (σ × δ) × Bool
  | [], _, change => ([], change)
  | m :: ms, pos, change =>
    let v := visit b d (poisson pos) c rows m change
    let r := visitAll b d poisson c rows ms (pos + 1) v.2
    (v.1 :: r.1, r.2)

/-- Lines 192-197: the scan for `i_max`, from index `i` on. -/
def scanMax (d : Det δ) : List (σ × δ) → Nat → ℚ → Option Nat → Option Nat
  | [], _, _, best => best
  | m :: ms, i, top, best =>
    if top < d.est m.2 then scanMax d ms (i + 1) (d.est m.2) (some i)
    else scanMax d ms (i + 1) top best

/-- Lines 191-200. -/
def replaceMember (b : BaseA σ X Y) (d : Det δ) (ms : List (σ × δ)) : List (σ × δ) :=
  match scanMax d ms 0 0 none with
  | none => ms
  | some i => ms.modify i fun m => (b.reset m.1, d.new)

/-- `partial_fit`, lines 106-202. -/
def partialFitA [DecidableEq Y] (b : BaseA σ X Y) (d : Det δ) (poisson : Nat → Nat) (s : StA σ δ)
    (rows : List (X × Y)) (classes : Option (List Int)) : Except PyErr (StA σ δ) :=
  match checkClasses s.classes classes with
  | .error e => .error e
  | .ok known =>
    let ms := adjustA b d known s.members
    let v := visitAll b d poisson classes rows ms s.pos false
    .ok ⟨if v.2 then replaceMember b d v.1 else v.1, some known, s.pos + ms.length⟩

/-! ### Specification: what a detector reports -/

/-- What a detector is asked to do. -/
inductive DOp where
  | add (hit : Bool)
  | check

/-- The state of a detector after some operations. -/
def Det.run (d : Det δ) (ops : List DOp) : δ :=
  ops.foldl (fun a o => match o with | .add h => d.add a h | .check => (d.check a).2) d.new

/-- The recorded outcomes. -/
def hits : List DOp → List Bool
  | [] => []
  | .add h :: l => h :: hits l
  | .check :: l => hits l

/-- Fraction of right predictions; 0 if there are none. -/
def accuracy (w : List Bool) : ℚ := (w.count true : ℚ) / w.length

/-- The estimate is the accuracy over some most recent outcomes. -/
def Det.Faithful (d : Det δ) : Prop :=
  ∀ ops, ∃ w, w <:+ hits ops ∧ d.est (d.run ops) = accuracy w

/-! ### ADWIN is such a detector -/

/-- ADWIN as a detector, for any cut test. -/
def adwinDet (cut : Adwin.Cut) : Det Adwin.State where
  new := Adwin.init
  add s h := match Adwin.step cut s (.add (if h then 1 else 0)) with
    | some (.ok r) => r.2
    | _ => s
  check s := match Adwin.step cut s .check with
    | some (.ok r) => r
    | _ => (false, s)
  est := Adwin.estimation

/-- The ADWIN operation of a detector operation. -/
def toAdwin : DOp → Adwin.Op
  | .add h => .add (if h then 1 else 0)
  | .check => .check

theorem adwin_run_snoc (cut : Adwin.Cut) (ops : List Adwin.Op) (o : Adwin.Op) (s s1 : Adwin.State)
    (h : Adwin.run cut ops s = some (.ok s1)) :
    Adwin.run cut (ops ++ [o]) s = match Adwin.step cut s1 o with
      | none => none
      | some (.error e) => some (.error e)
      | some (.ok r) => some (.ok r.2) := by
  induction ops generalizing s with
  | nil =>
    simp only [Adwin.run] at h
    cases h
    simp only [List.nil_append, Adwin.run]
    cases Adwin.step cut s1 o with
    | none => rfl
    | some r => cases r <;> rfl
  | cons p ops ih =>
    simp only [List.cons_append, Adwin.run] at h ⊢
    cases hs : Adwin.step cut s p with
    | none => rw [hs] at h; cases h
    | some r =>
      rw [hs] at h
      cases r with
      | error e => cases h
      | ok r => exact ih _ h

theorem clockOK (ops : List DOp) : Adwin.ClockOK (ops.map toAdwin) := by
  intro c hc
  rw [List.mem_map] at hc
  obtain ⟨o, _, ho⟩ := hc
  cases o <;> simp [toAdwin] at ho

theorem Det.run_snoc (d : Det δ) (ops : List DOp) (o : DOp) : d.run (ops ++ [o]) = match o with
    | .add h => d.add (d.run ops) h
    | .check => (d.check (d.run ops)).2 := by
  unfold Det.run; rw [List.foldl_append]; rfl

theorem adwinDet_run (cut : Adwin.Cut) (ops : List DOp) :
    Adwin.run cut (ops.map toAdwin) Adwin.init = some (.ok ((adwinDet cut).run ops)) := by
  induction ops using List.reverseRecOn with
  | nil => rfl
  | append_singleton ops o ih =>
    obtain ⟨s, hs, _⟩ := Adwin.C12_window_is_a_suffix cut ((ops ++ [o]).map toAdwin) (clockOK _)
    rw [hs]
    rw [List.map_append, List.map_cons, List.map_nil, adwin_run_snoc cut _ _ _ _ ih] at hs
    rw [Det.run_snoc]
    cases o with
    | add h =>
      simp only [toAdwin] at hs
      simp only [adwinDet]
      simp only [adwinDet] at hs
      split at hs
      · cases hs
      · cases hs
      · rename_i r hr
        rw [hr]; simp only [Option.some.injEq, Except.ok.injEq] at hs ⊢; exact hs.symm
    | check =>
      simp only [toAdwin] at hs
      simp only [adwinDet]
      simp only [adwinDet] at hs
      split at hs
      · cases hs
      · cases hs
      · rename_i r hr
        rw [hr]; simp only [Option.some.injEq, Except.ok.injEq] at hs ⊢; exact hs.symm

theorem added_hits (ops : List DOp) (acc : List ℚ) :
    Adwin.added (ops.map toAdwin) acc = acc ++ (hits ops).map fun h => if h then (1 : ℚ) else 0 := by
  induction ops generalizing acc with
  | nil => simp [Adwin.added, hits]
  | cons o ops ih => cases o <;> simp [Adwin.added, toAdwin, hits, ih]

theorem sum_hits (w : List Bool) : (w.map fun h => if h then (1 : ℚ) else 0).sum = w.count true := by
  induction w with
  | nil => simp
  | cons h w ih => cases h <;> simp [ih]; ring

theorem adwinDet_faithful (cut : Adwin.Cut) : (adwinDet cut).Faithful := by
  intro ops
  obtain ⟨s, hs, w, h1, h2, h3, h4, h5, _⟩ :=
    Adwin.C12_window_is_a_suffix cut (ops.map toAdwin) (clockOK ops)
  rw [adwinDet_run] at hs
  simp only [Option.some.injEq, Except.ok.injEq] at hs
  rw [added_hits, List.nil_append] at h1
  obtain ⟨t, ht⟩ := h1
  obtain ⟨l1, l2, e1, e2, e3⟩ := List.append_eq_map_iff.1 ht
  refine ⟨l2, ⟨l1, e1.symm⟩, ?_⟩
  show Adwin.estimation ((adwinDet cut).run ops) = _
  rw [hs]
  unfold accuracy
  by_cases hw : w = []
  · rw [h5 hw]
    rw [hw] at e3
    have : l2 = [] := by simpa using e3
    rw [this]; simp
  · rw [h4 hw, ← e3, sum_hits, List.length_map]

/-! ### C120 -/

/-- The outcomes recorded for predictions `pred` on labels `ys`. -/
def outcomes [DecidableEq Y] (pred : List (Option Y)) (ys : List Y) : List Bool :=
  (pred.zip ys).filterMap fun q => q.1.map fun p => decide (p = q.2)

/-- Member `m` is what member `m0` with record `r0` becomes when it is trained `k`
times on the whole batch, then predicts that batch and has its outcomes recorded. -/
def Visited [DecidableEq Y] (b : BaseA σ X Y) (d : Det δ) (rows : List (X × Y))
    (c : Option (List Int)) (k : Nat) (m0 : σ × δ) (r0 : List DOp) (m : σ × δ) (r : List DOp) : Prop :=
  m.1 = (fun s => b.fit s rows c)^[k] m0.1 ∧ m.2 = d.run r ∧
  match b.predict m.1 (rows.map Prod.fst) with
  | none => r = r0
  | some pred => hits r = hits r0 ++ outcomes pred (rows.map Prod.snd)

theorem trainBatch_eq (b : BaseA σ X Y) (c : Option (List Int)) (rows : List (X × Y)) (k : Nat) (s : σ) :
    trainBatch b c rows k s = (fun s => b.fit s rows c)^[k] s := by
  induction k generalizing s with
  | zero => rfl
  | succ k ih => simp only [trainBatch, ih, Function.iterate_succ_apply]

theorem hits_append (a b : List DOp) : hits (a ++ b) = hits a ++ hits b := by
  induction a with
  | nil => rfl
  | cons o a ih => cases o <;> simp [hits, ih]

theorem feed_run [DecidableEq Y] (d : Det δ) (q : List (Option Y × Y)) (ops : List DOp) :
    feed d (d.run ops) q = d.run (ops ++ (q.filterMap fun q => q.1.map fun p => decide (p = q.2)).map .add) := by
  induction q generalizing ops with
  | nil => simp [feed]
  | cons a q ih =>
    obtain ⟨p, y⟩ := a
    cases p with
    | none => simp [feed, ih]
    | some p =>
      have := ih (ops ++ [.add (decide (p = y))])
      rw [Det.run_snoc] at this
      simp only [feed]
      rw [this]; simp

theorem hits_adds (l : List Bool) : hits (l.map DOp.add) = l := by
  induction l with
  | nil => rfl
  | cons h l ih => simp [hits, ih]

theorem visit_spec [DecidableEq Y] (b : BaseA σ X Y) (d : Det δ) (k : Nat) (c : Option (List Int))
    (rows : List (X × Y)) (m : σ × δ) (r0 : List DOp) (hm : m.2 = d.run r0) (change : Bool) :
    (∃ r, Visited b d rows c k m r0 (visit b d k c rows m change).1 r) ∧
    ((visit b d k c rows m change).2 = true →
      change = true ∨ d.est m.2 < d.est (visit b d k c rows m change).1.2) := by
  unfold visit Visited
  simp only [trainBatch_eq]
  cases hp : b.predict ((fun s => b.fit s rows c)^[k] m.1) (rows.map Prod.fst) with
  | none => simp [hp, hm]
  | some pred =>
    simp only [hp]
    refine ⟨⟨r0 ++ (outcomes pred (rows.map Prod.snd)).map .add ++ [.check], trivial, ?_, ?_⟩, ?_⟩
    · rw [Det.run_snoc, hm, feed_run]; rfl
    · rw [hits_append, hits_append, hits_adds]; simp [hits]
    · split
      · rename_i h
        simp only [Bool.and_eq_true, decide_eq_true_eq] at h
        exact fun _ => .inr h.2
      · exact fun h => .inl h

/-- The members of the ensemble and their records. -/
def Recorded (d : Det δ) (ms : List (σ × δ)) (recs : List (List DOp)) : Prop :=
  List.Forall₂ (fun m r => m.2 = d.run r) ms recs

theorem visitAll_spec [DecidableEq Y] (b : BaseA σ X Y) (d : Det δ) (poisson : Nat → Nat)
    (c : Option (List Int)) (rows : List (X × Y)) :
    ∀ (ms : List (σ × δ)) (recs : List (List DOp)) (pos : Nat) (change : Bool), Recorded d ms recs →
    ∃ recs' : List (List DOp), recs'.length = ms.length ∧
      (visitAll b d poisson c rows ms pos change).1.length = ms.length ∧
      (∀ i m0 r0, ms[i]? = some m0 → recs[i]? = some r0 → ∃ m r,
        (visitAll b d poisson c rows ms pos change).1[i]? = some m ∧ recs'[i]? = some r ∧
        Visited b d rows c (poisson (pos + i)) m0 r0 m r) ∧
      ((visitAll b d poisson c rows ms pos change).2 = true → change = true ∨
        ∃ (i : Nat) (m0 m : σ × δ), ms[i]? = some m0 ∧ (visitAll b d poisson c rows ms pos change).1[i]? = some m ∧
          d.est m0.2 < d.est m.2) := by
  intro ms
  induction ms with
  | nil =>
    intro recs pos change h
    exact ⟨[], rfl, rfl, by simp, fun h => .inl h⟩
  | cons m0 ms ih =>
    intro recs pos change h
    cases h with
    | cons hm hrest =>
      rename_i r0 recs
      obtain ⟨⟨r, hv⟩, hch⟩ := visit_spec b d (poisson pos) c rows m0 r0 hm change
      obtain ⟨recs', l1, l2, l3, l4⟩ := ih recs (pos + 1)
        (visit b d (poisson pos) c rows m0 change).2 hrest
      refine ⟨r :: recs', by simp [l1], by simp [visitAll, l2], ?_, ?_⟩
      · intro i m1 r1 h1 h2
        cases i with
        | zero =>
          simp only [List.getElem?_cons_zero, Option.some.injEq] at h1 h2
          subst h1 h2
          exact ⟨(visit b d (poisson pos) c rows m0 change).1, r, rfl, rfl, by simpa using hv⟩
        | succ i =>
          simp only [List.getElem?_cons_succ] at h1 h2
          obtain ⟨m, r', g1, g2, g3⟩ := l3 i m1 r1 h1 h2
          refine ⟨m, r', by simpa [visitAll] using g1, by simpa using g2, ?_⟩
          have : pos + (i + 1) = pos + 1 + i := by omega
          rw [this]; exact g3
      · intro ht
        rcases l4 ht with h1 | ⟨i, a, m, g1, g2, g3⟩
        · rcases hch h1 with h2 | h2
          · exact .inl h2
          · exact .inr ⟨0, m0, _, rfl, rfl, h2⟩
        · exact .inr ⟨i + 1, a, m, by simpa using g1, by simpa [visitAll] using g2, g3⟩

theorem scanMax_spec (d : Det δ) : ∀ (ms : List (σ × δ)) (i : Nat) (top : ℚ) (best : Option Nat),
    (scanMax d ms i top best = best ∧ ∀ m ∈ ms, d.est m.2 ≤ top) ∨
    ∃ j m, scanMax d ms i top best = some (i + j) ∧ ms[j]? = some m ∧ top < d.est m.2 ∧
      ∀ m' ∈ ms, d.est m'.2 ≤ d.est m.2 := by
  intro ms
  induction ms with
  | nil => intro i top best; left; simp [scanMax]
  | cons a ms ih =>
    intro i top best
    by_cases h : top < d.est a.2
    · simp only [scanMax, if_pos h]
      rcases ih (i + 1) (d.est a.2) (some i) with ⟨h1, h2⟩ | ⟨j, m, h1, h2, h3, h4⟩
      · right
        refine ⟨0, a, by simpa using h1, rfl, h, ?_⟩
        intro m' hm'
        rcases List.mem_cons.1 hm' with rfl | hm'
        · exact le_refl _
        · exact h2 m' hm'
      · right
        refine ⟨j + 1, m, by rw [h1]; congr 1; omega, by simpa using h2, h.trans h3, ?_⟩
        intro m' hm'
        rcases List.mem_cons.1 hm' with rfl | hm'
        · exact h3.le
        · exact h4 m' hm'
    · simp only [scanMax, if_neg h]
      rcases ih (i + 1) top best with ⟨h1, h2⟩ | ⟨j, m, h1, h2, h3, h4⟩
      · left
        refine ⟨h1, ?_⟩
        intro m' hm'
        rcases List.mem_cons.1 hm' with rfl | hm'
        · exact not_lt.1 h
        · exact h2 m' hm'
      · right
        refine ⟨j + 1, m, by rw [h1]; congr 1; omega, by simpa using h2, h3, ?_⟩
        intro m' hm'
        rcases List.mem_cons.1 hm' with rfl | hm'
        · exact (not_lt.1 h).trans h3.le
        · exact h4 m' hm'

/-- The members and records with which a call starts training: those of the state,
plus fresh ones if there are more classes than members. -/
def Grown (b : BaseA σ X Y) (d : Det δ) (s : StA σ δ) (recs : List (List DOp))
    (known : List Int) (ms : List (σ × δ)) (recs0 : List (List DOp)) : Prop :=
  ms = s.members ++ List.replicate (known.length - s.members.length) (b.init, d.new) ∧
  recs0 = recs ++ List.replicate (known.length - s.members.length) []

theorem adjustA_eq (b : BaseA σ X Y) (d : Det δ) (c : List Int) (ms : List (σ × δ)) :
    adjustA b d c ms = ms ++ List.replicate (c.length - ms.length) (b.init, d.new) := by
  unfold adjustA
  split
  · split
    · rfl
    · rw [Nat.sub_eq_zero_of_le (by omega)]; simp
  · rw [Nat.sub_eq_zero_of_le (by omega)]; simp

theorem recorded_grown (b : BaseA σ X Y) (d : Det δ) (s : StA σ δ) (recs : List (List DOp))
    (known : List Int) (ms : List (σ × δ)) (recs0 : List (List DOp))
    (h : Recorded d s.members recs) (g : Grown b d s recs known ms recs0) : Recorded d ms recs0 := by
  obtain ⟨rfl, rfl⟩ := g
  refine List.rel_append h ?_
  generalize known.length - s.members.length = k
  induction k with
  | zero => exact .nil
  | succ k ih => exact .cons rfl ih

/-- What a successful call does, in one statement: every member is visited
(trained a number of times on the batch, then tested on the same batch), and
then either nothing else happens or one member is replaced; in the latter case
some member's estimate rose, and the replaced member has the highest estimate. -/
theorem call_spec [DecidableEq Y] (b : BaseA σ X Y) (d : Det δ) (poisson : Nat → Nat) (s s' : StA σ δ)
    (recs : List (List DOp)) (hr : Recorded d s.members recs) (rows : List (X × Y))
    (classes : Option (List Int)) (h : partialFitA b d poisson s rows classes = .ok s') :
    ∃ (known : List Int) (ms0 : List (σ × δ)) (recs0 : List (List DOp)) (ms : List (σ × δ))
      (recs' : List (List DOp)), s'.classes = some known ∧ Grown b d s recs known ms0 recs0 ∧
      ms.length = ms0.length ∧ recs'.length = ms0.length ∧
      (∀ i m0 r0, ms0[i]? = some m0 → recs0[i]? = some r0 → ∃ m r, ms[i]? = some m ∧
        recs'[i]? = some r ∧ Visited b d rows classes (poisson (s.pos + i)) m0 r0 m r) ∧
      (s'.members = ms ∨
        ((∃ (i : Nat) (m0 m : σ × δ), ms0[i]? = some m0 ∧ ms[i]? = some m ∧ d.est m0.2 < d.est m.2) ∧
        ∃ (i : Nat) (m : σ × δ), ms[i]? = some m ∧ s'.members = ms.modify i (fun m => (b.reset m.1, d.new)) ∧
          0 < d.est m.2 ∧ ∀ m' ∈ ms, d.est m'.2 ≤ d.est m.2)) := by
  unfold partialFitA at h
  cases hc : checkClasses s.classes classes with
  | error e => simp only [hc] at h; cases h
  | ok known =>
    simp only [hc] at h
    cases h
    have hg : Grown b d s recs known (adjustA b d known s.members)
        (recs ++ List.replicate (known.length - s.members.length) []) := ⟨adjustA_eq b d _ _, rfl⟩
    obtain ⟨recs', l1, l2, l3, l4⟩ := visitAll_spec b d poisson classes rows _ _ s.pos false
      (recorded_grown b d s recs known _ _ hr hg)
    refine ⟨known, _, _, _, recs', rfl, hg, l2, l1, l3, ?_⟩
    cases hv : (visitAll b d poisson classes rows (adjustA b d known s.members) s.pos false).2 with
    | false => left; rfl
    | true =>
      have hrise := l4 hv
      simp only [Bool.false_eq_true, false_or] at hrise
      simp only [if_true, replaceMember]
      rcases scanMax_spec d (visitAll b d poisson classes rows (adjustA b d known s.members)
        s.pos false).1 0 0 none with ⟨h1, _⟩ | ⟨j, m, h1, h2, h3, h4⟩
      · left; rw [h1]
      · right
        refine ⟨hrise, j, m, h2, ?_, h3, h4⟩
        rw [h1]; simp

/-- **C120, violated.** With a detector whose estimate is the accuracy over a
recent window of the recorded outcomes, as ADWIN's is (`adwinDet_faithful`), a
member that is replaced is one with the *highest* recent accuracy, not the worst:
if any member does worse, the worst one stays. -/
theorem C120_best_is_replaced_violated [DecidableEq Y] (b : BaseA σ X Y) (d : Det δ)
    (hd : d.Faithful) (poisson : Nat → Nat) (s s' : StA σ δ)
    (recs : List (List DOp)) (hr : Recorded d s.members recs) (rows : List (X × Y))
    (classes : Option (List Int)) (h : partialFitA b d poisson s rows classes = .ok s') :
    ∃ (ms : List (σ × δ)) (recs' : List (List DOp)) (windows : List (List Bool)),
      Recorded d ms recs' ∧ List.Forall₂ (fun r w => w <:+ hits r ∧ d.est (d.run r) = accuracy w)
        recs' windows ∧
      (s'.members = ms ∨ ∃ i, s'.members = ms.modify i (fun m => (b.reset m.1, d.new)) ∧
        ∃ w, windows[i]? = some w ∧ ∀ w' ∈ windows, accuracy w' ≤ accuracy w) := by
  obtain ⟨known, ms0, recs0, ms, recs', _, hg, l1, l2, l3, l4⟩ :=
    call_spec b d poisson s s' recs hr rows classes h
  have hr0 := recorded_grown b d s recs known ms0 recs0 hr hg
  have hrec : Recorded d ms recs' := by
    unfold Recorded
    rw [List.forall₂_iff_get]
    refine ⟨by omega, ?_⟩
    intro i h1 h2
    have hlen := hr0.length_eq
    obtain ⟨m, r, g1, g2, _, g4, _⟩ := l3 i ms0[i] recs0[i]
      (List.getElem?_eq_getElem (by omega)) (List.getElem?_eq_getElem (by omega))
    rw [List.getElem?_eq_getElem h1] at g1
    rw [List.getElem?_eq_getElem h2] at g2
    cases g1; cases g2
    exact g4
  choose W hW using hd
  refine ⟨ms, recs', recs'.map W, hrec, ?_, ?_⟩
  · rw [List.forall₂_map_right_iff, List.forall₂_same]
    intro r _; exact hW r
  · rcases l4 with h1 | ⟨_, i, m, h1, h2, _, h4⟩
    · exact .inl h1
    · right
      refine ⟨i, h2, ?_⟩
      have hest : ∀ (j : Nat) (m : σ × δ) (r : List DOp), ms[j]? = some m → recs'[j]? = some r →
          d.est m.2 = accuracy (W r) := by
        intro j m r g1 g2
        have hj := List.getElem?_eq_some_iff.1 g1
        have hj' := List.getElem?_eq_some_iff.1 g2
        obtain ⟨a1, a2⟩ := hj
        obtain ⟨b1, b2⟩ := hj'
        have := (List.forall₂_iff_get.1 hrec).2 j a1 b1
        simp only [List.get_eq_getElem, a2, b2] at this
        rw [this]; exact (hW r).2
      have hi : i < ms.length := (List.getElem?_eq_some_iff.1 h1).1
      have hi' : i < recs'.length := by omega
      refine ⟨W recs'[i], by simp [hi'], ?_⟩
      intro w' hw'
      rw [List.mem_map] at hw'
      obtain ⟨r, hr', rfl⟩ := hw'
      obtain ⟨j, hj, rfl⟩ := List.getElem_of_mem hr'
      have hj' : j < ms.length := by omega
      have := h4 ms[j] (List.getElem_mem hj')
      rw [hest j _ _ (List.getElem?_eq_getElem hj') (List.getElem?_eq_getElem hj),
        hest i m _ h1 (List.getElem?_eq_getElem hi')] at this
      exact this

/-- **C120, violated.** A fall in accuracy never leads to a replacement: if no
member's estimate rises during a call, the call only trains. -/
theorem C120_drop_ignored_violated [DecidableEq Y] (b : BaseA σ X Y) (d : Det δ)
    (poisson : Nat → Nat) (s s' : StA σ δ) (known : List Int) (hc : s.classes = some known)
    (hk : known.length ≤ s.members.length) (rows : List (X × Y))
    (h : partialFitA b d poisson s rows none = .ok s')
    (hfall : ∀ (i : Nat) (m0 : σ × δ), s.members[i]? = some m0 →
      d.est (visit b d (poisson (s.pos + i)) none rows m0 false).1.2 ≤ d.est m0.2) :
    s'.members.map Prod.fst = s.members.mapIdx
      (fun i m => (fun t => b.fit t rows none)^[poisson (s.pos + i)] m.1) := by
  unfold partialFitA at h
  simp only [hc, checkClasses] at h
  cases h
  rw [adjustA_eq, Nat.sub_eq_zero_of_le hk]
  simp only [List.replicate_zero, List.append_nil]
  have key : ∀ (ms : List (σ × δ)) (pos : Nat), (∀ (i : Nat) (m0 : σ × δ), ms[i]? = some m0 →
      d.est (visit b d (poisson (pos + i)) none rows m0 false).1.2 ≤ d.est m0.2) →
      (visitAll b d poisson none rows ms pos false).2 = false ∧
      (visitAll b d poisson none rows ms pos false).1.map Prod.fst =
        ms.mapIdx (fun i m => (fun t => b.fit t rows none)^[poisson (pos + i)] m.1) := by
    intro ms
    induction ms with
    | nil => intro pos _; exact ⟨rfl, rfl⟩
    | cons m ms ih =>
      intro pos hms
      have h0 := hms 0 m rfl
      have hv : (visit b d (poisson pos) none rows m false).2 = false := by
        unfold visit at h0 ⊢
        simp only [Nat.add_zero] at h0 ⊢
        cases hp : b.predict (trainBatch b none rows (poisson pos) m.1) (rows.map Prod.fst) with
        | none => rfl
        | some pred =>
          simp only [hp] at h0 ⊢
          rw [if_neg]
          simp only [Bool.and_eq_true, decide_eq_true_eq, not_and, not_lt]
          intro _; exact h0
      have hf : (visit b d (poisson pos) none rows m false).1.1 =
          (fun t => b.fit t rows none)^[poisson pos] m.1 := by
        unfold visit
        simp only
        rw [trainBatch_eq]
        split <;> rfl
      obtain ⟨i1, i2⟩ := ih (pos + 1) (fun i m0 hm0 => by
        have := hms (i + 1) m0 (by simpa using hm0)
        have e : pos + (i + 1) = pos + 1 + i := by omega
        rw [e] at this; exact this)
      refine ⟨by simp only [visitAll, hv]; exact i1, ?_⟩
      simp only [visitAll, hv, List.map_cons, i2, hf, List.mapIdx_cons, Nat.add_zero]
      congr 2
      funext i m'
      have e : pos + (i + 1) = pos + 1 + i := by omega
      rw [e]
  obtain ⟨k1, k2⟩ := key s.members s.pos hfall
  rw [k1]
  simpa using k2

/-- **C120.** All that training does, for every member and call: the member is
trained on the whole batch as often as one Poisson draw for the batch says (not
one per sample), and its outcomes are recorded for predictions made *after* that
training, on the same samples. -/
theorem C120_training_and_record [DecidableEq Y] (b : BaseA σ X Y) (d : Det δ) (poisson : Nat → Nat)
    (s s' : StA σ δ) (known : List Int) (hc : s.classes = some known)
    (hk : known.length ≤ s.members.length) (recs : List (List DOp)) (hr : Recorded d s.members recs)
    (rows : List (X × Y)) (classes : Option (List Int))
    (h : partialFitA b d poisson s rows classes = .ok s') :
    ∃ ms : List (σ × δ), ms.length = s.members.length ∧
      (∀ i m0 r0, s.members[i]? = some m0 → recs[i]? = some r0 → ∃ m r, ms[i]? = some m ∧
        m.1 = (fun t => b.fit t rows classes)^[poisson (s.pos + i)] m0.1 ∧ m.2 = d.run r ∧
        ∀ pred, b.predict m.1 (rows.map Prod.fst) = some pred →
          hits r = hits r0 ++ outcomes pred (rows.map Prod.snd)) ∧
      (s'.members = ms ∨ ∃ i, s'.members = ms.modify i (fun m => (b.reset m.1, d.new))) := by
  obtain ⟨known', ms0, recs0, ms, recs', hk', ⟨g1, g2⟩, l1, l2, l3, l4⟩ :=
    call_spec b d poisson s s' recs hr rows classes h
  have hkk : known' = known := by
    unfold partialFitA at h
    have : checkClasses s.classes classes = .ok known ∨ ∃ e, checkClasses s.classes classes = .error e := by
      rw [hc]; unfold checkClasses
      cases classes with
      | none => exact .inl rfl
      | some k => simp only; split
                  · exact .inl rfl
                  · exact .inr ⟨_, rfl⟩
    rcases this with h1 | ⟨e, h1⟩
    · simp only [h1] at h
      cases h
      cases hk'; rfl
    · simp only [h1] at h; cases h
  subst hkk
  rw [Nat.sub_eq_zero_of_le hk] at g1 g2
  simp only [List.replicate_zero, List.append_nil] at g1 g2
  subst g1 g2
  refine ⟨ms, l1, ?_, ?_⟩
  · intro i m0 r0 h1 h2
    obtain ⟨m, r, e1, e2, e3, e4, e5⟩ := l3 i m0 r0 h1 h2
    refine ⟨m, r, e1, e3, e4, fun pred hp => ?_⟩
    rw [hp] at e5; exact e5
  · rcases l4 with h1 | ⟨_, i, m, _, h2, _⟩
    · exact .inl h1
    · exact .inr ⟨i, h2⟩

theorem feed_foldl [DecidableEq Y] (d : Det δ) (q : List (Option Y × Y)) (a : δ) :
    feed d a q = (q.filterMap fun q => q.1.map fun p => decide (p = q.2)).foldl d.add a := by
  induction q generalizing a with
  | nil => rfl
  | cons p q ih =>
    obtain ⟨p, y⟩ := p
    cases p with
    | none => simp [feed, ih]
    | some p => simp [feed, ih]

/-- Member `m` trained `k` times on the batch cannot predict it (`ValueError`). -/
def Fails (b : BaseA σ X Y) (rows : List (X × Y)) (c : Option (List Int)) (k : Nat) (m : σ × δ) : Prop :=
  b.predict ((fun s => b.fit s rows c)^[k] m.1) (rows.map Prod.fst) = none

/-- Member `m` trained `k` times on the batch raises the alarm: with the outcomes of its
predictions recorded its detector reports a change, and its estimate has risen. -/
def Alarmed [DecidableEq Y] (b : BaseA σ X Y) (d : Det δ) (rows : List (X × Y)) (c : Option (List Int))
    (k : Nat) (m : σ × δ) : Prop :=
  ∃ pred, b.predict ((fun s => b.fit s rows c)^[k] m.1) (rows.map Prod.fst) = some pred ∧
    (d.check ((outcomes pred (rows.map Prod.snd)).foldl d.add m.2)).1 = true ∧
    d.est m.2 < d.est (d.check ((outcomes pred (rows.map Prod.snd)).foldl d.add m.2)).2

theorem visit_flag [DecidableEq Y] (b : BaseA σ X Y) (d : Det δ) (k : Nat) (c : Option (List Int))
    (rows : List (X × Y)) (m : σ × δ) (change : Bool) :
    (visit b d k c rows m change).2 = true ↔
      Alarmed b d rows c k m ∨ (¬ Fails b rows c k m ∧ change = true) := by
  unfold visit Alarmed Fails
  simp only [trainBatch_eq, feed_foldl]
  cases hp : b.predict ((fun s => b.fit s rows c)^[k] m.1) (rows.map Prod.fst) with
  | none => simp
  | some pred =>
    simp only [outcomes]
    by_cases h1 : (d.check (((pred.zip (rows.map Prod.snd)).filterMap fun q => q.1.map fun p =>
        decide (p = q.2)).foldl d.add m.2)).1 = true ∧
      d.est m.2 < d.est (d.check (((pred.zip (rows.map Prod.snd)).filterMap fun q => q.1.map fun p =>
        decide (p = q.2)).foldl d.add m.2)).2
    · simp [h1]
    · rw [if_neg (by simpa using h1)]
      constructor
      · intro h; exact .inr ⟨by simp, h⟩
      · rintro (⟨p, hp', h⟩ | ⟨_, h⟩)
        · cases hp'; exact absurd h h1
        · exact h

theorem visitAll_flag [DecidableEq Y] (b : BaseA σ X Y) (d : Det δ) (poisson : Nat → Nat)
    (c : Option (List Int)) (rows : List (X × Y)) (ms : List (σ × δ)) (pos : Nat) (change : Bool) :
    (visitAll b d poisson c rows ms pos change).2 = true ↔
      (∃ (i : Nat) (m : σ × δ), ms[i]? = some m ∧ Alarmed b d rows c (poisson (pos + i)) m ∧
        ∀ (j : Nat) (m' : σ × δ), i < j → ms[j]? = some m' → ¬ Fails b rows c (poisson (pos + j)) m') ∨
      (change = true ∧ ∀ (j : Nat) (m' : σ × δ), ms[j]? = some m' → ¬ Fails b rows c (poisson (pos + j)) m') := by
  induction ms generalizing pos change with
  | nil => simp [visitAll]
  | cons a ms ih =>
    simp only [visitAll]
    rw [ih, visit_flag]
    have e : ∀ j, pos + (j + 1) = pos + 1 + j := fun j => by omega
    constructor
    · rintro (⟨i, m, h1, h2, h3⟩ | ⟨h1, h2⟩)
      · refine .inl ⟨i + 1, m, by simpa using h1, by rw [e]; exact h2, ?_⟩
        intro j m' hj hm'
        obtain ⟨j, rfl⟩ : ∃ k, j = k + 1 := ⟨j - 1, by omega⟩
        rw [e]
        exact h3 j m' (by omega) (by simpa using hm')
      · rcases h1 with h1 | ⟨h1, rfl⟩
        · refine .inl ⟨0, a, rfl, h1, ?_⟩
          intro j m' hj hm'
          obtain ⟨j, rfl⟩ : ∃ k, j = k + 1 := ⟨j - 1, by omega⟩
          rw [e]
          exact h2 j m' (by simpa using hm')
        · refine .inr ⟨rfl, ?_⟩
          intro j m' hm'
          cases j with
          | zero => cases hm'; exact h1
          | succ j => rw [e]; exact h2 j m' (by simpa using hm')
    · rintro (⟨i, m, h1, h2, h3⟩ | ⟨rfl, h2⟩)
      · have h3' : ∀ (j : Nat) (m' : σ × δ), i ≤ j → ms[j]? = some m' →
            ¬ Fails b rows c (poisson (pos + 1 + j)) m' := by
          intro j m' hj hm'
          rw [← e]
          exact h3 (j + 1) m' (by omega) (by simpa using hm')
        cases i with
        | zero =>
          cases h1
          exact .inr ⟨.inl h2, fun j m' hm' => h3' j m' (by omega) hm'⟩
        | succ i =>
          rw [e] at h2
          exact .inl ⟨i, m, by simpa using h1, h2, fun j m' hj hm' => h3' j m' (by omega) hm'⟩
      · refine .inr ⟨.inr ⟨h2 0 a rfl, rfl⟩, ?_⟩
        intro j m' hm'
        rw [← e]
        exact h2 (j + 1) m' (by simpa using hm')

/-- **C120, partial.** When exactly a member is replaced: some member's detector reports
a change with a risen estimate and no member visited later fails to predict. If any
estimate is positive, then the first member with the highest estimate is reset and
gets a new detector; no other member is touched. Missing: as claimed it should be a
fall, and the member with the highest error. -/
theorem C120_replacement_partial [DecidableEq Y] (b : BaseA σ X Y) (d : Det δ) (poisson : Nat → Nat)
    (s s' : StA σ δ) (known : List Int) (hc : s.classes = some known)
    (hk : known.length ≤ s.members.length) (rows : List (X × Y))
    (h : partialFitA b d poisson s rows none = .ok s') :
    ∃ ms : List (σ × δ), ms.length = s.members.length ∧
      ((¬ ∃ (i : Nat) (m : σ × δ), s.members[i]? = some m ∧ Alarmed b d rows none (poisson (s.pos + i)) m ∧
          ∀ (j : Nat) (m' : σ × δ), i < j → s.members[j]? = some m' →
            ¬ Fails b rows none (poisson (s.pos + j)) m') → s'.members = ms) ∧
      ((∃ (i : Nat) (m : σ × δ), s.members[i]? = some m ∧ Alarmed b d rows none (poisson (s.pos + i)) m ∧
          ∀ (j : Nat) (m' : σ × δ), i < j → s.members[j]? = some m' →
            ¬ Fails b rows none (poisson (s.pos + j)) m') →
        ((∀ m ∈ ms, d.est m.2 ≤ 0) ∧ s'.members = ms) ∨
        ∃ (i : Nat) (m : σ × δ), ms[i]? = some m ∧ 0 < d.est m.2 ∧ (∀ m' ∈ ms, d.est m'.2 ≤ d.est m.2) ∧
          (∀ m' ∈ ms.take i, d.est m'.2 < d.est m.2) ∧
          s'.members = ms.set i (b.reset m.1, d.new)) := by
  unfold partialFitA at h
  simp only [hc, checkClasses] at h
  cases h
  rw [adjustA_eq, Nat.sub_eq_zero_of_le hk]
  simp only [List.replicate_zero, List.append_nil]
  have hlen : ∀ (ms : List (σ × δ)) (pos : Nat) (ch : Bool),
      (visitAll b d poisson none rows ms pos ch).1.length = ms.length := by
    intro ms
    induction ms with
    | nil => intros; rfl
    | cons m ms ih => intros; simp only [visitAll, List.length_cons, ih]
  have hflag := visitAll_flag b d poisson none rows s.members s.pos false
  simp only [Bool.false_eq_true, false_and, or_false] at hflag
  refine ⟨(visitAll b d poisson none rows s.members s.pos false).1, hlen _ _ _, ?_, ?_⟩
  · intro hno
    rw [if_neg (by rw [hflag]; exact hno)]
  · intro hyes
    rw [if_pos (hflag.2 hyes)]
    generalize (visitAll b d poisson none rows s.members s.pos false).1 = ms
    have hscan : ∀ (ms : List (σ × δ)) (i : Nat) (top : ℚ) (best : Option Nat),
        (scanMax d ms i top best = best ∧ ∀ m ∈ ms, d.est m.2 ≤ top) ∨
        ∃ j m, scanMax d ms i top best = some (i + j) ∧ ms[j]? = some m ∧ top < d.est m.2 ∧
          (∀ m' ∈ ms, d.est m'.2 ≤ d.est m.2) ∧ ∀ m' ∈ ms.take j, d.est m'.2 < d.est m.2 := by
      intro ms
      induction ms with
      | nil => intro i top best; left; simp [scanMax]
      | cons a ms ih =>
        intro i top best
        by_cases h : top < d.est a.2
        · simp only [scanMax, if_pos h]
          rcases ih (i + 1) (d.est a.2) (some i) with ⟨h1, h2⟩ | ⟨j, m, h1, h2, h3, h4, h5⟩
          · right
            refine ⟨0, a, by simpa using h1, rfl, h, ?_, by simp⟩
            intro m' hm'
            rcases List.mem_cons.1 hm' with rfl | hm'
            · exact le_refl _
            · exact h2 m' hm'
          · right
            refine ⟨j + 1, m, by rw [h1]; congr 1; omega, by simpa using h2, h.trans h3, ?_, ?_⟩
            · intro m' hm'
              rcases List.mem_cons.1 hm' with rfl | hm'
              · exact h3.le
              · exact h4 m' hm'
            · intro m' hm'
              rw [List.take_succ_cons] at hm'
              rcases List.mem_cons.1 hm' with rfl | hm'
              · exact h3
              · exact h5 m' hm'
        · simp only [scanMax, if_neg h]
          rcases ih (i + 1) top best with ⟨h1, h2⟩ | ⟨j, m, h1, h2, h3, h4, h5⟩
          · left
            refine ⟨h1, ?_⟩
            intro m' hm'
            rcases List.mem_cons.1 hm' with rfl | hm'
            · exact not_lt.1 h
            · exact h2 m' hm'
          · right
            refine ⟨j + 1, m, by rw [h1]; congr 1; omega, by simpa using h2, h3, ?_, ?_⟩
            · intro m' hm'
              rcases List.mem_cons.1 hm' with rfl | hm'
              · exact (not_lt.1 h).trans h3.le
              · exact h4 m' hm'
            · intro m' hm'
              rw [List.take_succ_cons] at hm'
              rcases List.mem_cons.1 hm' with rfl | hm'
              · exact (not_lt.1 h).trans_lt h3
              · exact h5 m' hm'
    unfold replaceMember
    rcases hscan ms 0 0 none with ⟨h1, h2⟩ | ⟨j, m, h1, h2, h3, h4, h5⟩
    · left; exact ⟨h2, by rw [h1]⟩
    · right
      refine ⟨j, m, h2, h3, h4, h5, ?_⟩
      rw [h1]
      simp only [Nat.zero_add]
      obtain ⟨hj, rfl⟩ := List.getElem?_eq_some_iff.1 h2
      rw [List.modify_eq_set_getElem?]
      simp [hj]

/-- **C121, violated.** `reset` of the ADWIN variant does not touch the learners,
the known classes or the random source: only the detectors are renewed. -/
theorem C121_adwin_learners_kept_violated (d : Det δ) (s : StA σ δ) :
    (resetA d s).members.map Prod.fst = s.members.map Prod.fst ∧
    (∀ m ∈ (resetA d s).members, m.2 = d.new) ∧
    (resetA d s).classes = s.classes ∧ (resetA d s).pos = s.pos := by
  refine ⟨by simp [resetA, Function.comp_def], ?_, rfl, rfl⟩
  intro m hm
  simp only [resetA, List.mem_map] at hm
  obtain ⟨m', _, rfl⟩ := hm
  rfl

/-! ### Non-vacuity -/

/-- A detector that keeps all outcomes and reports a change at every check. -/
def alarm : Det (List Bool) := ⟨[], fun a h => a ++ [h], fun a => (true, a), accuracy⟩

theorem alarm_run (ops : List DOp) : alarm.run ops = hits ops := by
  induction ops using List.reverseRecOn with
  | nil => rfl
  | append_singleton ops o ih =>
    rw [Det.run_snoc, hits_append, ih]
    cases o <;> simp [alarm, hits]

example : alarm.Faithful := fun ops => ⟨hits ops, List.suffix_refl _, by rw [alarm_run]; rfl⟩

/-- A learner that always predicts the label it was created with. -/
def constant : BaseA Nat Nat Nat :=
  ⟨0, fun s _ _ => s, fun s xs => some (xs.map fun _ => some s), fun _ => 0⟩

/-- Three members, predicting 1, 2 and 3; the batch has labels 1, 1, 2.  Member 0,
the most accurate, is thrown away; member 2, which is always wrong, stays. -/
example : ((partialFitA constant alarm (fun _ => 1) ⟨[(1, []), (2, []), (3, [])], some [0, 1, 2], 0⟩
      [(5, 1), (6, 1), (7, 2)] none).toOption.map fun s => s.members) =
    some [(0, []), (2, [false, false, true]), (3, [false, false, false])] := by decide +kernel

example : Recorded alarm [((1 : Nat), []), (2, []), (3, [])] [[], [], []] :=
  .cons rfl (.cons rfl (.cons rfl .nil))

end Verif.Meta.Oza
