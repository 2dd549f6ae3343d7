import Verif.Meta.LearnPP
import Verif.Meta.LearnNSEProps
import Mathlib.Algebra.Order.BigOperators.Group.List
import Mathlib.Algebra.BigOperators.Ring.List
import Mathlib.Tactic.Positivity
import Mathlib.Tactic.FieldSimp
import Mathlib.Tactic.Linarith
import Mathlib.Tactic.Ring

/-!
C153: the ensembles of a `LearnPPClassifier` are those built from the last windows of the
stream; C154: which learners they keep, and when training ends.
-/

namespace Verif.Meta.LPP

open Windows

variable {F X S : Type} [Field F] [LinearOrder F]

/-! ### C153: windows -/

/-- A whole history: `partial_fit` calls on a new classifier, none of which raises. -/
def run (E : Env F X S) (fuel : Nat) :
    Cls F X S → List (Option (List Int) × List (X × Int)) → Option (Cls F X S)
  | c, [] => some c
  | c, call :: calls =>
    match partialFit E fuel c call.1 call.2 with
    | (c', none) => run E fuel c' calls
    | (_, some _) => none

/-- Specification: the ensemble is what training on the window `w` alone gives, for some
state of the random generator. -/
def BuiltFrom (E : Env F X S) (classes : List Int) (fuel : Nat) (ens : Ens F S) (w : List (X × Int)) : Prop :=
  ∃ n n', build E classes fuel w n = Except.ok (ens, n')

theorem run_feed (E : Env F X S) (fuel : Nat) (calls : List (Option (List Int) × List (X × Int))) (k : List Int)
    (c c' : Cls F X S) (hc : c.classes = some k) (h : run E fuel c calls = some c') :
    c'.classes = some k ∧
    feed E.window (process E k fuel) (c.st, c.buf) (calls.flatMap Prod.snd) = ((c'.st, c'.buf), none) := by
  induction calls generalizing c with
  | nil =>
    rw [run] at h
    cases h
    exact ⟨hc, rfl⟩
  | cons call calls ih =>
    rw [run] at h
    obtain ⟨d, o, hd⟩ : ∃ d o, partialFit E fuel c call.1 call.2 = (d, o) := ⟨_, _, rfl⟩
    rw [hd] at h
    cases o with
    | some e => cases h
    | none =>
      simp only at h
      unfold partialFit at hd
      rw [hc] at hd
      simp only at hd
      generalize differs call.1 k = b at hd
      cases b with
      | true => simp at hd
      | false =>
        simp only [Bool.false_eq_true, if_false] at hd
        obtain ⟨⟨s', b'⟩, o, hs⟩ : ∃ q o, feed E.window (process E k fuel) (c.st, c.buf) call.2 = (q, o) := ⟨_, _, rfl⟩
        rw [hs] at hd
        cases hd
        rw [List.flatMap_cons, feed_append, hs]
        exact ih ⟨some k, s', b'⟩ rfl h

theorem windows_built (E : Env F X S) (k : List Int) (fuel : Nat) (wins : List (List (X × Int))) (n0 : Nat) (st : State F S)
    (h : wins.foldlM (process E k fuel) ⟨[], n0⟩ = Except.ok st) :
    List.Forall₂ (BuiltFrom E k fuel) st.ensembles (lastN E.nEns wins) := by
  induction wins using List.reverseRecOn generalizing st with
  | nil =>
    simp only [List.foldlM_nil, pure, Except.pure] at h
    cases h
    simp [lastN]
  | append_singleton wins b ih =>
    rw [List.foldlM_append] at h
    cases h1 : wins.foldlM (process E k fuel) ⟨[], n0⟩ with
    | error e => rw [h1] at h; cases h
    | ok st1 =>
      rw [h1] at h
      have i2 := ih st1 h1
      simp only [bind, Except.bind, List.foldlM_cons, List.foldlM_nil, pure, Except.pure] at h
      cases h2 : build E k fuel b st1.tries with
      | error e => rw [process, h2] at h; cases h
      | ok r =>
        obtain ⟨ens, n'⟩ := r
        rw [process, h2] at h
        simp only [Except.ok.injEq] at h
        subst h
        have this : List.Forall₂ (BuiltFrom E k fuel) (st1.ensembles ++ [ens]) (lastN E.nEns wins ++ [b]) :=
          List.rel_append i2 (.cons ⟨_, _, h2⟩ .nil)
        have hl := this.length_eq
        simp only
        generalize st1.ensembles ++ [ens] = res at this hl ⊢
        simp only [lastN, List.length_append, List.length_drop, List.length_singleton] at hl this ⊢
        by_cases hc : E.nEns < res.length
        · rw [if_pos hc]
          have hge : E.nEns ≤ wins.length := by omega
          have heq : (wins ++ [b]).drop (wins.length + 1 - E.nEns) = (wins.drop (wins.length - E.nEns) ++ [b]).drop 1 := by
            rw [← List.drop_append_of_le_length (by omega), List.drop_drop]
            congr 1; omega
          rw [heq, List.eraseIdx_zero, ← List.drop_one]
          exact List.forall₂_drop 1 this
        · rw [if_neg hc]
          have e1 : wins.length - E.nEns = 0 := by omega
          have e2 : wins.length + 1 - E.nEns = 0 := by omega
          rw [e2]
          rw [e1] at this
          exact this

/-- C153: after a history of calls that raise nothing, the classifier holds one ensemble for
each of the last `n_ensembles` full windows of the stream, in order, each trained on its
window alone; the samples after the last full window wait in the buffer.  How the samples
were spread over calls does not matter. -/
theorem C153_ensembles (E : Env F X S) (hw : 0 < E.window) (fuel : Nat) (k : List Int) (xs : List (X × Int))
    (calls : List (Option (List Int) × List (X × Int))) (c : Cls F X S)
    (h : run E fuel blank ((some k, xs) :: calls) = some c) :
    let stream := xs ++ calls.flatMap Prod.snd
    c.buf = rest E.window stream ∧
    List.Forall₂ (BuiltFrom E k fuel) c.st.ensembles (lastN E.nEns (windows E.window stream)) ∧
    run E fuel blank [(some k, stream)] = some c := by
  intro stream
  have hself : differs (some k) k = false := by simp [differs]
  have hstart : ∀ ys, partialFit E fuel (blank : Cls F X S) (some k) ys = partialFit E fuel ⟨some k, ⟨[], 0⟩, []⟩ (some k) ys :=
    fun _ => rfl
  have h' : run E fuel ⟨some k, ⟨[], 0⟩, []⟩ ((some k, xs) :: calls) = some c := by
    rw [run] at h ⊢
    simp only at h ⊢
    rw [← hstart]
    exact h
  obtain ⟨h0, h1⟩ := run_feed E fuel _ k _ c rfl h'
  rw [List.flatMap_cons] at h1
  simp only at h1
  obtain ⟨h2, h3⟩ := feed_ok E.window hw _ _ _ _ h1
  refine ⟨h3, windows_built E k fuel _ _ _ h2, ?_⟩
  rw [run]
  simp only
  unfold partialFit
  simp only [blank, hself, Bool.false_eq_true, if_false]
  rw [h1]
  simp only [run, ← h0]

theorem outer_length (E : Env F X S) (classes : List Int) (batch : List (X × Int)) (fuel k : Nat) (ens ens' : Ens F S)
    (dt : List F) (n n' : Nat) (h : outer E classes batch fuel k ens dt n = Except.ok (ens', n')) :
    ens'.length ≤ ens.length + k ∧ ens'.take ens.length = ens := by
  induction k generalizing ens dt n with
  | zero =>
    rw [outer] at h
    cases h
    simp
  | succ k ih =>
    rw [outer] at h
    by_cases h0 : dt.sum = 0
    · rw [if_pos h0] at h; cases h; simp
    · rw [if_neg h0] at h
      cases hi : inner E classes batch ens (decide (0 < k)) fuel ⟨E.base, 1, dt.map (· / dt.sum), 0, n, some 1⟩ with
      | error e => rw [hi] at h; cases h
      | ok tr =>
        rw [hi] at h
        simp only at h
        obtain ⟨h1, h2⟩ := ih _ _ _ h
        by_cases ht : E.thr ≤ 1
        · rw [if_pos ht] at h1 h2
          rw [List.length_append, List.length_singleton] at h1 h2
          refine ⟨by omega, ?_⟩
          have : (ens'.take (ens.length + 1)).take ens.length = (ens ++ [(tr.est, tr.ne)]).take ens.length := by rw [h2]
          rw [List.take_take] at this
          simpa using this
        · rw [if_neg ht] at h1 h2
          exact ⟨by omega, h2⟩

/-- C153: an ensemble has at most `n_estimators` learners, and there are at most
`n_ensembles` ensembles. -/
theorem C153_sizes (E : Env F X S) (hw : 0 < E.window) (fuel : Nat) (k : List Int) (xs : List (X × Int))
    (calls : List (Option (List Int) × List (X × Int))) (c : Cls F X S)
    (h : run E fuel blank ((some k, xs) :: calls) = some c) :
    c.st.ensembles.length = min E.nEns ((xs ++ calls.flatMap Prod.snd).length / E.window) ∧
    ∀ ens ∈ c.st.ensembles, ens.length ≤ E.nEst := by
  obtain ⟨_, h1, _⟩ := C153_ensembles E hw fuel k xs calls c h
  refine ⟨?_, ?_⟩
  · rw [h1.length_eq, length_lastN, length_windows]
  · intro ens he
    obtain ⟨i, hi⟩ := List.mem_iff_getElem?.mp he
    have hlt := (List.getElem?_eq_some_iff.mp hi).1
    have hlt' := hlt
    rw [h1.length_eq] at hlt'
    obtain ⟨n, n', hb⟩ := NSE.get_of_forall₂ h1 i ens _ hi (List.getElem?_eq_getElem hlt')
    have := (outer_length E k _ fuel E.nEst [] ens _ n n' hb).1
    simpa using this

/-! ### C154: acceptance -/

section ordered
variable [IsStrictOrderedRing F]

/-- Specification: the share of the weight of the samples marked wrong. -/
def errRate (dt : List F) (wrong : List Bool) : F :=
  ((dt.zip wrong).map fun p => if p.2 then p.1 else 0).sum / dt.sum

/-- Specification: the positions drawn exist, and there is at least one. -/
def Draws (E : Env F X S) (m : Nat) : Prop :=
  ∀ n dt, dt.length = m → (∀ i ∈ E.test n dt, i < m) ∧ E.test n dt ≠ []

/-- Specification of an accepted learner, the last of `ens`: for some distribution `dt` over
the window, its error on the test samples drawn is below the threshold, the number stored
with it is the normalised error, and the error of the vote of `ens` on the window is below
the threshold. -/
def Accepted (E : Env F X S) (classes : List Int) (batch : List (X × Int)) (ens : Ens F S) : Prop :=
  ∃ (s : S) (ne : F) (dt : List F) (n : Nat) (wr : List Bool), ens.getLast? = some (s, ne) ∧
    dt.length = batch.length ∧ (∀ d ∈ dt, 0 < d) ∧ dt.sum = 1 ∧
    (let e := errRate (pick dt (E.test n dt)) ((pick batch (E.test n dt)).map fun p => E.pred s p.1 != p.2)
     e < E.thr ∧ ne = e / (1 - e)) ∧
    composite E classes ens batch = Except.ok wr ∧ errRate dt wr < E.thr

theorem computeError_some (dt : List F) (wr : List Bool) (e : F) (h : computeError dt wr = some e) :
    e = errRate dt wr := by
  unfold computeError at h
  by_cases h0 : dt.sum = 0
  · rw [if_pos h0] at h; cases h
  · rw [if_neg h0] at h; cases h; rfl

theorem sum_pos' (dt : List F) (h : ∀ d ∈ dt, 0 < d) (hne : dt ≠ []) : 0 < dt.sum := by
  cases dt with
  | nil => exact absurd rfl hne
  | cons d l =>
    rw [List.sum_cons]
    have h1 := h d (by simp)
    have h2 : 0 ≤ l.sum := List.sum_nonneg fun x hx => (h x (by simp [hx])).le
    linarith

theorem pick_pos (dt : List F) (idx : List Nat) (h : ∀ d ∈ dt, 0 < d) (hi : ∀ i ∈ idx, i < dt.length) (hne : idx ≠ []) :
    (pick dt idx).sum ≠ 0 := by
  apply ne_of_gt
  apply sum_pos'
  · intro d hd
    obtain ⟨i, _, hd⟩ := List.mem_filterMap.mp hd
    exact h d (List.mem_of_getElem? hd)
  · cases idx with
    | nil => exact absurd rfl hne
    | cons i idx =>
      rw [pick, List.filterMap_cons, List.getElem?_eq_getElem (hi i (by simp))]
      simp

theorem composite_length (E : Env F X S) (classes : List Int) (ens : Ens F S) (l : List (X × Int)) (wr : List Bool)
    (h : composite E classes ens l = Except.ok wr) : wr.length = l.length := by
  induction l generalizing wr with
  | nil => simp [composite, pure, Except.pure] at h; simp [← h]
  | cons p l ihl =>
    rw [composite, List.mapM_cons] at h
    simp only [bind, Except.bind] at h
    split at h
    · cases h
    · split at h
      · cases h
      · rename_i _ _ _ _ wr' hwr'
        cases h
        simp [ihl wr' hwr']

/-- The error is zero exactly when nothing is wrong. -/
theorem errRate_zero (dt : List F) (wr : List Bool) (h : ∀ d ∈ dt, 0 < d) (hl : wr.length = dt.length) :
    0 ≤ errRate dt wr ∧ (errRate dt wr = 0 → ∀ b ∈ wr, b = false) := by
  have key : ∀ (dt : List F) (wr : List Bool), (∀ d ∈ dt, 0 < d) → wr.length = dt.length →
      0 ≤ ((dt.zip wr).map fun p => if p.2 then p.1 else 0).sum ∧
      (((dt.zip wr).map fun p => if p.2 then p.1 else 0).sum = 0 → ∀ b ∈ wr, b = false) := by
    intro dt
    induction dt with
    | nil => intro wr _ hl; simp at hl; subst hl; simp
    | cons d dt ih =>
      intro wr h hl
      cases wr with
      | nil => simp at hl
      | cons b wr =>
        obtain ⟨h1, h2⟩ := ih wr (fun x hx => h x (by simp [hx])) (by simpa using hl)
        have hd := h d (by simp)
        simp only [List.zip_cons_cons, List.map_cons, List.sum_cons]
        cases b with
        | true =>
          simp only [if_true]
          refine ⟨by linarith, fun hz => by linarith⟩
        | false =>
          simp only [Bool.false_eq_true, if_false, zero_add]
          refine ⟨h1, fun hz b hb => ?_⟩
          rcases List.mem_cons.mp hb with rfl | hb
          · rfl
          · exact h2 hz b hb
  obtain ⟨h1, h2⟩ := key dt wr h hl
  have h3 : 0 ≤ dt.sum := List.sum_nonneg fun d hd => (h d hd).le
  refine ⟨div_nonneg h1 h3, fun hz => ?_⟩
  cases dt with
  | nil => simp at hl; subst hl; simp
  | cons d l =>
    have := sum_pos' (d :: l) h (by simp)
    rw [errRate, div_eq_zero_iff] at hz
    exact h2 (hz.resolve_right this.ne')

/-- The weights at the start of a round: either a positive distribution, or all zero because
the vote of the ensemble is right on the whole window. -/
def Weights (E : Env F X S) (classes : List Int) (batch : List (X × Int)) (ens : Ens F S) (dt : List F) : Prop :=
  dt.length = batch.length ∧ ((∀ d ∈ dt, 0 < d) ∨
    ((∀ d ∈ dt, d = 0) ∧ ∃ wr, composite E classes ens batch = Except.ok wr ∧ ∀ b ∈ wr, b = false))

theorem finish_ok (E : Env F X S) (tr tr' : Try F S) (est : S) (ne : F) (err : Option F) (dt : List F)
    (h : finish E tr est ne err dt = Except.ok tr') :
    tr'.est = est ∧ tr'.ne = ne ∧ tr'.err = err ∧ tr'.dt = dt ∧
      tr'.patience = (if above E.thr err then tr.patience + 1 else 0) ∧ tr'.patience ≤ 1000 := by
  unfold finish at h
  simp only at h
  generalize (if above E.thr err then tr.patience + 1 else 0) = p at h ⊢
  by_cases hp : 1000 < p
  · rw [if_pos hp] at h; cases h
  · rw [if_neg hp] at h
    cases h
    exact ⟨rfl, rfl, rfl, rfl, rfl, not_lt.mp hp⟩

/-- What a round of the inner loop leaves. -/
theorem attempt_ok (E : Env F X S) (classes : List Int) (batch : List (X × Int)) (done : Ens F S) (more : Bool)
    (tr tr' : Try F S) (ht : E.thr ≤ 1) (hd : Draws E batch.length) (hl : tr.dt.length = batch.length)
    (hpos : ∀ d ∈ tr.dt, 0 < d) (hsum : tr.dt.sum = 1)
    (h : attempt E classes batch done more tr = Except.ok tr') :
    ∃ e, tr'.err = some e ∧ (E.thr ≤ e → tr'.dt = tr.dt) ∧
      (e < E.thr → Accepted E classes batch (done ++ [(tr'.est, tr'.ne)]) ∧
        (more = true → Weights E classes batch (done ++ [(tr'.est, tr'.ne)]) tr'.dt)) := by
  unfold attempt at h
  simp only at h
  obtain ⟨d1, d2⟩ := hd tr.tries tr.dt hl
  have hne := pick_pos tr.dt (E.test tr.tries tr.dt) hpos (fun i hi => by rw [hl]; exact d1 i hi) d2
  generalize hest : E.fit tr.est (pick batch (E.train tr.tries tr.dt)) = est at h
  generalize hq : ((pick batch (E.test tr.tries tr.dt)).map fun p => E.pred est p.1 != p.2) = q at h
  have hc : computeError (pick tr.dt (E.test tr.tries tr.dt)) q = some (errRate (pick tr.dt (E.test tr.tries tr.dt)) q) := by
    unfold computeError; rw [if_neg hne]; rfl
  rw [hc] at h
  simp only at h
  generalize he : errRate (pick tr.dt (E.test tr.tries tr.dt)) q = e at h
  by_cases hlt : e < E.thr
  · rw [if_pos hlt] at h
    unfold compositeStep at h
    cases hcomp : composite E classes (done ++ [(est, e / (1 - e))]) batch with
    | error x => rw [hcomp] at h; cases h
    | ok wr =>
      rw [hcomp] at h
      have hwl := composite_length E classes _ batch wr hcomp
      have hcc : computeError tr.dt wr = some (errRate tr.dt wr) := by
        unfold computeError; rw [if_neg (by rw [hsum]; exact one_ne_zero)]; rfl
      simp only [hcc] at h
      generalize hcr : errRate tr.dt wr = cr at h
      obtain ⟨z1, z2⟩ := errRate_zero tr.dt wr hpos (by omega)
      rw [hcr] at z1 z2
      by_cases hcl : cr < E.thr ∧ more = true
      · rw [if_pos hcl] at h
        simp only at h
        obtain ⟨f1, f2, f3, f4, _⟩ := finish_ok E tr tr' _ _ _ _ h
        rw [f1, f2, f3, f4]
        refine ⟨cr, rfl, fun hge => absurd hcl.1 (not_lt.mpr hge), fun _ => ⟨?_, fun _ => ?_⟩⟩
        · refine ⟨est, _, tr.dt, tr.tries, wr, by simp; rfl, hl, hpos, hsum, ?_, hcomp, by rw [hcr]; exact hcl.1⟩
          simp only [hq, he]
          exact ⟨hlt, trivial⟩
        · refine ⟨by simp [hwl, hl], ?_⟩
          rcases eq_or_lt_of_le z1 with hz | hz
          · right
            have hall := z2 hz.symm
            refine ⟨?_, wr, hcomp, hall⟩
            intro d hd'
            rw [← hz] at hd'
            rw [List.mem_iff_getElem] at hd'
            obtain ⟨i, hi, rfl⟩ := hd'
            rw [List.getElem_zipWith]
            rw [hall _ (List.getElem_mem _)]
            simp
          · left
            intro d hd'
            rw [List.mem_iff_getElem] at hd'
            obtain ⟨i, hi, rfl⟩ := hd'
            rw [List.getElem_zipWith]
            have hp := hpos _ (List.getElem_mem (by simpa using (by simp at hi; omega : i < tr.dt.length)))
            have h1c : 0 < 1 - cr := by linarith [hcl.1]
            by_cases hb : wr[i]'(by simp at hi; omega) = true
            · rw [if_pos hb]; exact hp
            · rw [if_neg hb]; positivity
      · rw [if_neg hcl] at h
        simp only at h
        obtain ⟨f1, f2, f3, f4, _⟩ := finish_ok E tr tr' _ _ _ _ h
        rw [f1, f2, f3, f4]
        refine ⟨cr, rfl, fun _ => rfl, fun hcr' => ⟨?_, fun hm => absurd ⟨hcr', hm⟩ hcl⟩⟩
        refine ⟨est, _, tr.dt, tr.tries, wr, by simp; rfl, hl, hpos, hsum, ?_, hcomp, by rw [hcr]; exact hcr'⟩
        simp only [hq, he]
        exact ⟨hlt, trivial⟩
  · rw [if_neg hlt] at h
    obtain ⟨f1, f2, f3, f4, _⟩ := finish_ok E tr tr' _ _ _ _ h
    rw [f1, f2, f3, f4]
    exact ⟨e, rfl, fun _ => rfl, fun hh => absurd hh hlt⟩

theorem inner_stop (E : Env F X S) (classes : List Int) (batch : List (X × Int)) (done : Ens F S) (more : Bool)
    (fuel : Nat) (tr : Try F S) (h : ¬ atLeast E.thr tr.err = true) :
    inner E classes batch done more fuel tr = Except.ok tr := by
  cases fuel with
  | zero => rw [inner, if_neg h]
  | succ n => rw [inner, if_neg h]

theorem inner_ok (E : Env F X S) (classes : List Int) (batch : List (X × Int)) (done : Ens F S) (more : Bool)
    (ht : E.thr ≤ 1) (hd : Draws E batch.length) (fuel : Nat) (tr tr' : Try F S) (e0 : F) (he0 : tr.err = some e0) (hge : E.thr ≤ e0)
    (hl : tr.dt.length = batch.length) (hpos : ∀ d ∈ tr.dt, 0 < d) (hsum : tr.dt.sum = 1)
    (h : inner E classes batch done more fuel tr = Except.ok tr') :
    Accepted E classes batch (done ++ [(tr'.est, tr'.ne)]) ∧
        (more = true → Weights E classes batch (done ++ [(tr'.est, tr'.ne)]) tr'.dt) := by
  induction fuel generalizing tr e0 with
  | zero =>
    rw [inner] at h
    rw [if_pos (by simp [atLeast, he0, hge])] at h
    cases h
  | succ fuel ih =>
    rw [inner] at h
    rw [if_pos (by simp [atLeast, he0, hge])] at h
    cases ha : attempt E classes batch done more tr with
    | error e => rw [ha] at h; cases h
    | ok tr1 =>
      rw [ha] at h
      simp only at h
      obtain ⟨e, h1, h2, h3⟩ := attempt_ok E classes batch done more tr tr1 ht hd hl hpos hsum ha
      by_cases hc : E.thr ≤ e
      · have := h2 hc
        exact ih tr1 e h1 hc (by rw [this]; exact hl) (by rw [this]; exact hpos) (by rw [this]; exact hsum) h
      · have : inner E classes batch done more fuel tr1 = Except.ok tr1 := by
          exact inner_stop E classes batch done more fuel tr1 (by simp [atLeast, h1, hc])
        rw [this] at h
        cases h
        exact h3 (not_le.mp hc)

theorem outer_ok (E : Env F X S) (classes : List Int) (batch : List (X × Int)) (hb : batch ≠ [])
    (ht : E.thr ≤ 1) (hd : Draws E batch.length) (fuel k : Nat) (ens ens' : Ens F S) (dt : List F) (n n' : Nat)
    (hw : k ≠ 0 → Weights E classes batch ens dt) (hens : ∀ i, 0 < i → i ≤ ens.length → Accepted E classes batch (ens.take i))
    (h : outer E classes batch fuel k ens dt n = Except.ok (ens', n')) :
    (∀ i, 0 < i → i ≤ ens'.length → Accepted E classes batch (ens'.take i)) ∧
    (ens'.length = ens.length + k ∨
      ∃ wr, composite E classes ens' batch = Except.ok wr ∧ ∀ b ∈ wr, b = false) := by
  induction k generalizing ens dt n with
  | zero =>
    rw [outer] at h
    cases h
    exact ⟨hens, .inl rfl⟩
  | succ k ih =>
    obtain ⟨w1, w2⟩ := hw (by omega)
    rw [outer] at h
    by_cases h0 : dt.sum = 0
    · rw [if_pos h0] at h
      cases h
      refine ⟨hens, .inr ?_⟩
      rcases w2 with w2 | ⟨_, w2⟩
      · refine absurd h0 (ne_of_gt (sum_pos' dt w2 ?_))
        rintro rfl
        exact hb (List.length_eq_zero_iff.mp w1.symm)
      · exact w2
    · rw [if_neg h0] at h
      have hposdt : ∀ d ∈ dt, 0 < d := by
        rcases w2 with w2 | ⟨w2, _⟩
        · exact w2
        · exact absurd (List.sum_eq_zero w2) h0
      have hs : 0 < dt.sum := by
        apply sum_pos' dt hposdt
        rintro rfl
        exact h0 rfl
      cases hi : inner E classes batch ens (decide (0 < k)) fuel ⟨E.base, 1, dt.map (· / dt.sum), 0, n, some 1⟩ with
      | error e => rw [hi] at h; cases h
      | ok tr =>
        rw [hi] at h
        simp only [if_pos ht] at h
        obtain ⟨a1, a2⟩ := inner_ok E classes batch ens (decide (0 < k)) ht hd fuel _ tr 1 rfl ht (by simp [w1])
          (by
            intro d hd'
            obtain ⟨x, hx, rfl⟩ := List.mem_map.mp hd'
            exact div_pos (hposdt x hx) hs)
          (by
            have : (dt.map (· / dt.sum)) = dt.map (· * (1 / dt.sum)) := by
              apply List.map_congr_left; intro a _; rw [mul_one_div]
            simp only [this]
            rw [List.sum_map_mul_right, List.map_id', mul_one_div, div_self h0]) hi
        have := ih (ens ++ [(tr.est, tr.ne)]) tr.dt tr.tries (fun hk => a2 (by simp; omega)) (by
          intro i i1 i2
          rw [List.length_append, List.length_singleton] at i2
          rcases Nat.lt_or_ge ens.length i with hlt | hge
          · have : i = (ens ++ [(tr.est, tr.ne)]).length := by simp; omega
            rw [this, List.take_length]; exact a1
          · rw [List.take_append_of_le_length hge]; exact hens i i1 hge) h
        rw [List.length_append, List.length_singleton] at this
        exact ⟨this.1, this.2.imp (fun hh => by omega) id⟩

/-- C154 (what holds): for a threshold of at most one, when training on a window ends
normally, every learner of the ensemble was accepted: its test error and the error of the
vote of the learners up to it were below the threshold.  There are `n_estimators` of them,
unless the vote of the ensemble is right on the whole window (early stop). -/
theorem C154_accepted_partial (E : Env F X S) (classes : List Int) (batch : List (X × Int)) (hb : batch ≠ [])
    (ht : E.thr ≤ 1) (hd : Draws E batch.length) (fuel n n' : Nat) (ens : Ens F S)
    (h : build E classes fuel batch n = Except.ok (ens, n')) :
    (∀ i, 0 < i → i ≤ ens.length → Accepted E classes batch (ens.take i)) ∧
    (ens.length = E.nEst ∨ ∃ wr, composite E classes ens batch = Except.ok wr ∧ ∀ b ∈ wr, b = false) := by
  have hm : (0 : F) < batch.length := by
    have := List.length_pos_of_ne_nil hb
    exact_mod_cast this
  have := outer_ok E classes batch hb ht hd fuel E.nEst [] ens _ n n' (fun _ => ⟨by simp, .inl (by
    intro d hd'
    rw [(List.mem_replicate.mp hd').2]
    positivity)⟩) (by intro i i1 i2; simp at i2; omega) h
  simpa using this

/-! ### Termination -/

/-- The learner trained and its test error in a round of the inner loop. -/
def testError (E : Env F X S) (batch : List (X × Int)) (tr : Try F S) : F :=
  errRate (pick tr.dt (E.test tr.tries tr.dt)) ((pick batch (E.test tr.tries tr.dt)).map fun p =>
    E.pred (E.fit tr.est (pick batch (E.train tr.tries tr.dt))) p.1 != p.2)

/-- C154 (violated): when the error of every attempt is exactly the threshold, training never
ends: no number of rounds is enough, and the documented error is not raised. -/
theorem C154_endless_violated (E : Env F X S) (classes : List Int) (batch : List (X × Int)) (done : Ens F S)
    (more : Bool) (hd : Draws E batch.length) (dt : List F) (hl : dt.length = batch.length)
    (hpos : ∀ d ∈ dt, 0 < d) (hall : ∀ (s : S) (n : Nat), errRate (pick dt (E.test n dt))
      ((pick batch (E.test n dt)).map fun p => E.pred (E.fit s (pick batch (E.train n dt))) p.1 != p.2) = E.thr)
    (fuel : Nat) (tr : Try F S) (htr : tr.dt = dt) (he : atLeast E.thr tr.err = true) :
    inner E classes batch done more fuel tr = Except.error none := by
  induction fuel generalizing tr with
  | zero => unfold inner; rw [if_pos he]
  | succ fuel ih =>
    unfold inner
    rw [if_pos he]
    obtain ⟨d1, d2⟩ := hd tr.tries tr.dt (by rw [htr, hl])
    have hne := pick_pos tr.dt (E.test tr.tries tr.dt) (by rw [htr]; exact hpos) (fun i hi => by rw [htr, hl]; exact d1 i hi) d2
    have : attempt E classes batch done more tr =
        Except.ok ⟨E.fit tr.est (pick batch (E.train tr.tries tr.dt)), tr.ne, tr.dt, 0, tr.tries + 1, some E.thr⟩ := by
      unfold attempt
      simp only
      have hc : computeError (pick tr.dt (E.test tr.tries tr.dt)) ((pick batch (E.test tr.tries tr.dt)).map fun p =>
          E.pred (E.fit tr.est (pick batch (E.train tr.tries tr.dt))) p.1 != p.2) = some E.thr := by
        unfold computeError
        rw [if_neg hne]
        congr 1
        have := hall tr.est tr.tries
        rw [← htr] at this
        exact this
      rw [hc]
      simp [finish, above]
    rw [this]
    simp only
    exact ih _ htr (by simp [atLeast])

/-- C154 (what holds): if no attempt gives exactly the threshold, a learner is accepted or
the documented error raised after at most 1001 attempts. -/
theorem C154_terminates_partial (E : Env F X S) (classes : List Int) (batch : List (X × Int)) (done : Ens F S)
    (more : Bool) (tr : Try F S)
    (hne : ∀ tr tr' : Try F S, attempt E classes batch done more tr = Except.ok tr' → tr'.err ≠ some E.thr) :
    tr.patience ≤ 1000 → ∀ fuel, 1001 - tr.patience ≤ fuel → inner E classes batch done more fuel tr ≠ Except.error none := by
  intro hp fuel hf
  induction fuel generalizing tr with
  | zero => omega
  | succ fuel ih =>
    unfold inner
    by_cases ha : atLeast E.thr tr.err
    · rw [if_pos ha]
      cases hat : attempt E classes batch done more tr with
      | error e => simp
      | ok tr' =>
        simp only
        have hnt := hne tr tr' hat
        have hpat : tr'.patience = (if above E.thr tr'.err then tr.patience + 1 else 0) ∧ tr'.patience ≤ 1000 := by
          unfold attempt at hat
          simp only at hat
          have fin : ∀ est ne err dt, finish E tr est ne err dt = Except.ok tr' →
              tr'.patience = (if above E.thr tr'.err then tr.patience + 1 else 0) ∧ tr'.patience ≤ 1000 := by
            intro est ne err dt hf
            obtain ⟨_, _, f3, _, f5, f6⟩ := finish_ok E tr tr' _ _ _ _ hf
            rw [f3]; exact ⟨f5, f6⟩
          split at hat
          · exact fin _ _ _ _ hat
          · split at hat
            · split at hat
              · cases hat
              · exact fin _ _ _ _ hat
            · exact fin _ _ _ _ hat
        by_cases hab : above E.thr tr'.err
        · rw [if_pos hab] at hpat
          exact ih tr' (by omega) (by omega)
        · rw [inner_stop]
          · simp
          · intro hat'
            cases he : tr'.err with
            | none => rw [he] at hat'; simp [atLeast] at hat'
            | some e =>
              rw [he] at hat' hab hnt
              simp only [atLeast, above, decide_eq_true_eq, not_lt] at hat' hab
              exact hnt (by rw [le_antisymm hab hat'])
    · rw [if_neg ha]; simp

/-- C154: when every attempt is above the threshold the documented error is raised, after
1001 attempts. -/
theorem C154_weak_partial (E : Env F X S) (classes : List Int) (batch : List (X × Int)) (done : Ens F S)
    (more : Bool) (hd : Draws E batch.length) (dt : List F) (hl : dt.length = batch.length)
    (hpos : ∀ d ∈ dt, 0 < d) (hall : ∀ (s : S) (n : Nat), E.thr < errRate (pick dt (E.test n dt))
      ((pick batch (E.test n dt)).map fun p => E.pred (E.fit s (pick batch (E.train n dt))) p.1 != p.2))
    (fuel : Nat) (tr : Try F S) (htr : tr.dt = dt) (he : atLeast E.thr tr.err = true) (hp : tr.patience ≤ 1000)
    (hf : 1001 - tr.patience ≤ fuel) :
    inner E classes batch done more fuel tr = Except.error (some .other) := by
  induction fuel generalizing tr with
  | zero => omega
  | succ fuel ih =>
    unfold inner
    rw [if_pos he]
    obtain ⟨d1, d2⟩ := hd tr.tries tr.dt (by rw [htr, hl])
    have hne := pick_pos tr.dt (E.test tr.tries tr.dt) (by rw [htr]; exact hpos) (fun i hi => by rw [htr, hl]; exact d1 i hi) d2
    obtain ⟨e, hc, hlt⟩ : ∃ e, computeError (pick tr.dt (E.test tr.tries tr.dt)) ((pick batch (E.test tr.tries tr.dt)).map fun p =>
          E.pred (E.fit tr.est (pick batch (E.train tr.tries tr.dt))) p.1 != p.2) = some e ∧ E.thr < e := by
      refine ⟨_, by unfold computeError; rw [if_neg hne], ?_⟩
      have := hall tr.est tr.tries
      rw [← htr] at this
      exact this
    have : attempt E classes batch done more tr =
        if 1000 < tr.patience + 1 then Except.error .other
        else Except.ok ⟨E.fit tr.est (pick batch (E.train tr.tries tr.dt)), tr.ne, tr.dt, tr.patience + 1, tr.tries + 1, some e⟩ := by
      unfold attempt
      simp only [hc]
      rw [if_neg (not_lt.mpr hlt.le)]
      simp [finish, above, hlt]
    rw [this]
    by_cases h1 : 1000 < tr.patience + 1
    · rw [if_pos h1]
    · rw [if_neg h1]
      simp only
      exact ih _ htr (by simp [atLeast, hlt.le]) (by simp only; omega) (by simp only; omega)

/-- Scaling the weights of the right samples by `c / (1 - c)` makes the error one half. -/
theorem half_error (dt : List F) (wr : List Bool) (hsum : dt.sum = 1)
    (hl : wr.length = dt.length) (h0 : 0 < errRate dt wr) (h1 : errRate dt wr < 1) :
    let c := errRate dt wr
    let new := List.zipWith (fun d b => if b then d else d * (c / (1 - c))) dt wr
    errRate (new.map (· / new.sum)) wr = 1 / 2 := by
  intro c new
  have gen : ∀ (dt : List F) (wr : List Bool) (r : F), wr.length = dt.length →
      (List.zipWith (fun d b => if b then d else d * r) dt wr).sum =
        ((dt.zip wr).map fun p => if p.2 then p.1 else 0).sum +
          (dt.sum - ((dt.zip wr).map fun p => if p.2 then p.1 else 0).sum) * r ∧
      ∀ s : F, ((((List.zipWith (fun d b => if b then d else d * r) dt wr).map (· / s)).zip wr).map
        fun p => if p.2 then p.1 else 0).sum = ((dt.zip wr).map fun p => if p.2 then p.1 else 0).sum / s := by
    intro dt
    induction dt with
    | nil => intro wr r hl; simp at hl; subst hl; simp
    | cons d dt ih =>
      intro wr r hl
      cases wr with
      | nil => simp at hl
      | cons b wr =>
        obtain ⟨i1, i2⟩ := ih wr r (by simpa using hl)
        simp only [List.zipWith_cons_cons, List.zip_cons_cons, List.map_cons, List.sum_cons, i1]
        constructor
        · cases b
          · simp; ring
          · simp; ring
        · intro s
          rw [i2 s]
          cases b
          · simp
          · simp; ring
  have hc : ((dt.zip wr).map fun p => if p.2 then p.1 else 0).sum = c := by
    show _ = errRate dt wr
    rw [errRate, hsum, div_one]
  obtain ⟨g1, g2⟩ := gen dt wr (c / (1 - c)) hl
  have h1c : (1 : F) - c ≠ 0 := by
    have : c < 1 := h1
    exact ne_of_gt (sub_pos.mpr this)
  have hc0 : c ≠ 0 := ne_of_gt h0
  have hs : new.sum = 2 * c := by
    show (List.zipWith _ dt wr).sum = _
    rw [g1, hc, hsum]
    field_simp
    ring
  have hnum := g2 (2 * c)
  have hden : (new.map (· / (2 * c))).sum = 1 := by
    have : (new.map (· / (2 * c))) = new.map (· * (1 / (2 * c))) := by
      apply List.map_congr_left; intro a _; rw [mul_one_div]
    rw [this, List.sum_map_mul_right, List.map_id', hs, mul_one_div, div_self (by simp [hc0])]
  rw [hs, errRate, hden, div_one]
  rw [show new = List.zipWith (fun d b => if b then d else d * (c / (1 - c))) dt wr from rfl, hnum, hc]
  field_simp

/-- C154 (violated): the default threshold one half is where training gets caught: once the
weights are adjusted for a vote with error above 0 and below the threshold, the error of that
same vote is exactly one half, so a next learner that does not change the vote is neither accepted
nor counted as a failure. -/
theorem C154_half_violated (E : Env F X S) (classes : List Int) (batch : List (X × Int)) (ens : Ens F S) (dt : List F)
    (wr : List Bool) (hw : composite E classes ens batch = Except.ok wr) (hsum : dt.sum = 1) (hl : batch.length = dt.length)
    (h0 : 0 < errRate dt wr) (h1 : errRate dt wr < E.thr) (ht : E.thr ≤ 1) :
    ∃ new, compositeStep E classes batch ens true dt = Except.ok (some (errRate dt wr), new) ∧
      errRate (new.map (· / new.sum)) wr = 1 / 2 := by
  have hlen : wr.length = dt.length := by rw [composite_length E classes ens batch wr hw, hl]
  have hc : computeError dt wr = some (errRate dt wr) := by
    unfold computeError; rw [if_neg (by rw [hsum]; exact one_ne_zero)]; rfl
  refine ⟨List.zipWith (fun d b => if b then d else d * (errRate dt wr / (1 - errRate dt wr))) dt wr, ?_,
    half_error dt wr hsum hlen h0 (lt_of_lt_of_le h1 ht)⟩
  unfold compositeStep
  simp only [hw, hc]
  rw [if_pos ⟨h1, trivial⟩]

end ordered

end Verif.Meta.LPP
