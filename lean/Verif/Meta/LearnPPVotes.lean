import Verif.Meta.LearnPPProps
import Mathlib.Tactic.NormNum
import Mathlib.Data.Rat.Lemmas

/-!
C154 (examples), C155: the votes of a `LearnPPClassifier`; C156: after an exception; C157:
the `classes` argument and `reset`.
-/

namespace Verif.Meta.LPP

open Windows

variable {F X S : Type} [Field F] [LinearOrder F]

/-! ### Examples for C153 and C154 -/

/-- A learner that always predicts 0, tested on the first two samples of the window. -/
def toy (thr : ℚ) : Env ℚ Nat Unit :=
  { base := (), fit := fun s _ => s, pred := fun _ _ => 0, train := fun _ _ => [0, 1], test := fun _ _ => [0, 1],
    lg := fun x => x - 1, eps := 1 / 1000, nEst := 2, nEns := 1, window := 4, thr := thr }

/-- C154 (violated, reachable): four samples, half of them of class 1, and the default
threshold one half: the first `partial_fit` never returns. -/
theorem C154_default_threshold_violated (fuel : Nat) :
    (partialFit (toy (1 / 2)) fuel blank (some [0, 1]) [(0, 0), (1, 1), (2, 0), (3, 1)]).2 = some none := by
  have hin := C154_endless_violated (toy (1 / 2)) [0, 1] [(0, 0), (1, 1), (2, 0), (3, 1)] [] true
    (by intro n dt h; refine ⟨?_, by simp [toy]⟩; intro i hi; simp [toy] at hi; simp; omega)
    ((List.replicate 4 (1 / (4 : ℚ))).map (· / (List.replicate 4 (1 / (4 : ℚ))).sum)) (by simp)
    (by
      intro d hd
      simp at hd
      rw [hd]; norm_num)
    (by intro s n; show errRate (pick _ [0, 1]) (List.map (fun p : Nat × Int => (0 : Int) != p.2) (pick _ [0, 1])) = (1 / 2 : ℚ); decide +kernel) fuel
    ⟨(), 1, (List.replicate 4 (1 / (4 : ℚ))).map (· / (List.replicate 4 (1 / (4 : ℚ))).sum), 0, 0, some 1⟩ rfl
    (by decide +kernel)
  have hb : build (toy (1 / 2)) [0, 1] fuel [(0, 0), (1, 1), (2, 0), (3, 1)] 0 = Except.error none := by
    unfold build
    have h0 : (List.replicate 4 (1 / (4 : ℚ))).sum ≠ 0 := by norm_num
    show outer (toy (1 / 2)) [0, 1] _ fuel 2 [] (List.replicate 4 (1 / (4 : ℚ))) 0 = _
    rw [outer, if_neg h0]
    have : (decide (0 < 1)) = true := rfl
    rw [this]
    have hin' : inner (toy (1 / 2)) [0, 1] [(0, 0), (1, 1), (2, 0), (3, 1)] [] true fuel
        ⟨(toy (1 / 2)).base, 1, (List.replicate 4 (1 / (4 : ℚ))).map (· / (List.replicate 4 (1 / (4 : ℚ))).sum), 0, 0, some 1⟩ =
        Except.error none := hin
    rw [hin']
  have hp : process (toy (1 / 2)) [0, 1] fuel ⟨[], 0⟩ [(0, 0), (1, 1), (2, 0), (3, 1)] = Except.error none := by
    unfold process
    rw [show (⟨[], 0⟩ : State ℚ Unit).tries = 0 from rfl, hb]
  have hw : (toy (1 / 2)).window = 4 := rfl
  unfold partialFit
  have hd : differs (some [0, 1]) [0, 1] = false := by decide
  simp only [blank, hd, Bool.false_eq_true, if_false]
  rw [hw]
  have e1 : feed 4 (process (toy (1 / 2)) [0, 1] fuel) (⟨[], 0⟩, []) [(0, 0), (1, 1), (2, 0), (3, 1)] =
      ((⟨[], 0⟩, [(0, 0), (1, 1), (2, 0), (3, 1)]), some none) := by
    simp only [feed, List.nil_append, List.cons_append, List.length_cons, List.length_nil]
    rw [if_neg (by decide), if_neg (by decide), if_neg (by decide), if_pos (by decide), hp]
  rw [e1]

/-- A quarter of the samples wrong, none of them tested: two learners with error 0; with a
threshold of 1/10 and the tested samples wrong, training raises. -/
example : ((build (toy (3 / 5)) [0, 1] 5 [(0, 0), (1, 0), (2, 0), (3, 1)] 0).toOption.map fun r => r.1.map Prod.snd) =
      some [0, 0] ∧
    ((run (toy (3 / 5)) 5 blank [(some [0, 1], [(0, 0), (1, 0), (2, 0)]), (none, [(3, 1), (4, 0)])]).map
      fun c => (c.st.ensembles.map (List.map Prod.snd), c.buf)) = some ([[0, 0]], [(4, 0)]) ∧
    (partialFit (toy (1 / 10)) 1001 blank (some [0, 1]) [(0, 1), (1, 1), (2, 0), (3, 1)]).2 = some (some .other) := by
  decide +kernel

/-- One sample of four wrong: the weights become 1/6, 1/6, 1/6 and 1/2. -/
example : errRate ([1 / 4, 1 / 4, 1 / 4, 1 / 4] : List ℚ) [false, false, false, true] = 1 / 4 ∧
    errRate ([1 / 6, 1 / 6, 1 / 6, 1 / 2] : List ℚ) [false, false, false, true] = 1 / 2 := by
  decide +kernel

/-! ### C155: votes -/

/-- Specification: the weight of the votes for class `c`. -/
def weightFor (E : Env F X S) (ens : Ens F S) (x : X) (c : Nat) : F :=
  ((ens.filter fun m => E.pred m.1 x == (c : Int)).map fun m => E.lg (1 / (m.2 + E.eps))).sum

theorem addAt_ok (f : Nat → F) (n : Nat) (i : Int) (w : F) (h0 : 0 ≤ i) (h1 : i < n) :
    addAt ((List.range n).map f) i w = Except.ok ((List.range n).map fun c : Nat => f c + if i = (c : Int) then w else 0) := by
  unfold addAt
  simp only [List.length_map, List.length_range]
  rw [if_pos ⟨h0, h1⟩]
  congr 1
  apply List.ext_getElem?
  intro j
  rw [List.getElem?_modify, List.getElem?_map, List.getElem?_map]
  by_cases hj : j < n
  · rw [List.getElem?_range hj]
    simp only [Option.map_some]
    by_cases hij : i.toNat = j
    · have : i = (j : Int) := by omega
      simp [this]
    · have : i ≠ (j : Int) := by omega
      simp [hij, this]
  · simp [List.getElem?_eq_none (show (List.range n).length ≤ j by simp; omega)]

theorem voteOn_ok (E : Env F X S) (ens : Ens F S) (x : X) (n : Nat) (f : Nat → F)
    (h : ∀ m ∈ ens, 0 ≤ E.pred m.1 x ∧ E.pred m.1 x < n) :
    voteOn E ens x ((List.range n).map f) = Except.ok ((List.range n).map fun c => f c + weightFor E ens x c) := by
  induction ens generalizing f with
  | nil => simp [voteOn, weightFor, pure, Except.pure]
  | cons m ens ih =>
    obtain ⟨h1, h2⟩ := h m (by simp)
    have ih' := ih (fun c : Nat => f c + if E.pred m.1 x = (c : Int) then E.lg (1 / (m.2 + E.eps)) else 0)
      fun m' hm' => h m' (by simp [hm'])
    rw [voteOn] at ih' ⊢
    rw [List.foldlM_cons, addAt_ok f n _ _ h1 h2]
    simp only [bind, Except.bind]
    rw [ih']
    congr 1
    apply List.map_congr_left
    intro c _
    unfold weightFor
    rw [List.filter_cons]
    by_cases hc : E.pred m.1 x = (c : Int)
    · simp [hc, add_assoc]
    · simp [hc]

theorem replicate_range (n : Nat) : List.replicate n (0 : F) = (List.range n).map fun _ => 0 := by
  rw [List.map_const']; simp

/-- C155 (what holds): for classes `0, ..., n-1`, `predict_proba` gives to each class the
total weight `log(1 / (e + 1e-50))` of the learners of all ensembles that predict it, `e`
being the normalised error stored with the learner; `predict` answers the first class of
largest weight. -/
theorem C155_votes_partial (E : Env F X S) (classes : List Int) (hc : classes ≠ []) (ensembles : List (Ens F S)) (x : X)
    (h : ∀ ens ∈ ensembles, ∀ m ∈ ens, 0 ≤ E.pred m.1 x ∧ E.pred m.1 x < classes.length) :
    probaRow E classes ensembles x =
      Except.ok ((List.range classes.length).map fun c => weightFor E ensembles.flatten x c) ∧
    ∃ i, predict E classes ensembles x = Except.ok i ∧ i < classes.length ∧ ∀ j, j < classes.length →
      weightFor E ensembles.flatten x j ≤ weightFor E ensembles.flatten x i ∧
      (j < i → weightFor E ensembles.flatten x j < weightFor E ensembles.flatten x i) := by
  have gen : ∀ (es : List (Ens F S)) (f : Nat → F),
      (∀ ens ∈ es, ∀ m ∈ ens, 0 ≤ E.pred m.1 x ∧ E.pred m.1 x < classes.length) →
      es.foldlM (fun v ens => (voteOn E ens x (List.replicate classes.length 0)).map fun r => List.zipWith (· + ·) v r)
        ((List.range classes.length).map f) =
      Except.ok ((List.range classes.length).map fun c => f c + weightFor E es.flatten x c) := by
    intro es
    induction es with
    | nil => intro f _; simp [weightFor, pure, Except.pure]
    | cons ens es ih =>
      intro f h
      rw [List.foldlM_cons, replicate_range, voteOn_ok E ens x classes.length _ (h ens (by simp))]
      have hz : Except.map (fun r => List.zipWith (· + ·) ((List.range classes.length).map f) r)
          (Except.ok ((List.range classes.length).map fun c => 0 + weightFor E ens x c) : Except PyErr (List F)) =
          Except.ok ((List.range classes.length).map fun c => f c + (0 + weightFor E ens x c)) := by
        simp only [Except.map, List.zipWith_map, List.zipWith_self]
      rw [hz, ← replicate_range]
      simp only [bind]
      rw [Except.bind, ih _ fun e' he' => h e' (by simp [he'])]
      congr 1
      apply List.map_congr_left
      intro c _
      rw [List.flatten_cons, weightFor, weightFor, weightFor, List.filter_append, List.map_append, List.sum_append]
      rw [zero_add, add_assoc]
  have hrow : probaRow E classes ensembles x =
      Except.ok ((List.range classes.length).map fun c => weightFor E ensembles.flatten x c) := by
    rw [probaRow]
    have := gen ensembles (fun _ => 0) h
    rw [← replicate_range] at this
    rw [this]
    simp
  refine ⟨hrow, ?_⟩
  have hlen : 0 < classes.length := List.length_pos_of_ne_nil hc
  obtain ⟨v, h1, h2, h3⟩ := amax_spec ((List.range classes.length).map fun c => weightFor E ensembles.flatten x c) (by simp; exact hc)
  have hlt : amax ((List.range classes.length).map fun c => weightFor E ensembles.flatten x c) < classes.length := by
    have := (List.getElem?_eq_some_iff.mp h1).1
    simpa using this
  rw [List.getElem?_map, List.getElem?_range hlt] at h1
  simp only [Option.map_some, Option.some.injEq] at h1
  refine ⟨_, by rw [predict, hrow]; rfl, hlt, ?_⟩
  intro j hj
  rw [h1]
  refine ⟨h2 _ (List.mem_map.mpr ⟨j, List.mem_range.mpr hj, rfl⟩), fun hji => h3 j _ hji ?_⟩
  rw [List.getElem?_map, List.getElem?_range hj]; rfl

/-- C155 (violated): with any other class labels voting fails: a learner that predicts a
label of at least the number of classes makes `predict`, and training, raise `IndexError`. -/
theorem C155_labels_violated (E : Env F X S) (classes : List Int) (ens : Ens F S) (m : S × F) (x : X)
    (hm : m ∈ ens) (hp : (classes.length : Int) ≤ E.pred m.1 x) :
    voteOn E ens x (List.replicate classes.length 0) = Except.error .indexError := by
  have hlenm : ∀ (l : List F) (i : Int) (w : F) (r : List F), addAt l i w = Except.ok r → r.length = l.length := by
    intro l i w r hr
    unfold addAt at hr
    simp only at hr
    split at hr
    · cases hr; simp
    · split at hr
      · cases hr; simp
      · cases hr
  have herr : ∀ (l : List F) (i : Int) (w : F) (e : PyErr), addAt l i w = Except.error e → e = .indexError := by
    intro l i w e hr
    unfold addAt at hr
    simp only at hr
    split at hr
    · cases hr
    · split at hr
      · cases hr
      · cases hr; rfl
  have gen : ∀ (ens : Ens F S) (v : List F), v.length = classes.length → m ∈ ens →
      voteOn E ens x v = Except.error .indexError := by
    intro ens
    induction ens with
    | nil => intro v _ h; cases h
    | cons a ens ih =>
      intro v hv h
      rw [voteOn, List.foldlM_cons]
      rcases List.mem_cons.mp h with rfl | h
      · have : addAt v (E.pred m.1 x) (E.lg (1 / (m.2 + E.eps))) = Except.error .indexError := by
          unfold addAt
          simp only [hv]
          rw [if_neg (by omega), if_neg (by omega)]
        rw [this]; rfl
      · cases hr : addAt v (E.pred a.1 x) (E.lg (1 / (a.2 + E.eps))) with
        | error e => rw [herr _ _ _ _ hr]; rfl
        | ok r =>
          simp only [bind, Except.bind]
          exact ih r (by rw [hlenm _ _ _ _ hr, hv]) h
  exact gen ens _ (by simp) hm

/-- C155 (violated): a learner that predicts the label -1 votes for the last class. -/
theorem C155_negative_violated (E : Env F X S) (n : Nat) (x : X) (m : S × F) (hp : E.pred m.1 x = -1) :
    voteOn E [m] x (List.replicate (n + 1) 0) =
      Except.ok (List.replicate n 0 ++ [E.lg (1 / (m.2 + E.eps))]) := by
  rw [voteOn, List.foldlM_cons, hp]
  have : addAt (List.replicate (n + 1) (0 : F)) (-1) (E.lg (1 / (m.2 + E.eps))) =
      Except.ok (List.replicate n 0 ++ [E.lg (1 / (m.2 + E.eps))]) := by
    unfold addAt
    simp only [List.length_replicate]
    rw [if_neg (by omega), if_pos (by constructor <;> omega)]
    congr 1
    have : ((n + 1 : Nat) + (-1) : Int).toNat = n := by omega
    rw [this, List.replicate_succ']
    apply List.ext_getElem?
    intro j
    rw [List.getElem?_modify]
    rcases Nat.lt_trichotomy j n with hj | hj | hj
    · simp [List.getElem?_append_left, hj]
      omega
    · subst hj; simp
    · rw [List.getElem?_eq_none (by simp; omega), List.getElem?_eq_none (by simp; omega)]; rfl
  rw [this]; rfl

/-- Two ensembles, three learners given by the label they predict; the votes for the classes
0, 1, 2, and the answer. -/
example :
    let E : Env ℚ Nat Int := { base := 0, fit := fun s _ => s, pred := fun s _ => s, train := fun _ _ => [],
                               test := fun _ _ => [], lg := fun x => x - 1, eps := 0, nEst := 2, nEns := 2, window := 4, thr := 1 / 2 }
    (probaRow E [0, 1, 2] [[(1, 1 / 2), (2, 1 / 4)], [(1, 1 / 5)]] 7).toOption = some [0, 5, 3] ∧
    (predict E [0, 1, 2] [[(1, 1 / 2), (2, 1 / 4)], [(1, 1 / 5)]] 7).toOption = some 1 ∧
    (predict E [1, 2] [[(1, 1 / 2), (2, 1 / 4)]] 7).toOption = none := by
  decide +kernel

/-! ### C156: after an exception -/

/-- Further calls on a classifier, whatever they raise. -/
def calls (E : Env F X S) (fuel : Nat) (c : Cls F X S) (l : List (Option (List Int) × List (X × Int))) : Cls F X S :=
  l.foldl (fun c call => (partialFit E fuel c call.1 call.2).1) c

theorem differs_none (k : List Int) : differs none k = false := rfl

/-- C156 (violated): after training on a window raised, the classifier learns nothing any
more: whatever calls follow, no exception is raised for the samples, the ensembles stay as
they are and every sample is appended to a buffer that is never used. -/
theorem C156_stuck_violated (E : Env F X S) (fuel fuel' : Nat) (c : Cls F X S) (k : List Int) (hk : c.classes = some k)
    (xs : List (X × Int)) (e : Option PyErr) (h : (partialFit E fuel c none xs).2 = some e)
    (l : List (List (X × Int))) :
    let c' := (partialFit E fuel c none xs).1
    (calls E fuel' c' (l.map fun ys => (none, ys))).st = c'.st ∧
    (calls E fuel' c' (l.map fun ys => (none, ys))).buf = c'.buf ++ l.flatten ∧
    ∀ ys, (partialFit E fuel' (calls E fuel' c' (l.map fun ys => (none, ys))) none ys).2 = none := by
  intro c'
  have hstep : ∀ (f : Nat) (d : Cls F X S) (ys : List (X × Int)), d.classes = some k →
      partialFit E f d none ys = (⟨some k, (feed E.window (process E k f) (d.st, d.buf) ys).1.1,
        (feed E.window (process E k f) (d.st, d.buf) ys).1.2⟩, (feed E.window (process E k f) (d.st, d.buf) ys).2) := by
    intro f d ys hd
    unfold partialFit
    rw [hd]
    simp [differs_none]
  have hc' : c'.classes = some k ∧ E.window ≤ c'.buf.length := by
    have h1 := hstep fuel c xs hk
    have h2 : c' = ⟨some k, (feed E.window (process E k fuel) (c.st, c.buf) xs).1.1,
        (feed E.window (process E k fuel) (c.st, c.buf) xs).1.2⟩ := by
      show (partialFit E fuel c none xs).1 = _
      rw [h1]
    rw [h1] at h
    obtain ⟨q, o, hq⟩ : ∃ q o, feed E.window (process E k fuel) (c.st, c.buf) xs = (q, o) := ⟨_, _, rfl⟩
    rw [hq] at h h2
    simp only at h
    rw [h] at hq
    obtain ⟨h3, _⟩ := feed_error E.window _ xs _ _ q e hq
    rw [h2]
    exact ⟨rfl, h3.ge⟩
  have hstuck : ∀ (d : Cls F X S) (ys : List (X × Int)), d.classes = some k → E.window ≤ d.buf.length →
      partialFit E fuel' d none ys = (⟨some k, d.st, d.buf ++ ys⟩, none) := by
    intro d ys hd hb
    rw [hstep fuel' d ys hd, feed_stuck E.window _ ys _ _ hb]
  have gen : ∀ (l : List (List (X × Int))) (d : Cls F X S), d.classes = some k → E.window ≤ d.buf.length →
      (calls E fuel' d (l.map fun ys => (none, ys))).classes = some k ∧
      (calls E fuel' d (l.map fun ys => (none, ys))).st = d.st ∧
      (calls E fuel' d (l.map fun ys => (none, ys))).buf = d.buf ++ l.flatten := by
    intro l
    induction l with
    | nil => intro d hd _; simp [calls, hd]
    | cons ys l ih =>
      intro d hd hb
      rw [List.map_cons, calls, List.foldl_cons, hstuck d ys hd hb]
      obtain ⟨g1, g2, g3⟩ := ih ⟨some k, d.st, d.buf ++ ys⟩ rfl (by simp; omega)
      rw [calls] at g1 g2 g3
      refine ⟨g1, g2, ?_⟩
      rw [g3, List.flatten_cons, List.append_assoc]
  obtain ⟨g1, g2, g3⟩ := gen l c' hc'.1 hc'.2
  refine ⟨g2, g3, fun ys => ?_⟩
  rw [hstuck _ ys g1 (by rw [g3, List.length_append]; omega)]

/-- C156 (what holds): `reset` makes the classifier usable again: it trains like a new one
with the kept classes. -/
theorem C156_reset_partial (E : Env F X S) (fuel : Nat) (c : Cls F X S) (k : List Int) (hk : c.classes = some k)
    (xs : List (X × Int)) : partialFit E fuel (reset c) none xs = partialFit E fuel blank (some k) xs := by
  unfold partialFit
  simp only [reset, hk, blank, differs_none]
  have hself : differs (some k) k = false := by simp [differs]
  rw [hself]

/-- The window `[(0, 1), (1, 1), (2, 0), (3, 1)]` raises; the four good windows that follow
train nothing. -/
example :
    let c := (partialFit (toy (1 / 10)) 1001 blank (some [0, 1]) [(0, 1), (1, 1), (2, 0), (3, 1)]).1
    let d := calls (toy (1 / 10)) 1001 c [(none, (List.range 16).map fun i => (i, 0))]
    d.st.ensembles.length = 0 ∧ d.buf.length = 20 := by
  decide +kernel

/-! ### C157: `classes` and `reset` -/

/-- C157 (what holds): without classes the first call raises. -/
theorem C157_first_partial (E : Env F X S) (fuel : Nat) (xs : List (X × Int)) :
    partialFit E fuel (blank : Cls F X S) none xs = (blank, some (some .other)) := rfl

/-- C157 (what holds): later calls may omit the classes or repeat them, in any order; a
different set raises, and nothing is learnt from that call. -/
theorem C157_later_partial (E : Env F X S) (fuel : Nat) (c : Cls F X S) (k l : List Int) (hk : c.classes = some k)
    (xs : List (X × Int)) :
    ((∀ a, a ∈ l ↔ a ∈ k) → partialFit E fuel c (some l) xs = partialFit E fuel c none xs) ∧
    (¬ (∀ a, a ∈ l ↔ a ∈ k) → partialFit E fuel c (some l) xs = (c, some (some .other))) := by
  have hd : differs (some l) k = true ↔ ¬ ∀ a, a ∈ l ↔ a ∈ k := by
    simp only [differs, Bool.not_eq_true', Bool.and_eq_false_iff, List.all_eq_false, decide_eq_true_eq]
    constructor
    · rintro (⟨a, h1, h2⟩ | ⟨a, h1, h2⟩) h
      · exact h2 ((h a).mp h1)
      · exact h2 ((h a).mpr h1)
    · intro h
      by_contra hcon
      push Not at hcon
      exact h fun a => ⟨hcon.1 a, hcon.2 a⟩
  constructor
  · intro h
    have : differs (some l) k = false := by
      by_contra hb
      exact (hd.mp (by simpa using hb)) h
    unfold partialFit
    rw [hk]
    simp only
    rw [this, differs_none]
  · intro h
    unfold partialFit
    rw [hk]
    simp only [hd.mpr h, if_true]
    rw [← hk]

/-- C157 (violated): a reset classifier still has the old classes, so it rejects a stream
with other classes. -/
theorem C157_reset_violated (E : Env F X S) (fuel : Nat) (c : Cls F X S) (k l : List Int) (hk : c.classes = some k)
    (h : ¬ (∀ a, a ∈ l ↔ a ∈ k)) (xs : List (X × Int)) :
    partialFit E fuel (reset c) (some l) xs = (reset c, some (some .other)) ∧
    ∃ d, partialFit E fuel (blank : Cls F X S) (some l) [] = (d, none) := by
  refine ⟨(C157_later_partial E fuel (reset c) k l hk xs).2 h, ⟨some l, ⟨[], 0⟩, []⟩, ?_⟩
  unfold partialFit
  have hself : differs (some l) l = false := by simp [differs]
  simp [blank, hself, feed]

example : (partialFit (toy (1 / 2)) 9 (partialFit (toy (1 / 2)) 9 blank (some [0, 1]) [(0, 0)]).1 (some [1, 0]) [(1, 1)]).2 = none ∧
    (partialFit (toy (1 / 2)) 9 (partialFit (toy (1 / 2)) 9 blank (some [0, 1]) [(0, 0)]).1 (some [0, 2]) [(1, 1)]).2 =
      some (some .other) := by
  decide +kernel

end Verif.Meta.LPP
