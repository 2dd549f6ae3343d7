import Verif.Meta.SkewRows

/-!
C285: training of `OnlineBoostingClassifier` (`meta/online_boosting.py` 188-253): its loop is that of
`Skew.lean` with the bookkeeping `boost`.
-/

namespace Verif.Meta.Skew

open Verif.Meta.Boosting (Mem memberStep memberStep_ok)

variable {σ δ X τ γ : Type}

/-- `OnlineBoostingClassifier.partial_fit`, online_boosting.py 205-225 (its `__adjust_ensemble_size`,
255-265, sets all entries to 0): the rate is the weight so far, the prediction is consulted after a
training. -/
def boost : Scheme Mem Unit where
  start := {}
  extra := {}
  rezero _ := {}
  shared := ()
  count _ _ t := t
  bump _ g := g
  rate _ _ _ lam _ _ := .ok lam
  looks k := decide (k > 0)
  after p y lam t := memberStep lam t true (decide (p = some y))

theorem boost_safe : Safe boost Mem.Ok (fun _ _ t => t.Ok) (fun r => 0 < r) (fun _ => True) (fun _ _ => True) where
  bump _ _ _ := ⟨trivial, trivial⟩
  count _ _ _ _ h := h
  rate _ _ _ lam _ _ _ hl _ _ := ⟨lam, rfl, hl⟩
  skip _ _ _ h := h
  after p y lam t hl h := by
    obtain ⟨lam', m', h1, h2, h3, _⟩ := memberStep_ok lam hl t h true (decide (p = some y))
    exact ⟨lam', m', h1, h2, h3⟩

/-! ### The weight handed on, for all schemes -/

/-- The weight `lam'` is what the scheme makes of the visit `v` of a member with entries `t`. -/
def HandsOn (sc : Scheme τ γ) (t : τ) (v : Visit X) (lam' : ℚ) : Prop :=
  match v.seen with
  | none => lam' = v.lam
  | some p => ∃ t', sc.after p v.y v.lam (sc.count v.y v.lam t) = .ok (lam', t')

theorem visitAll_hands (E : Env σ δ X τ γ) (c : Call X) (x : X) (y : Int) (n : Nat) (ms : List (M σ δ τ)) (i : Nat) (lam : ℚ)
    (g : γ) (pos : Nat) (ch : Bool) (vs : List (Visit X)) (ms' : List (M σ δ τ)) (r : γ × Nat × Bool)
    (h : visitAll E c x y n ms i lam g pos ch = .ok (vs, ms', r)) :
    (∀ j v, vs[j]? = some v → v.i = i + j) ∧ (∀ v, vs[0]? = some v → v.lam = lam) ∧
    ∀ j v v', vs[j]? = some v → vs[j + 1]? = some v' → ∃ m, ms[j]? = some m ∧ HandsOn E.sc m.tally v v'.lam := by
  induction ms generalizing i lam g pos ch vs ms' r with
  | nil =>
    simp only [visitAll, Except.ok.injEq, Prod.mk.injEq] at h
    obtain ⟨rfl, rfl, _⟩ := h
    exact ⟨by simp, by simp, by simp⟩
  | cons m ms ih =>
    rw [visitAll] at h
    simp only [] at h
    cases hr : E.sc.rate y i n lam (E.sc.bump y g) (E.sc.count y lam m.tally) with
    | error e => rw [hr] at h; simp at h
    | ok rate =>
      rw [hr] at h
      simp only [] at h
      cases ht : trainN E.b c x y (E.poisson pos rate) m.learner with
      | error e => rw [ht] at h; simp at h
      | ok s =>
        rw [ht] at h
        simp only [] at h
        cases hj : judge E x y lam (E.poisson pos rate) s (E.sc.count y lam m.tally) with
        | error e => rw [hj] at h; simp at h
        | ok q =>
          obtain ⟨seen, lam', t'⟩ := q
          rw [hj] at h
          simp only [] at h
          cases hw : watch E c s m.det ch with
          | error e => rw [hw] at h; simp at h
          | ok q =>
            obtain ⟨a, ch'⟩ := q
            rw [hw] at h
            simp only [] at h
            cases hv : visitAll E c x y n ms (i + 1) lam' (E.sc.bump y g) (pos + 1) ch' with
            | error e => rw [hv] at h; simp at h
            | ok q =>
              obtain ⟨vs1, ms1, r1⟩ := q
              rw [hv] at h
              simp only [Except.ok.injEq, Prod.mk.injEq] at h
              obtain ⟨rfl, rfl, _⟩ := h
              obtain ⟨i1, i2, i3⟩ := ih _ _ _ _ _ _ _ _ hv
              have hand : HandsOn E.sc m.tally (⟨i, x, y, lam, rate, E.poisson pos rate, seen⟩ : Visit X) lam' := by
                unfold judge at hj
                unfold HandsOn
                split at hj
                · cases hp : predict1 E.b s x with
                  | error e => rw [hp] at hj; simp at hj
                  | ok p =>
                    rw [hp] at hj
                    simp only [] at hj
                    cases ha : E.sc.after p y lam (E.sc.count y lam m.tally) with
                    | error e => rw [ha] at hj; simp at hj
                    | ok u =>
                      obtain ⟨l, t''⟩ := u
                      rw [ha] at hj
                      simp only [Except.ok.injEq, Prod.mk.injEq] at hj
                      obtain ⟨rfl, rfl, rfl⟩ := hj
                      exact ⟨_, ha⟩
                · simp only [Except.ok.injEq, Prod.mk.injEq] at hj
                  obtain ⟨rfl, rfl, rfl⟩ := hj
                  rfl
              refine ⟨?_, ?_, ?_⟩
              · intro j v hv'
                cases j with
                | zero => simp only [List.getElem?_cons_zero, Option.some.injEq] at hv'; subst hv'; rfl
                | succ j =>
                  rw [List.getElem?_cons_succ] at hv'
                  have := i1 j v hv'
                  omega
              · intro v hv'
                simp only [List.getElem?_cons_zero, Option.some.injEq] at hv'
                subst hv'; rfl
              · intro j v v' h1 h2
                cases j with
                | zero =>
                  simp only [List.getElem?_cons_zero, Option.some.injEq] at h1
                  subst h1
                  rw [List.getElem?_cons_succ] at h2
                  rw [i2 v' h2]
                  exact ⟨m, rfl, hand⟩
                | succ j =>
                  rw [List.getElem?_cons_succ] at h1 h2
                  exact i3 j v v' h1 h2

/-- In any of the ensembles: the weight with which the next member is shown a sample is what the scheme
makes of the visit of the member before, whose entries its own visits so far have made. -/
theorem run_hands (E : Env σ δ X τ γ) (hx : E.sc.extra = E.sc.start) (hz : E.sc.rezero E.sc.start = E.sc.start) (n : Nat) (known : List Int)
    (c : Call X) (hc1 : c.classes = some known) (cs : List (Call X)) (hc : ∀ c ∈ cs, c.Fits known) (vs : List (Visit X))
    (s' : St σ δ τ γ) (h : run E (c :: cs) (fresh E n) = .ok (vs, s')) (a b : List (Visit X)) (v v' : Visit X)
    (hvs : vs = a ++ v :: v' :: b) (hi : v'.i ≠ 0) :
    v'.i = v.i + 1 ∧ v'.x = v.x ∧ v'.y = v.y ∧
    ∃ t, (visitsOf v.i a).foldlM E.sc.play E.sc.start = .ok t ∧ HandsOn E.sc t v v'.lam := by
  have key := run_ind E n known (fun _ vs s =>
    (∀ (j : Nat) m, s.members[j]? = some m → (visitsOf j vs).foldlM E.sc.play E.sc.start = .ok m.tally) ∧
    ∀ a b v v', vs = a ++ v :: v' :: b → v'.i ≠ 0 → v'.i = v.i + 1 ∧ v'.x = v.x ∧ v'.y = v.y ∧
      ∃ t, (visitsOf v.i a).foldlM E.sc.play E.sc.start = .ok t ∧ HandsOn E.sc t v v'.lam) ?_ ?_ c hc1 cs hc vs s' h
  · exact key.2 a b v v' hvs hi
  · refine ⟨fun j m hm => ?_, fun a b v v' hn => by simp at hn⟩
    have : m ∈ (begun E n known).members := List.mem_of_getElem? hm
    have ht : m.tally = E.sc.start := by
      unfold begun adjust fresh at this
      simp only at this
      split at this
      · rcases List.mem_append.1 this with h1 | h1
        · obtain ⟨m0, h2, rfl⟩ := List.mem_map.1 h1
          rw [(List.mem_replicate.1 h2).2]
          exact hz
        · rw [(List.mem_replicate.1 h1).2]
          exact hx
      · rw [(List.mem_replicate.1 this).2]
    rw [ht]; rfl
  · intro rows vs s c r vs' s' hN hP hr
    obtain ⟨hP1, hP2⟩ := hP
    obtain ⟨ms, g, pos, ch, h1, _, _, h4⟩ := trainRow_inv E c _ _ s s' vs' hr
    obtain ⟨i1, i2, i3⟩ := visitAll_hist E c _ _ _ _ _ _ _ _ _ _ _ _ h1
    obtain ⟨j1, j2, j3⟩ := visitAll_hands E c _ _ _ _ _ _ _ _ _ _ _ _ h1
    refine ⟨fun j m hm => ?_, ?_⟩
    · -- entries
      have hlen : s'.members.length = s.members.length := (trainRow_length E c _ _ s s' vs' hr).1
      have hj : j < s.members.length := by
        rw [← hlen]
        exact (List.getElem?_eq_some_iff.1 hm).1
      obtain ⟨m', u, a1, a2, a3⟩ := i3 j s.members[j] (List.getElem?_eq_getElem hj)
      rw [Nat.zero_add] at a2
      have hm' : m.tally = m'.tally := by
        have e1 : (s'.members.map M.tally)[j]? = some m.tally := by rw [List.getElem?_map, hm]; rfl
        have e2 : s'.members.map M.tally = ms.map M.tally := by
          rw [h4]; split
          · exact react_tally E ms
          · rfl
        rw [e2, List.getElem?_map, a1] at e1
        simp only [Option.map_some, Option.some.injEq] at e1
        exact e1.symm
      have hsplit : visitsOf j (vs ++ vs') = visitsOf j vs ++ [u] := by
        unfold visitsOf at a2 ⊢; rw [List.filter_append, a2]
      rw [hsplit, List.foldlM_append, hP1 j s.members[j] (List.getElem?_eq_getElem hj)]
      simp only [bind, Except.bind, List.foldlM_cons, List.foldlM_nil, a3, pure, Except.pure]
      rw [hm']
    · intro a b v v' hvs hi
      rcases List.append_eq_append_iff.1 hvs with ⟨d, hd1, hd2⟩ | ⟨d, hd1, hd2⟩
      · -- `v` is in the new row
        have hv : vs'[d.length]? = some v := by rw [hd2]; simp
        have hv' : vs'[d.length + 1]? = some v' := by rw [hd2, List.getElem?_append_right (by omega)]; simp
        have e1 := j1 _ _ hv
        have e2 := j1 _ _ hv'
        have f1 := i2 v (List.mem_of_getElem? hv)
        have f2 := i2 v' (List.mem_of_getElem? hv')
        obtain ⟨m, g1, g2⟩ := j3 _ _ _ hv hv'
        refine ⟨by omega, by rw [f1.2.2.1, f2.2.2.1], by rw [f1.2.2.2, f2.2.2.2], m.tally, ?_, g2⟩
        have hnone : visitsOf v.i d = [] := by
          unfold visitsOf
          rw [List.filter_eq_nil_iff]
          intro u hu
          obtain ⟨q, hq1, hq2⟩ := List.getElem_of_mem hu
          have : vs'[q]? = some u := by rw [hd2, List.getElem?_append_left hq1, List.getElem?_eq_getElem hq1, hq2]
          have := j1 _ _ this
          simp only [decide_eq_true_eq]
          omega
        have : visitsOf v.i a = visitsOf v.i vs := by
          rw [hd1]
          unfold visitsOf at hnone ⊢
          rw [List.filter_append, hnone, List.append_nil]
        rw [this]
        refine hP1 v.i m ?_
        rw [e1, Nat.zero_add]; exact g1
      · cases d with
        | nil =>
          -- `v` begins the new row
          simp only [List.append_nil, List.nil_append] at hd1 hd2
          have hv : vs'[0]? = some v := by rw [← hd2]; rfl
          have hv' : vs'[1]? = some v' := by rw [← hd2]; rfl
          have e1 := j1 _ _ hv
          have e2 := j1 _ _ hv'
          have f1 := i2 v (List.mem_of_getElem? hv)
          have f2 := i2 v' (List.mem_of_getElem? hv')
          obtain ⟨m, g1, g2⟩ := j3 _ _ _ hv hv'
          refine ⟨by omega, by rw [f1.2.2.1, f2.2.2.1], by rw [f1.2.2.2, f2.2.2.2], m.tally, ?_, g2⟩
          rw [← hd1]
          refine hP1 v.i m ?_
          rw [e1]; exact g1
        | cons w d =>
          rw [List.cons_append, List.cons.injEq] at hd2
          obtain ⟨rfl, hd2⟩ := hd2
          cases d with
          | nil =>
            -- `v` ended a row, so `v'` is a first visit
            rw [List.nil_append] at hd2
            have hv' : vs'[0]? = some v' := by rw [← hd2]; rfl
            exact absurd (j1 _ _ hv') (by omega)
          | cons w' d =>
            rw [List.cons_append, List.cons.injEq] at hd2
            obtain ⟨rfl, hd2⟩ := hd2
            exact hP2 a d v v' hd1 hi

/-! ### Online boosting -/

/-- Specification: the weight of the samples a member was trained on. -/
def taught (h : List (Visit X)) : ℚ := (h.map fun v => if 0 < v.k then v.lam else 0).sum

/-- Specification: the weight of those it then got wrong. -/
def failed (h : List (Visit X)) : ℚ := (h.map fun v => if 0 < v.k ∧ v.seen ≠ some (some v.y) then v.lam else 0).sum

/-- Specification: the share of wrong weight, 0 for a member not trained yet. -/
def errorShare (h : List (Visit X)) : ℚ := if ∃ v ∈ h, 0 < v.k then failed h / taught h else 0

theorem boost_play (h : List (Visit X)) (hv : ∀ v ∈ h, 0 < v.lam ∧ v.seen.isSome = decide (v.k > 0)) :
    ∃ t : Mem, h.foldlM boost.play ({} : Mem) = .ok t ∧ t.Ok ∧ t.sw = failed h ∧ t.sw + t.sc = taught h ∧ t.eps = errorShare h := by
  induction h using List.reverseRecOn with
  | nil => exact ⟨{}, rfl, ⟨le_refl _, le_refl _, le_refl _, by norm_num⟩, rfl, by simp [taught], by simp [errorShare]⟩
  | append_singleton h v ih =>
    obtain ⟨t, h1, h2, h3, h4, h5⟩ := ih fun v hv' => hv v (List.mem_append_left _ hv')
    obtain ⟨hl, hs⟩ := hv v (by simp)
    rw [List.foldlM_append, h1]
    simp only [bind, Except.bind, List.foldlM_cons, List.foldlM_nil]
    cases hseen : v.seen with
    | none =>
      have hk : ¬ 0 < v.k := by rw [hseen] at hs; simpa using hs
      refine ⟨t, ?_, h2, ?_, ?_, ?_⟩
      · simp only [Scheme.play, hseen, boost, pure, Except.pure]
      · rw [h3]; simp [failed, hk]
      · rw [h4]; simp [taught, hk]
      · rw [h5]
        have e1 : (∃ u ∈ h ++ [v], 0 < u.k) ↔ ∃ u ∈ h, 0 < u.k := by
          constructor
          · rintro ⟨u, hu, hk'⟩
            rcases List.mem_append.1 hu with hu | hu
            · exact ⟨u, hu, hk'⟩
            · rw [List.mem_singleton.1 hu] at hk'; exact absurd hk' hk
          · rintro ⟨u, hu, hk'⟩; exact ⟨u, List.mem_append_left _ hu, hk'⟩
        have e2 : failed (h ++ [v]) = failed h := by simp [failed, hk]
        have e3 : taught (h ++ [v]) = taught h := by simp [taught, hk]
        unfold errorShare
        rw [e2, e3]
        simp only [e1]
    | some p =>
      have hk : 0 < v.k := by rw [hseen] at hs; simpa using hs.symm
      obtain ⟨lam', m', g1, g2, g3, g4, g5, g6, g7⟩ := memberStep_ok v.lam hl t h2 true (decide (p = some v.y))
      have e2 : failed (h ++ [v]) = m'.sw := by
        rw [g5, h3]
        unfold failed
        rw [List.map_append, List.sum_append]
        simp only [List.map_cons, List.map_nil, List.sum_singleton, hseen]
        by_cases hp : p = some v.y
        · simp [hp]
        · simp [hp, hk]
      have e3 : taught (h ++ [v]) = m'.sw + m'.sc := by
        rw [g4, g5]
        unfold taught at h4 ⊢
        rw [List.map_append, List.sum_append, ← h4]
        simp only [List.map_cons, List.map_nil, List.sum_singleton, if_pos hk]
        by_cases hp : p = some v.y
        · simp [hp]; ring
        · simp [hp]; ring
      refine ⟨m', ?_, g3, e2.symm, e3.symm, ?_⟩
      · simp only [Scheme.play, hseen, boost, g1, Except.map, pure, Except.pure]
      · rw [g6 rfl]
        unfold errorShare
        rw [if_pos ⟨v, by simp, hk⟩, e2, e3]

/-- C285: whatever is drawn and predicted, training an online boosting ensemble on any sequence of
batches succeeds. Every member is shown every sample once and in order, and is trained on it as often
as a Poisson draw tells whose rate is the weight of the sample; its `epsilon` is then the share of wrong
weight among the samples it was trained on. -/
theorem C285_training (E : Env σ δ X Mem Unit) (hE : E.sc = boost) (hb : E.b.Total) (n : Nat) (known : List Int)
    (c : Call X) (hc1 : c.classes = some known) (cs : List (Call X)) (hc : ∀ c ∈ cs, c.Fits known) :
    ∃ vs s, run E (c :: cs) (fresh E n) = .ok (vs, s) ∧ s.members.length = max n known.length ∧
      (∀ v ∈ vs, 0 < v.lam ∧ v.rate = v.lam ∧ (∃ q, v.k = E.poisson q v.rate) ∧ (v.seen.isSome ↔ 0 < v.k)) ∧
      ∀ j < s.members.length, ∃ m, s.members[j]? = some m ∧ (visitsOf j vs).map (fun v => (v.x, v.y)) = (c :: cs).flatMap Call.rows ∧
        m.tally.eps = errorShare (visitsOf j vs) := by
  have hs := boost_safe
  rw [← hE] at hs
  have hg : boost.start.Ok := ⟨le_refl _, le_refl _, le_refl _, by show (0 : ℚ) ≤ 1; norm_num⟩
  obtain ⟨vs, s, h1, h2, _, h4⟩ := run_fresh_ok E hb hs n known c hc1 cs hc trivial (by rw [hE]; exact hg) (by rw [hE]; exact hg)
    (.inr (by rw [hE]; exact hg))
  have hvis := run_visits E n known c hc1 cs hc vs s h1
  refine ⟨vs, s, h1, h2, fun v hv => ?_, fun j hj => ?_⟩
  · obtain ⟨⟨g, t, a1⟩, a2, a3, _⟩ := hvis v hv
    rw [hE] at a1 a3
    simp only [boost, Except.ok.injEq] at a1 a3
    exact ⟨(h4 v hv).1, a1.symm, a2, by rw [a3]; simp⟩
  · obtain ⟨m, m1, m2⟩ := run_fresh_hist E n known c hc1 cs hc (.inr (by rw [hE]; exact ⟨rfl, rfl⟩)) s vs h1 j (by omega)
    refine ⟨m, m1, run_rows E n known c hc1 cs hc vs s h1 j (by omega), ?_⟩
    rw [hE] at m2
    obtain ⟨t, t1, _, _, _, t5⟩ := boost_play (visitsOf j vs) fun v hv => by
      have hv' := (List.mem_filter.mp hv).1
      refine ⟨(h4 v hv').1, ?_⟩
      rw [(hvis v hv').2.2.1, hE]; rfl
    have : boost.start = ({} : Mem) := rfl
    rw [this, t1, Except.ok.injEq] at m2
    rw [← m2, t5]

/-- Specification: the weight after a member with error share `e` was shown the sample: unchanged if it
was not trained on it; halved by its share of right weight if it got it right (unchanged if it has never
been wrong), halved by its share of wrong weight if it got it wrong. -/
def nextWeight (v : Visit X) (e : ℚ) : ℚ :=
  if v.k = 0 then v.lam
  else if v.seen = some (some v.y) then (if e = 0 then v.lam else v.lam / (2 * (1 - e)))
  else v.lam / (2 * e)

/-- C285: the first member is shown a sample with weight 1, every other with the weight that the member
before leaves it, by its error share including this sample. -/
theorem C285_weights (E : Env σ δ X Mem Unit) (hE : E.sc = boost) (hb : E.b.Total) (n : Nat) (known : List Int)
    (c : Call X) (hc1 : c.classes = some known) (cs : List (Call X)) (hc : ∀ c ∈ cs, c.Fits known) (vs : List (Visit X))
    (s : St σ δ Mem Unit) (h : run E (c :: cs) (fresh E n) = .ok (vs, s)) :
    (∀ v ∈ vs, v.i = 0 → v.lam = 1) ∧
    ∀ a v v' b, vs = a ++ v :: v' :: b → v'.i ≠ 0 →
      v'.i = v.i + 1 ∧ v'.x = v.x ∧ v'.y = v.y ∧ v'.lam = nextWeight v (errorShare (visitsOf v.i (a ++ [v]))) := by
  have hvis := run_visits E n known c hc1 cs hc vs s h
  have hpos : ∀ v ∈ vs, 0 < v.lam := by
    obtain ⟨vs', s', h1, _, h3, _⟩ := C285_training E hE hb n known c hc1 cs hc
    rw [h] at h1
    cases h1
    exact fun v hv => (h3 v hv).1
  refine ⟨fun v hv => (hvis v hv).2.2.2, fun a v v' b hvs hi => ?_⟩
  obtain ⟨e1, e2, e3, t, e4, e5⟩ := run_hands E (by rw [hE]; rfl) (by rw [hE]; rfl) n known c hc1 cs hc vs s h a b v v' hvs hi
  refine ⟨e1, e2, e3, ?_⟩
  have hall : ∀ u ∈ visitsOf v.i (a ++ [v]), 0 < u.lam ∧ u.seen.isSome = decide (u.k > 0) := by
    intro u hu
    have hu' : u ∈ vs := by
      rw [hvs]
      rcases List.mem_append.1 (List.mem_filter.mp hu).1 with h1 | h1
      · exact List.mem_append_left _ h1
      · rw [List.mem_singleton.1 h1]; simp
    refine ⟨hpos u hu', ?_⟩
    rw [(hvis u hu').2.2.1, hE]; rfl
  have hsplit : visitsOf v.i (a ++ [v]) = visitsOf v.i a ++ [v] := by
    unfold visitsOf; rw [List.filter_append]; simp
  rw [hsplit] at hall ⊢
  obtain ⟨t1, f1, _, _, _, f5⟩ := boost_play (visitsOf v.i a ++ [v]) hall
  rw [hE] at e4 e5
  have hst : boost.start = ({} : Mem) := rfl
  rw [hst] at e4
  rw [List.foldlM_append, e4] at f1
  simp only [bind, Except.bind, List.foldlM_cons, List.foldlM_nil] at f1
  obtain ⟨hl, hk⟩ := hall v (by simp)
  unfold HandsOn at e5
  unfold nextWeight
  cases hseen : v.seen with
  | none =>
    rw [hseen] at e5 hk
    have : v.k = 0 := by simpa using hk
    rw [if_pos this]
    exact e5
  | some p =>
    rw [hseen] at e5 hk
    have hk0 : v.k ≠ 0 := by have : 0 < v.k := by simpa using hk.symm
                             omega
    rw [if_neg hk0]
    obtain ⟨t', e5⟩ := e5
    have ht : t' = t1 := by
      simp only [Scheme.play, hseen, e5, Except.map, pure, Except.pure, Except.ok.injEq] at f1
      exact f1
    subst ht
    rw [← f5]
    simp only [boost] at e5
    by_cases hp : p = some v.y
    · rw [if_pos (by rw [hp])]
      simp only [memberStep, Bool.not_true, Bool.false_eq_true, if_false, hp, decide_true, if_true, bind, Except.bind] at e5
      split at e5
      · cases e5
      · rename_i eps heps
        by_cases h0 : eps = 0
        · rw [if_neg (by simpa using h0)] at e5
          simp only [pure, Except.pure, Except.ok.injEq, Prod.mk.injEq] at e5
          obtain ⟨q1, q2⟩ := e5
          rw [← q2, if_pos h0, q1]
        · rw [if_pos h0] at e5
          unfold Boosting.pdiv at e5
          split at e5
          · cases e5
          · rename_i l hl'
            simp only [pure, Except.pure, Except.ok.injEq, Prod.mk.injEq] at e5
            obtain ⟨q1, q2⟩ := e5
            split at hl'
            · cases hl'
            · cases hl'
              rw [← q2, if_neg h0, ← q1]
    · rw [if_neg (by simpa using hp)]
      simp only [memberStep, Bool.not_true, Bool.false_eq_true, if_false, hp, decide_false, bind, Except.bind] at e5
      split at e5
      · cases e5
      · rename_i eps heps
        by_cases h0 : eps = 0
        · exfalso
          rw [if_neg (by simpa using h0)] at e5
          simp only [pure, Except.pure, Except.ok.injEq, Prod.mk.injEq] at e5
          have hz : t'.eps = 0 := by rw [← e5.2]; exact h0
          rw [f5] at hz
          have hkp : 0 < v.k := Nat.pos_of_ne_zero hk0
          unfold errorShare at hz
          rw [if_pos ⟨v, by simp, hkp⟩] at hz
          have nn : ∀ (l : List (Visit X)), (∀ u ∈ l, 0 < u.lam) → 0 ≤ failed l ∧ 0 ≤ taught l := by
            intro l hl
            constructor
            · refine List.sum_nonneg fun x hx => ?_
              obtain ⟨u, hu, rfl⟩ := List.mem_map.1 hx
              split
              · exact (hl u hu).le
              · exact le_refl _
            · refine List.sum_nonneg fun x hx => ?_
              obtain ⟨u, hu, rfl⟩ := List.mem_map.1 hx
              split
              · exact (hl u hu).le
              · exact le_refl _
          obtain ⟨n1, n2⟩ := nn (visitsOf v.i a) fun u hu => (hall u (List.mem_append_left _ hu)).1
          have q1 : failed (visitsOf v.i a ++ [v]) = failed (visitsOf v.i a) + v.lam := by
            unfold failed
            rw [List.map_append, List.sum_append]
            simp only [List.map_cons, List.map_nil, List.sum_singleton, hseen]
            rw [if_pos ⟨hkp, by simpa using hp⟩]
          have q2 : taught (visitsOf v.i a ++ [v]) = taught (visitsOf v.i a) + v.lam := by
            unfold taught
            rw [List.map_append, List.sum_append]
            simp only [List.map_cons, List.map_nil, List.sum_singleton]
            rw [if_pos hkp]
          rw [q1, q2] at hz
          rcases div_eq_zero_iff.1 hz with hz | hz <;> linarith
        · rw [if_pos h0] at e5
          unfold Boosting.pdiv at e5
          split at e5
          · cases e5
          · rename_i l hl'
            simp only [pure, Except.pure, Except.ok.injEq, Prod.mk.injEq] at e5
            obtain ⟨q1, q2⟩ := e5
            split at hl'
            · cases hl'
            · cases hl'
              rw [← q2, ← q1]

/-- A base learner that keeps to the first label it is taught, and a detector that is silent. -/
def firstOnly : Base (Option Int) Unit :=
  ⟨none, fun s _ y _ _ => .ok (s.or (some y)), fun s xs => .ok (xs.map fun _ => s), fun _ => none⟩

theorem firstOnly_total : firstOnly.Total :=
  ⟨fun s _ y _ _ => ⟨s.or (some y), rfl⟩, fun s xs => ⟨xs.map fun _ => s, rfl, by simp⟩⟩

def boostEnv : Env (Option Int) Unit Unit Mem Unit :=
  ⟨boost, firstOnly, ⟨(), fun _ _ => (), fun _ => (false, ()), fun _ => 0⟩, true, fun pos _ => if pos = 4 then 0 else 1⟩

/-- The hypotheses are met: two members that get the second sample wrong; the first has error shares 0,
1/2, 1/2 (not drawn), 1/3: the weights it hands on are 1, 1, 1 and 3/4. -/
example : boostEnv.b.Total ∧
    ((run boostEnv [⟨[((), 0), ((), 1)], some [0, 1], none⟩, ⟨[((), 0), ((), 0)], none, none⟩] (fresh boostEnv 2)).toOption.map fun r =>
      (r.1.map fun v => (v.i, v.y, v.lam, v.k), r.2.members.map fun m => m.tally.eps)) =
    some ([(0, 0, 1, 1), (1, 0, 1, 1), (0, 1, 1, 1), (1, 1, 1, 1), (0, 0, 1, 0), (1, 0, 1, 1), (0, 0, 1, 1), (1, 0, 3/4, 1)],
      [1/3, 4/15]) :=
  ⟨firstOnly_total, by decide +kernel⟩

end Verif.Meta.Skew
