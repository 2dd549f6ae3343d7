import Verif.Meta.SkewRows

/-!
RUSBoost (`online_rus_boost.py`) and the reaction to change of the ensembles for skewed classes;
C181, C182, C185.
-/

namespace Verif.Meta.Skew

open Verif.Meta.Oza (Det feed checkClasses sameSet)
open Verif.Meta.Boosting (pdiv pickMax)

variable {σ δ X τ γ : Type}

/-- Total weight of the samples with a property. -/
def weighing (q : Visit X → Bool) (h : List (Visit X)) : ℚ := ((h.filter q).map Visit.lam).sum

/-- The member predicted the sample wrongly after it was (or was not) trained on it. -/
def Visit.erred (v : Visit X) : Bool := decide (v.seen ≠ some (some v.y))

/-- Entries of RUSBoost that occur. -/
def Rus.Good (t : Rus) : Prop := 0 ≤ t.sc ∧ 0 ≤ t.pos ∧ 0 ≤ t.neg ∧ 0 ≤ t.sw

theorem rusRate_ok (algorithm : Nat) (sr : ℚ) (hsr : 0 < sr) (y : Int) (lam : ℚ) (hl : 0 < lam) (g : Nat × Nat) (t : Rus) (ht : t.Good)
    (h1 : y = 1 → 0 < g.1 ∧ 0 < t.pos) (h2 : y ≠ 1 → 0 < g.2 ∧ 0 < t.neg) :
    ∃ r, rusRate algorithm sr y lam g t = .ok r ∧ 0 ≤ r := by
  obtain ⟨_, gp, gn, _⟩ := ht
  unfold rusRate
  have np : (0 : ℚ) ≤ (g.1 : ℚ) := Nat.cast_nonneg _
  have nn : (0 : ℚ) ≤ (g.2 : ℚ) := Nat.cast_nonneg _
  by_cases hy : y = 1
  · obtain ⟨a1, a2⟩ := h1 hy
    have a1' : (0 : ℚ) < (g.1 : ℚ) := Nat.cast_pos.mpr a1
    simp only [if_pos hy]
    by_cases c1 : algorithm = 1
    · simp only [if_pos c1]
      by_cases c2 : g.2 ≠ 0
      · have c2' : (0 : ℚ) < (g.2 : ℚ) := Nat.cast_pos.mpr (by omega)
        have d1 : 0 < t.pos + t.neg * (sr * ((g.1 : ℚ) / g.2)) := by positivity
        have d2 : 0 < (g.1 : ℚ) + g.2 := by positivity
        simp only [if_pos c2, pdiv_ok c2'.ne', pdiv_ok d1.ne', pdiv_ok d2.ne', bind, Except.bind, pure, Except.pure]
        exact ⟨_, rfl, by positivity⟩
      · simp only [if_neg c2]; exact ⟨1, rfl, zero_le_one⟩
    · simp only [if_neg c1]
      by_cases c2 : algorithm = 2
      · have d2 : 0 < (g.1 : ℚ) + g.2 := by positivity
        have d3 : 0 < t.pos + t.neg := by positivity
        have d4 : 0 < t.pos / (t.pos + t.neg) := by positivity
        simp only [if_pos c2, pdiv_ok d2.ne', pdiv_ok d3.ne', pdiv_ok d4.ne', bind, Except.bind]
        exact ⟨_, rfl, by positivity⟩
      · simp only [if_neg c2]
        by_cases c3 : algorithm = 3
        · simp only [if_pos c3]; exact ⟨lam, rfl, hl.le⟩
        · simp only [if_neg c3]; exact ⟨1, rfl, zero_le_one⟩
  · obtain ⟨a1, a2⟩ := h2 hy
    have a1' : (0 : ℚ) < (g.2 : ℚ) := Nat.cast_pos.mpr a1
    simp only [if_neg hy]
    by_cases c1 : algorithm = 1
    · simp only [if_pos c1]
      by_cases c2 : g.1 ≠ 0
      · have c2' : (0 : ℚ) < (g.1 : ℚ) := Nat.cast_pos.mpr (by omega)
        have d0 : 0 < (g.1 : ℚ) * sr := by positivity
        have d1 : 0 < t.pos + t.neg * ((g.2 : ℚ) / (g.1 * sr)) := by positivity
        have d2 : 0 < (g.1 : ℚ) + g.2 := by positivity
        simp only [if_pos c2, pdiv_ok d0.ne', pdiv_ok d1.ne', pdiv_ok d2.ne', bind, Except.bind, pure, Except.pure]
        exact ⟨_, rfl, by positivity⟩
      · simp only [if_neg c2]; exact ⟨1, rfl, zero_le_one⟩
    · simp only [if_neg c1]
      by_cases c2 : algorithm = 2
      · have d2 : 0 < (g.1 : ℚ) + g.2 := by positivity
        have d3 : 0 < t.pos + t.neg := by positivity
        have d4 : 0 < t.neg / (t.pos + t.neg) := by positivity
        simp only [if_pos c2, pdiv_ok d2.ne', pdiv_ok d3.ne', pdiv_ok d4.ne', bind, Except.bind]
        exact ⟨_, rfl, by positivity⟩
      · simp only [if_neg c2]
        by_cases c3 : algorithm = 3
        · simp only [if_pos c3, pdiv_ok hsr.ne']; exact ⟨_, rfl, by positivity⟩
        · simp only [if_neg c3]; exact ⟨1, rfl, zero_le_one⟩

/-- What the update does. -/
theorem rusAfter_spec (p : Option Int) (y : Int) (lam : ℚ) (hl : 0 < lam) (t : Rus) (ht : t.Good) :
    ∃ lam' t', rusAfter p y lam t = .ok (lam', t') ∧ 0 < lam' ∧ t'.Good ∧ t'.pos = t.pos ∧ t'.neg = t.neg ∧
      t'.sc = t.sc + (if p = some y then lam else 0) ∧ t'.sw = t.sw + (if p = some y then 0 else lam) ∧
      t'.eps = t'.sw / (t'.sc + t'.sw) ∧
      lam' = lam / (2 * (if p = some y then 1 - t'.eps else t'.eps)) := by
  obtain ⟨g1, g2, g3, g4⟩ := ht
  unfold rusAfter
  by_cases hp : p = some y
  · have hd : 0 < t.sc + lam + t.sw := by linarith
    simp only [if_pos hp, pdiv_ok hd.ne']
    have he : t.sw / (t.sc + lam + t.sw) < 1 := by rw [div_lt_one hd]; linarith
    have h2 : 0 < 2 * (1 - t.sw / (t.sc + lam + t.sw)) := by linarith
    simp only [if_pos he.ne, pdiv_ok h2.ne', Except.map]
    exact ⟨_, _, rfl, div_pos hl h2, ⟨by show 0 ≤ t.sc + lam; linarith, g2, g3, g4⟩, rfl, rfl, rfl, by ring, rfl, rfl⟩
  · have hd : 0 < t.sc + (t.sw + lam) := by linarith
    simp only [if_neg hp, pdiv_ok hd.ne']
    have he : 0 < (t.sw + lam) / (t.sc + (t.sw + lam)) := div_pos (by linarith) hd
    have h2 : 0 < 2 * ((t.sw + lam) / (t.sc + (t.sw + lam))) := by linarith
    simp only [if_pos he.ne', pdiv_ok h2.ne', Except.map]
    exact ⟨_, _, rfl, div_pos hl h2, ⟨g1, g2, g3, by show 0 ≤ t.sw + lam; linarith⟩, rfl, rfl, by ring, rfl, rfl, rfl⟩

theorem rus_count_good (algorithm : Nat) (sr : ℚ) (y : Int) (lam : ℚ) (hl : 0 < lam) (t : Rus) (ht : t.Good) :
    ((rusBoost algorithm sr).count y lam t).Good ∧ (y = 1 → 0 < ((rusBoost algorithm sr).count y lam t).pos) ∧
      (y ≠ 1 → 0 < ((rusBoost algorithm sr).count y lam t).neg) := by
  obtain ⟨g1, g2, g3, g4⟩ := ht
  by_cases hy : y = 1
  · have : (rusBoost algorithm sr).count y lam t = { t with pos := t.pos + lam } := if_pos hy
    rw [this]
    exact ⟨⟨g1, by show 0 ≤ t.pos + lam; linarith, g3, g4⟩, fun _ => by show 0 < t.pos + lam; linarith, fun h => absurd hy h⟩
  · have : (rusBoost algorithm sr).count y lam t = { t with neg := t.neg + lam } := if_neg hy
    rw [this]
    exact ⟨⟨g1, g2, by show 0 ≤ t.neg + lam; linarith, g4⟩, fun h => absurd h hy, fun _ => by show 0 < t.neg + lam; linarith⟩

theorem rus_safe (algorithm : Nat) (sr : ℚ) (hsr : 0 < sr) :
    Safe (rusBoost algorithm sr) Rus.Good (fun y _ t => t.Good ∧ (y = 1 → 0 < t.pos) ∧ (y ≠ 1 → 0 < t.neg)) (fun r => 0 ≤ r)
      (fun _ => True) (fun y g => (y = 1 → 0 < g.1) ∧ (y ≠ 1 → 0 < g.2)) where
  bump y g _ := by
    refine ⟨trivial, ?_⟩
    by_cases hy : y = 1 <;> simp [rusBoost, hy]
  count y lam t hl ht := rus_count_good algorithm sr y lam hl t ht
  rate y i n lam g t _ hl hc ht := rusRate_ok algorithm sr hsr y lam hl g t ht.1 (fun h => ⟨hc.1 h, ht.2.1 h⟩) (fun h => ⟨hc.2 h, ht.2.2 h⟩)
  skip y lam t ht := ht.1
  after p y lam t hl ht := by
    obtain ⟨lam', t', h1, h2, h3, _⟩ := rusAfter_spec p y lam hl t ht.1
    exact ⟨lam', t', h1, h2, h3⟩

theorem weighing_append (q : Visit X → Bool) (h : List (Visit X)) (v : Visit X) :
    weighing q (h ++ [v]) = weighing q h + if q v then v.lam else 0 := by
  unfold weighing
  by_cases hq : q v = true <;> simp [List.filter_append, List.filter_cons, hq]

/-- The entries of a member, from its visits. -/
theorem rus_play (algorithm : Nat) (sr : ℚ) (h : List (Visit X)) (hl : ∀ v ∈ h, 0 < v.lam ∧ v.seen.isSome = true) :
    ∃ t, h.foldlM (rusBoost algorithm sr).play ({} : Rus) = .ok t ∧ t.Good ∧
      t.pos = weighing (fun v => decide (v.y = 1)) h ∧ t.neg = weighing (fun v => decide (v.y ≠ 1)) h ∧
      t.sw = weighing Visit.erred h ∧ t.sc + t.sw = shown h ∧ t.eps = weighing Visit.erred h / shown h := by
  induction h using List.reverseRecOn with
  | nil => exact ⟨{}, rfl, ⟨le_refl _, le_refl _, le_refl _, le_refl _⟩, by simp [weighing], by simp [weighing], by simp [weighing],
      by simp [shown], by simp [weighing]⟩
  | append_singleton h v ih =>
    obtain ⟨t, e1, e2, e3, e4, e5, e6, _⟩ := ih fun v' hv' => hl v' (by simp [hv'])
    obtain ⟨hlv, hseen⟩ := hl v (by simp)
    obtain ⟨p, hp⟩ := Option.isSome_iff_exists.mp hseen
    set t0 := (rusBoost algorithm sr).count v.y v.lam t with ht0
    obtain ⟨c1, _, _⟩ := rus_count_good algorithm sr v.y v.lam hlv t e2
    obtain ⟨lam', t', f1, _, f3, f4, f5, f6, f7, f8, _⟩ := rusAfter_spec p v.y v.lam hlv t0 c1
    have hplay : (rusBoost algorithm sr).play t v = .ok t' := by
      unfold Scheme.play
      rw [hp]
      show (rusAfter p v.y v.lam t0).map Prod.snd = _
      rw [f1]; rfl
    have hsh : shown (h ++ [v]) = shown h + v.lam := by simp [shown]
    have herr : v.erred = true ↔ p ≠ some v.y := by simp [Visit.erred, hp]
    have hsw : t'.sw = weighing Visit.erred (h ++ [v]) := by
      rw [weighing_append, f7, ← e5]
      have : t0.sw = t.sw := by rw [ht0]; by_cases hy : v.y = 1 <;> simp [rusBoost, hy]
      rw [this]
      congr 1
      by_cases hq : p = some v.y
      · rw [if_pos hq, if_neg (by rw [herr]; simpa using hq)]
      · rw [if_neg hq, if_pos (by rw [herr]; exact hq)]
    have hsum : t'.sc + t'.sw = shown (h ++ [v]) := by
      rw [hsh, ← e6, f6, f7]
      have h1 : t0.sw = t.sw := by rw [ht0]; by_cases hy : v.y = 1 <;> simp [rusBoost, hy]
      have h2 : t0.sc = t.sc := by rw [ht0]; by_cases hy : v.y = 1 <;> simp [rusBoost, hy]
      rw [h1, h2]
      by_cases hq : p = some v.y
      · rw [if_pos hq, if_pos hq]; ring
      · rw [if_neg hq, if_neg hq]; ring
    rw [List.foldlM_append, e1]
    simp only [List.foldlM_cons, List.foldlM_nil, bind, Except.bind, hplay, pure, Except.pure]
    refine ⟨t', rfl, f3, ?_, ?_, hsw, hsum, by rw [f8, hsum, hsw]⟩
    · rw [f4, weighing_append, ← e3, ht0]
      by_cases hy : v.y = 1 <;> simp [rusBoost, hy]
    · rw [f5, weighing_append, ← e4, ht0]
      by_cases hy : v.y = 1 <;> simp [rusBoost, hy]

/-- C181: RUSBoost with a positive sampling rate: whatever is drawn and predicted, training on any
sequence of batches succeeds, every Poisson rate is non-negative, and afterwards `epsilon` of every
member is the share of the weight of the samples shown to it that it predicted wrongly when they were
shown. -/
theorem C181_rus_boost (E : Env σ δ X Rus (Nat × Nat)) (algorithm : Nat) (sr : ℚ) (hE : E.sc = rusBoost algorithm sr) (hsr : 0 < sr)
    (hb : E.b.Total) (n : Nat) (known : List Int) (c : Call X) (hc1 : c.classes = some known)
    (cs : List (Call X)) (hc : ∀ c ∈ cs, c.Fits known) :
    ∃ vs s, run E (c :: cs) (fresh E n) = .ok (vs, s) ∧ s.members.length = max n known.length ∧ (∀ v ∈ vs, 0 ≤ v.rate) ∧
      ∀ j < s.members.length, ∃ m, s.members[j]? = some m ∧ (visitsOf j vs).map (fun v => (v.x, v.y)) = (c :: cs).flatMap Call.rows ∧
        m.tally.eps = weighing Visit.erred (visitsOf j vs) / shown (visitsOf j vs) := by
  have hs := rus_safe algorithm sr hsr
  rw [← hE] at hs
  have hg : (rusBoost algorithm sr).start.Good := ⟨le_refl _, le_refl _, le_refl _, le_refl _⟩
  obtain ⟨vs, s, h1, h2, _, h4⟩ := run_fresh_ok E hb hs n known c hc1 cs hc trivial (by rw [hE]; exact hg) (by rw [hE]; exact hg)
    (.inr (by rw [hE]; exact hg))
  refine ⟨vs, s, h1, h2, fun v hv => (h4 v hv).2, fun j hj => ?_⟩
  obtain ⟨m, m1, m2⟩ := run_fresh_hist E n known c hc1 cs hc (.inr (by rw [hE]; exact ⟨rfl, rfl⟩)) s vs h1 j (by omega)
  refine ⟨m, m1, run_rows E n known c hc1 cs hc vs s h1 j (by omega), ?_⟩
  rw [hE] at m2
  obtain ⟨t, t1, _, _, _, _, _, t7⟩ := rus_play algorithm sr (visitsOf j vs) fun v hv => by
    have hv' := (List.mem_filter.mp hv).1
    refine ⟨(h4 v hv').1, ?_⟩
    rw [(run_visits E n known c hc1 cs hc vs s h1 v hv').2.2.1, hE]; rfl
  have : (rusBoost algorithm sr).start = ({} : Rus) := rfl
  rw [this, t1, Except.ok.injEq] at m2
  rw [← m2, t7]

/-! ### The class counters -/

theorem rus_bumps (algorithm : Nat) (sr : ℚ) (y : Int) (k : Nat) (g : Nat × Nat) :
    ((rusBoost algorithm sr).bump y)^[k] g = if y = 1 then (g.1 + k, g.2) else (g.1, g.2 + k) := by
  induction k generalizing g with
  | zero => by_cases hy : y = 1 <;> simp [hy]
  | succ k ih =>
    rw [Function.iterate_succ_apply, ih]
    by_cases hy : y = 1
    · simp only [rusBoost, if_pos hy]; congr 1; omega
    · simp only [rusBoost, if_neg hy]; congr 1; omega

theorem rus_counters (E : Env σ δ X Rus (Nat × Nat)) (algorithm : Nat) (sr : ℚ) (hE : E.sc = rusBoost algorithm sr)
    (n : Nat) (known : List Int) (c : Call X) (hc1 : c.classes = some known)
    (cs : List (Call X)) (hc : ∀ c ∈ cs, c.Fits known) (vs : List (Visit X)) (s : St σ δ Rus (Nat × Nat))
    (h : run E (c :: cs) (fresh E n) = .ok (vs, s)) :
    s.shared = (max n known.length * (allRows (c :: cs)).countP (fun r => decide (r.2 = 1)),
      max n known.length * (allRows (c :: cs)).countP (fun r => decide (r.2 ≠ 1))) := by
  refine run_ind E n known (fun rows _ s => s.shared = (max n known.length * rows.countP (fun r => decide (r.2 = 1)),
    max n known.length * rows.countP (fun r => decide (r.2 ≠ 1)))) (by show E.sc.shared = _; rw [hE]; rfl) ?_ c hc1 cs hc vs s h
  intro rows vs s c r vs' s' hN hP hr
  obtain ⟨ms, g, pos, ch, h1, h2, _⟩ := trainRow_inv E c _ _ s s' vs' hr
  obtain ⟨_, _, h3⟩ := visitAll_spec E c _ _ _ _ _ _ _ _ _ _ _ _ _ _ h1
  rw [h2, h3, hE, rus_bumps, hP, hN]
  by_cases hy : r.2 = 1 <;> simp [hy, Nat.mul_add]

/-- C182 (partial): after complete rows, the class counters of RUSBoost stand in the proportion of the
classes seen: they are the numbers of positive and of other samples, each times the number of members.
Missing (see the violation): while a row is being processed they do not. -/
theorem C182_class_counts_partial (E : Env σ δ X Rus (Nat × Nat)) (algorithm : Nat) (sr : ℚ) (hE : E.sc = rusBoost algorithm sr)
    (n : Nat) (known : List Int) (c : Call X) (hc1 : c.classes = some known)
    (cs : List (Call X)) (hc : ∀ c ∈ cs, c.Fits known) (vs : List (Visit X)) (s : St σ δ Rus (Nat × Nat))
    (h : run E (c :: cs) (fresh E n) = .ok (vs, s)) :
    s.shared.1 = s.members.length * ((c :: cs).flatMap Call.rows).countP (fun r => decide (r.2 = 1)) ∧
    s.shared.2 = s.members.length * ((c :: cs).flatMap Call.rows).countP (fun r => decide (r.2 ≠ 1)) := by
  have h1 := rus_counters E algorithm sr hE n known c hc1 cs hc vs s h
  have h2 : s.members.length = max n known.length :=
    run_ind E n known (fun _ _ s => s.members.length = max n known.length) (begun_length E n known)
      (fun rows vs s c r vs' s' hN hP hr => by rw [(trainRow_length E c _ _ _ _ _ hr).1, hN]) c hc1 cs hc vs s h
  rw [h1, h2]
  exact ⟨rfl, rfl⟩

theorem run_two (E : Env σ δ X τ γ) (c d : Call X) (s : St σ δ τ γ) (vs : List (Visit X)) (s' : St σ δ τ γ)
    (h : run E [c, d] s = .ok (vs, s')) :
    ∃ vs1 s1 vs2, run E [c] s = .ok (vs1, s1) ∧ partialFit E d s1 = .ok (vs2, s') ∧ vs = vs1 ++ vs2 := by
  rw [run] at h
  cases hp : partialFit E c s with
  | error e => rw [hp] at h; simp at h
  | ok q =>
    obtain ⟨vs1, s1⟩ := q
    rw [hp] at h
    simp only [run] at h
    cases hr : partialFit E d s1 with
    | error e => rw [hr] at h; simp at h
    | ok q =>
      obtain ⟨vs2, s2⟩ := q
      rw [hr] at h
      simp only [List.append_nil, Except.ok.injEq, Prod.mk.injEq] at h
      obtain ⟨rfl, rfl⟩ := h
      exact ⟨vs1, s1, vs2, by simp [run, hp], hr, rfl⟩

/-- C182 (violated): RUSBoost (algorithm 2) with `n` members, `N` negative samples and then the first
positive one.  By the class counts (one positive in `N + 1`) the first member's rate should be
`(1 / (N + 1)) / (1 / (N + 1)) = 1`; because the counters are incremented once per member instead of
once per sample, it is `(N + 1) / (n N + 1)`: about `1 / n`. -/
theorem C182_first_positive_violated (E : Env σ δ X Rus (Nat × Nat)) (sr : ℚ) (hE : E.sc = rusBoost 2 sr) (hsr : 0 < sr)
    (hb : E.b.Total) (n : Nat) (hn : 2 ≤ n) (rows : List (X × Int)) (hneg : ∀ r ∈ rows, r.2 ≠ 1) (hr : rows ≠ [])
    (x : X) (w : Option (List ℚ)) :
    ∃ vs s v, run E [⟨rows, some [0, 1], w⟩, ⟨[(x, 1)], none, w⟩] (fresh E n) = .ok (vs, s) ∧
      (visitsOf 0 vs).getLast? = some v ∧ v.y = 1 ∧ v.lam = 1 ∧ v.rate = (rows.length + 1) / (n * rows.length + 1) ∧ v.rate < 1 := by
  have hs := rus_safe 2 sr hsr
  rw [← hE] at hs
  have hg : (rusBoost 2 sr).start.Good := ⟨le_refl _, le_refl _, le_refl _, le_refl _⟩
  obtain ⟨vs, s, h1, _, _, _⟩ := run_fresh_ok E hb hs n [0, 1] ⟨rows, some [0, 1], w⟩ rfl [⟨[(x, 1)], none, w⟩]
    (by intro c hc; rw [List.mem_singleton] at hc; rw [hc]; exact .inl rfl) trivial (by rw [hE]; exact hg) (by rw [hE]; exact hg)
    (.inr (by rw [hE]; exact hg))
  obtain ⟨vs1, s1, vs2, r1, r2, r3⟩ := run_two E _ _ _ _ _ h1
  have hmax : max n ([0, 1] : List Int).length = n := by simp; omega
  -- counters and entries of the first member after the negatives
  have hcnt := rus_counters E 2 sr hE n [0, 1] ⟨rows, some [0, 1], w⟩ rfl [] (by simp) vs1 s1 r1
  rw [hmax] at hcnt
  have hall : allRows [(⟨rows, some [0, 1], w⟩ : Call X)] = rows := by simp [allRows]
  rw [hall] at hcnt
  have hc0 : rows.countP (fun r => decide (r.2 = 1)) = 0 := by
    rw [List.countP_eq_zero]; intro r hr'; simpa using hneg r hr'
  have hc1 : rows.countP (fun r => decide (r.2 ≠ 1)) = rows.length := by
    rw [List.countP_eq_length]; intro r hr'; simpa using hneg r hr'
  rw [hc0, hc1] at hcnt
  obtain ⟨m, m1, m2⟩ := run_fresh_hist E n [0, 1] ⟨rows, some [0, 1], w⟩ rfl [] (by simp) (.inr (by rw [hE]; exact ⟨rfl, rfl⟩)) s1 vs1 r1 0
    (by rw [hmax]; omega)
  have hrows := run_rows E n [0, 1] ⟨rows, some [0, 1], w⟩ rfl [] (by simp) vs1 s1 r1 0 (by rw [hmax]; omega)
  rw [hall] at hrows
  have hvis := run_visits E n [0, 1] ⟨rows, some [0, 1], w⟩ rfl [] (by simp) vs1 s1 r1
  have hlam : ∀ v ∈ visitsOf 0 vs1, v.lam = 1 ∧ v.seen.isSome = true ∧ v.y ≠ 1 := by
    intro v hv
    have hv' := List.mem_filter.mp hv
    obtain ⟨_, _, a3, a4⟩ := hvis v hv'.1
    refine ⟨a4 (by simpa using hv'.2), by rw [a3, hE]; rfl, ?_⟩
    have : (v.x, v.y) ∈ rows := by rw [← hrows]; exact List.mem_map_of_mem hv
    exact hneg _ this
  have hlen : (visitsOf 0 vs1).length = rows.length := by rw [← hrows, List.length_map]
  rw [hE] at m2
  obtain ⟨t, t1, _, t3, t4, _⟩ := rus_play 2 sr (visitsOf 0 vs1) fun v hv => by
    obtain ⟨a1, a2, _⟩ := hlam v hv
    exact ⟨by rw [a1]; exact one_pos, a2⟩
  have hst : (rusBoost 2 sr).start = ({} : Rus) := rfl
  rw [hst, t1, Except.ok.injEq] at m2
  have hpos : m.tally.pos = 0 := by
    rw [← m2, t3, weighing]
    have : (visitsOf 0 vs1).filter (fun v => decide (v.y = 1)) = [] := by
      rw [List.filter_eq_nil_iff]; intro v hv; simpa using (hlam v hv).2.2
    rw [this]; rfl
  have hneg' : m.tally.neg = rows.length := by
    rw [← m2, t4, weighing]
    have : (visitsOf 0 vs1).filter (fun v => decide (v.y ≠ 1)) = visitsOf 0 vs1 := by
      rw [List.filter_eq_self]; intro v hv; simpa using (hlam v hv).2.2
    rw [this, ← hlen]
    have : (visitsOf 0 vs1).map Visit.lam = List.replicate (visitsOf 0 vs1).length 1 := by
      rw [List.eq_replicate_iff]
      refine ⟨by simp, fun b hb => ?_⟩
      obtain ⟨v, hv, rfl⟩ := List.mem_map.mp hb
      exact (hlam v hv).1
    rw [this]; simp
  -- the positive row
  obtain ⟨l1, l2⟩ : s1.members.length = n ∧ s1.classes = some [0, 1] := by
    have := run_ind E n [0, 1] (fun _ _ s => s.members.length = max n ([0, 1] : List Int).length ∧ s.classes = some [0, 1])
      ⟨begun_length E n [0, 1], rfl⟩
      (fun rows vs s c r vs' s' hN hP hr => by rw [(trainRow_length E c _ _ _ _ _ hr).1, (trainRow_length E c _ _ _ _ _ hr).2]; exact hP)
      ⟨rows, some [0, 1], w⟩ rfl [] (by simp) vs1 s1 r1
    rwa [hmax] at this
  unfold partialFit at r2
  have hck : checkClasses s1.classes (⟨[(x, 1)], none, w⟩ : Call X).classes = .ok [0, 1] := by rw [l2]; rfl
  have hadj : adjust E [0, 1] s1.members = s1.members := by rw [adjust, if_neg (by rw [l1]; simp; omega)]
  rw [hck] at r2
  simp only [hadj] at r2
  rw [← l2, trainRows] at r2
  cases hrow : trainRow E ⟨[(x, 1)], none, w⟩ x 1 s1 with
  | error e => rw [hrow] at r2; simp at r2
  | ok q =>
    obtain ⟨vs3, s3⟩ := q
    rw [hrow] at r2
    simp only [trainRows, List.append_nil, Except.ok.injEq, Prod.mk.injEq] at r2
    obtain ⟨rfl, rfl⟩ := r2
    obtain ⟨ms, g, pos, ch, q1, _⟩ := trainRow_inv E _ _ _ s1 s3 vs3 hrow
    obtain ⟨_, j2, _⟩ := visitAll_spec E _ _ _ _ _ _ _ _ _ _ _ _ _ _ _ q1
    obtain ⟨_, _, j3⟩ := visitAll_hist E _ _ _ _ _ _ _ _ _ _ _ _ _ q1
    cases hms : s1.members with
    | nil => rw [hms] at l1; simp at l1; omega
    | cons m0 tl =>
      rw [hms] at m1
      simp only [List.getElem?_cons_zero, Option.some.injEq] at m1
      subst m1
      obtain ⟨v, vs', b1, b2, b3, b4, b5⟩ := j2 m0 tl hms
      obtain ⟨_, u, _, c2, _⟩ := j3 0 m0 (by rw [hms]; rfl)
      have hw : v ∈ visitsOf 0 vs3 := List.mem_filter.mpr ⟨by rw [b1]; simp, by simp [b2]⟩
      rw [Nat.zero_add] at c2
      rw [c2, List.mem_singleton] at hw
      have hN : (0 : ℚ) < rows.length := by
        have := List.length_pos_iff.mpr hr
        exact_mod_cast this
      have hrate : v.rate = ((rows.length : ℚ) + 1) / (n * rows.length + 1) := by
        rw [hE, hcnt] at b5
        have hct : (rusBoost 2 sr).count 1 1 m0.tally = { m0.tally with pos := m0.tally.pos + 1 } := by simp [rusBoost]
        rw [hct, hpos] at b5
        have d1 : (((n * 0 + 1 : Nat) : ℚ) + ((n * rows.length : Nat) : ℚ)) ≠ 0 := by positivity
        have d2 : ((0 : ℚ) + 1 + m0.tally.neg) ≠ 0 := by rw [hneg']; positivity
        have d3 : (((0 : ℚ) + 1) / (0 + 1 + m0.tally.neg)) ≠ 0 := div_ne_zero (by norm_num) d2
        simp only [rusBoost, rusRate, if_pos, if_neg (show (2 : Nat) ≠ 1 by decide), pdiv_ok d1, pdiv_ok d2, pdiv_ok d3, bind, Except.bind,
          Except.ok.injEq] at b5
        rw [← b5, hneg']
        push_cast
        field_simp
        ring
      refine ⟨vs, s3, v, h1, ?_, b3, b4, hrate, ?_⟩
      · rw [r3]
        unfold visitsOf at c2 ⊢
        rw [List.filter_append, c2, hw]
        simp
      · rw [hrate, div_lt_one (by positivity)]
        have : (2 : ℚ) ≤ n := by exact_mod_cast hn
        nlinarith

/-- The hypotheses are met: three members, two negatives and a positive: rates `3/7`. -/
def rusEnv : Env Int Nat Unit Rus (Nat × Nat) := ⟨rusBoost 2 1, lastLabel, quiet, true, fun _ _ => 1⟩

example : ((run rusEnv [⟨[((), 0), ((), 0)], some [0, 1], none⟩, ⟨[((), 1)], none, none⟩] (fresh rusEnv 3)).toOption.map fun r =>
    (visitsOf 0 r.1).map fun v => (v.y, v.rate)) = some [(0, 0), (0, 0), (1, 3/7)] := by decide +kernel

/-! ### Reaction to a change -/

/-- C185 (partial): when a change is detected in a row, the learner of the member picked is reset and the
member gets a new detector; the learners and detectors of the others stay.  Missing (see the
violation): its entries, from which the weights of later samples are computed. -/
theorem C185_reset_partial (E : Env σ δ X τ γ) (ms : List (M σ δ τ)) (i : Nat) (m : M σ δ τ)
    (hp : pickMax (ms.map fun m => E.d.est m.det) = some i) (hm : ms[i]? = some m) :
    ∃ m', (react E ms)[i]? = some m' ∧ m'.learner = E.b.reset m.learner ∧ m'.det = E.d.new ∧
      ∀ j, j ≠ i → (react E ms)[j]? = ms[j]? := by
  unfold react
  rw [hp]
  simp only []
  refine ⟨{ m with learner := E.b.reset m.learner, det := E.d.new }, by simp [hm], rfl, rfl, fun j hj => ?_⟩
  rw [List.getElem?_modify]
  have : ¬ i = j := fun h => hj h.symm
  simp [this]

/-- A detector that reports a change whenever it is asked, its estimation being the number of elements. -/
def nervous : Det Nat := ⟨0, fun n _ => n + 1, fun n => (true, n), fun n => n⟩

/-- Always wrong on the samples used below. -/
def stubborn : Base Int Unit :=
  ⟨0, fun s _ _ _ _ => .ok (s + 1), fun _ xs => .ok (xs.map fun _ => some 0), fun _ => 0⟩

/-- RUSBoost over `stubborn`. -/
def resetEnv : Env Int Nat Unit Rus (Nat × Nat) := ⟨rusBoost 3 1, stubborn, nervous, true, fun _ _ => 1⟩

/-- C185 (violated): a member reset after a change keeps its entries: one member, one class, one sample
predicted wrongly; a change is detected, learner and detector are reset, yet the member is still
recorded as having erred on everything. -/
theorem C185_entries_survive_violated :
    (run resetEnv [⟨[((), 1)], some [1], none⟩] (fresh resetEnv 1)).toOption.map
      (fun r => r.2.members.map fun m => (m.learner, m.det, m.tally.sw, m.tally.eps)) = some [(0, 0, 1, 1)] := by decide +kernel

/-- C185 (violated, in general): the reaction to a change alters no entry of any member. -/
theorem C185_entries_kept_violated (E : Env σ δ X τ γ) (ms : List (M σ δ τ)) (j : Nat) :
    (react E ms)[j]?.map M.tally = ms[j]?.map M.tally := by
  have := congrArg (fun l => l[j]?) (react_tally E ms)
  simpa using this

/-! ### When a member is reset -/

/-- Whether the predictions `ps` of the rows are right, those that are `None` left out. -/
def outcomes (ps : List (Option Int)) (ys : List Int) : List Bool := (ps.zip ys).filterMap fun q => q.1.map fun p => decide (p = q.2)

theorem feed_eq (d : Det δ) (a : δ) (l : List (Option Int × Int)) :
    feed d a l = (l.filterMap fun q => q.1.map fun p => decide (p = q.2)).foldl d.add a := by
  induction l generalizing a with
  | nil => rfl
  | cons q l ih =>
    obtain ⟨p, y⟩ := q
    cases p with
    | none => simp [feed, ih]
    | some p => simp [feed, ih]

/-- The detector of member `m`, which became `m'`, was told which rows of the batch `m'` predicts right, and then asked for a change. -/
def Told (E : Env σ δ X τ γ) (c : Call X) (m m' : M σ δ τ) (answer : Bool) : Prop :=
  ∃ ps, E.b.predict m'.learner (c.rows.map Prod.fst) = .ok ps ∧
    E.d.check ((outcomes ps (c.rows.map Prod.snd)).foldl E.d.add m.det) = (answer, m'.det)

/-- Its detector reports a change and the member's estimated accuracy is higher than before. -/
def Rises (E : Env σ δ X τ γ) (c : Call X) (m m' : M σ δ τ) : Prop := Told E c m m' true ∧ E.d.est m.det < E.d.est m'.det

theorem visitAll_rises (E : Env σ δ X τ γ) (c : Call X) (hd : E.drift = true) (hb : ∀ s, ∃ ps, E.b.predict s (c.rows.map Prod.fst) = .ok ps)
    (x : X) (y : Int) (n : Nat) (ms : List (M σ δ τ)) (i : Nat) (lam : ℚ) (g : γ) (pos : Nat) (ch : Bool) (vs : List (Visit X)) (ms' : List (M σ δ τ))
    (g' : γ) (pos' : Nat) (ch' : Bool) (h : visitAll E c x y n ms i lam g pos ch = .ok (vs, ms', g', pos', ch')) :
    ms'.length = ms.length ∧ (∀ (j : Nat) (m m' : M σ δ τ), ms[j]? = some m → ms'[j]? = some m' → ∃ answer, Told E c m m' answer) ∧
    (ch' = true ↔ ch = true ∨ ∃ (j : Nat) (m m' : M σ δ τ), ms[j]? = some m ∧ ms'[j]? = some m' ∧ Rises E c m m') := by
  induction ms generalizing i lam g pos ch vs ms' with
  | nil =>
    simp only [visitAll, Except.ok.injEq, Prod.mk.injEq] at h
    obtain ⟨_, rfl, _, _, rfl⟩ := h
    exact ⟨rfl, by simp, by simp⟩
  | cons m ms ih =>
    rw [visitAll] at h
    simp only [] at h
    cases hr : E.sc.rate y i n lam (E.sc.bump y g) (E.sc.count y lam m.tally) with
    | error e => rw [hr] at h; simp at h
    | ok rate =>
      rw [hr] at h
      simp only [] at h
      cases ht : trainN E.b c x y (E.poisson pos rate) m.learner with
      | error e => rw [ht] at h; simp at h
      | ok s =>
        rw [ht] at h
        simp only [] at h
        cases hj : judge E x y lam (E.poisson pos rate) s (E.sc.count y lam m.tally) with
        | error e => rw [hj] at h; simp at h
        | ok q =>
          obtain ⟨seen, lam', t'⟩ := q
          rw [hj] at h
          simp only [] at h
          obtain ⟨ps, hps⟩ := hb s
          have hw : watch E c s m.det ch = .ok ((E.d.check (feed E.d m.det (ps.zip (c.rows.map Prod.snd)))).2,
              if (E.d.check (feed E.d m.det (ps.zip (c.rows.map Prod.snd)))).1 &&
                decide (E.d.est (E.d.check (feed E.d m.det (ps.zip (c.rows.map Prod.snd)))).2 > E.d.est m.det) then true else ch) := by
            unfold watch
            rw [if_pos hd, hps]
          rw [hw, feed_eq] at h
          simp only [] at h
          generalize hck : E.d.check (((ps.zip (c.rows.map Prod.snd)).filterMap fun q => q.1.map fun p => decide (p = q.2)).foldl E.d.add m.det) = r at *
          cases hv : visitAll E c x y n ms (i + 1) lam' (E.sc.bump y g) (pos + 1) (if r.1 && decide (E.d.est r.2 > E.d.est m.det) then true else ch) with
          | error e => rw [hv] at h; simp at h
          | ok q =>
            obtain ⟨vs1, ms1, r1⟩ := q
            rw [hv] at h
            simp only [Except.ok.injEq, Prod.mk.injEq] at h
            obtain ⟨_, rfl, rfl⟩ := h
            obtain ⟨i1, i2, i3⟩ := ih _ _ _ _ _ _ _ hv
            have htold : ∀ answer, Told E c m ⟨s, r.2, t'⟩ answer ↔ r.1 = answer := by
              intro answer
              constructor
              · rintro ⟨ps', h1, h2⟩
                rw [hps, Except.ok.injEq] at h1
                subst h1
                rw [outcomes, hck] at h2
                exact congrArg Prod.fst h2
              · intro he
                exact ⟨ps, hps, by rw [outcomes, hck, ← he]⟩
            refine ⟨by simp [i1], ?_, ?_⟩
            · intro j m0 m0' h0 h0'
              cases j with
              | zero =>
                simp only [List.getElem?_cons_zero, Option.some.injEq] at h0 h0'
                subst h0; subst h0'
                exact ⟨r.1, (htold _).2 rfl⟩
              | succ j =>
                rw [List.getElem?_cons_succ] at h0 h0'
                exact i2 j m0 m0' h0 h0'
            · rw [i3]
              have hcond : ((if r.1 && decide (E.d.est r.2 > E.d.est m.det) then true else ch) = true) ↔ Rises E c m ⟨s, r.2, t'⟩ ∨ ch = true := by
                unfold Rises
                rw [htold]
                simp only []
                cases r.1 <;> by_cases hlt : E.d.est r.2 > E.d.est m.det <;> simp [hlt]
              rw [hcond]
              constructor
              · rintro ((h1 | h1) | ⟨j, m0, m0', h1, h2, h3⟩)
                · exact .inr ⟨0, m, _, rfl, rfl, h1⟩
                · exact .inl h1
                · exact .inr ⟨j + 1, m0, m0', by rw [List.getElem?_cons_succ]; exact h1, by rw [List.getElem?_cons_succ]; exact h2, h3⟩
              · rintro (h1 | ⟨j, m0, m0', h1, h2, h3⟩)
                · exact .inl (.inr h1)
                · cases j with
                  | zero =>
                    simp only [List.getElem?_cons_zero, Option.some.injEq] at h1 h2
                    subst h1; subst h2
                    exact .inl (.inl h3)
                  | succ j =>
                    rw [List.getElem?_cons_succ] at h1 h2
                    exact .inr ⟨j, m0, m0', h1, h2, h3⟩

/-- **C237, partial** (what the code does): when the learners answer, each member's detector is told at each row which rows of the batch the member
predicts right; a member is reset exactly if some detector reports a change and its estimated accuracy has risen, and it is a member of the highest
estimated accuracy. Otherwise no learner is reset and no detector replaced. -/
theorem C237_when_partial (E : Env σ δ X τ γ) (c : Call X) (hd : E.drift = true) (hb : ∀ s, ∃ ps, E.b.predict s (c.rows.map Prod.fst) = .ok ps)
    (x : X) (y : Int) (s s' : St σ δ τ γ) (vs : List (Visit X)) (h : trainRow E c x y s = .ok (vs, s')) :
    ∃ ms : List (M σ δ τ), ms.length = s.members.length ∧
      (∀ (j : Nat) (m m' : M σ δ τ), s.members[j]? = some m → ms[j]? = some m' → ∃ answer, Told E c m m' answer) ∧
      ((¬ ∃ (j : Nat) (m m' : M σ δ τ), s.members[j]? = some m ∧ ms[j]? = some m' ∧ Rises E c m m') → s'.members = ms) ∧
      ((∃ (j : Nat) (m m' : M σ δ τ), s.members[j]? = some m ∧ ms[j]? = some m' ∧ Rises E c m m') →
        ((∀ m ∈ ms, E.d.est m.det ≤ 0) ∧ s'.members = ms) ∨
        ∃ (i : Nat) (m : M σ δ τ), ms[i]? = some m ∧ 0 < E.d.est m.det ∧ (∀ m' ∈ ms, E.d.est m'.det ≤ E.d.est m.det) ∧
          s'.members = ms.set i ⟨E.b.reset m.learner, E.d.new, m.tally⟩) := by
  unfold trainRow at h
  cases hv : visitAll E c x y s.members.length s.members 0 1 s.shared s.pos false with
  | error e => rw [hv] at h; cases h
  | ok q =>
    obtain ⟨vs1, ms, g, pos, ch⟩ := q
    rw [hv] at h
    simp only [Except.ok.injEq, Prod.mk.injEq, hd, Bool.and_true] at h
    obtain ⟨_, rfl⟩ := h
    obtain ⟨h1, h2, h3⟩ := visitAll_rises E c hd hb _ _ _ _ _ _ _ _ _ _ _ _ _ _ hv
    simp only [Bool.false_eq_true, false_or] at h3
    refine ⟨ms, h1, h2, fun hn => ?_, fun hy => ?_⟩
    · simp only []
      rw [if_neg fun hc => hn (h3.1 hc)]
    · simp only []
      rw [if_pos (h3.2 hy)]
      unfold react
      cases hp : pickMax (ms.map fun m => E.d.est m.det) with
      | none =>
        left
        refine ⟨fun m hm => ?_, rfl⟩
        exact (Boosting.pickMax_spec _).2 hp _ (List.mem_map_of_mem hm)
      | some i =>
        right
        obtain ⟨v, e1, e2, e3⟩ := (Boosting.pickMax_spec _).1 i hp
        rw [List.getElem?_map, Option.map_eq_some_iff] at e1
        obtain ⟨m, hm, rfl⟩ := e1
        refine ⟨i, m, hm, e2, fun m' hm' => e3 _ (List.mem_map_of_mem hm'), ?_⟩
        simp only []
        apply List.ext_getElem?
        intro j
        rw [List.getElem?_modify, List.getElem?_set]
        by_cases hij : i = j
        · subst hij
          obtain ⟨hi, rfl⟩ := List.getElem?_eq_some_iff.1 hm
          simp [hi]
        · simp [hij]

/-- A detector that keeps everything and reports a change whenever it is asked. -/
def window : Det (List Bool) := ⟨[], fun l b => l ++ [b], fun l => (true, l), fun l => Boosting.mean01 l⟩

/-- Two members that answer 1. -/
def sureEnv : Env Int (List Bool) Unit Unit Unit :=
  ⟨underOver 1, ⟨0, fun s _ _ _ _ => .ok (s + 1), fun s xs => .ok (xs.map fun _ => some (if s = 0 then 0 else 1)), fun _ => 0⟩, window, true,
    fun pos _ => if pos % 2 = 0 then 1 else 0⟩

/-- **C237, violated.** Of two members, the first is always right, the second always wrong. After one sample the first one is reset. -/
theorem C237_best_reset_violated :
    (run sureEnv [⟨[((), 1)], some [0, 1], none⟩] (fresh sureEnv 2)).toOption.map (fun r => r.2.members.map fun m => (m.learner, m.det)) =
      some [(0, []), (0, [false])] := by decide +kernel

/-! ### Sample weights -/

/-- A learner that accepts every sample provided the number of weights is one (each call gets one
sample), and raises `ValueError` otherwise, as Hoeffding trees (trees/hoeffding_tree.py 293-295) and
naive Bayes (bayes/naive_bayes.py 105) do. -/
def Base.Checks (b : Base σ X) : Prop :=
  (∀ s x y c w, (∀ l, w = some l → l.length = 1) → ∃ s', b.fit s x y c w = .ok s') ∧
  (∀ s x y c l, l.length ≠ 1 → b.fit s x y c (some l) = .error .valueError) ∧
  ∀ s xs, ∃ ps, b.predict s xs = .ok ps ∧ ps.length = xs.length

/-- C186 (partial): with such a learner, under/over-bagging accepts calls without weights and calls of a
single sample with a single weight.  Missing (see the violation): batches of several weighted samples.
The same holds of the other three ensembles (by `run_fresh_takes`). -/
theorem C186_single_weights_partial (E : Env σ δ X Unit Unit) (sr : ℚ) (hE : E.sc = underOver sr) (hb : E.b.Checks)
    (n : Nat) (known : List Int) (c : Call X) (hc1 : c.classes = some known) (cs : List (Call X)) (hc : ∀ c ∈ cs, c.Fits known)
    (hw : ∀ c' ∈ c :: cs, c'.weights = none ∨ (c'.rows.length = 1 ∧ ∃ w, c'.weights = some [w])) :
    ∃ vs s, run E (c :: cs) (fresh E n) = .ok (vs, s) := by
  have hs := underOver_safe sr
  rw [← hE] at hs
  obtain ⟨vs, s, h1, _⟩ := run_fresh_takes E hs n known c hc1 cs (fun c' h' => ⟨fun s x y => hb.1 s x y _ _ (by
    intro l hl
    rcases hw c' h' with h | ⟨_, w, h⟩
    · rw [h] at hl; simp at hl
    · rw [h] at hl; simp only [Option.some.injEq] at hl; rw [← hl]; rfl), hb.2.2⟩) hc trivial trivial trivial (.inr trivial)
  exact ⟨vs, s, h1⟩

/-- C186 (violated): `sample_weight` is passed on whole with every single sample.  With a learner that
checks lengths, `partial_fit` with one weight for each of two or more samples raises `ValueError`
as soon as the first member is drawn (any ensemble whose first rate is defined). -/
theorem C186_sample_weight_violated (E : Env σ δ X τ γ) (hb : E.b.Checks) (n : Nat) (hn : 0 < n) (known : List Int) (hkn : known.length ≤ n)
    (rows : List (X × Int)) (w : List ℚ) (hl : w.length = rows.length) (h2 : 2 ≤ rows.length)
    (hr : ∀ y m g t, ∃ r, E.sc.rate y 0 m 1 g t = .ok r) (hp : ∀ r, 0 < E.poisson 0 r) :
    partialFit E ⟨rows, some known, some w⟩ (fresh E n) = .error .valueError := by
  obtain ⟨n, rfl⟩ : ∃ k, n = k + 1 := ⟨n - 1, by omega⟩
  cases rows with
  | nil => simp at h2
  | cons r rows =>
    have htr : ∀ k s, 0 < k → trainN E.b ⟨r :: rows, some known, some w⟩ r.1 r.2 k s = .error .valueError := by
      intro k s hk
      cases k with
      | zero => omega
      | succ k => rw [trainN, hb.2.1 _ _ _ _ _ (by rw [hl]; omega)]
    have hrow : ∀ s : St σ δ τ γ, s.members = List.replicate (n + 1) ⟨E.b.init, E.d.new, E.sc.start⟩ → s.pos = 0 →
        trainRow E ⟨r :: rows, some known, some w⟩ r.1 r.2 s = .error .valueError := by
      intro s h1 h2
      unfold trainRow
      rw [h1, h2, List.replicate_succ, visitAll]
      obtain ⟨q, hq⟩ := hr r.2 (({ learner := E.b.init, det := E.d.new, tally := E.sc.start } : M σ δ τ) ::
        List.replicate n ⟨E.b.init, E.d.new, E.sc.start⟩).length (E.sc.bump r.2 s.shared) (E.sc.count r.2 1 E.sc.start)
      simp only [hq, htr _ _ (hp q)]
    unfold partialFit
    have : checkClasses (fresh E (n + 1)).classes (some known) = .ok known := rfl
    simp only [this]
    rw [trainRows, hrow _ (adjust_le E (n + 1) known _ (by omega)) rfl]

/-- A learner that counts its samples and checks the weights. -/
def picky : Base Nat Unit :=
  ⟨0, fun s _ _ _ w => match w with
    | none => .ok (s + 1)
    | some l => if l.length = 1 then .ok (s + 1) else .error .valueError,
   fun _ xs => .ok (xs.map fun _ => some 0), fun _ => 0⟩

theorem picky_checks : picky.Checks := by
  refine ⟨fun s x y c w h => ?_, fun s x y c l h => ?_, fun s xs => ⟨xs.map fun _ => some 0, rfl, by simp⟩⟩
  · cases w with
    | none => exact ⟨s + 1, rfl⟩
    | some l => exact ⟨s + 1, by simp [picky, h l rfl]⟩
  · simp [picky, h]

example : picky.Checks ∧ ∀ y m g t, ∃ r, (adaC2 1 1).rate y 0 m 1 g t = .ok r := ⟨picky_checks, fun _ _ _ _ => ⟨1, rfl⟩⟩

end Verif.Meta.Skew
