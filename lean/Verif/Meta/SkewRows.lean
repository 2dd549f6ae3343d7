import Verif.Meta.SkewCost

/-!
Row by row reasoning for the ensembles of `Meta/Skew.lean`: whatever holds at the start and is kept by
every row holds after any sequence of calls.  C183.
-/

namespace Verif.Meta.Skew

open Verif.Meta.Oza (Det feed checkClasses sameSet)
open Verif.Meta.Boosting (pdiv pickMax)

variable {σ δ X τ γ : Type}

/-- All rows of a sequence of calls. -/
def allRows (cs : List (Call X)) : List (X × Int) := cs.flatMap Call.rows

theorem trainRow_length (E : Env σ δ X τ γ) (c : Call X) (x : X) (y : Int) (s s' : St σ δ τ γ) (vs : List (Visit X))
    (h : trainRow E c x y s = .ok (vs, s')) : s'.members.length = s.members.length ∧ s'.classes = s.classes := by
  have h2 : trainRows E c [(x, y)] s = .ok (vs, s') := by simp [trainRows, h]
  obtain ⟨a, b, _⟩ := trainRows_hist E c [(x, y)] s s' vs h2
  exact ⟨a, b⟩

theorem trainRows_ind (E : Env σ δ X τ γ) (N : Nat) (P : List (X × Int) → List (Visit X) → St σ δ τ γ → Prop)
    (hstep : ∀ rows vs s c (r : X × Int) vs' s', s.members.length = N → P rows vs s → trainRow E c r.1 r.2 s = .ok (vs', s') →
      P (rows ++ [r]) (vs ++ vs') s')
    (c : Call X) (rs : List (X × Int)) (rows : List (X × Int)) (vs : List (Visit X)) (s : St σ δ τ γ) (hN : s.members.length = N)
    (hP : P rows vs s) (vs' : List (Visit X)) (s' : St σ δ τ γ) (h : trainRows E c rs s = .ok (vs', s')) :
    P (rows ++ rs) (vs ++ vs') s' := by
  induction rs generalizing rows vs s vs' with
  | nil =>
    simp only [trainRows, Except.ok.injEq, Prod.mk.injEq] at h
    obtain ⟨rfl, rfl⟩ := h
    simpa using hP
  | cons r rs ih =>
    rw [trainRows] at h
    cases hr : trainRow E c r.1 r.2 s with
    | error e => rw [hr] at h; simp at h
    | ok q =>
      obtain ⟨vs1, s1⟩ := q
      rw [hr] at h
      simp only [] at h
      cases ht : trainRows E c rs s1 with
      | error e => rw [ht] at h; simp at h
      | ok q =>
        obtain ⟨vs2, s2⟩ := q
        rw [ht] at h
        simp only [Except.ok.injEq, Prod.mk.injEq] at h
        obtain ⟨rfl, rfl⟩ := h
        have := ih (rows ++ [r]) (vs ++ vs1) s1 (by rw [(trainRow_length E c _ _ _ _ _ hr).1, hN])
          (hstep rows vs s c r vs1 s1 hN hP hr) vs2 ht
        simpa using this

theorem run_ind' (E : Env σ δ X τ γ) (N : Nat) (known : List Int) (hkN : known.length ≤ N)
    (P : List (X × Int) → List (Visit X) → St σ δ τ γ → Prop)
    (hstep : ∀ rows vs s c (r : X × Int) vs' s', s.members.length = N → P rows vs s → trainRow E c r.1 r.2 s = .ok (vs', s') →
      P (rows ++ [r]) (vs ++ vs') s')
    (cs : List (Call X)) (hc : ∀ c ∈ cs, c.Fits known) (rows : List (X × Int)) (vs : List (Visit X)) (s : St σ δ τ γ)
    (hk : s.classes = some known) (hN : s.members.length = N)
    (hP : P rows vs s) (vs' : List (Visit X)) (s' : St σ δ τ γ) (h : run E cs s = .ok (vs', s')) :
    P (rows ++ allRows cs) (vs ++ vs') s' := by
  induction cs generalizing rows vs s vs' with
  | nil =>
    simp only [run, Except.ok.injEq, Prod.mk.injEq] at h
    obtain ⟨rfl, rfl⟩ := h
    simpa [allRows] using hP
  | cons c cs ih =>
    rw [run] at h
    cases hp : partialFit E c s with
    | error e => rw [hp] at h; simp at h
    | ok q =>
      obtain ⟨vs1, s1⟩ := q
      rw [hp] at h
      simp only [] at h
      cases hr : run E cs s1 with
      | error e => rw [hr] at h; simp at h
      | ok q =>
        obtain ⟨vs2, s2⟩ := q
        rw [hr] at h
        simp only [Except.ok.injEq, Prod.mk.injEq] at h
        obtain ⟨rfl, rfl⟩ := h
        have hadj : adjust E known s.members = s.members := by rw [adjust, if_neg (by omega)]
        unfold partialFit at hp
        rw [hk, fits_check c known (hc c List.mem_cons_self)] at hp
        simp only [hadj] at hp
        rw [← hk] at hp
        have h1 := trainRows_ind E N P hstep c c.rows rows vs s hN hP vs1 s1 hp
        obtain ⟨a1, a2, _⟩ := trainRows_hist E c c.rows s s1 vs1 hp
        have := ih (fun c' h' => hc c' (List.mem_cons_of_mem _ h')) (rows ++ c.rows) (vs ++ vs1) s1 (by rw [a2, hk]) (by omega) h1 vs2 hr
        simpa [allRows] using this

/-- The state in which the first row of all finds the ensemble. -/
def begun (E : Env σ δ X τ γ) (n : Nat) (known : List Int) : St σ δ τ γ :=
  { fresh E n with members := adjust E known (fresh E n).members, classes := some known }

theorem begun_length (E : Env σ δ X τ γ) (n : Nat) (known : List Int) : (begun E n known).members.length = max n known.length := by
  show (adjust E known (List.replicate n _)).length = _
  by_cases h : known.length > n
  · rw [adjust_gt E n known _ h]; simp; omega
  · rw [adjust_le E n known _ h]; simp; omega

theorem run_ind (E : Env σ δ X τ γ) (n : Nat) (known : List Int) (P : List (X × Int) → List (Visit X) → St σ δ τ γ → Prop)
    (h0 : P [] [] (begun E n known))
    (hstep : ∀ rows vs s c (r : X × Int) vs' s', s.members.length = max n known.length → P rows vs s →
      trainRow E c r.1 r.2 s = .ok (vs', s') → P (rows ++ [r]) (vs ++ vs') s')
    (c : Call X) (hc1 : c.classes = some known) (cs : List (Call X)) (hc : ∀ c ∈ cs, c.Fits known)
    (vs : List (Visit X)) (s' : St σ δ τ γ) (h : run E (c :: cs) (fresh E n) = .ok (vs, s')) :
    P (allRows (c :: cs)) vs s' := by
  rw [run] at h
  have hpe : partialFit E c (fresh E n) = trainRows E c c.rows (begun E n known) := by
    unfold partialFit
    have : checkClasses (fresh E n).classes c.classes = .ok known := by rw [hc1]; rfl
    rw [this]
    rfl
  rw [hpe] at h
  cases hp : trainRows E c c.rows (begun E n known) with
  | error e => rw [hp] at h; simp at h
  | ok q =>
    obtain ⟨vs1, s1⟩ := q
    rw [hp] at h
    simp only [] at h
    cases hr : run E cs s1 with
    | error e => rw [hr] at h; simp at h
    | ok q =>
      obtain ⟨vs2, s2⟩ := q
      rw [hr] at h
      simp only [Except.ok.injEq, Prod.mk.injEq] at h
      obtain ⟨rfl, rfl⟩ := h
      have h1 := trainRows_ind E _ P hstep c c.rows [] [] _ (begun_length E n known) h0 vs1 s1 hp
      obtain ⟨a1, a2, _⟩ := trainRows_hist E c c.rows _ s1 vs1 hp
      have := run_ind' E (max n known.length) known (by omega) P hstep cs hc _ _ s1 (by rw [a2]; rfl) (by rw [a1]; exact begun_length E n known) h1 vs2 _ hr
      simpa [allRows] using this

/-- The visits of one row: one per member, each with its rate, its draw, and a look at the prediction
exactly when the scheme asks for it; the first has weight 1; the shared counters are bumped once per
member. -/
theorem visitAll_spec (E : Env σ δ X τ γ) (c : Call X) (x : X) (y : Int) (n : Nat) (ms : List (M σ δ τ)) (i : Nat) (lam : ℚ)
    (g : γ) (pos : Nat) (ch : Bool) (vs : List (Visit X)) (ms' : List (M σ δ τ)) (g' : γ) (pos' : Nat) (ch' : Bool)
    (h : visitAll E c x y n ms i lam g pos ch = .ok (vs, ms', g', pos', ch')) :
    (∀ v ∈ vs, (∃ g t, E.sc.rate v.y v.i n v.lam g t = .ok v.rate) ∧ (∃ q, v.k = E.poisson q v.rate) ∧ v.seen.isSome = E.sc.looks v.k) ∧
    (∀ m tl, ms = m :: tl → ∃ v vs', vs = v :: vs' ∧ v.i = i ∧ v.y = y ∧ v.lam = lam ∧
      E.sc.rate y i n lam (E.sc.bump y g) (E.sc.count y lam m.tally) = .ok v.rate) ∧
    g' = (E.sc.bump y)^[ms.length] g := by
  induction ms generalizing i lam g pos ch vs ms' with
  | nil =>
    simp only [visitAll, Except.ok.injEq, Prod.mk.injEq] at h
    obtain ⟨rfl, rfl, rfl, _⟩ := h
    exact ⟨by simp, by simp, rfl⟩
  | cons m ms ih =>
    rw [visitAll] at h
    simp only [] at h
    cases hr : E.sc.rate y i n lam (E.sc.bump y g) (E.sc.count y lam m.tally) with
    | error e => rw [hr] at h; simp at h
    | ok rate =>
      rw [hr] at h
      simp only [] at h
      cases ht : trainN E.b c x y (E.poisson pos rate) m.learner with
      | error e => rw [ht] at h; simp at h
      | ok s =>
        rw [ht] at h
        simp only [] at h
        cases hj : judge E x y lam (E.poisson pos rate) s (E.sc.count y lam m.tally) with
        | error e => rw [hj] at h; simp at h
        | ok q =>
          obtain ⟨seen, lam', t'⟩ := q
          rw [hj] at h
          simp only [] at h
          cases hw : watch E c s m.det ch with
          | error e => rw [hw] at h; simp at h
          | ok q =>
            obtain ⟨a, ch''⟩ := q
            rw [hw] at h
            simp only [] at h
            cases hv : visitAll E c x y n ms (i + 1) lam' (E.sc.bump y g) (pos + 1) ch'' with
            | error e => rw [hv] at h; simp at h
            | ok q =>
              obtain ⟨vs1, ms1, g1, pos1, ch1⟩ := q
              rw [hv] at h
              simp only [Except.ok.injEq, Prod.mk.injEq] at h
              obtain ⟨rfl, rfl, rfl, rfl, rfl⟩ := h
              obtain ⟨i1, _, i3⟩ := ih (i + 1) lam' _ _ _ vs1 ms1 hv
              have hseen : seen.isSome = E.sc.looks (E.poisson pos rate) := by
                unfold judge at hj
                by_cases hk : E.sc.looks (E.poisson pos rate) = true
                · rw [if_pos hk] at hj
                  cases hp : predict1 E.b s x with
                  | error e => rw [hp] at hj; simp at hj
                  | ok p =>
                    rw [hp] at hj
                    simp only [] at hj
                    cases ha : E.sc.after p y lam (E.sc.count y lam m.tally) with
                    | error e => rw [ha] at hj; simp at hj
                    | ok q =>
                      rw [ha] at hj
                      simp only [Except.ok.injEq, Prod.mk.injEq] at hj
                      rw [← hj.1, hk]; rfl
                · rw [if_neg hk] at hj
                  simp only [Except.ok.injEq, Prod.mk.injEq] at hj
                  rw [← hj.1]
                  simpa using hk
              refine ⟨?_, ?_, ?_⟩
              · intro v hv'
                rcases List.mem_cons.mp hv' with rfl | hv'
                · exact ⟨⟨_, _, hr⟩, ⟨pos, rfl⟩, hseen⟩
                · exact i1 v hv'
              · intro m0 tl h0
                obtain ⟨rfl, rfl⟩ := List.cons.inj h0
                exact ⟨_, _, rfl, rfl, rfl, rfl, hr⟩
              · rw [List.length_cons, Function.iterate_succ_apply]
                exact i3

theorem trainRow_inv (E : Env σ δ X τ γ) (c : Call X) (x : X) (y : Int) (s s' : St σ δ τ γ) (vs : List (Visit X))
    (h : trainRow E c x y s = .ok (vs, s')) :
    ∃ ms g pos ch, visitAll E c x y s.members.length s.members 0 1 s.shared s.pos false = .ok (vs, ms, g, pos, ch) ∧ s'.shared = g ∧
      s'.pos = pos ∧ s'.members = if (ch && E.drift) = true then react E ms else ms := by
  unfold trainRow at h
  cases hv : visitAll E c x y s.members.length s.members 0 1 s.shared s.pos false with
  | error e => rw [hv] at h; simp at h
  | ok q =>
    obtain ⟨vs0, ms, g, pos, ch⟩ := q
    rw [hv] at h
    simp only [Except.ok.injEq, Prod.mk.injEq] at h
    obtain ⟨rfl, rfl⟩ := h
    exact ⟨ms, g, pos, ch, rfl, rfl, rfl, rfl⟩

/-- In any of the ensembles, every member is shown every sample once, in order. -/
theorem run_rows (E : Env σ δ X τ γ) (n : Nat) (known : List Int) (c : Call X) (hc1 : c.classes = some known) (cs : List (Call X))
    (hc : ∀ c ∈ cs, c.Fits known) (vs : List (Visit X)) (s' : St σ δ τ γ) (h : run E (c :: cs) (fresh E n) = .ok (vs, s'))
    (j : Nat) (hj : j < max n known.length) : (visitsOf j vs).map (fun v => (v.x, v.y)) = allRows (c :: cs) := by
  refine run_ind E n known (fun rows vs _ => (visitsOf j vs).map (fun v => (v.x, v.y)) = rows) rfl ?_ c hc1 cs hc vs s' h
  intro rows vs s c r vs' s' hN hP hr
  obtain ⟨ms, g, pos, ch, h1, _⟩ := trainRow_inv E c _ _ s s' vs' hr
  obtain ⟨_, j2, j3⟩ := visitAll_hist E c _ _ _ _ _ _ _ _ _ _ _ _ h1
  obtain ⟨m', v, _, a2, _⟩ := j3 j s.members[j] (List.getElem?_eq_getElem (by omega))
  rw [Nat.zero_add] at a2
  have hv : v ∈ vs' := by
    have : v ∈ visitsOf j vs' := by rw [a2]; simp
    exact (List.mem_filter.mp this).1
  obtain ⟨_, _, e1, e2⟩ := j2 v hv
  unfold visitsOf at a2 hP ⊢
  rw [List.filter_append, List.map_append, hP, a2, List.map_cons, List.map_nil, e1, e2]

/-- Every visit gets its rate from the scheme, its number of trainings from the draws, and is looked
at when the scheme says so. -/
theorem run_visits (E : Env σ δ X τ γ) (n : Nat) (known : List Int) (c : Call X) (hc1 : c.classes = some known) (cs : List (Call X))
    (hc : ∀ c ∈ cs, c.Fits known) (vs : List (Visit X)) (s' : St σ δ τ γ) (h : run E (c :: cs) (fresh E n) = .ok (vs, s')) :
    ∀ v ∈ vs, (∃ g t, E.sc.rate v.y v.i (max n known.length) v.lam g t = .ok v.rate) ∧ (∃ q, v.k = E.poisson q v.rate) ∧
      v.seen.isSome = E.sc.looks v.k ∧ (v.i = 0 → v.lam = 1) := by
  refine run_ind E n known (fun _ vs _ => ∀ v ∈ vs, (∃ g t, E.sc.rate v.y v.i (max n known.length) v.lam g t = .ok v.rate) ∧
    (∃ q, v.k = E.poisson q v.rate) ∧ v.seen.isSome = E.sc.looks v.k ∧ (v.i = 0 → v.lam = 1)) (by simp) ?_ c hc1 cs hc vs s' h
  intro rows vs s c r vs' s' hN hP hr
  obtain ⟨ms, g, pos, ch, h1, _⟩ := trainRow_inv E c _ _ s s' vs' hr
  obtain ⟨j1, j2, _⟩ := visitAll_spec E c _ _ _ _ _ _ _ _ _ _ _ _ _ _ h1
  obtain ⟨_, i2, i3⟩ := visitAll_hist E c _ _ _ _ _ _ _ _ _ _ _ _ h1
  intro v hv
  rcases List.mem_append.mp hv with hv | hv
  · exact hP v hv
  · obtain ⟨a1, a2, a3⟩ := j1 v hv
    rw [hN] at a1
    refine ⟨a1, a2, a3, fun h0 => ?_⟩
    have hlen := (i2 v hv).2.1
    cases hms : s.members with
    | nil => rw [hms] at hlen; simp at hlen
    | cons m tl =>
      obtain ⟨w, ws, b1, b2, b3, b4, _⟩ := j2 m tl hms
      obtain ⟨_, u, _, c2, _⟩ := i3 0 m (by rw [hms]; rfl)
      have hw : w ∈ visitsOf 0 vs' := List.mem_filter.mpr ⟨by rw [b1]; simp, by simp [b2]⟩
      have hv' : v ∈ visitsOf 0 vs' := List.mem_filter.mpr ⟨hv, by simp [h0]⟩
      rw [Nat.zero_add] at c2
      rw [c2, List.mem_singleton] at hw hv'
      rw [hv', ← hw, b4]

/-! ### Under- and over-bagging -/

theorem underOver_safe (sr : ℚ) : Safe (underOver sr) (fun _ => True) (fun _ _ _ => True) (fun _ => True) (fun _ => True) (fun _ _ => True) where
  bump _ _ _ := ⟨trivial, trivial⟩
  count _ _ _ _ _ := trivial
  rate _ _ _ _ _ _ _ _ _ _ := ⟨_, rfl, trivial⟩
  skip _ _ _ _ := trivial
  after _ _ lam t hl _ := ⟨lam, t, rfl, hl, trivial⟩

/-- C183: in under/over-bagging training never fails, every member is shown every sample exactly once
and in order, and the number of times member `j` of `N` is trained on it is a Poisson draw of rate
`(j+1)/N`, times the sampling rate for positive samples. -/
theorem C183_under_over_bagging (E : Env σ δ X Unit Unit) (sr : ℚ) (hE : E.sc = underOver sr) (hb : E.b.Total)
    (n : Nat) (known : List Int) (c : Call X) (hc1 : c.classes = some known) (cs : List (Call X)) (hc : ∀ c ∈ cs, c.Fits known) :
    ∃ vs s, run E (c :: cs) (fresh E n) = .ok (vs, s) ∧ s.members.length = max n known.length ∧
      (∀ j < s.members.length, (visitsOf j vs).map (fun v => (v.x, v.y)) = (c :: cs).flatMap Call.rows) ∧
      ∀ v ∈ vs, v.rate = ((v.i : ℚ) + 1) / s.members.length * (if v.y = 1 then sr else 1) ∧ ∃ q, v.k = E.poisson q v.rate := by
  have hs := underOver_safe sr
  rw [← hE] at hs
  obtain ⟨vs, s, h1, h2, _⟩ := run_fresh_ok E hb hs n known c hc1 cs hc trivial trivial trivial (.inr trivial)
  refine ⟨vs, s, h1, h2, fun j hj => run_rows E n known c hc1 cs hc vs s h1 j (by omega), fun v hv => ?_⟩
  obtain ⟨⟨g, t, a1⟩, a2, _⟩ := run_visits E n known c hc1 cs hc vs s h1 v hv
  refine ⟨?_, a2⟩
  rw [hE] at a1
  rw [h2]
  simp only [underOver, Except.ok.injEq] at a1
  rw [← a1]
  by_cases hy : v.y = 1 <;> simp [hy]

/-- Two members, a positive and a negative sample, sampling rate 2. -/
def uoEnv : Env Int Nat Unit Unit Unit := ⟨underOver 2, lastLabel, quiet, true, fun pos _ => pos % 2⟩

example : ((run uoEnv [⟨[((), 1), ((), 0)], some [0, 1], none⟩] (fresh uoEnv 2)).toOption.map fun r =>
    (r.1.map fun v => (v.i, v.y, v.rate, v.k))) = some [(0, 1, 1, 0), (1, 1, 2, 1), (0, 0, 1/2, 0), (1, 0, 1, 1)] := by decide +kernel

end Verif.Meta.Skew
