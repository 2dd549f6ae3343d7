import Verif.Meta.PatchesStep

/-!
Theorems about the members of `StreamingRandomPatchesClassifier`; C138, C139, C141.
-/

namespace Verif.Meta.Patches

variable {T D R : Type}

theorem shape_life (E : Env T D R) (c : Conf) (dr : Nat → Nat → Draw R) (i n : Nat) (sub0 : Option (List Nat))
    (hv : ValidDraws dr n) (m0 : Mem T D) (h0 : Shape E.newDrift E.newWarn c n sub0 m0) (l : List (List ℚ × Int × ℚ)) :
    Shape E.newDrift E.newWarn c n sub0 ((mach E c dr i).life m0 l) := by
  induction l using List.reverseRecOn with
  | nil => exact h0
  | append_singleton l a ih =>
    rw [Life.Machine.life_append]
    exact (step_spec E c dr i n sub0 hv _ _ a ih).shape

theorem shape_new (E : Env T D R) (c : Conf) (n : Nat) (noms0 sub : Option (List Nat)) (r : R) (t : Nat)
    (hs : ∀ f, sub = some f → Drawn f f.length n) :
    Shape E.newDrift E.newWarn c n sub (newMem E c noms0 sub r t) := by
  refine ⟨?_, (fun b hb => nomatch hb), fun _ => rfl, (fun b hb => nomatch hb)⟩
  cases sub with
  | none => rfl
  | some f => exact ⟨f, rfl, hs f rfl⟩

theorem known_life (E : Env T D R) (c : Conf) (dr : Nat → Nat → Draw R) (i n : Nat) (noms0 sub : Option (List Nat))
    (r : R) (t : Nat) (hv : ValidDraws dr n) (hs : ∀ f, sub = some f → Drawn f f.length n)
    (l : List (List ℚ × Int × ℚ)) :
    (mach E c dr i).Known (IsNew E n sub) (trainSub E) (newMem E c noms0 sub r t) l := by
  have h0 := shape_new E c n noms0 sub r t hs
  apply Life.Machine.known
  · exact ⟨⟨r, rfl⟩, h0.sub⟩
  · rfl
  · intro l1 a l2 _
    exact step_ok _ _ _ _ _ _ _ _ _ (step_spec E c dr i n sub hv _ _ a (shape_life E c dr i n sub hv _ h0 l1))

/-- When something starts anew at drifts only. -/
def driftRestart (_ : Option Nat) (_ d : Bool) : Bool := d

/-- The prequential result of one instance: the class with the highest vote before
learning, the label and the weight. -/
def resultOf (E : Env T D R) (_ : Nat) (a : List ℚ × Int × ℚ) (m : Mem T D) : List (Int × Int × ℚ) :=
  [(((Lazy.argmax (E.proba m.est.tree (sel m.est.sub a.1)) : Nat) : Int), a.2.1, a.2.2)]

theorem judged_life (E : Env T D R) (c : Conf) (dr : Nat → Nat → Draw R) (i n : Nat) (noms0 sub : Option (List Nat))
    (r : R) (t : Nat) (hv : ValidDraws dr n) (hs : ∀ f, sub = some f → Drawn f f.length n)
    (l : List (List ℚ × Int × ℚ)) :
    let m0 := newMem E c noms0 sub r t
    let m := (mach E c dr i).life m0 l
    let log := (mach E c dr i).answers m0 l
    m.evals = (mach E c dr i).history (resultOf E) m0 l (Life.lastRestart driftRestart log) ∧
    m.drift = fed E E.newDrift ((mach E c dr i).history (errorOf E c dr i) m0 l (Life.lastRestart driftRestart log)) ∧
    (c.useBg = true → m.warn =
      fed E E.newWarn ((mach E c dr i).history (errorOf E c dr i) m0 l (Life.lastRestart warnRestart log))) := by
  intro m0 m log
  have h0 := shape_new E c n noms0 sub r t hs
  have hsh := fun l1 => shape_life E c dr i n sub hv _ h0 l1
  have hbg : ∀ l1 l2, l = l1 ++ l2 → (((mach E c dr i).bg ((mach E c dr i).life m0 l1)).map fun b => b.2) =
      Life.pending ((mach E c dr i).answers m0 l1) := fun l1 _ _ => (known_life E c dr i n noms0 sub r t hv hs l1).bgTime
  refine ⟨?_, ?_, fun hub => ?_⟩
  · refine (mach E c dr i).collected driftRestart (resultOf E) (fun m vs => m.evals = vs) m0 rfl l hbg ?_
    intro l1 a l2 _ vs hvs
    have := (step_spec E c dr i n sub hv _ (l1.length + 1) a (hsh l1)).evals
    rw [this, hvs]
    simp only [driftRestart, decide_eq_true_eq]
    rfl
  · refine (mach E c dr i).collected driftRestart (errorOf E c dr i) (fun m vs => m.drift = fed E E.newDrift vs) m0 rfl l
      hbg ?_
    intro l1 a l2 _ vs hvs
    have := (step_spec E c dr i n sub hv _ (l1.length + 1) a (hsh l1)).drift vs hvs
    simp only [driftRestart, decide_eq_true_eq]
    exact this
  · refine (mach E c dr i).collected warnRestart (errorOf E c dr i) (fun m vs => m.warn = fed E E.newWarn vs) m0 rfl l
      hbg ?_
    intro l1 a l2 _ vs hvs
    exact (step_spec E c dr i n sub hv _ (l1.length + 1) a (hsh l1)).warn hub vs hvs

/-! ### The ensemble -/

/-- The instances of a sequence of calls. -/
def seen (calls : List Call) : List (List ℚ × Int × ℚ) :=
  calls.flatMap fun q => match q with
    | .ask => []
    | .fit rows => rows

/-- The ensemble after the instances `l`: `N` members living side by side. -/
structure Rel (E : Env T D R) (c : Conf) (N : Nat) (noms0 : Option (List Nat)) (subs : Nat → Option (List Nat))
    (r0 : Nat → R) (dr : Nat → Nat → Draw R) (l : List (List ℚ × Int × ℚ)) (s : St T D) : Prop where
  n : s.n = l.length
  none : s.ensemble = none → l = []
  some : ∀ ms, s.ensemble = some ms → ∃ c0 ≤ 1, ms = (List.range N).map fun i =>
    (mach E c dr i).life (newMem E c noms0 (subs i) (r0 i) c0) l

theorem map_range_zipIdx {α β : Type} (f : Nat → α) (g : α × Nat → β) (N : Nat) :
    (((List.range N).map f).zipIdx).map g = (List.range N).map fun i => g (f i, i) := by
  apply List.ext_getElem
  · simp
  · intro j h1 h2
    simp

theorem rel_fitOne (E : Env T D R) (c : Conf) (N : Nat) (noms0 : Option (List Nat)) (subs : Nat → Option (List Nat))
    (r0 : Nat → R) (dr : Nat → Nat → Draw R) (l : List (List ℚ × Int × ℚ)) (s : St T D) (e : List ℚ × Int × ℚ)
    (h : Rel E c N noms0 subs r0 dr l s) : Rel E c N noms0 subs r0 dr (l ++ [e]) (fitOne E c N noms0 subs r0 dr s e) := by
  obtain ⟨h1, h2, h3⟩ := h
  cases hs : s.ensemble with
  | none =>
    have hl := h2 hs
    subst hl
    simp only [fitOne, ensure, hs, Option.map_some]
    refine ⟨by simpa using h1, by simp, ?_⟩
    intro ms hms
    rw [Option.some.injEq] at hms
    refine ⟨1, le_refl _, ?_⟩
    rw [← hms, map_range_zipIdx, h1]
    rfl
  | some ms0 =>
    obtain ⟨c0, hc0, hms0⟩ := h3 ms0 hs
    simp only [fitOne, ensure, hs, Option.map_some]
    refine ⟨by simpa using h1, by simp, ?_⟩
    intro ms hms
    rw [Option.some.injEq] at hms
    refine ⟨c0, hc0, ?_⟩
    rw [← hms, hms0, map_range_zipIdx]
    apply List.map_congr_left
    intro i _
    rw [Life.Machine.life_append, h1]
    rfl

theorem rel_call (E : Env T D R) (c : Conf) (N : Nat) (noms0 : Option (List Nat)) (subs : Nat → Option (List Nat))
    (r0 : Nat → R) (dr : Nat → Nat → Draw R) (q : Call) (l : List (List ℚ × Int × ℚ)) (s : St T D)
    (h : Rel E c N noms0 subs r0 dr l s) :
    Rel E c N noms0 subs r0 dr (l ++ seen [q]) (call E c N noms0 subs r0 dr s q) := by
  cases q with
  | ask =>
    have : seen [(.ask : Call)] = [] := rfl
    rw [this, List.append_nil]
    cases hs : s.ensemble with
    | some ms => simpa only [call, ensure, hs] using h
    | none =>
      have hl := h.none hs
      subst hl
      simp only [call, ensure, hs]
      refine ⟨h.n, by simp, ?_⟩
      intro ms hms
      rw [Option.some.injEq] at hms
      exact ⟨0, by omega, by rw [← hms, h.n]; rfl⟩
  | fit rows =>
    have : seen [(.fit rows : Call)] = rows := by simp [seen]
    rw [this, call]
    clear this
    induction rows generalizing l s with
    | nil => simpa using h
    | cons e rows ih =>
      have := ih (l ++ [e]) _ (rel_fitOne E c N noms0 subs r0 dr l s e h)
      simpa using this

theorem rel_run (E : Env T D R) (c : Conf) (N : Nat) (noms0 : Option (List Nat)) (subs : Nat → Option (List Nat))
    (r0 : Nat → R) (dr : Nat → Nat → Draw R) (calls : List Call) (l : List (List ℚ × Int × ℚ)) (s : St T D)
    (h : Rel E c N noms0 subs r0 dr l s) :
    Rel E c N noms0 subs r0 dr (l ++ seen calls) (run E c N noms0 subs r0 dr calls s) := by
  induction calls generalizing l s with
  | nil => simpa [seen, run] using h
  | cons q calls ih =>
    have := ih _ _ (rel_call E c N noms0 subs r0 dr q l s h)
    have e : seen (q :: calls) = seen [q] ++ seen calls := by simp [seen]
    rw [e, ← List.append_assoc]
    exact this

theorem members_life (E : Env T D R) (c : Conf) (N : Nat) (noms0 : Option (List Nat)) (subs : Nat → Option (List Nat))
    (r0 : Nat → R) (dr : Nat → Nat → Draw R) (calls : List Call) (ms : List (Mem T D))
    (hs : (run E c N noms0 subs r0 dr calls init).ensemble = some ms) :
    ms.length = N ∧ ∃ c0 ≤ 1, ∀ i m, ms[i]? = some m →
      m = (mach E c dr i).life (newMem E c noms0 (subs i) (r0 i) c0) (seen calls) := by
  have := rel_run E c N noms0 subs r0 dr calls [] init ⟨rfl, fun _ => rfl, fun _ h => by cases h⟩
  rw [List.nil_append] at this
  obtain ⟨c0, hc, hms⟩ := this.some ms hs
  refine ⟨by rw [hms]; simp, c0, hc, ?_⟩
  intro i m hm
  rw [hms, List.getElem?_map, Option.map_eq_some_iff] at hm
  obtain ⟨j, hj, e⟩ := hm
  have hij : j = i := by
    rw [List.getElem?_eq_some_iff] at hj
    obtain ⟨h1, h2⟩ := hj
    simpa using h2.symm
  subst hij
  exact e.symm

theorem birth_no_drift (log : List (Nat × Bool × Bool)) (h : (log.filter fun e => e.2.2).length = 0) :
    Life.birth log = 0 := by
  rw [List.length_eq_zero_iff, List.filter_eq_nil_iff] at h
  have : (log.dropWhile fun e => !e.2.2) = [] := by
    clear * - h
    induction log with
    | nil => rfl
    | cons a log ih =>
      have ha := h a (by simp)
      rw [List.dropWhile_cons_of_pos (by simpa using ha)]
      exact ih fun e he => h e (by simp [he])
  simp [Life.birth, this]

/-- C138: after any sequence of calls there are `N` members. The estimator of a member is an
untrained one that has learned exactly the instances after its creation with positive
weight, of each only the features of the member's subset, which has never changed since
the creation and has as many features as the original one. It was created at the last
drift, or at the latest warning between the drift before and that drift. The same holds
for the background estimator, which exists iff there was a warning since the last drift.
The counters report the detectors' answers. -/
theorem C138_trained_since_creation (E : Env T D R) (c : Conf) (N n : Nat) (noms0 : Option (List Nat))
    (subs : Nat → Option (List Nat)) (r0 : Nat → R) (dr : Nat → Nat → Draw R) (calls : List Call) (ms : List (Mem T D))
    (hv : ValidDraws dr n) (hsub : ∀ i f, subs i = some f → Drawn f f.length n)
    (hs : (run E c N noms0 subs r0 dr calls init).ensemble = some ms) :
    ms.length = N ∧ ∃ c0 ≤ 1, ∀ i m, ms[i]? = some m →
      let K := mach E c dr i
      let log := K.answers (newMem E c noms0 (subs i) (r0 i) c0) (seen calls)
      Life.Built (IsNew E n (subs i)) (trainSub E) (K.samplesAfter (seen calls) (Life.birth log)) (m.est.tree, m.est.sub) ∧
      (m.nDrift = 0 → Life.birth log = 0 ∧ m.created = c0) ∧ (m.nDrift ≠ 0 → m.created = Life.birth log) ∧
      (m.bg.map fun b => b.created) = Life.pending log ∧
      (∀ b, m.bg = some b →
        Life.Built (IsNew E n (subs i)) (trainSub E) (K.samplesAfter (seen calls) b.created) (b.est.tree, b.est.sub)) ∧
      m.nDrift = (log.filter fun e => e.2.2).length ∧ m.nWarn = (log.filter fun e => e.2.1).length := by
  obtain ⟨h1, c0, hc, h3⟩ := members_life E c N noms0 subs r0 dr calls ms hs
  refine ⟨h1, c0, hc, ?_⟩
  intro i m hm K log
  have hk := known_life E c dr i n noms0 (subs i) (r0 i) c0 hv (hsub i) (seen calls)
  have hm' := h3 i m hm
  obtain ⟨k1, k2, k3, k4, k5, k6⟩ := hk
  rw [← hm'] at k1 k2 k3 k4 k5 k6
  have hd : m.nDrift = (log.filter fun e => e.2.2).length := by
    have : K.nDrift (newMem E c noms0 (subs i) (r0 i) c0) = 0 := rfl
    rw [this, Nat.zero_add] at k4
    exact k4
  have hw : m.nWarn = (log.filter fun e => e.2.1).length := by
    have : K.nWarn (newMem E c noms0 (subs i) (r0 i) c0) = 0 := rfl
    rw [this, Nat.zero_add] at k5
    exact k5
  refine ⟨k1, fun h0 => ⟨birth_no_drift _ (by rw [← hd]; exact h0), ?_⟩, fun h0 => ?_, ?_, fun b hb => ?_, hd, hw⟩
  · have : m.created = _ := k6
    rw [this, if_pos (by rw [← hd]; exact h0)]
    rfl
  · have : m.created = _ := k6
    rw [this, if_neg (by rw [← hd]; exact h0)]
  · rw [← k2]
    show _ = (m.bg.map _).map _
    rw [Option.map_map]
    rfl
  · exact k3 (b.est.tree, b.est.sub) b.created (by show m.bg.map _ = _; rw [hb]; rfl)

/-- C138: `reset` starts anew. -/
theorem C138_reset (E : Env T D R) (c : Conf) (N : Nat) (noms0 : Option (List Nat)) (subs : Nat → Option (List Nat))
    (r0 : Nat → R) (dr : Nat → Nat → Draw R) (calls calls' : List Call) :
    run E c N noms0 subs r0 dr calls' (reset (run E c N noms0 subs r0 dr calls init)) =
      run E c N noms0 subs r0 dr calls' (init : St T D) := rfl

/-- C139, partial: the evaluator of a member holds its predictions for all instances since
its last drift, each made before the instance was learned; the detectors have seen the
errors since they were last replaced: the drift detector at a drift, the warning detector
at a warning and at a drift with a background learner. -/
theorem C139_judged_partial (E : Env T D R) (c : Conf) (N n : Nat) (noms0 : Option (List Nat))
    (subs : Nat → Option (List Nat)) (r0 : Nat → R) (dr : Nat → Nat → Draw R) (calls : List Call) (ms : List (Mem T D))
    (hv : ValidDraws dr n) (hsub : ∀ i f, subs i = some f → Drawn f f.length n)
    (hs : (run E c N noms0 subs r0 dr calls init).ensemble = some ms) :
    ∃ c0 ≤ 1, ∀ i m, ms[i]? = some m →
      let K := mach E c dr i
      let m0 := newMem E c noms0 (subs i) (r0 i) c0
      let log := K.answers m0 (seen calls)
      m.evals = K.history (resultOf E) m0 (seen calls) (Life.lastRestart driftRestart log) ∧
      m.drift = fed E E.newDrift (K.history (errorOf E c dr i) m0 (seen calls) (Life.lastRestart driftRestart log)) ∧
      (c.useBg = true → m.warn =
        fed E E.newWarn (K.history (errorOf E c dr i) m0 (seen calls) (Life.lastRestart warnRestart log))) := by
  obtain ⟨h1, c0, hc, h3⟩ := members_life E c N noms0 subs r0 dr calls ms hs
  refine ⟨c0, hc, ?_⟩
  intro i m hm K m0 log
  have := judged_life E c dr i n noms0 (subs i) (r0 i) c0 hv (hsub i) (seen calls)
  simp only [← h3 i m hm] at this
  exact this

/-- C139 fails: the errors handed to the detectors are not prediction errors: with
estimators that remember the last sample they are all zero. -/
theorem C139_errors_after_learning_violated (E : Env T D R) (c : Conf) (dr : Nat → Nat → Draw R) (i : Nat) (m0 : Mem T D)
    (hE : ∀ r nm x y k t, E.predict (E.train r nm (x, y, k) t) x = y) (l : List (List ℚ × Int × ℚ)) (c0 : Nat) :
    ∀ b ∈ (mach E c dr i).history (errorOf E c dr i) m0 l c0, b = false := by
  intro b hb
  unfold Life.Machine.history at hb
  rw [List.mem_flatMap] at hb
  obtain ⟨q, _, hb⟩ := hb
  unfold errorOf at hb
  simp only at hb
  generalize (if c.everySample = true then 1 else (dr q.2 i).k) = k at hb
  split at hb
  · rw [List.mem_singleton] at hb
    rw [hb]
    simp [hE]
  · cases hb

/-! ### C141: nominal attributes -/

/-- The flag is up, or the nominal attributes are those of the subset. -/
def GoodEst (nominal : List Nat) (e : Est T) : Prop := ∀ f, e.sub = some f → e.setNom = true ∨ e.noms = remap f nominal

theorem good_used (nominal : List Nat) (e : Est T) (f : List Nat) (h : GoodEst nominal e) (hf : e.sub = some f) :
    nomsUsed nominal e = remap f nominal := by
  unfold nomsUsed
  rw [hf]
  simp only
  by_cases hs : e.setNom = true
  · rw [if_pos hs]
  · rw [if_neg hs]
    exact (h f hf).resolve_left hs

theorem good_learn (E : Env T D R) (nominal : List Nat) (e : Est T) (r : R) (x : List ℚ) (y : Int) (k : Nat)
    (h : GoodEst nominal e) : GoodEst nominal (learn E nominal e r x y k) := by
  intro f hf
  exact .inr (good_used nominal e f h hf)

/-- Learned estimators of members with a subset do not set their nominal attributes again. -/
def Good (c : Conf) (m : Mem T D) : Prop :=
  GoodEst c.nominal m.est ∧ ∀ b, m.bg = some b → GoodEst c.nominal b.est

set_option maxHeartbeats 1000000 in
theorem good_step (E : Env T D R) (c : Conf) (m : Mem T D) (a : List ℚ × Int × ℚ) (t : Nat) (q : Draw R)
    (hn : c.nominal ≠ []) (h : Good c m)
    (hc : ¬ (m.nWarn < (feed E c m a t q).nWarn ∧ m.nDrift < (feed E c m a t q).nDrift)) : Good c (feed E c m a t q) := by
  obtain ⟨est, created, nDrift, nWarn, drift, warn, bg, evals⟩ := m
  obtain ⟨x, y, w⟩ := a
  obtain ⟨h1, h2⟩ := h
  simp only at h1 h2
  have hcs : canSet c.nominal = true := by
    have : 0 < c.nominal.length := List.length_pos_of_ne_nil hn
    simpa [canSet] using this
  have hnew : ∀ (t' : T) nm sub, GoodEst c.nominal (⟨t', nm, sub, canSet c.nominal⟩ : Est T) := fun _ _ _ _ _ => .inl hcs
  unfold feed at hc ⊢
  simp only at hc ⊢
  by_cases hk : (if c.everySample = true then 1 else q.k) > 0
  · simp only [if_pos hk] at hc ⊢
    unfold fitMem at hc ⊢
    simp only at hc ⊢
    set k := (if c.everySample = true then 1 else q.k)
    have g1 := good_learn E c.nominal est q.r1 x y k h1
    have g2 : ∀ b, bg = some b → ∀ f, b.est.sub = some f → (learn E c.nominal b.est q.r2 x y k).noms = remap f c.nominal :=
      fun b hb f hf => good_used c.nominal b.est f (h2 b hb) hf
    have hsub : (learn E c.nominal est q.r1 x y k).sub = est.sub := rfl
    generalize learn E c.nominal est q.r1 x y k = est' at *
    generalize decide (E.predict est'.tree (sel est'.sub x) ≠ y) = err at *
    obtain ⟨d', c2, hadd⟩ : ∃ d' c2, E.add drift err = (d', c2) := ⟨_, _, rfl⟩
    obtain ⟨w', c1, hadd2⟩ : ∃ w' c1, E.add warn err = (w', c1) := ⟨_, _, rfl⟩
    have g3 : ∀ b, bg = some b → GoodEst c.nominal { learn E c.nominal b.est q.r2 x y k with setNom := est'.setNom } :=
      fun b hb f hf => .inr (g2 b hb f hf)
    have g4 : ∀ b, bg = some b → GoodEst c.nominal (learn E c.nominal b.est q.r2 x y k) :=
      fun b hb f hf => .inr (g2 b hb f hf)
    clear g2 h1 h2
    cases hud : c.useDrift
    · simp only [hud, Bool.false_eq_true, if_false]
      refine ⟨g1, fun b hb => ?_⟩
      simp only [Option.map_eq_some_iff] at hb
      obtain ⟨b0, hb0, rfl⟩ := hb
      exact g4 b0 hb0
    · simp only [hud, if_true] at hc ⊢
      cases hub : c.useBg <;> cases c1 <;> cases c2 <;> cases bg <;>
        simp_all [warnStep, driftStep, trigger, resetMem, Good]
  · simp only [if_neg hk]
    exact ⟨h1, h2⟩

theorem answers_prefix (K : Life.Machine (Mem T D) (List ℚ × Int × ℚ) (T × Option (List Nat)) (List ℚ × Int × Nat))
    (m0 : Mem T D) (l1 l2 : List (List ℚ × Int × ℚ)) (a : Nat × Bool × Bool) (h : a ∈ K.answers m0 l1) :
    a ∈ K.answers m0 (l1 ++ l2) := by
  induction l2 using List.reverseRecOn with
  | nil => simpa using h
  | append_singleton l2 b ih =>
    rw [← List.append_assoc, Life.Machine.answers_append]
    exact List.mem_cons_of_mem _ ih

theorem good_life (E : Env T D R) (c : Conf) (dr : Nat → Nat → Draw R) (i : Nat) (m0 : Mem T D) (hn : c.nominal ≠ [])
    (h0 : Good c m0) (l : List (List ℚ × Int × ℚ))
    (hc : ∀ a ∈ (mach E c dr i).answers m0 l, ¬ (a.2.1 = true ∧ a.2.2 = true)) :
    Good c ((mach E c dr i).life m0 l) := by
  induction l using List.reverseRecOn with
  | nil => exact h0
  | append_singleton l a ih =>
    have ih := ih fun b hb => hc b (answers_prefix _ _ _ _ _ hb)
    rw [Life.Machine.life_append]
    apply good_step E c _ a _ _ hn ih
    have := hc _ (by rw [Life.Machine.answers_append]; exact List.mem_cons_self ..)
    rw [Life.Machine.life_append] at this
    intro hx
    apply this
    simp only [decide_eq_true_eq]
    exact hx

/-- Learning with the nominal attributes that belong to the subset: position `j` of a subset
`f` is nominal iff feature `f[j]` is. -/
def trainNominal (E : Env T D R) (nominal : List Nat) (r : R) (s : List ℚ × Int × Nat) (t : T × Option (List Nat)) :
    T × Option (List Nat) :=
  trainSub E (r, t.2.bind fun f =>
    if f.any (fun i => i ∈ nominal) then some ((List.range f.length).filter fun j => f.any fun i => f[j]? = some i ∧ i ∈ nominal)
    else none) s t

theorem remap_spec (f nominal : List Nat) : remap f nominal =
    if f.any (fun i => i ∈ nominal) then some ((List.range f.length).filter fun j => f.any fun i => f[j]? = some i ∧ i ∈ nominal)
    else none := by
  have h1 : (f.zipIdx.filter fun q => q.1 ∈ nominal).map Prod.snd =
      (List.range f.length).filter fun j => f.any fun i => f[j]? = some i ∧ i ∈ nominal := by
    have : f.zipIdx = (List.range f.length).attach.map fun j => (f[j.1]'(by simpa using j.2), j.1) := by
      apply List.ext_getElem
      · simp
      · intro j h1 h2; simp
    rw [this, List.filter_map, List.map_map]
    have : (Prod.snd ∘ fun j : {x // x ∈ List.range f.length} => (f[j.1]'(by simpa using j.2), j.1)) = Subtype.val := rfl
    rw [this]
    conv_rhs => rw [← List.attach_map_subtype_val (List.range f.length), List.filter_map]
    congr 1
    apply List.filter_congr
    intro j _
    have hj : j.1 < f.length := by simpa using j.2
    simp only [Function.comp, List.getElem?_eq_getElem hj, Option.some.injEq]
    rw [eq_comm, Bool.eq_iff_iff]
    simp only [List.any_eq_true, decide_eq_true_eq]
    constructor
    · rintro ⟨x, -, rfl, hx⟩; exact hx
    · intro hx; exact ⟨_, List.getElem_mem hj, rfl, hx⟩
  unfold remap
  simp only [h1]
  by_cases ha : f.any (fun i => i ∈ nominal) = true
  · rw [if_pos ha, if_pos]
    rw [List.any_eq_true] at ha
    obtain ⟨x, hx, hxn⟩ := ha
    obtain ⟨j, hj, hfx⟩ := List.getElem_of_mem hx
    apply List.length_pos_of_mem (a := j)
    rw [List.mem_filter]
    refine ⟨by simpa using hj, ?_⟩
    rw [List.any_eq_true]
    refine ⟨x, hx, ?_⟩
    simp only [decide_eq_true_eq] at hxn ⊢
    exact ⟨by rw [List.getElem?_eq_getElem hj, hfx], hxn⟩
  · rw [if_neg ha, if_neg]
    simp only [gt_iff_lt, not_lt, Nat.le_zero, List.length_eq_zero_iff, List.filter_eq_nil_iff]
    intro j hj hc
    apply ha
    rw [List.any_eq_true] at hc ⊢
    obtain ⟨x, hx, hxj⟩ := hc
    simp only [decide_eq_true_eq] at hxj
    exact ⟨x, hx, by simpa using hxj.2⟩

/-- An estimator, and one in the background, that keeps the nominal attributes `noms0`. -/
def Own (noms0 : Option (List Nat)) (m : Mem T D) : Prop :=
  (m.est.noms = noms0 ∧ m.est.setNom = false) ∧ ∀ b, m.bg = some b → b.est.noms = noms0 ∧ b.est.setNom = false

set_option maxHeartbeats 1000000 in
theorem own_step (E : Env T D R) (c : Conf) (m : Mem T D) (a : List ℚ × Int × ℚ) (t : Nat) (q : Draw R)
    (noms0 : Option (List Nat)) (hn : c.nominal = []) (h : Own noms0 m) : Own noms0 (feed E c m a t q) := by
  obtain ⟨est, created, nDrift, nWarn, drift, warn, bg, evals⟩ := m
  obtain ⟨x, y, w⟩ := a
  obtain ⟨⟨h1, h1'⟩, h2⟩ := h
  simp only at h1 h1' h2
  have hl : ∀ (e : Est T) r k, e.noms = noms0 → e.setNom = false → (learn E c.nominal e r x y k).noms = noms0 ∧
      (learn E c.nominal e r x y k).setNom = false := by
    intro e r k ha hb
    unfold learn nomsUsed
    cases hs : e.sub <;> simp [ha, hb]
  have hcs : canSet c.nominal = false := by rw [hn]; rfl
  unfold feed
  simp only
  by_cases hk : (if c.everySample = true then 1 else q.k) > 0
  · simp only [if_pos hk]
    unfold fitMem
    simp only
    set k := (if c.everySample = true then 1 else q.k)
    have g1 := hl est q.r1 k h1 h1'
    have g4 : ∀ b, bg = some b → (learn E c.nominal b.est q.r2 x y k).noms = noms0 ∧
        (learn E c.nominal b.est q.r2 x y k).setNom = false := fun b hb => hl b.est q.r2 k (h2 b hb).1 (h2 b hb).2
    generalize learn E c.nominal est q.r1 x y k = est' at *
    generalize decide (E.predict est'.tree (sel est'.sub x) ≠ y) = err at *
    obtain ⟨d', c2, hadd⟩ : ∃ d' c2, E.add drift err = (d', c2) := ⟨_, _, rfl⟩
    obtain ⟨w', c1, hadd2⟩ : ∃ w' c1, E.add warn err = (w', c1) := ⟨_, _, rfl⟩
    clear hl h1 h1' h2
    cases hud : c.useDrift
    · simp only [Bool.false_eq_true, if_false]
      refine ⟨g1, fun b hb => ?_⟩
      simp only [Option.map_eq_some_iff] at hb
      obtain ⟨b0, hb0, rfl⟩ := hb
      exact g4 b0 hb0
    · simp only [if_true]
      cases hub : c.useBg <;> cases c1 <;> cases c2 <;> cases bg <;>
        simp_all [warnStep, driftStep, trigger, resetMem, Own]
  · simp only [if_neg hk]
    exact ⟨⟨h1, h1'⟩, h2⟩

/-- C141, partial: without nominal attributes given to the ensemble, every member is trained all the
time with the nominal attributes of the base estimator, whatever its subset. -/
theorem C141_none_given_partial (E : Env T D R) (c : Conf) (N : Nat) (noms0 : Option (List Nat))
    (subs : Nat → Option (List Nat)) (r0 : Nat → R) (dr : Nat → Nat → Draw R) (calls : List Call) (ms : List (Mem T D))
    (hn : c.nominal = []) (hs : (run E c N noms0 subs r0 dr calls init).ensemble = some ms) :
    ∀ m ∈ ms, m.est.noms = noms0 ∧ ∀ b, m.bg = some b → b.est.noms = noms0 := by
  obtain ⟨h1, c0, hc, h3⟩ := members_life E c N noms0 subs r0 dr calls ms hs
  intro m hm
  obtain ⟨i, hi⟩ := List.mem_iff_getElem?.1 hm
  have key : ∀ l, Own noms0 ((mach E c dr i).life (newMem E c noms0 (subs i) (r0 i) c0) l) := by
    intro l
    induction l using List.reverseRecOn with
    | nil =>
      exact ⟨⟨rfl, by show canSet c.nominal = false; rw [hn]; rfl⟩, fun b hb => nomatch hb⟩
    | append_singleton l a ih =>
      rw [Life.Machine.life_append]
      exact own_step E c _ a _ _ noms0 hn ih
  have := key (seen calls)
  rw [← h3 i m hi] at this
  exact ⟨this.1.1, fun b hb => (this.2 b hb).1⟩

/-- C141, partial: if warning and drift never come at the same instance, every estimator was
trained all the time with the nominal attributes of its subset. -/
theorem C141_nominal_partial (E : Env T D R) (c : Conf) (N n : Nat) (noms0 : Option (List Nat))
    (subs : Nat → Option (List Nat)) (r0 : Nat → R) (dr : Nat → Nat → Draw R) (calls : List Call) (ms : List (Mem T D))
    (hv : ValidDraws dr n) (hsub : ∀ i, ∃ f, subs i = some f ∧ Drawn f f.length n) (hn : c.nominal ≠ [])
    (hs : (run E c N noms0 subs r0 dr calls init).ensemble = some ms) :
    ∃ c0 ≤ 1, ∀ i m, ms[i]? = some m →
      let K := mach E c dr i
      let log := K.answers (newMem E c noms0 (subs i) (r0 i) c0) (seen calls)
      (∀ a ∈ log, ¬ (a.2.1 = true ∧ a.2.2 = true)) →
      Life.Built (IsNew E n (subs i)) (trainNominal E c.nominal) (K.samplesAfter (seen calls) (Life.birth log))
        (m.est.tree, m.est.sub) := by
  obtain ⟨h1, c0, hc, h3⟩ := members_life E c N noms0 subs r0 dr calls ms hs
  refine ⟨c0, hc, ?_⟩
  intro i m hm K log hq
  obtain ⟨f0, hf0, hd0⟩ := hsub i
  have hs0 : ∀ f, subs i = some f → Drawn f f.length n := fun f hf => by rw [hf0] at hf; cases hf; exact hd0
  have hsh := shape_new E c n noms0 (subs i) (r0 i) c0 hs0
  have hgood0 : Good c (newMem E c noms0 (subs i) (r0 i) c0) := by
    refine ⟨fun f hf => .inl ?_, (fun b hb => nomatch hb)⟩
    have : 0 < c.nominal.length := List.length_pos_of_ne_nil hn
    simpa [newMem, canSet] using this
  have htr : ∀ (r : R) nm s (t : T) f, nm = remap f c.nominal →
      trainSub E (r, nm) s (t, some f) = trainNominal E c.nominal r s (t, some f) := by
    intro r nm s t f h
    rw [h, remap_spec]
    rfl
  have hk : (mach E c dr i).Known (IsNew E n (subs i)) (trainNominal E c.nominal)
      (newMem E c noms0 (subs i) (r0 i) c0) (seen calls) := by
    apply Life.Machine.known
    · exact ⟨⟨r0 i, rfl⟩, hsh.sub⟩
    · rfl
    · intro l1 a l2 hl
      have hsp := shape_life E c dr i n (subs i) hv _ hsh l1
      have hst := step_spec E c dr i n (subs i) hv _ (l1.length + 1) a hsp
      have hg := good_life E c dr i _ hn hgood0 l1 fun b hb => hq b (by
        show b ∈ K.answers _ (seen calls)
        rw [hl]; exact answers_prefix _ _ _ _ _ hb)
      obtain ⟨nm, newW, newD, k1, k2, k3, k4⟩ := hst.life
      refine ⟨⟨(dr (l1.length + 1) i).r1, (dr (l1.length + 1) i).r2, newW, newD, k1, k2, fun cc => ?_⟩, hst.quiet,
        hst.created, hst.nDrift, hst.nWarn⟩
      refine Eq.trans ?_ (k4 cc)
      generalize (mach E c dr i).life (newMem E c noms0 (subs i) (r0 i) c0) l1 = m1 at *
      obtain ⟨f, hf, -⟩ : ∃ f, m1.est.sub = some f ∧ Drawn f f0.length n := by
        have := hsp.sub
        rw [hf0] at this
        exact this
      cases hsm : (mach E c dr i).smp (l1.length + 1) a with
      | none => simp only [Life.step]
      | some s =>
        have e1 : trainNominal E c.nominal (dr (l1.length + 1) i).r1 s (m1.est.tree, m1.est.sub) =
            trainSub E ((dr (l1.length + 1) i).r1, nomsUsed c.nominal m1.est) s (m1.est.tree, m1.est.sub) := by
          rw [hf]
          exact (htr _ _ _ _ _ (good_used c.nominal m1.est f hg.1 hf)).symm
        have e2 : (((mach E c dr i).bg m1).map fun b => (trainNominal E c.nominal (dr (l1.length + 1) i).r2 s b.1, b.2)) =
            ((mach E c dr i).bg m1).map fun b => (trainSub E ((dr (l1.length + 1) i).r2, nm) s b.1, b.2) := by
          show (m1.bg.map _).map _ = (m1.bg.map _).map _
          cases hb : m1.bg with
          | none => rfl
          | some b =>
            obtain ⟨fb, hfb, -⟩ : ∃ f, b.est.sub = some f ∧ Drawn f f0.length n := by
              have := hsp.bgSub b hb
              rw [hf0] at this
              exact this
            have := good_used c.nominal b.est fb (hg.2 b hb) hfb
            rw [← k3 b hb] at this
            simp only [Option.map_some, hfb, htr _ _ _ _ _ this]
        simp only [Life.step, Life.Machine.toLife]
        rw [e2]
        show (if _ then _ else Life.Mem.mk (trainNominal _ _ _ _ (m1.est.tree, m1.est.sub)) _ _) = _
        rw [e1]
        rfl
  have := hk.tree
  rw [← h3 i m hm] at this
  exact this

theorem noms_life (E : Env T D R) (c : Conf) (dr : Nat → Nat → Draw R) (i n : Nat) (noms0 : Option (List Nat)) (m0 : Mem T D)
    (hv : ValidDraws dr n) (h0 : Shape E.newDrift E.newWarn c n none m0)
    (h1 : m0.est.noms = noms0 ∧ ∀ b, m0.bg = some b → b.est.noms = noms0) (l : List (List ℚ × Int × ℚ)) :
    ((mach E c dr i).life m0 l).est.noms = noms0 ∧
      ∀ b, ((mach E c dr i).life m0 l).bg = some b → b.est.noms = noms0 := by
  induction l using List.reverseRecOn with
  | nil => exact h1
  | append_singleton l a ih =>
    have hsh := shape_life E c dr i n none hv m0 h0 l
    rw [Life.Machine.life_append]
    generalize (mach E c dr i).life m0 l = m at *
    obtain ⟨est, created, nDrift, nWarn, drift, warn, bg, evals⟩ := m
    obtain ⟨h2, h3⟩ := ih
    obtain ⟨g1, g2, -, -⟩ := hsh
    simp only [SubOk] at h2 h3 g1 g2
    have hl : ∀ (e : Est T) r x y k, e.sub = none → e.noms = noms0 → (learn E c.nominal e r x y k).noms = noms0 := by
      intro e r x y k he hn
      simp [learn, nomsUsed, he, hn]
    show (feed E c _ a _ _).est.noms = noms0 ∧ _
    unfold Life.Machine.feed mach feed
    simp only
    by_cases hk : (if c.everySample = true then 1 else (dr (l.length + 1) i).k) > 0
    · simp only [if_pos hk]
      unfold fitMem
      simp only
      have e1 := hl est (dr (l.length + 1) i).r1 a.1 a.2.1 (if c.everySample = true then 1 else (dr (l.length + 1) i).k) g1 h2
      have e2 : ∀ b, bg = some b → (learn E c.nominal b.est (dr (l.length + 1) i).r2 a.1 a.2.1
          (if c.everySample = true then 1 else (dr (l.length + 1) i).k)).noms = noms0 := fun b hb => hl _ _ _ _ _ (g2 b hb) (h3 b hb)
      generalize learn E c.nominal est (dr (l.length + 1) i).r1 a.1 a.2.1
        (if c.everySample = true then 1 else (dr (l.length + 1) i).k) = est' at *
      generalize decide (E.predict est'.tree (sel est'.sub a.1) ≠ a.2.1) = err at *
      obtain ⟨d', c2, hadd⟩ : ∃ d' c2, E.add drift err = (d', c2) := ⟨_, _, rfl⟩
      obtain ⟨w', c1, hadd2⟩ : ∃ w' c1, E.add warn err = (w', c1) := ⟨_, _, rfl⟩
      clear hl h0 h1
      cases hud : c.useDrift
      · simp only [Bool.false_eq_true, if_false]
        refine ⟨e1, fun b hb => ?_⟩
        rw [Option.map_eq_some_iff] at hb
        obtain ⟨b0, hb0, rfl⟩ := hb
        exact e2 b0 hb0
      · simp only [if_true]
        cases hub : c.useBg <;> cases c1 <;> cases c2 <;> cases bg <;>
          simp_all [warnStep, driftStep, trigger, resetMem]
    · simp only [if_neg hk]
      exact ⟨h2, h3⟩

/-- C141 fails: without subspaces (resampling) the nominal attributes given to the ensemble
never reach the estimators, which keep those of the base estimator. -/
theorem C141_resampling_violated (E : Env T D R) (c : Conf) (N n : Nat) (noms0 : Option (List Nat))
    (r0 : Nat → R) (dr : Nat → Nat → Draw R) (calls : List Call) (ms : List (Mem T D)) (hv : ValidDraws dr n)
    (hs : (run E c N noms0 (fun _ => none) r0 dr calls init).ensemble = some ms) :
    ∀ m ∈ ms, m.est.noms = noms0 ∧ nomsUsed c.nominal m.est = noms0 := by
  obtain ⟨h1, c0, hc, h3⟩ := members_life E c N noms0 _ r0 dr calls ms hs
  intro m hm
  obtain ⟨i, hi⟩ := List.mem_iff_getElem?.1 hm
  have hsh := shape_new E c n noms0 none (r0 i) c0 (fun f hf => nomatch hf)
  have := noms_life E c dr i n noms0 (newMem E c noms0 none (r0 i) c0) hv hsh ⟨rfl, (fun b hb => nomatch hb)⟩ (seen calls)
  have hsub := (shape_life E c dr i n none hv _ hsh (seen calls)).sub
  rw [← h3 i m hi] at this hsub
  refine ⟨this.1, ?_⟩
  have hsub : m.est.sub = none := hsub
  simp [nomsUsed, hsub, this.1]

/-! ### A concrete ensemble -/

/-- Estimators that record how they were trained; detectors that report a change with
every `p`-th element. -/
def demoEnv (p q : Nat) : Env (List (Option (List Nat) × List ℚ)) (Nat × Nat) Unit where
  blank _ := []
  train _ nm s t := t ++ [(nm, s.1)]
  proba t _ := [t.length, 1]
  predict _ _ := 0
  newDrift := (p, 0)
  newWarn := (q, 0)
  add d _ := ((d.1, d.2 + 1), (d.2 + 1) % d.1 == 0)

/-- Draws: weight 1, and the subsets `{1, 2}`, `{0, 2}`. -/
def demoDraw (_ _ : Nat) : Draw Unit :=
  ⟨1, (), (), (), (), fun k => [1, 2, 0].take k, fun k => [0, 2, 1].take k⟩

def demoConf : Conf := ⟨true, true, [0], false⟩

def demoRun (p q n : Nat) : St (List (Option (List Nat) × List ℚ)) (Nat × Nat) :=
  run (demoEnv p q) demoConf 1 none (fun _ => some [0, 1]) (fun _ => ()) demoDraw
    [.fit ((List.range n).map fun (i : Nat) => ([(i : ℚ), 10, 20], 1, 1))] init

/-- What the first member was trained with, its subset and its time of creation. -/
def demoView (s : St (List (Option (List Nat) × List ℚ)) (Nat × Nat)) :
    Option (List (Option (List Nat) × List ℚ) × Option (List Nat) × Nat) :=
  match s.ensemble with
  | some (m :: _) => some (m.est.tree, m.est.sub, m.created)
  | _ => none

/-- C141 fails: when warning and drift come together (here at the second sample), the new
estimator works on the features `{1, 2}`, none of which is nominal, but is trained with the
nominal attributes of the old one. -/
theorem C141_warning_with_drift_violated :
    demoView (demoRun 2 2 3) = some ([(some [0], [10, 20])], some [1, 2], 2) ∧ remap [1, 2] [0] = none := by
  decide +kernel

/-- Warning at the second, drift at the third sample: the estimator in use is the one created
at the warning and has learned the samples after it, with its own features. -/
example : demoView (demoRun 3 2 4) =
    some ([(none, [10, 20]), (none, [10, 20])], some [1, 2], 2) := by decide +kernel

/-- Drift without a warning before: empty estimator, new subset. -/
example : demoView (demoRun 3 5 4) = some ([(some [0], [3, 20])], some [0, 2], 3) := by decide +kernel

theorem demo_valid : ValidDraws demoDraw 3 := by
  intro t i k hk
  interval_cases k <;> simp [demoDraw, Drawn]

/-- The theorems apply to these runs. -/
example (ms : List (Mem (List (Option (List Nat) × List ℚ)) (Nat × Nat)))
    (h : (demoRun 3 2 4).ensemble = some ms) : ms.length = 1 :=
  (C138_trained_since_creation (demoEnv 3 2) demoConf 1 3 none (fun _ => some [0, 1]) (fun _ => ()) demoDraw _ ms demo_valid
    (fun _ f hf => by cases hf; exact ⟨rfl, by decide, by decide⟩) h).1

end Verif.Meta.Patches
