import Verif.Meta.Skew

/-!
Facts shared by the ensembles of `Meta/Skew.lean`, for any scheme: training does not fail when the
bookkeeping is safe, and the entries of a member are determined by the visits it received.
-/

namespace Verif.Meta.Skew

open Verif.Meta.Oza (Det feed checkClasses sameSet)
open Verif.Meta.Boosting (pdiv pickMax)

variable {σ δ X τ γ : Type}

/-- A base learner that accepts every sample and answers every row. -/
def Base.Total (b : Base σ X) : Prop :=
  (∀ s x y c w, ∃ s', b.fit s x y c w = .ok s') ∧ ∀ s xs, ∃ ps, b.predict s xs = .ok ps ∧ ps.length = xs.length

/-- A base learner that accepts every sample as the call passes it on, and answers every row. -/
def Base.Takes (b : Base σ X) (c : Call X) : Prop :=
  (∀ s x y, ∃ s', b.fit s x y c.classes c.weights = .ok s') ∧ ∀ s xs, ∃ ps, b.predict s xs = .ok ps ∧ ps.length = xs.length

theorem Base.Total.takes {b : Base σ X} (h : b.Total) (c : Call X) : b.Takes c := ⟨fun s x y => h.1 s x y _ _, h.2⟩

/-- Bookkeeping that never fails: entries stay `Good`, the weight stays positive, rates satisfy
`R`. -/
structure Safe (sc : Scheme τ γ) (Good : τ → Prop) (Mid : Int → ℚ → τ → Prop) (R : ℚ → Prop) (G : γ → Prop) (C : Int → γ → Prop) :
    Prop where
  bump : ∀ y g, G g → G (sc.bump y g) ∧ C y (sc.bump y g)
  count : ∀ y lam t, 0 < lam → Good t → Mid y lam (sc.count y lam t)
  rate : ∀ y i n lam g t, i < n → 0 < lam → C y g → Mid y lam t → ∃ r, sc.rate y i n lam g t = .ok r ∧ R r
  skip : ∀ y lam t, Mid y lam t → Good t
  after : ∀ p y lam t, 0 < lam → Mid y lam t → ∃ lam' t', sc.after p y lam t = .ok (lam', t') ∧ 0 < lam' ∧ Good t'

/-- The entries of a member after a visit, from those before. -/
def Scheme.play (sc : Scheme τ γ) (t : τ) (v : Visit X) : Except PyErr τ :=
  match v.seen with
  | none => .ok (sc.count v.y v.lam t)
  | some p => (sc.after p v.y v.lam (sc.count v.y v.lam t)).map Prod.snd

/-- The visits of member `j`. -/
def visitsOf (j : Nat) (vs : List (Visit X)) : List (Visit X) := vs.filter fun v => v.i = j

theorem trainN_ok (b : Base σ X) (c : Call X) (hb : b.Takes c) (x : X) (y : Int) (k : Nat) (s : σ) :
    ∃ s', trainN b c x y k s = .ok s' := by
  induction k generalizing s with
  | zero => exact ⟨s, rfl⟩
  | succ k ih =>
    obtain ⟨s1, h1⟩ := hb.1 s x y
    obtain ⟨s2, h2⟩ := ih s1
    exact ⟨s2, by rw [trainN, h1]; exact h2⟩

theorem predict1_ok (b : Base σ X) (c : Call X) (hb : b.Takes c) (s : σ) (x : X) : ∃ p, predict1 b s x = .ok p := by
  obtain ⟨ps, h1, h2⟩ := hb.2 s [x]
  unfold predict1
  rw [h1]
  cases ps with
  | nil => simp at h2
  | cons p ps => exact ⟨p, rfl⟩

theorem watch_ok (E : Env σ δ X τ γ) (c : Call X) (hb : E.b.Takes c) (s : σ) (a : δ) (ch : Bool) :
    ∃ r, watch E c s a ch = .ok r := by
  unfold watch
  by_cases hd : E.drift = true
  · rw [if_pos hd]
    obtain ⟨ps, h1, _⟩ := hb.2 s (c.rows.map Prod.fst)
    rw [h1]
    exact ⟨_, rfl⟩
  · rw [if_neg hd]; exact ⟨_, rfl⟩

section Ok

variable {Good : τ → Prop} {Mid : Int → ℚ → τ → Prop} {R : ℚ → Prop} {G : γ → Prop} {C : Int → γ → Prop}

theorem judge_ok (E : Env σ δ X τ γ) (c : Call X) (hb : E.b.Takes c) (hs : Safe E.sc Good Mid R G C) (x : X) (y : Int) (lam : ℚ) (hl : 0 < lam)
    (k : Nat) (s : σ) (t : τ) (ht : Mid y lam t) :
    ∃ seen lam' t', judge E x y lam k s t = .ok (seen, lam', t') ∧ 0 < lam' ∧ Good t' := by
  unfold judge
  by_cases hk : E.sc.looks k = true
  · rw [if_pos hk]
    obtain ⟨p, h1⟩ := predict1_ok E.b c hb s x
    obtain ⟨lam', t', h2, h3, h4⟩ := hs.after p y lam t hl ht
    rw [h1]
    simp only [h2]
    exact ⟨_, _, _, rfl, h3, h4⟩
  · rw [if_neg hk]
    exact ⟨_, _, _, rfl, hl, hs.skip y lam t ht⟩

theorem visitAll_ok (E : Env σ δ X τ γ) (hs : Safe E.sc Good Mid R G C) (c : Call X) (hb : E.b.Takes c) (x : X) (y : Int) (n : Nat)
    (ms : List (M σ δ τ)) (i : Nat) (hn : i + ms.length ≤ n) (lam : ℚ) (hl : 0 < lam) (g : γ) (hg : G g) (pos : Nat) (ch : Bool)
    (hm : ∀ m ∈ ms, Good m.tally) :
    ∃ vs ms' g' pos' ch', visitAll E c x y n ms i lam g pos ch = .ok (vs, ms', g', pos', ch') ∧ ms'.length = ms.length ∧
      (∀ m ∈ ms', Good m.tally) ∧ G g' ∧ ∀ v ∈ vs, 0 < v.lam ∧ R v.rate := by
  induction ms generalizing i lam g pos ch with
  | nil => exact ⟨[], [], g, pos, ch, rfl, rfl, by simp, hg, by simp⟩
  | cons m ms ih =>
    obtain ⟨hg1, hc1⟩ := hs.bump y g hg
    have hmid := hs.count y lam m.tally hl (hm m List.mem_cons_self)
    obtain ⟨r, hr, hR⟩ := hs.rate y i n lam (E.sc.bump y g) _ (by simp at hn; omega) hl hc1 hmid
    obtain ⟨s, hs1⟩ := trainN_ok E.b c hb x y (E.poisson pos r) m.learner
    obtain ⟨seen, lam', t', hj, hl', ht'⟩ := judge_ok E c hb hs x y lam hl (E.poisson pos r) s _ hmid
    obtain ⟨⟨a, ch1⟩, hw⟩ := watch_ok E c hb s m.det ch
    obtain ⟨vs, ms', g', pos', ch', e1, e2, e3, e4, e5⟩ := ih (i + 1) (by simp at hn ⊢; omega) lam' hl' (E.sc.bump y g) hg1 (pos + 1) ch1
      fun m' h' => hm m' (List.mem_cons_of_mem _ h')
    refine ⟨⟨i, x, y, lam, r, E.poisson pos r, seen⟩ :: vs, ⟨s, a, t'⟩ :: ms', g', pos', ch', ?_, by simp [e2], ?_, e4, ?_⟩
    · rw [visitAll]
      simp only [hr, hs1, hj, hw, e1]
    · intro m' h'
      rcases List.mem_cons.mp h' with rfl | h'
      · exact ht'
      · exact e3 m' h'
    · intro v hv
      rcases List.mem_cons.mp hv with rfl | hv
      · exact ⟨hl, hR⟩
      · exact e5 v hv

theorem react_length (E : Env σ δ X τ γ) (ms : List (M σ δ τ)) : (react E ms).length = ms.length := by
  unfold react
  cases pickMax (ms.map fun m => E.d.est m.det) <;> simp

theorem react_tally (E : Env σ δ X τ γ) (ms : List (M σ δ τ)) : (react E ms).map M.tally = ms.map M.tally := by
  unfold react
  cases pickMax (ms.map fun m => E.d.est m.det) with
  | none => rfl
  | some i =>
    simp only []
    apply List.ext_getElem?
    intro j
    simp only [List.getElem?_map, List.getElem?_modify]
    cases ms[j]? with
    | none => simp
    | some m => by_cases h : i = j <;> simp [h]

theorem react_good (E : Env σ δ X τ γ) (P : τ → Prop) (ms : List (M σ δ τ)) (h : ∀ m ∈ ms, P m.tally) :
    ∀ m ∈ react E ms, P m.tally := by
  intro m hm
  have : m.tally ∈ (react E ms).map M.tally := List.mem_map_of_mem hm
  rw [react_tally] at this
  obtain ⟨m', h1, h2⟩ := List.mem_map.mp this
  rw [← h2]
  exact h m' h1

theorem trainRows_ok (E : Env σ δ X τ γ) (hs : Safe E.sc Good Mid R G C) (c : Call X) (hb : E.b.Takes c) (rows : List (X × Int))
    (s : St σ δ τ γ) (hg : G s.shared) (hm : ∀ m ∈ s.members, Good m.tally) :
    ∃ vs s', trainRows E c rows s = .ok (vs, s') ∧ s'.members.length = s.members.length ∧ s'.classes = s.classes ∧
      G s'.shared ∧ (∀ m ∈ s'.members, Good m.tally) ∧ ∀ v ∈ vs, 0 < v.lam ∧ R v.rate := by
  induction rows generalizing s with
  | nil => exact ⟨[], s, rfl, rfl, rfl, hg, hm, by simp⟩
  | cons r rows ih =>
    obtain ⟨vs, ms, g, pos, ch, e1, e2, e3, e4, e5⟩ := visitAll_ok E hs c hb r.1 r.2 s.members.length s.members 0 (by omega) 1 one_pos
      s.shared hg s.pos false hm
    set s1 : St σ δ τ γ := { s with members := if ch && E.drift then react E ms else ms, shared := g, pos := pos } with hs1
    have hrow : trainRow E c r.1 r.2 s = .ok (vs, s1) := by
      unfold trainRow
      rw [e1]
    have hlen : s1.members.length = s.members.length := by
      rw [hs1]
      simp only []
      by_cases hc : (ch && E.drift) = true
      · rw [if_pos hc, react_length, e2]
      · rw [if_neg hc, e2]
    have hgood : ∀ m ∈ s1.members, Good m.tally := by
      rw [hs1]
      simp only []
      by_cases hc : (ch && E.drift) = true
      · rw [if_pos hc]; exact react_good E Good ms e3
      · rw [if_neg hc]; exact e3
    obtain ⟨vs', s2, f1, f2, f3, f4, f5, f6⟩ := ih s1 e4 hgood
    refine ⟨vs ++ vs', s2, ?_, by rw [f2, hlen], f3, f4, f5, ?_⟩
    · rw [trainRows, hrow]
      simp only [f1]
    · intro v hv
      rcases List.mem_append.mp hv with hv | hv
      · exact e5 v hv
      · exact f6 v hv

/-- A call with the known classes, or without. -/
def Call.Fits (c : Call X) (known : List Int) : Prop := c.classes = none ∨ ∃ k, c.classes = some k ∧ sameSet known k = true

theorem fits_check (c : Call X) (known : List Int) (h : c.Fits known) : checkClasses (some known) c.classes = .ok known := by
  rcases h with h | ⟨k, h, h'⟩
  · rw [h]; rfl
  · rw [h]; simp [checkClasses, h']

theorem run_ok (E : Env σ δ X τ γ) (hs : Safe E.sc Good Mid R G C) (known : List Int) (cs : List (Call X))
    (hb : ∀ c ∈ cs, E.b.Takes c)
    (hc : ∀ c ∈ cs, c.Fits known) (s : St σ δ τ γ) (hk : s.classes = some known) (hn : known.length ≤ s.members.length)
    (hg : G s.shared) (hm : ∀ m ∈ s.members, Good m.tally) :
    ∃ vs s', run E cs s = .ok (vs, s') ∧ s'.members.length = s.members.length ∧ (∀ m ∈ s'.members, Good m.tally) ∧
      ∀ v ∈ vs, 0 < v.lam ∧ R v.rate := by
  induction cs generalizing s with
  | nil => exact ⟨[], s, rfl, rfl, hm, by simp⟩
  | cons c cs ih =>
    have hadj : adjust E known s.members = s.members := by rw [adjust, if_neg (by omega)]
    obtain ⟨vs, s1, e1, e2, e3, e4, e5, e6⟩ := trainRows_ok E hs c (hb c List.mem_cons_self) c.rows s hg hm
    have hp : partialFit E c s = .ok (vs, s1) := by
      unfold partialFit
      rw [hk, fits_check c known (hc c List.mem_cons_self)]
      simp only [hadj]
      rw [← hk]
      exact e1
    obtain ⟨vs', s2, f1, f2, f3, f4⟩ := ih (fun c' h' => hb c' (List.mem_cons_of_mem _ h')) (fun c' h' => hc c' (List.mem_cons_of_mem _ h')) s1 (by rw [e3, hk]) (by omega) e4 e5
    refine ⟨vs ++ vs', s2, ?_, by omega, f3, ?_⟩
    · rw [run, hp]
      simp only [f1]
    · intro v hv
      rcases List.mem_append.mp hv with hv | hv
      · exact e6 v hv
      · exact f4 v hv

theorem adjust_gt (E : Env σ δ X τ γ) (n : Nat) (known : List Int) (m : M σ δ τ) (h : known.length > n) :
    adjust E known (List.replicate n m) =
      List.replicate n { m with tally := E.sc.rezero m.tally } ++ List.replicate (known.length - n) ⟨E.b.init, E.d.new, E.sc.extra⟩ := by
  rw [adjust, if_pos (by simpa using h), List.map_replicate, List.length_replicate]

theorem adjust_le (E : Env σ δ X τ γ) (n : Nat) (known : List Int) (m : M σ δ τ) (h : ¬ known.length > n) :
    adjust E known (List.replicate n m) = List.replicate n m := by
  rw [adjust, if_neg (by simpa using h)]

/-- From the start: the first call passes the classes. -/
theorem run_fresh_takes (E : Env σ δ X τ γ) (hs : Safe E.sc Good Mid R G C) (n : Nat) (known : List Int)
    (c : Call X) (hc1 : c.classes = some known) (cs : List (Call X)) (hb : ∀ c' ∈ c :: cs, E.b.Takes c')
    (hc : ∀ c ∈ cs, c.Fits known) (hg : G E.sc.shared) (hstart : Good E.sc.start) (hre : Good (E.sc.rezero E.sc.start))
    (hex : known.length ≤ n ∨ Good E.sc.extra) :
    ∃ vs s', run E (c :: cs) (fresh E n) = .ok (vs, s') ∧ s'.members.length = max n known.length ∧ (∀ m ∈ s'.members, Good m.tally) ∧
      ∀ v ∈ vs, 0 < v.lam ∧ R v.rate := by
  set s0 : St σ δ τ γ := { fresh E n with members := adjust E known (fresh E n).members, classes := some known } with hs0
  have hlen : s0.members.length = max n known.length := by
    show (adjust E known (List.replicate n _)).length = _
    by_cases h : known.length > n
    · rw [adjust_gt E n known _ h]
      simp
      omega
    · rw [adjust_le E n known _ h]
      simp
      omega
  have hgood : ∀ m ∈ s0.members, Good m.tally := by
    show ∀ m ∈ adjust E known (List.replicate n _), _
    by_cases h : known.length > n
    · rw [adjust_gt E n known _ h]
      intro m hm
      rcases List.mem_append.mp hm with hm | hm
      · rw [List.eq_of_mem_replicate hm]
        exact hre
      · rw [List.eq_of_mem_replicate hm]
        rcases hex with h' | h'
        · omega
        · exact h'
    · rw [adjust_le E n known _ h]
      intro m hm
      rw [List.eq_of_mem_replicate hm]
      exact hstart
  obtain ⟨vs, s1, e1, e2, e3, e4, e5, e6⟩ := trainRows_ok E hs c (hb c List.mem_cons_self) c.rows s0 hg hgood
  have hp : partialFit E c (fresh E n) = .ok (vs, s1) := by
    unfold partialFit
    have : checkClasses (fresh E n).classes c.classes = .ok known := by rw [hc1]; rfl
    rw [this]
    exact e1
  obtain ⟨vs', s2, f1, f2, f3, f4⟩ := run_ok E hs known cs (fun c' h' => hb c' (List.mem_cons_of_mem _ h')) hc s1 (by rw [e3]) (by omega) e4 e5
  refine ⟨vs ++ vs', s2, ?_, by omega, f3, ?_⟩
  · rw [run, hp]
    simp only [f1]
  · intro v hv
    rcases List.mem_append.mp hv with hv | hv
    · exact e6 v hv
    · exact f4 v hv

theorem run_fresh_ok (E : Env σ δ X τ γ) (hb : E.b.Total) (hs : Safe E.sc Good Mid R G C) (n : Nat) (known : List Int)
    (c : Call X) (hc1 : c.classes = some known) (cs : List (Call X))
    (hc : ∀ c ∈ cs, c.Fits known) (hg : G E.sc.shared) (hstart : Good E.sc.start) (hre : Good (E.sc.rezero E.sc.start))
    (hex : known.length ≤ n ∨ Good E.sc.extra) :
    ∃ vs s', run E (c :: cs) (fresh E n) = .ok (vs, s') ∧ s'.members.length = max n known.length ∧ (∀ m ∈ s'.members, Good m.tally) ∧
      ∀ v ∈ vs, 0 < v.lam ∧ R v.rate :=
  run_fresh_takes E hs n known c hc1 cs (fun c' _ => hb.takes c') hc hg hstart hre hex

end Ok

/-! ### The entries are determined by the visits -/

theorem judge_play (E : Env σ δ X τ γ) (x : X) (y : Int) (lam r : ℚ) (i k : Nat) (s : σ) (t : τ) (seen : Option (Option Int)) (lam' : ℚ) (t' : τ)
    (h : judge E x y lam k s (E.sc.count y lam t) = .ok (seen, lam', t')) :
    E.sc.play t (⟨i, x, y, lam, r, k, seen⟩ : Visit X) = .ok t' := by
  unfold judge at h
  by_cases hk : E.sc.looks k = true
  · rw [if_pos hk] at h
    cases hp : predict1 E.b s x with
    | error e => rw [hp] at h; simp at h
    | ok p =>
      rw [hp] at h
      simp only [] at h
      cases ha : E.sc.after p y lam (E.sc.count y lam t) with
      | error e => rw [ha] at h; simp at h
      | ok q =>
        rw [ha] at h
        simp only [Except.ok.injEq, Prod.mk.injEq] at h
        obtain ⟨rfl, _, h3⟩ := h
        simp only [Scheme.play, ha, Except.map, h3]
  · rw [if_neg hk] at h
    simp only [Except.ok.injEq, Prod.mk.injEq] at h
    obtain ⟨rfl, _, h3⟩ := h
    simp only [Scheme.play, h3]

theorem visitAll_hist (E : Env σ δ X τ γ) (c : Call X) (x : X) (y : Int) (n : Nat) (ms : List (M σ δ τ)) (i : Nat) (lam : ℚ)
    (g : γ) (pos : Nat) (ch : Bool) (vs : List (Visit X)) (ms' : List (M σ δ τ)) (r : γ × Nat × Bool)
    (h : visitAll E c x y n ms i lam g pos ch = .ok (vs, ms', r)) :
    ms'.length = ms.length ∧ (∀ v ∈ vs, i ≤ v.i ∧ v.i < i + ms.length ∧ v.x = x ∧ v.y = y) ∧
    ∀ (j : Nat) m, ms[j]? = some m → ∃ m' v, ms'[j]? = some m' ∧ visitsOf (i + j) vs = [v] ∧ E.sc.play m.tally v = .ok m'.tally := by
  induction ms generalizing i lam g pos ch vs ms' with
  | nil =>
    simp only [visitAll, Except.ok.injEq, Prod.mk.injEq] at h
    obtain ⟨rfl, rfl, _⟩ := h
    exact ⟨rfl, by simp, by simp⟩
  | cons m ms ih =>
    rw [visitAll] at h
    simp only [] at h
    cases hr : E.sc.rate y i n lam (E.sc.bump y g) (E.sc.count y lam m.tally) with
    | error e => rw [hr] at h; simp at h
    | ok rate =>
      rw [hr] at h
      simp only [] at h
      cases ht : trainN E.b c x y (E.poisson pos rate) m.learner with
      | error e => rw [ht] at h; simp at h
      | ok s =>
        rw [ht] at h
        simp only [] at h
        cases hj : judge E x y lam (E.poisson pos rate) s (E.sc.count y lam m.tally) with
        | error e => rw [hj] at h; simp at h
        | ok q =>
          obtain ⟨seen, lam', t'⟩ := q
          rw [hj] at h
          simp only [] at h
          cases hw : watch E c s m.det ch with
          | error e => rw [hw] at h; simp at h
          | ok q =>
            obtain ⟨a, ch'⟩ := q
            rw [hw] at h
            simp only [] at h
            cases hv : visitAll E c x y n ms (i + 1) lam' (E.sc.bump y g) (pos + 1) ch' with
            | error e => rw [hv] at h; simp at h
            | ok q =>
              obtain ⟨vs1, ms1, r1⟩ := q
              rw [hv] at h
              simp only [Except.ok.injEq, Prod.mk.injEq] at h
              obtain ⟨rfl, rfl, rfl⟩ := h
              obtain ⟨i1, i2, i3⟩ := ih (i + 1) lam' _ _ _ vs1 ms1 hv
              refine ⟨by simp [i1], ?_, ?_⟩
              · intro v hv'
                rcases List.mem_cons.mp hv' with rfl | hv'
                · exact ⟨le_refl _, by simp, rfl, rfl⟩
                · obtain ⟨a1, a2, a3⟩ := i2 v hv'
                  exact ⟨by omega, by simp; omega, a3⟩
              · intro j m0 hm0
                cases j with
                | zero =>
                  simp only [List.getElem?_cons_zero, Option.some.injEq] at hm0
                  subst hm0
                  refine ⟨_, ⟨i, x, y, lam, rate, E.poisson pos rate, seen⟩, List.getElem?_cons_zero, ?_, judge_play E x y lam rate i _ s m.tally seen lam' t' hj⟩
                  have : vs1.filter (fun v => decide (v.i = i)) = [] := by
                    rw [List.filter_eq_nil_iff]
                    intro v hv'
                    have := (i2 v hv').1
                    simp; omega
                  simp [visitsOf, this]
                | succ j =>
                  rw [List.getElem?_cons_succ] at hm0
                  obtain ⟨m', v, b1, b2, b3⟩ := i3 j m0 hm0
                  refine ⟨m', v, by rw [List.getElem?_cons_succ]; exact b1, ?_, b3⟩
                  rw [← b2]
                  unfold visitsOf
                  rw [List.filter_cons, if_neg (by simp)]
                  congr 2
                  funext v
                  congr 1
                  rw [show i + (j + 1) = i + 1 + j by omega]

theorem trainRows_hist (E : Env σ δ X τ γ) (c : Call X) (rows : List (X × Int)) (s s' : St σ δ τ γ) (vs : List (Visit X))
    (h : trainRows E c rows s = .ok (vs, s')) :
    s'.members.length = s.members.length ∧ s'.classes = s.classes ∧ (∀ v ∈ vs, v.i < s.members.length) ∧
    ∀ (j : Nat) m, s.members[j]? = some m → ∃ m', s'.members[j]? = some m' ∧
      (visitsOf j vs).foldlM E.sc.play m.tally = .ok m'.tally := by
  induction rows generalizing s vs with
  | nil =>
    simp only [trainRows, Except.ok.injEq, Prod.mk.injEq] at h
    obtain ⟨rfl, rfl⟩ := h
    exact ⟨rfl, rfl, by simp, fun j m hm => ⟨m, hm, rfl⟩⟩
  | cons r rows ih =>
    rw [trainRows] at h
    cases hr : trainRow E c r.1 r.2 s with
    | error e => rw [hr] at h; simp at h
    | ok q =>
      obtain ⟨vs1, s1⟩ := q
      rw [hr] at h
      simp only [] at h
      cases ht : trainRows E c rows s1 with
      | error e => rw [ht] at h; simp at h
      | ok q =>
        obtain ⟨vs2, s2⟩ := q
        rw [ht] at h
        simp only [Except.ok.injEq, Prod.mk.injEq] at h
        obtain ⟨rfl, rfl⟩ := h
        obtain ⟨i1, i0, i2, i3⟩ := ih s1 vs2 ht
        unfold trainRow at hr
        cases hv : visitAll E c r.1 r.2 s.members.length s.members 0 1 s.shared s.pos false with
        | error e => rw [hv] at hr; simp at hr
        | ok q =>
          obtain ⟨vs0, ms, g, pos, ch⟩ := q
          rw [hv] at hr
          simp only [Except.ok.injEq, Prod.mk.injEq] at hr
          obtain ⟨rfl, rfl⟩ := hr
          obtain ⟨j1, j2, j3⟩ := visitAll_hist E c r.1 r.2 _ _ _ _ _ _ _ _ _ _ hv
          have hlen : (if (ch && E.drift) = true then react E ms else ms).length = s.members.length := by
            by_cases hc : (ch && E.drift) = true
            · rw [if_pos hc, react_length, j1]
            · rw [if_neg hc, j1]
          have htal : (if (ch && E.drift) = true then react E ms else ms).map M.tally = ms.map M.tally := by
            by_cases hc : (ch && E.drift) = true
            · rw [if_pos hc, react_tally]
            · rw [if_neg hc]
          refine ⟨by rw [i1]; exact hlen, i0, ?_, ?_⟩
          · intro v hv'
            rcases List.mem_append.mp hv' with hv' | hv'
            · have := (j2 v hv').2.1; omega
            · have := i2 v hv'; rw [← hlen]; exact this
          · intro j m hm
            obtain ⟨m1, v, a1, a2, a3⟩ := j3 j m hm
            rw [Nat.zero_add] at a2
            have hm1 : ∃ m2, (if (ch && E.drift) = true then react E ms else ms)[j]? = some m2 ∧ m2.tally = m1.tally := by
              have := congrArg (fun l => l[j]?) htal
              simp only [List.getElem?_map, a1, Option.map_some] at this
              cases hq : (if (ch && E.drift) = true then react E ms else ms)[j]? with
              | none => rw [hq] at this; simp at this
              | some m2 => rw [hq] at this; exact ⟨m2, rfl, by simpa using this⟩
            obtain ⟨m2, b1, b2⟩ := hm1
            obtain ⟨m3, c1, c2⟩ := i3 j m2 b1
            refine ⟨m3, c1, ?_⟩
            unfold visitsOf at a2 c2 ⊢
            rw [List.filter_append, List.foldlM_append, a2]
            simp only [List.foldlM_cons, List.foldlM_nil, a3, bind, Except.bind, pure, Except.pure]
            rw [← b2]
            exact c2

theorem run_hist (E : Env σ δ X τ γ) (known : List Int) (cs : List (Call X)) (hc : ∀ c ∈ cs, c.Fits known)
    (s s' : St σ δ τ γ) (hk : s.classes = some known) (hn : known.length ≤ s.members.length) (vs : List (Visit X))
    (h : run E cs s = .ok (vs, s')) (j : Nat) (m : M σ δ τ) (hm : s.members[j]? = some m) :
    ∃ m', s'.members[j]? = some m' ∧ (visitsOf j vs).foldlM E.sc.play m.tally = .ok m'.tally := by
  induction cs generalizing s vs m with
  | nil =>
    simp only [run, Except.ok.injEq, Prod.mk.injEq] at h
    obtain ⟨rfl, rfl⟩ := h
    exact ⟨m, hm, rfl⟩
  | cons c cs ih =>
    rw [run] at h
    cases hp : partialFit E c s with
    | error e => rw [hp] at h; simp at h
    | ok q =>
      obtain ⟨vs1, s1⟩ := q
      rw [hp] at h
      simp only [] at h
      cases hr : run E cs s1 with
      | error e => rw [hr] at h; simp at h
      | ok q =>
        obtain ⟨vs2, s2⟩ := q
        rw [hr] at h
        simp only [Except.ok.injEq, Prod.mk.injEq] at h
        obtain ⟨rfl, rfl⟩ := h
        have hadj : adjust E known s.members = s.members := by rw [adjust, if_neg (by omega)]
        unfold partialFit at hp
        rw [hk, fits_check c known (hc c List.mem_cons_self)] at hp
        simp only [hadj] at hp
        rw [← hk] at hp
        obtain ⟨a1, a2, a3, a4⟩ := trainRows_hist E c c.rows s s1 vs1 hp
        obtain ⟨m1, b1, b2⟩ := a4 j m hm
        obtain ⟨m2, c1, c2⟩ := ih (fun c' h' => hc c' (List.mem_cons_of_mem _ h')) s1 (by rw [a2, hk]) (by omega) vs2 hr m1 b1
        refine ⟨m2, c1, ?_⟩
        unfold visitsOf at b2 c2 ⊢
        rw [List.filter_append, List.foldlM_append, b2]
        exact c2

/-- From the start, with at least as many members as classes, or all entries starting equal. -/
theorem run_fresh_hist (E : Env σ δ X τ γ) (n : Nat) (known : List Int) (c : Call X) (hc1 : c.classes = some known) (cs : List (Call X))
    (hc : ∀ c ∈ cs, c.Fits known) (hx : known.length ≤ n ∨ (E.sc.extra = E.sc.start ∧ E.sc.rezero E.sc.start = E.sc.start))
    (s' : St σ δ τ γ) (vs : List (Visit X)) (h : run E (c :: cs) (fresh E n) = .ok (vs, s')) (j : Nat) (hj : j < max n known.length) :
    ∃ m', s'.members[j]? = some m' ∧ (visitsOf j vs).foldlM E.sc.play E.sc.start = .ok m'.tally := by
  set s0 : St σ δ τ γ := { fresh E n with members := adjust E known (fresh E n).members, classes := some known } with hs0
  have hmem : s0.members = List.replicate (max n known.length) ⟨E.b.init, E.d.new, E.sc.start⟩ := by
    show adjust E known (List.replicate n _) = _
    by_cases hgt : known.length > n
    · rw [adjust_gt E n known _ hgt]
      rcases hx with hx | ⟨hx1, hx2⟩
      · omega
      · simp only [hx1, hx2]
        rw [← List.replicate_add]
        congr 1
        omega
    · rw [adjust_le E n known _ hgt]
      congr 1
      omega
  rw [run] at h
  have hpe : partialFit E c (fresh E n) = trainRows E c c.rows s0 := by
    unfold partialFit
    have : checkClasses (fresh E n).classes c.classes = .ok known := by rw [hc1]; rfl
    rw [this]
  rw [hpe] at h
  cases hp : trainRows E c c.rows s0 with
  | error e => rw [hp] at h; simp at h
  | ok q =>
    obtain ⟨vs1, s1⟩ := q
    rw [hp] at h
    simp only [] at h
    cases hr : run E cs s1 with
    | error e => rw [hr] at h; simp at h
    | ok q =>
      obtain ⟨vs2, s2⟩ := q
      rw [hr] at h
      simp only [Except.ok.injEq, Prod.mk.injEq] at h
      obtain ⟨rfl, rfl⟩ := h
      obtain ⟨a1, a2, a3, a4⟩ := trainRows_hist E c c.rows s0 s1 vs1 hp
      have hm0 : s0.members[j]? = some ⟨E.b.init, E.d.new, E.sc.start⟩ := by
        rw [hmem, List.getElem?_replicate, if_pos hj]
      obtain ⟨m1, b1, b2⟩ := a4 j _ hm0
      obtain ⟨m2, c1, c2⟩ := run_hist E known cs hc s1 s2 (by rw [a2]) (by
        rw [a1, hmem, List.length_replicate]; omega) vs2 hr j m1 b1
      refine ⟨m2, c1, ?_⟩
      unfold visitsOf at b2 c2 ⊢
      rw [List.filter_append, List.foldlM_append, b2]
      exact c2

end Verif.Meta.Skew
