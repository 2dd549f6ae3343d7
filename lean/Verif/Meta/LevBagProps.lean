import Verif.Meta.LevBag
import Mathlib.Data.Fintype.Pigeonhole
import Mathlib.Data.Fintype.BigOperators

/-! C195-C199 about `Meta/LevBag.lean`. -/

namespace Verif.Meta.LevBag

open Verif.Meta.Oza (Det checkClasses scanMax normalise DOp hits)

variable {σ δ ρ X : Type}

/-! ### Specification -/

/-- The weighting rule of each algorithm: with generator state `g`, a member whose detector
estimates the error `est` and which predicts `pred` for a sample of label `y` is trained
`k` times, and the generator is in state `g'` afterwards. -/
inductive Draws (r : Rng ρ) (w est : ℚ) (pred : Option Int) (y : Int) (g : ρ) : Alg → Nat → ρ → Prop
  | bag : Draws r w est pred y g .bag (r.poisson w g).1 (r.poisson w g).2
  | wrong : pred ≠ some y → Draws r w est pred y g .me 1 g
  | hopeless : pred = some y → est = 1 → Draws r w est pred y g .me 0 g
  | lucky : pred = some y → est ≠ 1 → (r.rand g).1 < est / (1 - est) →
      Draws r w est pred y g .me 1 (r.rand g).2
  | unlucky : pred = some y → est ≠ 1 → ¬ (r.rand g).1 < est / (1 - est) →
      Draws r w est pred y g .me 0 (r.rand g).2
  | skip : (r.randint2 g).1 = 1 → Draws r w est pred y g .half 0 (r.randint2 g).2
  | take : (r.randint2 g).1 ≠ 1 → Draws r w est pred y g .half 1 (r.randint2 g).2
  | more : Draws r w est pred y g .wt ((r.poisson 1 g).1 + 1) (r.poisson 1 g).2
  | out : (r.poisson 1 g).1 = 0 → Draws r w est pred y g .subag 0 (r.poisson 1 g).2
  | once : 0 < (r.poisson 1 g).1 → Draws r w est pred y g .subag 1 (r.poisson 1 g).2

/-- What a member is to learn: the label itself, or with a code matrix the bit in the
column of the label, as a two-class problem. -/
inductive Lesson (classes : List Int) (y : Int) : Option (List Bool) → Int → List Int → Prop
  | plain : Lesson classes y none y classes
  | one (row : List Bool) (c : Nat) : y = c → row[c]? = some true → Lesson classes y (some row) 1 [0, 1]
  | zero (row : List Bool) (c : Nat) : y = c → row[c]? = some false → Lesson classes y (some row) 0 [0, 1]

/-- A member before (`m`) and after (`m'`) a sample: trained `k` times, scored against `t`. -/
structure Visited (b : Base σ X) (d : Det δ) (r : Rng ρ) (cf : Conf) (row : Option (List Bool))
    (classes : List Int) (x : X) (y : Int) (m m' : σ × δ) (g g' : ρ) (k : Nat) (t : Int) : Prop where
  count : Draws r cf.w (d.est m.2) (b.predict m.1 x) y g cf.alg k g'
  idle : k = 0 → m'.1 = m.1 ∧ t = y
  taught : 0 < k → ∃ cl, Lesson classes y row t cl ∧ m'.1 = (fun s => b.fit s x t cl)^[k] m.1
  silent : b.predict m'.1 x = none → m'.2 = m.2
  told : ∀ p, b.predict m'.1 x = some p → m'.2 = (d.check (d.add m.2 (decide (p ≠ t)))).2

/-- A member whose detector reports a change and whose estimated error has grown. -/
def Alarm (b : Base σ X) (d : Det δ) (x : X) (m m' : σ × δ) (t : Int) : Prop :=
  ∃ p, b.predict m'.1 x = some p ∧ (d.check (d.add m.2 (decide (p ≠ t)))).1 = true ∧
    d.est m.2 < d.est m'.2

/-! ### One member -/

theorem drawK_spec (r : Rng ρ) (cf : Conf) (est : ℚ) (pred : Option Int) (y : Int) (g : ρ) :
    Draws r cf.w est pred y g cf.alg (drawK r cf est pred y g).1 (drawK r cf est pred y g).2 := by
  unfold drawK
  cases cf.alg with
  | bag => exact .bag
  | me =>
    cases pred with
    | none => exact .wrong (by simp)
    | some p =>
      simp only
      by_cases hp : p = y
      · rw [if_neg (by simpa using hp)]
        by_cases he : est = 1
        · rw [if_neg (by simpa using he)]; exact .hopeless (by rw [hp]) he
        · rw [if_pos he]
          by_cases hu : (r.rand g).1 < est / (1 - est)
          · simp only [if_pos hu]; exact .lucky (by rw [hp]) he hu
          · simp only [if_neg hu]; exact .unlucky (by rw [hp]) he hu
      · rw [if_pos hp]; exact .wrong (by simpa using hp)
  | half =>
    simp only
    by_cases h : (r.randint2 g).1 = 1
    · rw [if_pos h]; exact .skip h
    · rw [if_neg h]; exact .take h
  | wt => simp only; rw [Nat.add_comm]; exact .more
  | subag =>
    simp only
    by_cases h : (r.poisson 1 g).1 > 0
    · rw [if_pos h]; exact .once h
    · rw [if_neg h]; exact .out (by omega)

theorem train_eq (b : Base σ X) (x : X) (y : Int) (cl : List Int) (k : Nat) (s : σ) :
    train b x y cl k s = (fun s => b.fit s x y cl)^[k] s := by
  induction k generalizing s with
  | zero => rfl
  | succ k ih => simp only [train, ih, Function.iterate_succ_apply]

theorem visit_spec (b : Base σ X) (d : Det δ) (r : Rng ρ) (cf : Conf) (row : Option (List Bool))
    (classes : List Int) (x : X) (y : Int) (hy : row = none ∨ 0 ≤ y) (m m' : σ × δ) (g g' : ρ) (al : Bool)
    (h : visit b d r cf row classes x y m g = .ok (m', al, g')) :
    ∃ k t, Visited b d r cf row classes x y m m' g g' k t ∧ (al = true ↔ Alarm b d x m m' t) := by
  unfold visit at h
  have hd := drawK_spec r cf (d.est m.2) (b.predict m.1 x) y g
  generalize drawK r cf (d.est m.2) (b.predict m.1 x) y g = k at h hd
  simp only at h
  cases ht : target row classes k.1 y with
  | error e => rw [ht] at h; cases h
  | ok t =>
    rw [ht] at h
    simp only [Except.ok.injEq, Prod.mk.injEq] at h
    obtain ⟨rfl, rfl, rfl⟩ := h
    refine ⟨k.1, t.1, ⟨hd, ?_, ?_, ?_, ?_⟩, ?_⟩
    · intro h0
      unfold target at ht
      rw [if_neg (by omega)] at ht
      cases ht
      rw [h0]; exact ⟨rfl, rfl⟩
    · intro h0
      refine ⟨t.2, ?_, train_eq ..⟩
      unfold target at ht
      rw [if_pos h0] at ht
      cases row with
      | none => cases ht; exact .plain
      | some c =>
        have h0y : 0 ≤ y := by rcases hy with h | h; cases h; exact h
        simp only [pyGet, if_pos h0y] at ht
        cases hc : c[y.toNat]? with
        | none => rw [hc] at ht; cases ht
        | some v =>
          rw [hc] at ht
          cases ht
          have : y = (y.toNat : Int) := by omega
          cases v
          · exact .zero c _ this hc
          · exact .one c _ this hc
    · intro hn
      simp only [score] at hn ⊢
      rw [hn]
    · intro p hp
      simp only [score] at hp ⊢
      rw [hp]
      simp only
      by_cases h : p = t.1 <;> simp [h]
    · unfold Alarm
      simp only [score]
      cases hp : b.predict (train b x t.1 t.2 k.1 m.1) x with
      | none => simp
      | some p =>
        simp only [Option.some.injEq, exists_eq_left', Bool.and_eq_true, decide_eq_true_eq]
        by_cases h : p = t.1 <;> simp [h]

/-! ### All members -/

theorem visitAll_spec (b : Base σ X) (d : Det δ) (r : Rng ρ) (cf : Conf) (codes : Option (List (List Bool)))
    (classes : List Int) (x : X) (y : Int) (hy : codes = none ∨ 0 ≤ y) :
    ∀ (ms : List (σ × δ)) (i : Nat) (ch : Bool) (g : ρ) (v : List (σ × δ) × Bool × ρ),
    visitAll b d r cf codes classes x y ms i ch g = .ok v →
    ∃ (gs : Nat → ρ) (ks : Nat → Nat) (ts : Nat → Int), gs 0 = g ∧ gs ms.length = v.2.2 ∧
      v.1.length = ms.length ∧
      (∀ j m, ms[j]? = some m → ∃ m', v.1[j]? = some m' ∧
        Visited b d r cf (codes.map fun c => c.getD (i + j) []) classes x y m m' (gs j) (gs (j + 1))
          (ks j) (ts j)) ∧
      (v.2.1 = true ↔ ch = true ∨ ∃ j m m', ms[j]? = some m ∧ v.1[j]? = some m' ∧ Alarm b d x m m' (ts j)) := by
  intro ms
  induction ms with
  | nil =>
    intro i ch g v h
    simp only [visitAll, Except.ok.injEq] at h
    subst h
    exact ⟨fun _ => g, fun _ => 0, fun _ => 0, rfl, rfl, rfl, by simp, by simp⟩
  | cons a ms ih =>
    intro i ch g v h
    simp only [visitAll] at h
    cases hv : visit b d r cf (codes.map fun c => c.getD i []) classes x y a g with
    | error e => rw [hv] at h; cases h
    | ok u =>
      rw [hv] at h
      simp only at h
      cases hq : visitAll b d r cf codes classes x y ms (i + 1) (ch || u.2.1) u.2.2 with
      | error e => rw [hq] at h; cases h
      | ok q =>
        rw [hq] at h
        simp only [Except.ok.injEq] at h
        subst h
        obtain ⟨k, t, hvis, hal⟩ := visit_spec b d r cf (codes.map fun c => c.getD i []) classes x y
          (by rcases hy with h | h
              · left; rw [h]; rfl
              · exact .inr h) a u.1 g u.2.2 u.2.1 hv
        obtain ⟨gs, ks, ts, h0, h1, h2, h3, h4⟩ := ih (i + 1) (ch || u.2.1) u.2.2 q hq
        refine ⟨fun j => if j = 0 then g else gs (j - 1), fun j => if j = 0 then k else ks (j - 1),
          fun j => if j = 0 then t else ts (j - 1), rfl, by simpa using h1, by simp [h2], ?_, ?_⟩
        · intro j m hm
          cases j with
          | zero =>
            simp only [List.getElem?_cons_zero, Option.some.injEq] at hm
            subst hm
            refine ⟨u.1, rfl, ?_⟩
            simpa [h0] using hvis
          | succ j =>
            simp only [List.getElem?_cons_succ] at hm
            obtain ⟨m', g1, g2⟩ := h3 j m hm
            refine ⟨m', by simpa using g1, ?_⟩
            have e : i + (j + 1) = i + 1 + j := by omega
            rw [e]
            simpa using g2
        · simp only
          rw [h4]
          simp only [Bool.or_eq_true]
          constructor
          · rintro ((h | h) | ⟨j, m, m', e1, e2, e3⟩)
            · exact .inl h
            · exact .inr ⟨0, a, u.1, rfl, rfl, by simpa using hal.1 h⟩
            · exact .inr ⟨j + 1, m, m', by simpa using e1, by simpa using e2, by simpa using e3⟩
          · rintro (h | ⟨j, m, m', e1, e2, e3⟩)
            · exact .inl (.inl h)
            · cases j with
              | zero =>
                simp only [List.getElem?_cons_zero, Option.some.injEq] at e1 e2
                subst e1; subst e2
                exact .inl (.inr (hal.2 (by simpa using e3)))
              | succ j =>
                exact .inr ⟨j, m, m', by simpa using e1, by simpa using e2, by simpa using e3⟩

/-! ### One sample -/

/-- The ensemble between the training of the members and the replacement. -/
structure Middle (b : Base σ X) (d : Det δ) (r : Rng ρ) (cf : Conf) (classes : List Int)
    (s s' : St σ δ ρ) (x : X) (y : Int) (mid : List (σ × δ)) (gs : Nat → ρ) (ks : Nat → Nat)
    (ts : Nat → Int) : Prop where
  keep : s.initCodes = false ∨ cf.code = false →
    gs 0 = s.gen ∧ s'.codes = s.codes ∧ s'.initCodes = s.initCodes
  make : s.initCodes = true → cf.code = true →
    gs 0 = (r.codes cf.n classes.length s.gen).2 ∧
    s'.codes = some (r.codes cf.n classes.length s.gen).1 ∧ s'.initCodes = false
  last : s'.gen = gs s.members.length
  size : mid.length = s.members.length
  each : ∀ i m, s.members[i]? = some m → ∃ m', mid[i]? = some m' ∧
    Visited b d r cf (if cf.code then s'.codes.map fun c => c.getD i [] else none) classes x y m m'
      (gs i) (gs (i + 1)) (ks i) (ts i)

theorem scanMax_first (d : Det δ) : ∀ (ms : List (σ × δ)) (i : Nat) (top : ℚ) (best : Option Nat),
    (scanMax d ms i top best = best ∧ ∀ m ∈ ms, d.est m.2 ≤ top) ∨
    ∃ j m, scanMax d ms i top best = some (i + j) ∧ ms[j]? = some m ∧ top < d.est m.2 ∧
      (∀ m' ∈ ms, d.est m'.2 ≤ d.est m.2) ∧ ∀ m' ∈ ms.take j, d.est m'.2 < d.est m.2 := by
  intro ms
  induction ms with
  | nil => intro i top best; left; simp [scanMax]
  | cons a ms ih =>
    intro i top best
    simp only [scanMax]
    by_cases ha : top < d.est a.2
    · rw [if_pos ha]
      rcases ih (i + 1) (d.est a.2) (some i) with ⟨h1, h2⟩ | ⟨j, m, h1, h2, h3, h4, h5⟩
      · right
        refine ⟨0, a, h1, rfl, ha, ?_, by simp⟩
        intro m' hm'
        rcases List.mem_cons.mp hm' with rfl | h
        · exact le_refl _
        · exact h2 m' h
      · right
        refine ⟨j + 1, m, by rw [h1]; congr 1; omega, by simpa using h2, lt_trans ha h3, ?_, ?_⟩
        · intro m' hm'
          rcases List.mem_cons.mp hm' with rfl | h
          · exact h3.le
          · exact h4 m' h
        · intro m' hm'
          rw [List.take_succ_cons] at hm'
          rcases List.mem_cons.mp hm' with rfl | h
          · exact h3
          · exact h5 m' h
    · rw [if_neg ha]
      rcases ih (i + 1) top best with ⟨h1, h2⟩ | ⟨j, m, h1, h2, h3, h4, h5⟩
      · left
        refine ⟨h1, ?_⟩
        intro m' hm'
        rcases List.mem_cons.mp hm' with rfl | h
        · exact not_lt.mp ha
        · exact h2 m' h
      · right
        refine ⟨j + 1, m, by rw [h1]; congr 1; omega, by simpa using h2, h3, ?_, ?_⟩
        · intro m' hm'
          rcases List.mem_cons.mp hm' with rfl | h
          · exact le_trans (not_lt.mp ha) h3.le
          · exact h4 m' h
        · intro m' hm'
          rw [List.take_succ_cons] at hm'
          rcases List.mem_cons.mp hm' with rfl | h
          · exact lt_of_le_of_lt (not_lt.mp ha) h3
          · exact h5 m' h

theorem modify_eq_set {α : Type} (l : List α) (i : Nat) (a : α) (f : α → α) (h : l[i]? = some a) :
    l.modify i f = l.set i (f a) := by
  apply List.ext_getElem?
  intro j
  rw [List.getElem?_set, List.getElem?_modify]
  by_cases hj : i = j
  · subst hj
    have hlt : i < l.length := by
      by_contra hn
      rw [List.getElem?_eq_none (by omega)] at h; cases h
    rw [List.getElem?_eq_getElem hlt, Option.some.injEq] at h
    simp [h, hlt]
  · simp [hj]

theorem step_spec (b : Base σ X) (d : Det δ) (r : Rng ρ) (cf : Conf) (classes : List Int)
    (s s' : St σ δ ρ) (x : X) (y : Int) (hy : cf.code = false ∨ 0 ≤ y)
    (h : step b d r cf classes s x y = .ok s') :
    ∃ mid gs ks ts, Middle b d r cf classes s s' x y mid gs ks ts ∧
      s'.classes = s.classes ∧
      ((¬ (∃ (i : Nat) (m m' : σ × δ), s.members[i]? = some m ∧ mid[i]? = some m' ∧ Alarm b d x m m' (ts i)) ∧
          s'.members = mid ∧ s'.changes = s.changes) ∨
        ((∃ (i : Nat) (m m' : σ × δ), s.members[i]? = some m ∧ mid[i]? = some m' ∧ Alarm b d x m m' (ts i)) ∧
          s'.members = replaceWorst b d mid ∧ s'.changes = s.changes + 1)) := by
  have hmem : (ready r cf classes s).members = s.members := by unfold ready; split <;> rfl
  have hch : (ready r cf classes s).changes = s.changes := by unfold ready; split <;> rfl
  have hcl : (ready r cf classes s).classes = s.classes := by unfold ready; split <;> rfl
  unfold step at h
  simp only at h
  cases hv : visitAll b d r cf (if cf.code then (ready r cf classes s).codes else none) classes x y
      (ready r cf classes s).members 0 false (ready r cf classes s).gen with
  | error e => rw [hv] at h; cases h
  | ok v =>
    rw [hv] at h
    simp only at h
    obtain ⟨gs, ks, ts, g1, g2, g3, g4, g5⟩ := visitAll_spec b d r cf
      (if cf.code then (ready r cf classes s).codes else none) classes x y
      (by rcases hy with h | h
          · left; rw [h]; rfl
          · exact .inr h) (ready r cf classes s).members 0 false (ready r cf classes s).gen v hv
    rw [hmem] at g2 g3 g4 g5
    have hs' : s'.codes = (ready r cf classes s).codes ∧ s'.initCodes = (ready r cf classes s).initCodes ∧
        s'.gen = v.2.2 ∧ s'.classes = s.classes := by
      by_cases hb : v.2.1 = true
      · rw [if_pos hb] at h; cases h; exact ⟨rfl, rfl, rfl, hcl⟩
      · rw [if_neg hb] at h; cases h; exact ⟨rfl, rfl, rfl, hcl⟩
    refine ⟨v.1, gs, ks, ts, ⟨?_, ?_, by rw [hs'.2.2.1, g2], g3, ?_⟩, hs'.2.2.2, ?_⟩
    · intro hk
      have : ready r cf classes s = s := by
        unfold ready
        rw [if_neg (by rcases hk with h | h <;> simp [h])]
      rw [hs'.1, hs'.2.1, g1, this]
      exact ⟨rfl, rfl, rfl⟩
    · intro h1 h2
      have : ready r cf classes s = ⟨s.members, s.classes, some (r.codes cf.n classes.length s.gen).1,
          false, s.changes, (r.codes cf.n classes.length s.gen).2⟩ := by
        unfold ready
        rw [if_pos (by simp [h1, h2])]
      rw [hs'.1, hs'.2.1, g1, this]
      exact ⟨rfl, rfl, rfl⟩
    · intro i m hm
      obtain ⟨m', e1, e2⟩ := g4 i m hm
      refine ⟨m', e1, ?_⟩
      rw [hs'.1]
      rw [Nat.zero_add] at e2
      cases hc : cf.code with
      | false => rw [hc] at e2; simpa using e2
      | true => rw [hc] at e2; simpa using e2
    · by_cases hb : v.2.1 = true
      · right
        rw [if_pos hb] at h
        cases h
        refine ⟨?_, rfl, by simp [hch]⟩
        rcases g5.1 hb with h | h
        · cases h
        · exact h
      · left
        rw [if_neg hb] at h
        cases h
        exact ⟨fun hx => hb (g5.2 (.inr hx)), rfl, hch⟩

/-- A call with one sample: the classes in force are known afterwards. -/
theorem partialFit_row (b : Base σ X) (d : Det δ) (r : Rng ρ) (cf : Conf) (s s' : St σ δ ρ) (x : X) (y : Int)
    (c : Option (List Int)) (hy : cf.code = false ∨ 0 ≤ y)
    (h : partialFit b d r cf s [(x, y)] c = .ok s') :
    ∃ known mid gs ks ts, s'.classes = some known ∧ Middle b d r cf known s s' x y mid gs ks ts ∧
      ((¬ (∃ (i : Nat) (m m' : σ × δ), s.members[i]? = some m ∧ mid[i]? = some m' ∧ Alarm b d x m m' (ts i)) ∧
          s'.members = mid ∧ s'.changes = s.changes) ∨
        ((∃ (i : Nat) (m m' : σ × δ), s.members[i]? = some m ∧ mid[i]? = some m' ∧ Alarm b d x m m' (ts i)) ∧
          s'.members = replaceWorst b d mid ∧ s'.changes = s.changes + 1)) := by
  unfold partialFit at h
  cases hc : checkClasses s.classes c with
  | error e => rw [hc] at h; cases h
  | ok known =>
    rw [hc] at h
    simp only [steps] at h
    cases hs : step b d r cf known { s with classes := some known } x y with
    | error e => rw [hs] at h; cases h
    | ok t =>
      rw [hs] at h
      cases h
      obtain ⟨mid, gs, ks, ts, h1, h2, h3⟩ := step_spec b d r cf known _ s' x y hy hs
      exact ⟨known, mid, gs, ks, ts, h2, ⟨h1.keep, h1.make, h1.last, h1.size, h1.each⟩, h3⟩

/-! ### C195: how often, and with what, a member is trained -/

/-- C195: one sample trains every member the number of times its algorithm's rule gives,
with consecutive draws, on the label or on the member's code for it; at most one member is
reset afterwards. -/
theorem C195_training (b : Base σ X) (d : Det δ) (r : Rng ρ) (cf : Conf) (s s' : St σ δ ρ) (x : X) (y : Int)
    (c : Option (List Int)) (hy : cf.code = false ∨ 0 ≤ y)
    (h : partialFit b d r cf s [(x, y)] c = .ok s') :
    ∃ known mid gs ks ts, s'.classes = some known ∧ Middle b d r cf known s s' x y mid gs ks ts ∧
      (s'.members = mid ∨ ∃ (i : Nat) (m : σ × δ), mid[i]? = some m ∧
        s'.members = mid.set i (b.reset m.1, d.new)) := by
  obtain ⟨known, mid, gs, ks, ts, h1, h2, h3⟩ := partialFit_row b d r cf s s' x y c hy h
  refine ⟨known, mid, gs, ks, ts, h1, h2, ?_⟩
  rcases h3 with ⟨_, h3, _⟩ | ⟨_, h3, _⟩
  · exact .inl h3
  · rw [h3]
    unfold replaceWorst
    rcases scanMax_first d mid 0 0 none with ⟨g1, _⟩ | ⟨j, m, g1, g2, _⟩
    · rw [g1]; exact .inl rfl
    · rw [g1]
      simp only [Nat.zero_add]
      exact .inr ⟨j, m, g2, modify_eq_set _ _ _ _ g2⟩

/-- C195: a batch is the same as its samples one after the other. -/
theorem C195_batch (b : Base σ X) (d : Det δ) (r : Rng ρ) (cf : Conf) (s s' : St σ δ ρ)
    (rows : List (X × Int)) (q : X × Int) (c : Option (List Int)) :
    partialFit b d r cf s (rows ++ [q]) c = .ok s' ↔
      ∃ s1, partialFit b d r cf s rows c = .ok s1 ∧ partialFit b d r cf s1 [q] none = .ok s' := by
  have hcl : ∀ known (s t : St σ δ ρ) (x : X) (y : Int), step b d r cf known s x y = .ok t →
      t.classes = s.classes := by
    intro known s t x y h
    have hcl : (ready r cf known s).classes = s.classes := by unfold ready; split <;> rfl
    unfold step at h
    simp only at h
    split at h
    · cases h
    · split at h <;> (cases h; exact hcl)
  unfold partialFit
  cases checkClasses s.classes c with
  | error e => simp
  | ok known =>
    simp only
    have key : ∀ (rows : List (X × Int)) (t : St σ δ ρ), t.classes = some known →
        (steps b d r cf known t (rows ++ [q]) = .ok s' ↔
          ∃ s1, steps b d r cf known t rows = .ok s1 ∧
            (match checkClasses s1.classes none with
              | .error e => Except.error e
              | .ok known => steps b d r cf known { s1 with classes := some known } [q]) = .ok s') := by
      intro rows
      induction rows with
      | nil =>
        intro t ht
        simp only [List.nil_append, steps, Except.ok.injEq, exists_eq_left', ht, checkClasses]
        have : ({ t with classes := some known } : St σ δ ρ) = t := by cases t; simp_all
        rw [this]
      | cons a rows ih =>
        intro t ht
        simp only [List.cons_append, steps]
        cases hs : step b d r cf known t a.1 a.2 with
        | error e => simp
        | ok t1 =>
          simp only
          exact ih t1 (by rw [hcl _ _ _ _ _ hs, ht])
    exact key rows _ rfl

/-- C195: the bounds of the rules: `leveraging_bag_wt` never leaves a sample out, the
variants without replacement never use it twice, and `leveraging_bag_me` always uses a
sample the member gets wrong. -/
theorem C195_bounds (r : Rng ρ) (w est : ℚ) (pred : Option Int) (y : Int) (g g' : ρ) (alg : Alg) (k : Nat)
    (h : Draws r w est pred y g alg k g') :
    (alg = .wt → 1 ≤ k) ∧ (alg = .half ∨ alg = .subag ∨ alg = .me → k ≤ 1) ∧
    (alg = .me → pred ≠ some y → k = 1) ∧
    (alg = .me → pred = some y → est = 0 → 0 ≤ (r.rand g).1 → k = 0) := by
  cases h with
  | bag => simp
  | wrong h => simp [h]
  | hopeless h1 h2 => simp [h1]
  | lucky h1 h2 h3 =>
    refine ⟨by simp, by simp, by simp, ?_⟩
    intro _ _ h0 hu
    rw [h0] at h3
    simp only [zero_div] at h3
    exact absurd h3 (not_lt.mpr hu)
  | unlucky h1 h2 h3 => simp [h1]
  | skip h => simp
  | take h => simp
  | more => simp
  | out h => simp
  | once h => simp

/-! ### C196: what the detectors are told -/

/-- C196 (what holds): without a code matrix every member's detector is told, after the
training, whether the member mistakes the label; with a code matrix this is so, for the
member's own code of the label, if the member was trained. -/
theorem C196_detector_partial (b : Base σ X) (d : Det δ) (r : Rng ρ) (cf : Conf) (s s' : St σ δ ρ) (x : X)
    (y : Int) (c : Option (List Int)) (hy : cf.code = false ∨ 0 ≤ y)
    (h : partialFit b d r cf s [(x, y)] c = .ok s') :
    ∃ known mid gs ks ts, s'.classes = some known ∧ Middle b d r cf known s s' x y mid gs ks ts ∧
      (cf.code = false → ∀ (i : Nat) (m m' : σ × δ), s.members[i]? = some m → mid[i]? = some m' →
        (∀ p, b.predict m'.1 x = some p → m'.2 = (d.check (d.add m.2 (decide (p ≠ y)))).2)) ∧
      (cf.code = true → s'.codes ≠ none → ∀ (i : Nat) (m m' : σ × δ), s.members[i]? = some m →
        mid[i]? = some m' → 0 < ks i → ∃ codes v, s'.codes = some codes ∧
        (codes.getD i [])[y.toNat]? = some v ∧
        (∀ p, b.predict m'.1 x = some p →
          m'.2 = (d.check (d.add m.2 (decide (p ≠ if v then 1 else 0)))).2)) := by
  obtain ⟨known, mid, gs, ks, ts, h1, h2, h3⟩ := partialFit_row b d r cf s s' x y c hy h
  refine ⟨known, mid, gs, ks, ts, h1, h2, ?_, ?_⟩
  · intro hc i m m' hm hm' p hp
    obtain ⟨m2, e1, e2⟩ := h2.each i m hm
    rw [hm'] at e1
    cases e1
    rw [hc] at e2
    have ht : ts i = y := by
      rcases Nat.eq_zero_or_pos (ks i) with h0 | h0
      · exact (e2.idle h0).2
      · obtain ⟨cl, hl, _⟩ := e2.taught h0
        generalize ts i = t at hl
        cases hl
        rfl
    rw [← ht]
    exact e2.told p hp
  · intro hc hn i m m' hm hm' hk
    obtain ⟨m2, e1, e2⟩ := h2.each i m hm
    rw [hm'] at e1
    cases e1
    cases hcs : s'.codes with
    | none => exact absurd hcs hn
    | some codes =>
      rw [hc, hcs] at e2
      simp only [if_true, Option.map_some] at e2
      obtain ⟨cl, hl, _⟩ := e2.taught hk
      have ht := e2.told
      generalize ts i = t at hl ht
      cases hl with
      | one _ cc hcc hrow =>
        refine ⟨codes, true, rfl, by rw [hcc]; simpa using hrow, ?_⟩
        intro p hp; simpa using ht p hp
      | zero _ cc hcc hrow =>
        refine ⟨codes, false, rfl, by rw [hcc]; simpa using hrow, ?_⟩
        intro p hp; simpa using ht p hp

/-- C196 (violated): with a code matrix a member that is not trained on a sample is scored
against the label instead of its code, so every sample of a label from 2 on counts as
an error of every such member, whatever it predicts. -/
theorem C196_untrained_violated (b : Base σ X) (d : Det δ) (r : Rng ρ) (cf : Conf) (s s' : St σ δ ρ) (x : X)
    (y : Int) (c : Option (List Int)) (hy : 2 ≤ y)
    (hbin : ∀ t, b.predict t x = some 0 ∨ b.predict t x = some 1)
    (h : partialFit b d r cf s [(x, y)] c = .ok s') :
    ∃ known mid gs ks ts, s'.classes = some known ∧ Middle b d r cf known s s' x y mid gs ks ts ∧
      (∀ (i : Nat) (m : σ × δ), s.members[i]? = some m → ks i = 0 →
        mid[i]? = some (m.1, (d.check (d.add m.2 true)).2)) ∧
      (cf.alg = .me → ∀ i m, s.members[i]? = some m → ks i = 1) := by
  obtain ⟨known, mid, gs, ks, ts, h1, h2, h3⟩ := partialFit_row b d r cf s s' x y c (.inr (by omega)) h
  refine ⟨known, mid, gs, ks, ts, h1, h2, ?_, ?_⟩
  · intro i m hm hk
    obtain ⟨m', e1, e2⟩ := h2.each i m hm
    obtain ⟨e3, e4⟩ := e2.idle hk
    rw [e1]
    congr 1
    apply Prod.ext
    · exact e3
    · rcases hbin m'.1 with hp | hp
      · rw [e2.told _ hp, e4, decide_eq_true (by omega)]
      · rw [e2.told _ hp, e4, decide_eq_true (by omega)]
  · intro ha i m hm
    obtain ⟨m', e1, e2⟩ := h2.each i m hm
    refine (C195_bounds _ _ _ _ _ _ _ _ _ e2.count).2.2.1 ha ?_
    rcases hbin m.1 with hp | hp <;> rw [hp] <;> simp <;> omega

/-! ### C197: the replacement -/

/-- The states an ensemble can be in. -/
inductive Reach (b : Base σ X) (d : Det δ) (r : Rng ρ) (cf : Conf) : St σ δ ρ → Prop
  | new : Reach b d r cf (fresh b d r cf)
  | reset (s : St σ δ ρ) : Reach b d r cf s → Reach b d r cf (reset b d r cf s)
  | fit (s s' : St σ δ ρ) (x : X) (y : Int) (c : Option (List Int)) : Reach b d r cf s →
      partialFit b d r cf s [(x, y)] c = .ok s' → Reach b d r cf s'

theorem visit_det (b : Base σ X) (d : Det δ) (r : Rng ρ) (cf : Conf) (row : Option (List Bool))
    (classes : List Int) (x : X) (y : Int) (m : σ × δ) (g : ρ) (v : (σ × δ) × Bool × ρ)
    (h : visit b d r cf row classes x y m g = .ok v) :
    v.1.2 = m.2 ∨ ∃ e, v.1.2 = (d.check (d.add m.2 e)).2 := by
  unfold visit at h
  simp only at h
  split at h
  · cases h
  · cases h
    simp only [score]
    split
    · exact .inl rfl
    · exact .inr ⟨_, rfl⟩

theorem visitAll_det (b : Base σ X) (d : Det δ) (r : Rng ρ) (cf : Conf) (codes : Option (List (List Bool)))
    (classes : List Int) (x : X) (y : Int) (P : δ → Prop) (hP : ∀ a e, P a → P (d.check (d.add a e)).2) :
    ∀ (ms : List (σ × δ)) (i : Nat) (ch : Bool) (g : ρ) (v : List (σ × δ) × Bool × ρ),
    visitAll b d r cf codes classes x y ms i ch g = .ok v → (∀ m ∈ ms, P m.2) →
    v.1.length = ms.length ∧ ∀ m ∈ v.1, P m.2 := by
  intro ms
  induction ms with
  | nil =>
    intro i ch g v h _
    simp only [visitAll, Except.ok.injEq] at h
    subst h
    simp
  | cons a ms ih =>
    intro i ch g v h hm
    simp only [visitAll] at h
    split at h
    · cases h
    · rename_i u hu
      split at h
      · cases h
      · rename_i q hq
        cases h
        have h2 := ih _ _ _ _ hq (fun m hm' => hm m (List.mem_cons_of_mem _ hm'))
        refine ⟨by simp [h2.1], ?_⟩
        intro m hm'
        rcases List.mem_cons.mp hm' with rfl | h'
        · rcases visit_det _ _ _ _ _ _ _ _ _ _ _ hu with e | ⟨e, he⟩
          · rw [e]; exact hm a (by simp)
          · rw [he]; exact hP _ _ (hm a (by simp))
        · exact h2.2 m h'

theorem reach_det (b : Base σ X) (d : Det δ) (r : Rng ρ) (cf : Conf) (s : St σ δ ρ)
    (h : Reach b d r cf s) : s.members.length = cf.n ∧ ∀ m ∈ s.members, ∃ ops, m.2 = d.run ops := by
  have hP : ∀ (a : δ) (e : Bool), (∃ ops, a = d.run ops) → ∃ ops, (d.check (d.add a e)).2 = d.run ops := by
    rintro a e ⟨ops, rfl⟩
    exact ⟨ops ++ [.add e, .check], by simp [Det.run]⟩
  have hfr : ∀ codes, (configure b d r cf codes).members.length = cf.n ∧
      ∀ m ∈ (configure b d r cf codes).members, ∃ ops, m.2 = d.run ops := by
    intro codes
    refine ⟨by simp [configure], ?_⟩
    intro m hm
    simp only [configure] at hm
    rw [(List.mem_replicate.mp hm).2]
    exact ⟨[], rfl⟩
  induction h with
  | new => exact hfr none
  | reset s _ _ => exact hfr s.codes
  | fit s s' x y c _ hfit ih =>
    unfold partialFit at hfit
    split at hfit
    · cases hfit
    · rename_i known _
      simp only [steps] at hfit
      split at hfit
      · cases hfit
      · rename_i t ht
        cases hfit
        have hmem : (ready r cf known { s with classes := some known }).members = s.members := by
          unfold ready; split <;> rfl
        unfold step at ht
        simp only at ht
        split at ht
        · cases ht
        · rename_i v hv
          have hv' := visitAll_det b d r cf _ _ x y (fun a => ∃ ops, a = d.run ops) hP _ _ _ _ _ hv
            (by rw [hmem]; exact ih.2)
          rw [hmem, ih.1] at hv'
          split at ht
          · cases ht
            simp only [replaceWorst]
            split
            · exact hv'
            · rename_i i hi
              refine ⟨by simpa using hv'.1, ?_⟩
              intro m hm
              obtain ⟨j, hj, rfl⟩ := List.mem_iff_getElem.mp hm
              rw [List.getElem_modify]
              split
              · exact ⟨[], rfl⟩
              · exact hv'.2 _ (List.getElem_mem _)
          · cases ht
            exact hv'

/-- C197: in every reachable state a sample after which some detector reports a change
with a grown error estimate is counted once and replaces exactly one member, the first
of those with the largest estimate; any other sample replaces none and is not counted. -/
theorem C197_replacement (b : Base σ X) (d : Det δ) (hd : d.Faithful) (r : Rng ρ) (cf : Conf)
    (s s' : St σ δ ρ) (hs : Reach b d r cf s) (x : X) (y : Int) (c : Option (List Int))
    (hy : cf.code = false ∨ 0 ≤ y) (h : partialFit b d r cf s [(x, y)] c = .ok s') :
    ∃ known mid gs ks ts, s'.classes = some known ∧ Middle b d r cf known s s' x y mid gs ks ts ∧
      ((¬ ∃ (i : Nat) (m m' : σ × δ), s.members[i]? = some m ∧ mid[i]? = some m' ∧ Alarm b d x m m' (ts i)) →
          s'.members = mid ∧ s'.changes = s.changes) ∧
      ((∃ (i : Nat) (m m' : σ × δ), s.members[i]? = some m ∧ mid[i]? = some m' ∧ Alarm b d x m m' (ts i)) →
        s'.changes = s.changes + 1 ∧
        ∃ (i : Nat) (m : σ × δ), mid[i]? = some m ∧ (∀ m' ∈ mid, d.est m'.2 ≤ d.est m.2) ∧
          (∀ m' ∈ mid.take i, d.est m'.2 < d.est m.2) ∧
          s'.members = mid.set i (b.reset m.1, d.new)) := by
  obtain ⟨known, mid, gs, ks, ts, h1, h2, h3⟩ := partialFit_row b d r cf s s' x y c hy h
  refine ⟨known, mid, gs, ks, ts, h1, h2, ?_, ?_⟩
  · intro hno
    rcases h3 with ⟨_, e⟩ | ⟨e, _⟩
    · exact e
    · exact absurd e hno
  · intro hal
    rcases h3 with ⟨e, _⟩ | ⟨_, e1, e2⟩
    · exact absurd hal e
    · refine ⟨e2, ?_⟩
      obtain ⟨i, m, m', f1, f2, p, _, _, f3⟩ := hal
      obtain ⟨ops, hops⟩ := (reach_det b d r cf s hs).2 m (List.mem_of_getElem? f1)
      obtain ⟨w, _, hw⟩ := hd ops
      have hpos : 0 ≤ d.est m.2 := by
        rw [hops, hw]
        unfold Oza.accuracy
        exact div_nonneg (Nat.cast_nonneg _) (Nat.cast_nonneg _)
      rcases scanMax_first d mid 0 0 none with ⟨g1, g2⟩ | ⟨j, n, g1, g2, g3, g4, g5⟩
      · exact absurd (g2 m' (List.mem_of_getElem? f2)) (not_le.mpr (lt_of_le_of_lt hpos f3))
      · refine ⟨j, n, g2, g4, g5, ?_⟩
        rw [e1]
        unfold replaceWorst
        rw [g1]
        simp only [Nat.zero_add]
        exact modify_eq_set _ _ _ _ g2

/-- One sample learned, `alarm` saying whether some member's detector raised an alarm at it. -/
def Learned (b : Base σ X) (d : Det δ) (r : Rng ρ) (cf : Conf) (s s' : St σ δ ρ) (x : X) (y : Int) (alarm : Bool) : Prop :=
  ∃ known mid gs ks ts, s'.classes = some known ∧ Middle b d r cf known s s' x y mid gs ks ts ∧
    (alarm = true ↔ ∃ (i : Nat) (m m' : σ × δ), s.members[i]? = some m ∧ mid[i]? = some m' ∧ Alarm b d x m m' (ts i))

/-- The samples of `l` learned one by one, with the alarms. -/
inductive Alarms (b : Base σ X) (d : Det δ) (r : Rng ρ) (cf : Conf) : St σ δ ρ → List (X × Int) → List Bool → St σ δ ρ → Prop
  | nil (s : St σ δ ρ) : Alarms b d r cf s [] [] s
  | cons (s s1 s' : St σ δ ρ) (a : X × Int) (l : List (X × Int)) (al : Bool) (als : List Bool) : Learned b d r cf s s1 a.1 a.2 al →
      Alarms b d r cf s1 l als s' → Alarms b d r cf s (a :: l) (al :: als) s'

/-- The samples of `l` given one at a time. -/
def oneByOne (b : Base σ X) (d : Det δ) (r : Rng ρ) (cf : Conf) (c : Option (List Int)) (s : St σ δ ρ) :
    List (X × Int) → Except PyErr (St σ δ ρ)
  | [] => .ok s
  | a :: l => match partialFit b d r cf s [a] c with
    | .error e => .error e
    | .ok s1 => oneByOne b d r cf c s1 l

theorem count_from (b : Base σ X) (d : Det δ) (r : Rng ρ) (cf : Conf) (c : Option (List Int)) (l : List (X × Int)) (s s' : St σ δ ρ)
    (hy : cf.code = false ∨ ∀ a ∈ l, 0 ≤ a.2) (h : oneByOne b d r cf c s l = .ok s') :
    ∃ als, Alarms b d r cf s l als s' ∧ s'.changes = s.changes + als.count true := by
  induction l generalizing s with
  | nil =>
    cases h
    exact ⟨[], .nil _, by simp⟩
  | cons a l ih =>
    rw [oneByOne] at h
    cases h1 : partialFit b d r cf s [a] c with
    | error e => rw [h1] at h; cases h
    | ok s1 =>
      rw [h1] at h
      obtain ⟨als, g1, g2⟩ := ih s1 (hy.imp id fun g q hq => g q (List.mem_cons_of_mem _ hq)) h
      obtain ⟨known, mid, gs, ks, ts, k1, k2, k3⟩ := partialFit_row b d r cf s s1 a.1 a.2 c (hy.imp id fun g => g a (by simp)) h1
      rcases k3 with ⟨e1, e2, e3⟩ | ⟨e1, e2, e3⟩
      · refine ⟨false :: als, .cons _ _ _ _ _ _ _ ⟨known, mid, gs, ks, ts, k1, k2, by simpa using e1⟩ g1, ?_⟩
        rw [g2, e3]
        simp
      · refine ⟨true :: als, .cons _ _ _ _ _ _ _ ⟨known, mid, gs, ks, ts, k1, k2, by simpa using e1⟩ g1, ?_⟩
        rw [g2, e3]
        simp
        omega

/-- C197: a new ensemble, and one that was reset, that has learned samples one by one has counted those with an alarm. -/
theorem C197_count (b : Base σ X) (d : Det δ) (r : Rng ρ) (cf : Conf) (c : Option (List Int)) (l : List (X × Int)) (s s' : St σ δ ρ)
    (hs : s = fresh b d r cf ∨ ∃ s0, s = reset b d r cf s0) (hy : cf.code = false ∨ ∀ a ∈ l, 0 ≤ a.2)
    (h : oneByOne b d r cf c s l = .ok s') :
    ∃ als, Alarms b d r cf s l als s' ∧ s'.changes = als.count true := by
  obtain ⟨als, g1, g2⟩ := count_from b d r cf c l s s' hy h
  refine ⟨als, g1, ?_⟩
  rw [g2]
  rcases hs with rfl | ⟨s0, rfl⟩
  · simp [fresh, configure]
  · simp [reset, configure]

/-! ### C198: voting with the code matrix -/

/-- A member says 1 if its probability row has two entries and the second is the larger. -/
def saysOne (p : List ℚ) : Bool :=
  match p with
  | [a, c] => decide (a < c)
  | _ => false

theorem voteOf_eq (p : List ℚ) : voteOf p = saysOne p := by
  match p with
  | [] => rfl
  | [_] => rfl
  | [a, c] => simp [voteOf, saysOne]
  | _ :: _ :: _ :: _ => simp [voteOf, saysOne]

/-- The bit on which member `i` codes class `j`. -/
def code (codes : List (List Bool)) (i j : Nat) : Bool := (codes.getD i []).getD j false

/-- How many of the members, numbered from `i`, vote for the side class `j` is coded on. -/
def agree (b : Base σ X) (codes : List (List Bool)) (x : X) (j : Nat) : List (σ × δ) → Nat → Nat
  | [], _ => 0
  | m :: ms, i =>
    (if code codes i j = saysOne (b.proba m.1 x) then 1 else 0) + agree b codes x j ms (i + 1)

theorem countVotes_spec (b : Base σ X) (codes : List (List Bool)) (x : X) (ms : List (σ × δ)) (i : Nat)
    (acc : List ℚ) :
    (countVotes b codes x ms i acc).length = acc.length ∧
    ∀ j, j < acc.length → (countVotes b codes x ms i acc).getD j 0 = acc.getD j 0 + agree b codes x j ms i := by
  induction ms generalizing i acc with
  | nil => simp [countVotes, agree]
  | cons m ms ih =>
    obtain ⟨h1, h2⟩ := ih (i + 1) (addVote (codes.getD i []) (voteOf (b.proba m.1 x)) acc)
    have hl : (addVote (codes.getD i []) (voteOf (b.proba m.1 x)) acc).length = acc.length := by
      simp [addVote]
    rw [countVotes, h1, hl]
    refine ⟨rfl, ?_⟩
    intro j hj
    rw [h2 j (by omega)]
    have : (addVote (codes.getD i []) (voteOf (b.proba m.1 x)) acc).getD j 0 =
        acc.getD j 0 + (if code codes i j = saysOne (b.proba m.1 x) then 1 else 0) := by
      rw [← voteOf_eq]
      simp only [code, addVote, List.getD_eq_getElem?_getD, List.getElem?_mapIdx,
        List.getElem?_eq_getElem hj, Option.map_some, Option.getD_some]
      split <;> simp
    rw [this]
    simp only [agree]
    push_cast
    ring

/-- Every member answers the bit on which it codes class `c`. -/
def AllRight (b : Base σ X) (s : St σ δ ρ) (codes : List (List Bool)) (x : X) (c : Nat) : Prop :=
  ∀ i m, s.members[i]? = some m → saysOne (b.proba m.1 x) = code codes i c

theorem agree_le (b : Base σ X) (codes : List (List Bool)) (x : X) (j : Nat) (ms : List (σ × δ)) (i : Nat) :
    agree b codes x j ms i ≤ ms.length := by
  induction ms generalizing i with
  | nil => simp [agree]
  | cons m ms ih =>
    simp only [agree, List.length_cons]
    have := ih (i + 1)
    split <;> omega

theorem agree_eq_length (b : Base σ X) (codes : List (List Bool)) (x : X) (j : Nat) (ms : List (σ × δ)) (i : Nat) :
    agree b codes x j ms i = ms.length ↔
      ∀ t m, ms[t]? = some m → code codes (i + t) j = saysOne (b.proba m.1 x) := by
  induction ms generalizing i with
  | nil => simp [agree]
  | cons m ms ih =>
    simp only [agree, List.length_cons]
    have hle := agree_le b codes x j ms (i + 1)
    constructor
    · intro h t m' hm'
      by_cases hh : code codes i j = saysOne (b.proba m.1 x)
      · rw [if_pos hh] at h
        cases t with
        | zero =>
          simp only [List.getElem?_cons_zero, Option.some.injEq] at hm'
          subst hm'
          simpa using hh
        | succ t =>
          have := (ih (i + 1)).1 (by omega) t m' (by simpa using hm')
          rw [show i + (t + 1) = i + 1 + t by omega]
          exact this
      · rw [if_neg hh] at h; omega
    · intro h
      have h0 := h 0 m rfl
      rw [Nat.add_zero] at h0
      rw [if_pos h0, (ih (i + 1)).2 ?_]
      · omega
      · intro t m' hm'
        have := h (t + 1) m' (by simpa using hm')
        rw [show i + (t + 1) = i + 1 + t by omega] at this
        exact this

theorem argmax_eq (l : List ℚ) (c : Nat) (hc : c < l.length) (hmax : ∀ j, j < l.length → l.getD j 0 ≤ l.getD c 0)
    (hfirst : ∀ j, j < c → l.getD j 0 < l.getD c 0) : Lazy.argmax l = c := by
  obtain ⟨v, h1, h2, h3⟩ := Lazy.argmax_spec l (by rintro rfl; simp at hc)
  have hlt : Lazy.argmax l < l.length := by
    by_contra hn
    rw [List.getElem?_eq_none (by omega)] at h1
    cases h1
  have hv : l.getD (Lazy.argmax l) 0 = v := by rw [List.getD_eq_getElem?_getD, h1]; rfl
  rcases lt_trichotomy (Lazy.argmax l) c with h | h | h
  · have e1 := hfirst _ h
    rw [hv] at e1
    have e2 := h2 (l.getD c 0) (by rw [List.getD_eq_getElem _ _ hc]; exact List.getElem_mem _)
    exact absurd e1 (not_lt.mpr e2)
  · exact h
  · have e1 := h3 c (l.getD c 0) h (by rw [List.getD_eq_getElem _ _ hc]; exact List.getElem?_eq_getElem hc)
    have e2 := hmax _ hlt
    rw [hv] at e2
    exact absurd e1 (not_lt.mpr e2)

theorem sum_eq_range (l : List ℚ) : l.sum = ((List.range l.length).map fun j => l.getD j 0).sum := by
  congr 1
  apply List.ext_getElem?
  intro j
  rw [List.getElem?_map]
  by_cases h : j < l.length
  · rw [List.getElem?_range h]
    simp [List.getD_eq_getElem?_getD, h]
  · rw [List.getElem?_eq_none (by omega), List.getElem?_eq_none (by simpa using h)]
    rfl

/-- C198: with a code matrix the score of a class is the number of members voting for the
side it is coded on, divided by the total over the classes. -/
theorem C198_shares (b : Base σ X) (s : St σ δ ρ) (cl : List Int) (codes : List (List Bool))
    (hcl : s.classes = some cl) (hin : s.initCodes = false) (hco : s.codes = some codes) (x : X) :
    (binaryRow b s x).length = cl.length ∧
    ∀ j, j < cl.length → (binaryRow b s x).getD j 0 =
      (agree b codes x j s.members 0 : ℚ) /
        ((List.range cl.length).map fun i => (agree b codes x i s.members 0 : ℚ)).sum := by
  obtain ⟨h1, h2⟩ := countVotes_spec b codes x s.members 0 (List.replicate cl.length (0 : ℚ))
  rw [List.length_replicate] at h1 h2
  have hrow : binaryRow b s x =
      normalise (countVotes b codes x s.members 0 (List.replicate cl.length (0 : ℚ))) := by
    simp [binaryRow, hcl, hin, hco]
  rw [hrow]
  set L := countVotes b codes x s.members 0 (List.replicate cl.length (0 : ℚ)) with hL
  have hget : ∀ j, j < cl.length → L.getD j 0 = (agree b codes x j s.members 0 : ℚ) := by
    intro j hj
    rw [h2 j hj]
    simp [List.getD_eq_getElem?_getD, hj]
  have hsum : L.sum = ((List.range cl.length).map fun i => (agree b codes x i s.members 0 : ℚ)).sum := by
    rw [sum_eq_range, h1]
    congr 1
    apply List.map_congr_left
    intro j hj
    exact hget j (List.mem_range.mp hj)
  rw [← hsum]
  unfold normalise
  by_cases hp : L.sum > 0
  · rw [if_pos hp]
    refine ⟨by simpa using h1, ?_⟩
    intro j hj
    rw [← hget j hj]
    simp [List.getD_eq_getElem?_getD, h1, hj]
  · rw [if_neg hp]
    refine ⟨h1, ?_⟩
    have h0 : L.sum = 0 := by
      apply le_antisymm (not_lt.mp hp)
      rw [hsum]
      apply List.sum_nonneg
      intro a ha
      obtain ⟨i, _, rfl⟩ := List.mem_map.mp ha
      exact Nat.cast_nonneg _
    intro j hj
    rw [h0, div_zero]
    have hle : L.getD j 0 ≤ L.sum := by
      rw [hget j hj, hsum]
      apply List.single_le_sum
      · intro a ha
        obtain ⟨i, _, rfl⟩ := List.mem_map.mp ha
        exact Nat.cast_nonneg _
      · exact List.mem_map.mpr ⟨j, List.mem_range.mpr hj, rfl⟩
    rw [h0] at hle
    apply le_antisymm hle
    rw [hget j hj]
    exact Nat.cast_nonneg _

/-- C198: if every member is right about a sample of class `c`, the ensemble answers the
first class that all members code like `c`. -/
theorem C198_unanimous_partial (b : Base σ X) (s : St σ δ ρ) (cl : List Int) (codes : List (List Bool))
    (hcl : s.classes = some cl) (hin : s.initCodes = false) (hco : s.codes = some codes)
    (hne : s.members ≠ []) (x : X) (c : Nat) (hc : c < cl.length) (hr : AllRight b s codes x c) :
    (∀ i, i < s.members.length → code codes i (predictCode b s x) = code codes i c) ∧
    (∀ j, j < predictCode b s x → ∃ i, i < s.members.length ∧ code codes i j ≠ code codes i c) := by
  obtain ⟨h1, h2⟩ := C198_shares b s cl codes hcl hin hco x
  have hn : 0 < s.members.length := List.length_pos_iff.mpr hne
  have hfull : ∀ j, agree b codes x j s.members 0 = s.members.length ↔
      ∀ i, i < s.members.length → code codes i j = code codes i c := by
    intro j
    rw [agree_eq_length]
    constructor
    · intro h i hi
      have := h i s.members[i] (List.getElem?_eq_getElem hi)
      rw [Nat.zero_add] at this
      rw [this]
      exact hr i _ (List.getElem?_eq_getElem hi)
    · intro h i m hm
      have hi : i < s.members.length := by
        by_contra hnn
        rw [List.getElem?_eq_none (by omega)] at hm; cases hm
      rw [Nat.zero_add, h i hi, hr i m hm]
  set T := ((List.range cl.length).map fun i => (agree b codes x i s.members 0 : ℚ)).sum with hT
  have hTpos : 0 < T := by
    have : (agree b codes x c s.members 0 : ℚ) ≤ T := by
      apply List.single_le_sum
      · intro a ha
        obtain ⟨i, _, rfl⟩ := List.mem_map.mp ha
        exact Nat.cast_nonneg _
      · exact List.mem_map.mpr ⟨c, List.mem_range.mpr hc, rfl⟩
    rw [(hfull c).2 (fun _ _ => rfl)] at this
    have : (0 : ℚ) < s.members.length := by exact_mod_cast hn
    linarith
  have hex : ∃ j, ∀ i, i < s.members.length → code codes i j = code codes i c := ⟨c, fun _ _ => rfl⟩
  classical
  have hj := Nat.find_spec hex
  have hmin : ∀ k, k < Nat.find hex → ¬ ∀ i, i < s.members.length → code codes i k = code codes i c :=
    fun k hk => Nat.find_min hex hk
  have hjc : Nat.find hex ≤ c := Nat.find_min' hex (fun _ _ => rfl)
  set j := Nat.find hex with hjdef
  have hp : predictCode b s x = j := by
    unfold predictCode
    apply argmax_eq
    · omega
    · intro k hk
      rw [h2 k (by omega), h2 j (by omega)]
      apply div_le_div_of_nonneg_right _ hTpos.le
      rw [(hfull j).2 hj]
      exact_mod_cast agree_le ..
    · intro k hk
      rw [h2 k (by omega), h2 j (by omega)]
      apply div_lt_div_of_pos_right _ hTpos
      rw [(hfull j).2 hj]
      have h3 := agree_le b codes x k s.members 0
      have h4 : agree b codes x k s.members 0 ≠ s.members.length := fun h => hmin k hk ((hfull k).1 h)
      exact_mod_cast lt_of_le_of_ne h3 h4
  rw [hp]
  refine ⟨hj, ?_⟩
  intro k hk
  have := hmin k hk
  push Not at this
  exact this

/-- C198 (violated): nothing keeps two classes from having the same codes, and with more
than `2 ^ n` classes for `n` members some class is never answered even when every member
is right about it. -/
theorem C198_collision_violated (b : Base σ X) (s : St σ δ ρ) (cl : List Int) (codes : List (List Bool))
    (hcl : s.classes = some cl) (hin : s.initCodes = false) (hco : s.codes = some codes)
    (hne : s.members ≠ []) (hk : 2 ^ s.members.length < cl.length) :
    ∃ c, c < cl.length ∧ ∀ x, AllRight b s codes x c → predictCode b s x ≠ c := by
  obtain ⟨p, q, hpq, heq⟩ := Fintype.exists_ne_map_eq_of_card_lt
    (fun (j : Fin cl.length) (i : Fin s.members.length) => code codes i j) (by simpa using hk)
  have main : ∀ a c : Fin cl.length, a < c →
      (fun i : Fin s.members.length => code codes i a) = (fun i : Fin s.members.length => code codes i c) →
      ∃ c, c < cl.length ∧ ∀ x, AllRight b s codes x c → predictCode b s x ≠ c := by
    intro a c hac he
    refine ⟨c, c.isLt, ?_⟩
    intro x hr hp
    obtain ⟨_, h2⟩ := C198_unanimous_partial b s cl codes hcl hin hco hne x c c.isLt hr
    obtain ⟨i, hi, hd⟩ := h2 a (by rw [hp]; exact hac)
    exact hd (congrFun he ⟨i, hi⟩)
  rcases lt_or_gt_of_ne hpq with h | h
  · exact main p q h heq
  · exact main q p h heq.symm

/-! ### C199: `reset` -/

/-- What a user can do with the ensemble. -/
inductive Op (X : Type) where
  | fit (rows : List (X × Int)) (classes : Option (List Int))
  | ask (x : X)

/-- What the user sees. -/
inductive Out where
  | fitted (changes : Nat)
  | raised (e : PyErr)
  | answer (row : List ℚ)

/-- The observations, up to the first exception. -/
def observe (b : Base σ X) (d : Det δ) (r : Rng ρ) (cf : Conf) : St σ δ ρ → List (Op X) → List Out
  | _, [] => []
  | s, .fit rows c :: ops =>
    match partialFit b d r cf s rows c with
    | .error e => [.raised e]
    | .ok s' => .fitted s'.changes :: observe b d r cf s' ops
  | s, .ask x :: ops => .answer (binaryRow b s x) :: observe b d r cf s ops

/-- Equal but for a code matrix that is still to be made. -/
def Alike (cf : Conf) (s t : St σ δ ρ) : Prop :=
  s.members = t.members ∧ s.classes = t.classes ∧ s.initCodes = t.initCodes ∧ s.changes = t.changes ∧
    s.gen = t.gen ∧ (s.initCodes = false → cf.code = true → s.codes = t.codes) ∧
    (cf.code = false → s.initCodes = true)

theorem step_alike (b : Base σ X) (d : Det δ) (r : Rng ρ) (cf : Conf) (known : List Int) (s t : St σ δ ρ)
    (h : Alike cf s t) (x : X) (y : Int) :
    (∃ e, step b d r cf known s x y = .error e ∧ step b d r cf known t x y = .error e) ∨
    ∃ s' t', step b d r cf known s x y = .ok s' ∧ step b d r cf known t x y = .ok t' ∧ Alike cf s' t' := by
  obtain ⟨ms, cl, co, ini, ch, g⟩ := s
  obtain ⟨ms2, cl2, co2, ini2, ch2, g2⟩ := t
  obtain ⟨rfl, rfl, rfl, rfl, rfl, h6, h7⟩ := h
  simp only at h6 h7
  cases hcode : cf.code with
  | false =>
    have := h7 hcode
    subst this
    simp only [step, ready, hcode, Bool.and_false, Bool.false_eq_true, if_false]
    cases visitAll b d r cf none known x y ms 0 false g with
    | error e => exact .inl ⟨e, rfl, rfl⟩
    | ok v =>
      right
      by_cases hv : v.2.1 = true
      · simp only [hv, if_true]
        exact ⟨_, _, rfl, rfl, rfl, rfl, rfl, rfl, rfl, by simp, by simp⟩
      · simp only [hv]
        exact ⟨_, _, rfl, rfl, rfl, rfl, rfl, rfl, rfl, by simp, by simp⟩
  | true =>
    have hready : ready r cf known ⟨ms, cl, co, ini, ch, g⟩ = ready r cf known ⟨ms, cl, co2, ini, ch, g⟩ ∧
        (ready r cf known ⟨ms, cl, co, ini, ch, g⟩).initCodes = false := by
      cases ini with
      | true => simp [ready, hcode]
      | false => simp [ready, h6 rfl hcode]
    simp only [step]
    rw [← hready.1]
    generalize ready r cf known ⟨ms, cl, co, ini, ch, g⟩ = u at hready
    have hu := hready.2
    simp only [hcode, if_true]
    cases visitAll b d r cf u.codes known x y u.members 0 false u.gen with
    | error e => exact .inl ⟨e, rfl, rfl⟩
    | ok v =>
      right
      by_cases hv : v.2.1 = true
      · simp only [hv, if_true]
        exact ⟨_, _, rfl, rfl, rfl, rfl, rfl, rfl, rfl, by simp, by simp [hcode]⟩
      · simp only [hv]
        exact ⟨_, _, rfl, rfl, rfl, rfl, rfl, rfl, rfl, by simp, by simp [hcode]⟩

theorem fit_alike (b : Base σ X) (d : Det δ) (r : Rng ρ) (cf : Conf) (s t : St σ δ ρ)
    (h : Alike cf s t) (rows : List (X × Int)) (c : Option (List Int)) :
    (∃ e, partialFit b d r cf s rows c = .error e ∧ partialFit b d r cf t rows c = .error e) ∨
    ∃ s' t', partialFit b d r cf s rows c = .ok s' ∧ partialFit b d r cf t rows c = .ok t' ∧ Alike cf s' t' := by
  unfold partialFit
  rw [← h.2.1]
  cases checkClasses s.classes c with
  | error e => exact .inl ⟨e, rfl, rfl⟩
  | ok known =>
    simp only
    have h' : Alike cf { s with classes := some known } { t with classes := some known } :=
      ⟨h.1, rfl, h.2.2.1, h.2.2.2.1, h.2.2.2.2.1, h.2.2.2.2.2.1, h.2.2.2.2.2.2⟩
    generalize ({ s with classes := some known } : St σ δ ρ) = s1 at h'
    generalize ({ t with classes := some known } : St σ δ ρ) = t1 at h'
    induction rows generalizing s1 t1 with
    | nil => exact .inr ⟨s1, t1, rfl, rfl, h'⟩
    | cons q rows ih =>
      simp only [steps]
      rcases step_alike b d r cf known s1 t1 h' q.1 q.2 with ⟨e, h1, h2⟩ | ⟨s2, t2, h1, h2, h3⟩
      · rw [h1, h2]; exact .inl ⟨e, rfl, rfl⟩
      · rw [h1, h2]; exact ih s2 t2 h3

/-- C199: after `reset` the ensemble behaves as a new one, whatever was done before; in
particular it asks for the classes again and draws a new code matrix. -/
theorem C199_reset_as_new (b : Base σ X) (d : Det δ) (r : Rng ρ) (cf : Conf) (hcode : cf.code = true)
    (s : St σ δ ρ) (ops : List (Op X)) :
    observe b d r cf (reset b d r cf s) ops = observe b d r cf (fresh b d r cf) ops := by
  have key : ∀ (ops : List (Op X)) (s t : St σ δ ρ), Alike cf s t →
      observe b d r cf s ops = observe b d r cf t ops := by
    intro ops
    induction ops with
    | nil => intro s t _; rfl
    | cons o ops ih =>
      intro s t h
      cases o with
      | fit rows c =>
        rcases fit_alike b d r cf s t h rows c with ⟨e, h1, h2⟩ | ⟨s', t', h1, h2, h3⟩
        · simp only [observe, h1, h2]
        · simp only [observe, h1, h2, ih s' t' h3, h3.2.2.2.1]
      | ask x =>
        have hrow : binaryRow b s x = binaryRow b t x := by
          unfold binaryRow
          rw [h.1, h.2.1, h.2.2.1]
          cases t.classes with
          | none => rfl
          | some c =>
            simp only
            cases hi : t.initCodes with
            | true => rfl
            | false => rw [h.2.2.2.2.2.1 (by rw [h.2.2.1, hi]) hcode]
        simp only [observe, hrow, ih s t h]
  apply key
  exact ⟨rfl, rfl, rfl, rfl, rfl, (by intro h; cases h), fun _ => rfl⟩

/-- C199: the same for the members' states, the classes and the count of changes when no
code matrix is used. -/
theorem C199_reset_state (b : Base σ X) (d : Det δ) (r : Rng ρ) (cf : Conf) (s : St σ δ ρ)
    (rows : List (X × Int)) (c : Option (List Int)) :
    (∃ e, partialFit b d r cf (reset b d r cf s) rows c = .error e ∧
      partialFit b d r cf (fresh b d r cf) rows c = .error e) ∨
    ∃ s' t', partialFit b d r cf (reset b d r cf s) rows c = .ok s' ∧
      partialFit b d r cf (fresh b d r cf) rows c = .ok t' ∧
      s'.members = t'.members ∧ s'.classes = t'.classes ∧ s'.changes = t'.changes ∧ s'.gen = t'.gen := by
  rcases fit_alike b d r cf (reset b d r cf s) (fresh b d r cf)
    ⟨rfl, rfl, rfl, rfl, rfl, (by intro h; cases h), fun _ => rfl⟩ rows c with h | ⟨s', t', h1, h2, h3⟩
  · exact .inl h
  · exact .inr ⟨s', t', h1, h2, h3.1, h3.2.1, h3.2.2.2.1, h3.2.2.2.2.1⟩

/-! ### Examples -/

/-- A learner that counts its samples, always answers 0 and gives 1 the larger probability. -/
def toy : Base Nat Unit := ⟨0, fun s _ _ _ => s + 1, fun _ _ => some 0, fun _ _ => [1/4, 3/4], fun _ => 0⟩

/-- A detector that keeps everything and reports a change from the third outcome on. -/
def toyDet : Det (List Bool) :=
  ⟨[], fun a e => a ++ [e], fun a => (decide (3 ≤ a.length), a), Oza.accuracy⟩

theorem toyDet_faithful : toyDet.Faithful := by
  intro ops
  have : ∀ (ops : List DOp) (a : List Bool),
      ops.foldl (fun a o => match o with | .add h => toyDet.add a h | .check => (toyDet.check a).2) a =
        a ++ hits ops := by
    intro ops
    induction ops with
    | nil => intro a; simp [hits]
    | cons o ops ih =>
      intro a
      cases o with
      | add h => simp only [List.foldl_cons, ih, hits]; simp [toyDet]
      | check => simp only [List.foldl_cons, ih, hits]; simp [toyDet]
  refine ⟨hits ops, List.suffix_refl _, ?_⟩
  have h : toyDet.run ops = hits ops := this ops toyDet.new
  rw [h]
  rfl

/-- A generator that counts its calls. -/
def toyRng : Rng Nat :=
  ⟨0, fun _ g => (g % 3, g + 1), fun g => (1/2, g + 1), fun g => (g % 2, g + 1),
    fun n k g => (List.replicate n ((List.range k).map fun j => decide (j % 2 = 1)), g + 1)⟩

/-- Two members, `leveraging_bag_me`: the first two samples are trained on because they are
got wrong; the third is answered rightly and each member has error 1, so it is left out. -/
example : ((partialFit toy toyDet toyRng ⟨2, 6, .me, false⟩ (fresh toy toyDet toyRng ⟨2, 6, .me, false⟩)
    [((), 1), ((), 1), ((), 0)] (some [0, 1])).toOption.map fun s => s.members) =
    some [(2, [true, true, false]), (2, [true, true, false])] := by decide +kernel

/-- `leveraging_bag`: the draws 0, 1, 2, 0 are used in turn; the third sample raises the
error of both members from 1/2 to 2/3, which is reported, and the first is reset. -/
example : ((partialFit toy toyDet toyRng ⟨2, 6, .bag, false⟩ (fresh toy toyDet toyRng ⟨2, 6, .bag, false⟩)
    [((), 1), ((), 0), ((), 1)] (some [0, 1])).toOption.map fun s => (s.members, s.changes)) =
    some ([(0, []), (3, [true, false, true])], 1) := by decide +kernel

theorem ok_of_toOption {α : Type} {e : Except PyErr α} {a : α} (h : e.toOption = some a) : e = .ok a := by
  cases e with
  | error _ => cases h
  | ok b => cases h; rfl

/-- The hypotheses of C195-C197 are met by the third sample of that run. -/
example : ∃ s s' : St Nat (List Bool) Nat, Reach toy toyDet toyRng ⟨2, 6, .bag, false⟩ s ∧
    partialFit toy toyDet toyRng ⟨2, 6, .bag, false⟩ s [((), 1)] none = .ok s' ∧ s'.changes = s.changes + 1 := by
  refine ⟨⟨[(2, [true, false]), (1, [true, false])], some [0, 1], none, true, 0, 4⟩,
    ⟨[(0, []), (3, [true, false, true])], some [0, 1], none, true, 1, 6⟩, ?_, ok_of_toOption (by decide +kernel), rfl⟩
  refine .fit ⟨[(0, [true]), (1, [true])], some [0, 1], none, true, 0, 2⟩ _ () 0 none
    (.fit _ _ () 1 (some [0, 1]) .new ?_) ?_
  · rfl
  · rfl

/-- Code matrix, label 2, coded 0 by both members, who answer 0 and are not trained: the
first is told it is wrong (C196). -/
example : ((partialFit toy toyDet toyRng ⟨2, 6, .half, true⟩ (fresh toy toyDet toyRng ⟨2, 6, .half, true⟩)
    [((), 2)] (some [0, 1, 2, 3])).toOption.map fun s => (s.members, s.codes)) =
    some ([(0, [true]), (1, [false])],
      some [[false, true, false, true], [false, true, false, true]]) := by decide +kernel

/-- The hypotheses of `C196_untrained_violated` are met there. -/
example : ∃ s', partialFit toy toyDet toyRng ⟨2, 6, .half, true⟩
    (fresh toy toyDet toyRng ⟨2, 6, .half, true⟩) [((), 2)] (some [0, 1, 2, 3]) = .ok s' ∧
    ∀ t, toy.predict t () = some 0 ∨ toy.predict t () = some 1 :=
  ⟨_, rfl, fun _ => .inl rfl⟩

/-- The same ensemble asked: both members say 1, and of the classes 1 and 3 with that code the
first is answered, also for samples of class 3. -/
example : ((partialFit toy toyDet toyRng ⟨2, 6, .half, true⟩ (fresh toy toyDet toyRng ⟨2, 6, .half, true⟩)
    [((), 2)] (some [0, 1, 2, 3])).toOption.map fun s => (binaryRow toy s (), predictCode toy s ())) =
    some ([0, 1/2, 0, 1/2], 1) := by decide +kernel

/-- One member and four classes: the hypotheses of `C198_collision_violated`, and a class
about which the member is right. -/
example : let s : St Nat (List Bool) Nat :=
      ⟨[(0, [])], some [0, 1, 2, 3], some [[false, true, false, true]], false, 0, 0⟩
    2 ^ s.members.length < [0, 1, 2, 3].length ∧ AllRight toy s [[false, true, false, true]] () 3 ∧
      predictCode toy s () = 1 := by
  refine ⟨by decide, ?_, by decide +kernel⟩
  intro i m hm
  cases i with
  | zero => cases hm; decide +kernel
  | succ i => cases hm

/-- After training, `reset` makes the ensemble ask for the classes again. -/
example : ((partialFit toy toyDet toyRng ⟨2, 6, .bag, true⟩ (fresh toy toyDet toyRng ⟨2, 6, .bag, true⟩)
    [((), 1)] (some [0, 1])).toOption.map fun s =>
      (partialFit toy toyDet toyRng ⟨2, 6, .bag, true⟩ (reset toy toyDet toyRng ⟨2, 6, .bag, true⟩ s)
        [((), 1)] none).toOption.isNone) = some true := by decide +kernel

end Verif.Meta.LevBag
