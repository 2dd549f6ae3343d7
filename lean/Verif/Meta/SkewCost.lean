import Verif.Meta.SkewProps
import Mathlib.Data.List.Induction
import Mathlib.Tactic.Ring
import Mathlib.Tactic.Linarith
import Mathlib.Tactic.Positivity
import Mathlib.Tactic.FieldSimp

/-!
Cost-sensitive online boosting (`online_adac2.py`, `online_csb2.py`); C178, C179, C180.
-/

namespace Verif.Meta.Skew

open Verif.Meta.Oza (Det feed checkClasses sameSet)
open Verif.Meta.Boosting (pdiv pickMax)

variable {σ δ X : Type}

/-! ### Specification -/

/-- Cost of a sample of this class. -/
def cost (cp cn : ℚ) (y : Int) : ℚ := if y = 1 then cp else cn

/-- The member was trained on the sample and then predicted it correctly / wrongly (binary labels). -/
def Visit.hit (v : Visit X) : Bool := decide (v.seen = some (some v.y)) && (decide (v.y = 0) || decide (v.y = 1))
/-- See `hit`. -/
def Visit.miss (v : Visit X) : Bool := decide (v.seen = some (some (1 - v.y))) && (decide (v.y = 0) || decide (v.y = 1))

/-- Total weight of the samples shown. -/
def shown (h : List (Visit X)) : ℚ := (h.map Visit.lam).sum

/-- Total weight of the samples with a property, each counted with `c` of its class. -/
def charged (c : Int → ℚ) (q : Visit X → Bool) (h : List (Visit X)) : ℚ := (h.map fun v => if q v then c v.y * v.lam else 0).sum

/-! ### AdaC2 -/

/-- Entries of AdaC2 that occur. -/
def Ada.Good (t : Ada) : Prop := 0 ≤ t.tp ∧ 0 ≤ t.fn ∧ 0 ≤ t.tn ∧ 0 ≤ t.fp ∧ 0 ≤ t.sum ∧ t.acc.isSome = true

theorem pdiv_ok {a b : ℚ} (h : b ≠ 0) : pdiv a b = .ok (a / b) := by rw [pdiv, if_neg h]

theorem refresh_ok (t : Ada) (h1 : t.acc.isSome = true) (h2 : 0 < t.sum) :
    t.refresh = .ok ((t.tp + t.tn) / t.sum, (t.fp + t.fn) / t.sum,
      { t with acc := some ((t.tp + t.tn) / t.sum, (t.fp + t.fn) / t.sum) }) := by
  unfold Ada.refresh
  cases ha : t.acc with
  | none => rw [ha] at h1; simp at h1
  | some q => simp only [pdiv_ok h2.ne']

/-- What the update does when entries are good. -/
theorem adaAfter_spec (cp cn : ℚ) (hcp : 0 < cp) (hcn : 0 < cn) (p : Option Int) (y : Int) (lam : ℚ) (hl : 0 < lam) (t : Ada)
    (ht : t.Good) (hs : 0 < t.sum) :
    ∃ lam' t', adaAfter cp cn p y lam t = .ok (lam', t') ∧ 0 < lam' ∧ t'.Good ∧ t'.sum = t.sum ∧
      t'.tp + t'.tn = t.tp + t.tn + (if p = some y ∧ (y = 0 ∨ y = 1) then cost cp cn y * lam else 0) ∧
      t'.fp + t'.fn = t.fp + t.fn + (if p = some (1 - y) ∧ (y = 0 ∨ y = 1) then cost cp cn y * lam else 0) ∧
      (((p = some y ∨ p = some (1 - y)) ∧ (y = 0 ∨ y = 1)) →
        t'.acc = some ((t'.tp + t'.tn) / t'.sum, (t'.fp + t'.fn) / t'.sum)) := by
  obtain ⟨g1, g2, g3, g4, g5, g6⟩ := ht
  unfold adaAfter
  by_cases c1 : p = some 1 ∧ y = 1
  · rw [if_pos c1]
    obtain ⟨rfl, rfl⟩ := c1
    have hpos : 0 < cp * lam := mul_pos hcp hl
    rw [refresh_ok { t with tp := t.tp + cp * lam } g6 hs]
    have ha : 0 < (t.tp + cp * lam + t.tn) / t.sum := div_pos (by linarith) hs
    simp only [pdiv_ok (show 2 * ((t.tp + cp * lam + t.tn) / t.sum) ≠ 0 by linarith), Except.map]
    refine ⟨_, _, rfl, by positivity, ⟨?_, g2, g3, g4, g5, rfl⟩, rfl, ?_, ?_, fun _ => rfl⟩
    · show 0 ≤ t.tp + cp * lam; linarith
    · show t.tp + cp * lam + t.tn = _
      rw [if_pos (by simp), cost, if_pos rfl]; ring
    · show t.fp + t.fn = _
      rw [if_neg (by simp)]; ring
  · rw [if_neg c1]
    by_cases c2 : p = some 0 ∧ y = 0
    · rw [if_pos c2]
      obtain ⟨rfl, rfl⟩ := c2
      have hpos : 0 < cn * lam := mul_pos hcn hl
      rw [refresh_ok { t with tn := t.tn + cn * lam } g6 hs]
      have ha : 0 < (t.tp + (t.tn + cn * lam)) / t.sum := div_pos (by linarith) hs
      simp only [pdiv_ok (show 2 * ((t.tp + (t.tn + cn * lam)) / t.sum) ≠ 0 by linarith), Except.map]
      refine ⟨_, _, rfl, by positivity, ⟨g1, g2, ?_, g4, g5, rfl⟩, rfl, ?_, ?_, fun _ => rfl⟩
      · show 0 ≤ t.tn + cn * lam; linarith
      · show t.tp + (t.tn + cn * lam) = _
        rw [if_pos (by simp), cost, if_neg (by decide)]; ring
      · show t.fp + t.fn = _
        rw [if_neg (by simp)]; ring
    · rw [if_neg c2]
      by_cases c3 : p = some 0 ∧ y = 1
      · rw [if_pos c3]
        obtain ⟨rfl, rfl⟩ := c3
        have hpos : 0 < cp * lam := mul_pos hcp hl
        rw [refresh_ok { t with fn := t.fn + cp * lam } g6 hs]
        have ha : 0 < (t.fp + (t.fn + cp * lam)) / t.sum := div_pos (by linarith) hs
        simp only [pdiv_ok (show 2 * ((t.fp + (t.fn + cp * lam)) / t.sum) ≠ 0 by linarith), Except.map]
        refine ⟨_, _, rfl, by positivity, ⟨g1, ?_, g3, g4, g5, rfl⟩, rfl, ?_, ?_, fun _ => rfl⟩
        · show 0 ≤ t.fn + cp * lam; linarith
        · show t.tp + t.tn = _
          rw [if_neg (by simp)]; ring
        · show t.fp + (t.fn + cp * lam) = _
          rw [if_pos (by simp), cost, if_pos rfl]; ring
      · rw [if_neg c3]
        by_cases c4 : p = some 1 ∧ y = 0
        · rw [if_pos c4]
          obtain ⟨rfl, rfl⟩ := c4
          have hpos : 0 < cn * lam := mul_pos hcn hl
          rw [refresh_ok { t with fp := t.fp + cn * lam } g6 hs]
          have ha : 0 < (t.fp + cn * lam + t.fn) / t.sum := div_pos (by linarith) hs
          simp only [pdiv_ok (show 2 * ((t.fp + cn * lam + t.fn) / t.sum) ≠ 0 by linarith), Except.map]
          refine ⟨_, _, rfl, by positivity, ⟨g1, g2, g3, ?_, g5, rfl⟩, rfl, ?_, ?_, fun _ => rfl⟩
          · show 0 ≤ t.fp + cn * lam; linarith
          · show t.tp + t.tn = _
            rw [if_neg (by simp)]; ring
          · show t.fp + cn * lam + t.fn = _
            rw [if_pos (by simp), cost, if_neg (by decide)]; ring
        · rw [if_neg c4]
          have n1 : ¬ (p = some y ∧ (y = 0 ∨ y = 1)) := by
            rintro ⟨rfl, rfl | rfl⟩
            · exact c2 ⟨rfl, rfl⟩
            · exact c1 ⟨rfl, rfl⟩
          have n2 : ¬ (p = some (1 - y) ∧ (y = 0 ∨ y = 1)) := by
            rintro ⟨rfl, rfl | rfl⟩
            · exact c4 ⟨rfl, rfl⟩
            · exact c3 ⟨rfl, rfl⟩
          refine ⟨lam, t, rfl, hl, ⟨g1, g2, g3, g4, g5, g6⟩, rfl, by rw [if_neg n1]; ring, by rw [if_neg n2]; ring, ?_⟩
          rintro ⟨h1 | h1, h2⟩
          · exact absurd ⟨h1, h2⟩ n1
          · exact absurd ⟨h1, h2⟩ n2

theorem ada_safe (cp cn : ℚ) (hcp : 0 < cp) (hcn : 0 < cn) :
    Safe (adaC2 cp cn) Ada.Good (fun _ _ t => t.Good ∧ 0 < t.sum) (fun r => 0 < r) (fun _ => True) (fun _ _ => True) where
  bump _ _ _ := ⟨trivial, trivial⟩
  count y lam t hl ht := by
    obtain ⟨g1, g2, g3, g4, g5, g6⟩ := ht
    exact ⟨⟨g1, g2, g3, g4, by show 0 ≤ t.sum + lam; linarith, g6⟩, by show 0 < t.sum + lam; linarith⟩
  rate y i n lam g t _ hl _ _ := ⟨lam, rfl, hl⟩
  skip y lam t ht := ht.1
  after p y lam t hl ht := by
    obtain ⟨lam', t', h1, h2, h3, _⟩ := adaAfter_spec cp cn hcp hcn p y lam hl t ht.1 ht.2
    exact ⟨lam', t', h1, h2, h3⟩

theorem ada_start : (adaC2 cp cn).start.Good := ⟨le_refl _, le_refl _, le_refl _, le_refl _, le_refl _, rfl⟩

/-- C178 (partial): AdaC2 with positive costs and at least as many members as classes: whatever is
drawn and predicted, training on any sequence of batches succeeds and every Poisson rate is positive.
Missing (see the violation): fewer members than classes. -/
theorem C178_adac2_partial (E : Env σ δ X Ada Unit) (cp cn : ℚ) (hE : E.sc = adaC2 cp cn) (hcp : 0 < cp) (hcn : 0 < cn)
    (hb : E.b.Total) (n : Nat) (known : List Int) (hn : known.length ≤ n) (c : Call X) (hc1 : c.classes = some known)
    (cs : List (Call X)) (hc : ∀ c ∈ cs, c.Fits known) :
    ∃ vs s, run E (c :: cs) (fresh E n) = .ok (vs, s) ∧ ∀ v ∈ vs, 0 < v.rate := by
  have hs := ada_safe cp cn hcp hcn
  rw [← hE] at hs
  obtain ⟨vs, s, h1, _, _, h4⟩ := run_fresh_ok E hb hs n known c hc1 cs hc trivial (by rw [hE]; exact ada_start)
    (by rw [hE]; exact ⟨le_refl _, le_refl _, le_refl _, le_refl _, le_refl _, rfl⟩) (.inl hn)
  exact ⟨vs, s, h1, fun v hv => (h4 v hv).2⟩

/-- The entries of a member, from its visits. -/
theorem ada_play (cp cn : ℚ) (hcp : 0 < cp) (hcn : 0 < cn) (h : List (Visit X)) (hl : ∀ v ∈ h, 0 < v.lam) :
    ∃ t, h.foldlM (adaC2 cp cn).play ({} : Ada) = .ok t ∧ t.Good ∧ t.sum = shown h ∧
      t.tp + t.tn = charged (cost cp cn) Visit.hit h ∧ t.fp + t.fn = charged (cost cp cn) Visit.miss h ∧
      ∀ v, h.getLast? = some v → v.hit || v.miss →
        t.acc = some ((t.tp + t.tn) / t.sum, (t.fp + t.fn) / t.sum) := by
  induction h using List.reverseRecOn with
  | nil => exact ⟨{}, rfl, ada_start (cp := cp) (cn := cn), by simp [shown], by simp [charged], by simp [charged], by simp⟩
  | append_singleton h v ih =>
    obtain ⟨t, e1, e2, e3, e4, e5, _⟩ := ih fun v' hv' => hl v' (by simp [hv'])
    have hlv := hl v (by simp)
    have hsh : shown (h ++ [v]) = shown h + v.lam := by simp [shown]
    have hch : ∀ q : Visit X → Bool, charged (cost cp cn) q (h ++ [v]) =
        charged (cost cp cn) q h + (if q v then cost cp cn v.y * v.lam else 0) := by
      intro q; simp [charged]
    obtain ⟨g1, g2, g3, g4, g5, g6⟩ := e2
    rw [List.foldlM_append, e1]
    simp only [List.foldlM_cons, List.foldlM_nil, bind, Except.bind]
    cases hseen : v.seen with
    | none =>
      have hp : (adaC2 cp cn).play t v = .ok { t with sum := t.sum + v.lam } := by
        unfold Scheme.play; rw [hseen]; rfl
      have h1 : v.hit = false := by simp [Visit.hit, hseen]
      have h2 : v.miss = false := by simp [Visit.miss, hseen]
      simp only [hp, pure, Except.pure]
      refine ⟨_, rfl, ⟨g1, g2, g3, g4, by show 0 ≤ t.sum + v.lam; linarith, g6⟩, by rw [hsh, ← e3], ?_, ?_, ?_⟩
      · rw [hch, h1]; simpa using e4
      · rw [hch, h2]; simpa using e5
      · intro v' hv' hq
        simp only [List.getLast?_append, List.getLast?_singleton, Option.some_or, Option.some.injEq] at hv'
        subst hv'
        simp [h1, h2] at hq
    | some p =>
      obtain ⟨lam', t', f1, f2, f3, f4, f5, f6, f7⟩ := adaAfter_spec cp cn hcp hcn p v.y v.lam hlv { t with sum := t.sum + v.lam }
        ⟨g1, g2, g3, g4, by show 0 ≤ t.sum + v.lam; linarith, g6⟩ (by show 0 < t.sum + v.lam; linarith)
      have hp : (adaC2 cp cn).play t v = .ok t' := by
        unfold Scheme.play
        rw [hseen]
        show (adaAfter cp cn p v.y v.lam { t with sum := t.sum + v.lam }).map Prod.snd = _
        rw [f1]; rfl
      have h1 : v.hit = true ↔ (p = some v.y ∧ (v.y = 0 ∨ v.y = 1)) := by simp [Visit.hit, hseen]
      have h2 : v.miss = true ↔ (p = some (1 - v.y) ∧ (v.y = 0 ∨ v.y = 1)) := by simp [Visit.miss, hseen]
      simp only [hp, pure, Except.pure]
      refine ⟨_, rfl, f3, by rw [hsh, f4, ← e3], ?_, ?_, ?_⟩
      · rw [hch, f5, ← e4]
        simp only [h1]
      · rw [hch, f6, ← e5]
        simp only [h2]
      · intro v' hv' hq
        simp only [List.getLast?_append, List.getLast?_singleton, Option.some_or, Option.some.injEq] at hv'
        subst hv'
        apply f7
        rw [Bool.or_eq_true, h1, h2] at hq
        rcases hq with ⟨a, b⟩ | ⟨a, b⟩
        · exact ⟨.inl a, b⟩
        · exact ⟨.inr a, b⟩

/-- C179: in AdaC2 the weighted accuracy and the weighted error of a member, after it was trained on a
sample, are the cost-weighted shares of the weight of all samples shown to it that it predicted
correctly or wrongly when trained on them. -/
theorem C179_weighted_accuracy (E : Env σ δ X Ada Unit) (cp cn : ℚ) (hE : E.sc = adaC2 cp cn) (hcp : 0 < cp) (hcn : 0 < cn)
    (hb : E.b.Total) (n : Nat) (known : List Int) (hn : known.length ≤ n) (c : Call X) (hc1 : c.classes = some known)
    (cs : List (Call X)) (hc : ∀ c ∈ cs, c.Fits known) :
    ∃ vs s, run E (c :: cs) (fresh E n) = .ok (vs, s) ∧ ∀ j < n, ∃ m, s.members[j]? = some m ∧
      ∀ v, (visitsOf j vs).getLast? = some v → (v.hit || v.miss) = true →
        m.tally.acc = some (charged (cost cp cn) Visit.hit (visitsOf j vs) / shown (visitsOf j vs),
          charged (cost cp cn) Visit.miss (visitsOf j vs) / shown (visitsOf j vs)) := by
  have hs := ada_safe cp cn hcp hcn
  rw [← hE] at hs
  obtain ⟨vs, s, h1, _, _, h4⟩ := run_fresh_ok E hb hs n known c hc1 cs hc trivial (by rw [hE]; exact ada_start)
    (by rw [hE]; exact ⟨le_refl _, le_refl _, le_refl _, le_refl _, le_refl _, rfl⟩) (.inl hn)
  refine ⟨vs, s, h1, fun j hj => ?_⟩
  obtain ⟨m, m1, m2⟩ := run_fresh_hist E n known c hc1 cs hc (.inl hn) s vs h1 j (by omega)
  refine ⟨m, m1, fun v hv hq => ?_⟩
  rw [hE] at m2
  obtain ⟨t, t1, _, t3, t4, t5, t6⟩ := ada_play cp cn hcp hcn (visitsOf j vs) fun v hv =>
    (h4 v (List.mem_filter.mp hv).1).1
  have : (adaC2 cp cn).start = ({} : Ada) := rfl
  rw [this, t1, Except.ok.injEq] at m2
  rw [← m2, t6 v hv hq, t3, t4, t5]

/-! ### CSB2 -/

/-- Entries of CSB2 that occur: note that both kinds of misses are charged with `cp`. -/
def Csb.Good (cp : ℚ) (t : Csb) : Prop := 0 ≤ t.sw ∧ t.sw ≤ t.sum ∧ t.fp + t.fn = cp * t.sw

theorem csb_refresh_ok (t : Csb) (h : 0 < t.sum) :
    t.refresh = .ok { t with eps := t.sw / t.sum, werr := (t.fp + t.fn) / t.sum } := by
  unfold Csb.refresh
  simp only [pdiv_ok h.ne']

/-- What the update does; `t` has already counted the sample. -/
theorem csbAfter_spec (cp cn : ℚ) (hcp : 0 < cp) (hcn : 0 < cn) (p : Option Int) (y : Int) (lam : ℚ) (hl : 0 < lam) (t : Csb)
    (ht : t.Good cp) (hs : t.sw + lam ≤ t.sum) :
    ∃ lam' t', csbAfter cp cn p y lam t = .ok (lam', t') ∧ 0 < lam' ∧ t'.Good cp ∧ t'.sum = t.sum ∧
      t'.sw = t.sw + (if p = some y then 0 else lam) ∧ t'.eps = t'.sw / t'.sum ∧ t'.werr = cp * t'.eps ∧
      (p = some y → t'.eps ≠ 0 → t'.eps ≠ 1 → lam' = 1 / ((1 - t'.eps) * (1 + cp))) ∧
      (p ≠ some y → lam' = (if p = some 0 ∧ y = 1 then cp else cn) * lam / (t'.eps * (1 + cp))) := by
  obtain ⟨g1, g2, g3⟩ := ht
  have hsum : 0 < t.sum := by linarith
  unfold csbAfter
  by_cases c1 : p = some y
  · rw [if_pos c1, csb_refresh_ok t hsum]
    simp only []
    have he0 : 0 ≤ t.sw / t.sum := div_nonneg g1 hsum.le
    have he1 : t.sw / t.sum < 1 := by rw [div_lt_one hsum]; linarith
    have hw : (t.fp + t.fn) / t.sum = cp * (t.sw / t.sum) := by rw [g3]; ring
    rw [hw]
    by_cases c2 : t.sw / t.sum + cp * (t.sw / t.sum) ≠ 0 ∧ t.sw / t.sum ≠ 1
    · rw [if_pos c2]
      have hne : t.sw / t.sum ≠ 0 := by
        intro h; apply c2.1; rw [h]; ring
      have hpos : 0 < t.sw / t.sum := lt_of_le_of_ne he0 (Ne.symm hne)
      have hd : 0 < (1 - t.sw / t.sum) * (t.sw / t.sum + cp * (t.sw / t.sum)) := by
        have h1 : 0 < 1 - t.sw / t.sum := by linarith
        have h2 : 0 < t.sw / t.sum + cp * (t.sw / t.sum) := by positivity
        exact mul_pos h1 h2
      rw [pdiv_ok hd.ne']
      simp only [Except.map]
      refine ⟨_, _, rfl, div_pos hpos hd, ⟨g1, g2, g3⟩, rfl, by rw [if_pos c1]; ring, rfl, rfl, ?_, fun h => absurd c1 h⟩
      intro _ _ _
      show t.sw / t.sum / _ = _
      have e1 : (1 - t.sw / t.sum) ≠ 0 := by linarith
      have e2 : (1 + cp) ≠ 0 := by positivity
      generalize t.sw / t.sum = e at *
      field_simp
    · rw [if_neg c2]
      refine ⟨_, _, rfl, hl, ⟨g1, g2, g3⟩, rfl, by rw [if_pos c1]; ring, rfl, rfl, ?_, fun h => absurd c1 h⟩
      intro _ hne hne1
      exfalso
      apply c2
      refine ⟨?_, hne1⟩
      have hpos : 0 < t.sw / t.sum := lt_of_le_of_ne he0 (Ne.symm hne)
      positivity
  · rw [if_neg c1]
    have he : 0 < (t.sw + lam) / t.sum := div_pos (by linarith) hsum
    by_cases c2 : p = some 0 ∧ y = 1
    · rw [if_pos c2, csb_refresh_ok _ (by exact hsum)]
      simp only []
      have hw : (t.fp + cp * lam + t.fn) / t.sum = cp * ((t.sw + lam) / t.sum) := by
        rw [← mul_div_assoc]; congr 1; linarith
      rw [hw]
      have hd : 0 < (t.sw + lam) / t.sum + cp * ((t.sw + lam) / t.sum) := by positivity
      rw [pdiv_ok hd.ne']
      simp only [Except.map]
      refine ⟨_, _, rfl, div_pos (mul_pos hcp hl) hd, ⟨by show 0 ≤ t.sw + lam; linarith, hs, ?_⟩, rfl, by rw [if_neg c1], rfl, rfl,
        fun h => absurd h c1, fun _ => ?_⟩
      · show t.fp + cp * lam + t.fn = cp * (t.sw + lam); linarith
      · rw [if_pos c2]; congr 1; ring
    · rw [if_neg c2, csb_refresh_ok _ (by exact hsum)]
      simp only []
      have hw : (t.fp + (t.fn + cp * lam)) / t.sum = cp * ((t.sw + lam) / t.sum) := by
        rw [← mul_div_assoc]; congr 1; linarith
      rw [hw]
      have hd : 0 < (t.sw + lam) / t.sum + cp * ((t.sw + lam) / t.sum) := by positivity
      rw [pdiv_ok hd.ne']
      simp only [Except.map]
      refine ⟨_, _, rfl, div_pos (mul_pos hcn hl) hd, ⟨by show 0 ≤ t.sw + lam; linarith, hs, ?_⟩, rfl, by rw [if_neg c1], rfl, rfl,
        fun h => absurd h c1, fun _ => ?_⟩
      · show t.fp + (t.fn + cp * lam) = cp * (t.sw + lam); linarith
      · rw [if_neg c2]; congr 1; ring

theorem csb_safe (cp cn : ℚ) (hcp : 0 < cp) (hcn : 0 < cn) :
    Safe (csb2 cp cn) (Csb.Good cp) (fun _ lam t => t.Good cp ∧ t.sw + lam ≤ t.sum) (fun r => 0 < r) (fun _ => True) (fun _ _ => True) where
  bump _ _ _ := ⟨trivial, trivial⟩
  count y lam t hl ht := by
    obtain ⟨g1, g2, g3⟩ := ht
    exact ⟨⟨g1, by show t.sw ≤ t.sum + lam; linarith, g3⟩, by show t.sw + lam ≤ t.sum + lam; linarith⟩
  rate y i n lam g t _ hl _ _ := ⟨lam, rfl, hl⟩
  skip y lam t ht := ht.1
  after p y lam t hl ht := by
    obtain ⟨lam', t', h1, h2, h3, _⟩ := csbAfter_spec cp cn hcp hcn p y lam hl t ht.1 ht.2
    exact ⟨lam', t', h1, h2, h3⟩

theorem csb_start (cp cn : ℚ) : (csb2 cp cn).start.Good cp :=
  ⟨le_refl _, le_refl _, by show (0 : ℚ) + 0 = cp * 0; ring⟩

/-- C178: CSB2 with positive costs: whatever is drawn and predicted, training on any sequence of
batches succeeds and every Poisson rate is positive. -/
theorem C178_csb2 (E : Env σ δ X Csb Unit) (cp cn : ℚ) (hE : E.sc = csb2 cp cn) (hcp : 0 < cp) (hcn : 0 < cn)
    (hb : E.b.Total) (n : Nat) (known : List Int) (c : Call X) (hc1 : c.classes = some known)
    (cs : List (Call X)) (hc : ∀ c ∈ cs, c.Fits known) :
    ∃ vs s, run E (c :: cs) (fresh E n) = .ok (vs, s) ∧ ∀ v ∈ vs, 0 < v.rate := by
  have hs := csb_safe cp cn hcp hcn
  rw [← hE] at hs
  obtain ⟨vs, s, h1, _, _, h4⟩ := run_fresh_ok E hb hs n known c hc1 cs hc trivial (by rw [hE]; exact csb_start cp cn)
    (by rw [hE]; exact csb_start cp cn) (.inr (by rw [hE]; exact csb_start cp cn))
  exact ⟨vs, s, h1, fun v hv => (h4 v hv).2⟩

/-- Wrong after training. -/
def Visit.wrong (v : Visit X) : Bool := match v.seen with | none => false | some p => decide (p ≠ some v.y)

theorem csb_play (cp cn : ℚ) (hcp : 0 < cp) (hcn : 0 < cn) (h : List (Visit X)) (hl : ∀ v ∈ h, 0 < v.lam) :
    ∃ t, h.foldlM (csb2 cp cn).play ({} : Csb) = .ok t ∧ t.Good cp ∧ t.sum = shown h ∧
      t.sw = charged (fun _ => 1) Visit.wrong h ∧ t.werr = cp * t.eps ∧
      ∀ v, h.getLast? = some v → v.seen ≠ none → t.eps = t.sw / t.sum := by
  induction h using List.reverseRecOn with
  | nil => exact ⟨{}, rfl, csb_start cp cn, by simp [shown], by simp [charged], by show (0 : ℚ) = cp * 0; ring, by simp⟩
  | append_singleton h v ih =>
    obtain ⟨t, e1, e2, e3, e4, e5, _⟩ := ih fun v' hv' => hl v' (by simp [hv'])
    have hlv := hl v (by simp)
    have hsh : shown (h ++ [v]) = shown h + v.lam := by simp [shown]
    have hch : charged (fun _ => 1) Visit.wrong (h ++ [v]) =
        charged (fun _ => 1) Visit.wrong h + (if v.wrong then v.lam else 0) := by simp [charged]
    obtain ⟨g1, g2, g3⟩ := e2
    rw [List.foldlM_append, e1]
    simp only [List.foldlM_cons, List.foldlM_nil, bind, Except.bind]
    cases hseen : v.seen with
    | none =>
      have hp : (csb2 cp cn).play t v = .ok { t with sum := t.sum + v.lam } := by
        unfold Scheme.play; rw [hseen]; rfl
      have h1 : v.wrong = false := by simp [Visit.wrong, hseen]
      simp only [hp, pure, Except.pure]
      refine ⟨_, rfl, ⟨g1, by show t.sw ≤ t.sum + v.lam; linarith, g3⟩, by rw [hsh, ← e3], ?_, e5, ?_⟩
      · rw [hch, h1]; simpa using e4
      · intro v' hv' hq
        simp only [List.getLast?_append, List.getLast?_singleton, Option.some_or, Option.some.injEq] at hv'
        subst hv'
        exact absurd hseen hq
    | some p =>
      obtain ⟨lam', t', f1, f2, f3, f4, f5, f6, f7, _⟩ := csbAfter_spec cp cn hcp hcn p v.y v.lam hlv { t with sum := t.sum + v.lam }
        ⟨g1, by show t.sw ≤ t.sum + v.lam; linarith, g3⟩ (by show t.sw + v.lam ≤ t.sum + v.lam; linarith)
      have hp : (csb2 cp cn).play t v = .ok t' := by
        unfold Scheme.play
        rw [hseen]
        show (csbAfter cp cn p v.y v.lam { t with sum := t.sum + v.lam }).map Prod.snd = _
        rw [f1]; rfl
      have h1 : v.wrong = true ↔ p ≠ some v.y := by simp [Visit.wrong, hseen]
      simp only [hp, pure, Except.pure]
      refine ⟨_, rfl, f3, by rw [hsh, f4, ← e3], ?_, f7, fun _ _ _ => f6⟩
      rw [hch, f5, ← e4]
      congr 1
      by_cases hq : p = some v.y
      · rw [if_pos hq, if_neg (by rw [h1]; simp [hq])]
      · rw [if_neg hq, if_pos (by rw [h1]; exact hq)]

/-- C180 (partial): the error estimate `epsilon` of a member of CSB2 after it was trained on a sample is
the share of weight of the samples it got wrong when trained on them, among all shown. -/
theorem C180_error_estimate_partial (E : Env σ δ X Csb Unit) (cp cn : ℚ) (hE : E.sc = csb2 cp cn) (hcp : 0 < cp) (hcn : 0 < cn)
    (hb : E.b.Total) (n : Nat) (known : List Int) (c : Call X) (hc1 : c.classes = some known)
    (cs : List (Call X)) (hc : ∀ c ∈ cs, c.Fits known) :
    ∃ vs s, run E (c :: cs) (fresh E n) = .ok (vs, s) ∧ ∀ j < max n known.length, ∃ m, s.members[j]? = some m ∧
      ∀ v, (visitsOf j vs).getLast? = some v → v.seen ≠ none →
        m.tally.eps = charged (fun _ => 1) Visit.wrong (visitsOf j vs) / shown (visitsOf j vs) := by
  have hs := csb_safe cp cn hcp hcn
  rw [← hE] at hs
  obtain ⟨vs, s, h1, _, _, h4⟩ := run_fresh_ok E hb hs n known c hc1 cs hc trivial (by rw [hE]; exact csb_start cp cn)
    (by rw [hE]; exact csb_start cp cn) (.inr (by rw [hE]; exact csb_start cp cn))
  refine ⟨vs, s, h1, fun j hj => ?_⟩
  obtain ⟨m, m1, m2⟩ := run_fresh_hist E n known c hc1 cs hc (.inr (by rw [hE]; exact ⟨rfl, rfl⟩)) s vs h1 j hj
  refine ⟨m, m1, fun v hv hq => ?_⟩
  rw [hE] at m2
  obtain ⟨t, t1, _, t3, t4, _, t6⟩ := csb_play cp cn hcp hcn (visitsOf j vs) fun v hv =>
    (h4 v (List.mem_filter.mp hv).1).1
  have : (csb2 cp cn).start = ({} : Csb) := rfl
  rw [this, t1, Except.ok.injEq] at m2
  rw [← m2, t6 v hv hq, t3, t4]

/-- C180 (violated): the weighted error of every member of CSB2 is always `cost_positive` times its
unweighted error: false alarms are charged with `cost_positive` too, `cost_negative` never enters. -/
theorem C180_cost_negative_ignored_violated (E : Env σ δ X Csb Unit) (cp cn : ℚ) (hE : E.sc = csb2 cp cn) (hcp : 0 < cp) (hcn : 0 < cn)
    (hb : E.b.Total) (n : Nat) (known : List Int) (c : Call X) (hc1 : c.classes = some known)
    (cs : List (Call X)) (hc : ∀ c ∈ cs, c.Fits known) :
    ∃ vs s, run E (c :: cs) (fresh E n) = .ok (vs, s) ∧ ∀ j < max n known.length, ∃ m, s.members[j]? = some m ∧
      m.tally.werr = cp * m.tally.eps := by
  have hs := csb_safe cp cn hcp hcn
  rw [← hE] at hs
  obtain ⟨vs, s, h1, _, _, h4⟩ := run_fresh_ok E hb hs n known c hc1 cs hc trivial (by rw [hE]; exact csb_start cp cn)
    (by rw [hE]; exact csb_start cp cn) (.inr (by rw [hE]; exact csb_start cp cn))
  refine ⟨vs, s, h1, fun j hj => ?_⟩
  obtain ⟨m, m1, m2⟩ := run_fresh_hist E n known c hc1 cs hc (.inr (by rw [hE]; exact ⟨rfl, rfl⟩)) s vs h1 j hj
  refine ⟨m, m1, ?_⟩
  rw [hE] at m2
  obtain ⟨t, t1, _, t3, t4, t5, t6⟩ := csb_play cp cn hcp hcn (visitsOf j vs) fun v hv =>
    (h4 v (List.mem_filter.mp hv).1).1
  have : (csb2 cp cn).start = ({} : Csb) := rfl
  rw [this, t1, Except.ok.injEq] at m2
  rw [← m2, t5]

/-- C180 (violated): after a correct prediction of a member with an error strictly between 0 and 1, the
weight passed on does not depend on the weight the sample had: it is `1 / ((1 - eps) (1 + cost_positive))`. -/
theorem C180_weight_forgotten_violated (cp cn : ℚ) (hcp : 0 < cp) (hcn : 0 < cn) (y : Int) (lam : ℚ) (hl : 0 < lam) (t : Csb)
    (ht : t.Good cp) (hs : t.sw + lam ≤ t.sum) (h0 : t.sw ≠ 0) :
    ∃ t', csbAfter cp cn (some y) y lam t = .ok (1 / ((1 - t.sw / t.sum) * (1 + cp)), t') := by
  obtain ⟨lam', t', h1, _, _, h4, h5, h6, _, h8, _⟩ := csbAfter_spec cp cn hcp hcn (some y) y lam hl t ht hs
  have hsw : t'.sw = t.sw := by rw [h5, if_pos rfl]; ring
  have hsum : 0 < t.sum := by have := ht.1; linarith
  have he : t'.eps = t.sw / t.sum := by rw [h6, h4, hsw]
  refine ⟨t', ?_⟩
  rw [h1, ← he, h8 rfl (by rw [he]; exact div_ne_zero h0 hsum.ne') (by
    rw [he]; have : t.sw / t.sum < 1 := by rw [div_lt_one hsum]; linarith
    exact this.ne)]

/-! ### Fewer members than classes -/

/-- C178 (violated): AdaC2 with one member and two classes: `wacc` and `werr` do not grow with the
ensemble, so training on one binary sample raises `IndexError` whenever the draws are positive and
the second member predicts 0 or 1. -/
theorem C178_adac2_index_error_violated (E : Env σ δ X Ada Unit) (cp cn : ℚ) (hE : E.sc = adaC2 cp cn) (hcp : 0 < cp) (hcn : 0 < cn)
    (hb : E.b.Total) (hp : ∀ pos r, 0 < E.poisson pos r) (hpred : ∀ s x, predict1 E.b s x = .ok (some 0) ∨ predict1 E.b s x = .ok (some 1))
    (x : X) (y : Int) (hy : y = 0 ∨ y = 1) (w : Option (List ℚ)) :
    partialFit E ⟨[(x, y)], some [0, 1], w⟩ (fresh E 1) = .error .indexError := by
  set c : Call X := ⟨[(x, y)], some [0, 1], w⟩ with hcd
  have hrate : ∀ y i n lam g t, E.sc.rate y i n lam g t = .ok lam := by intro y i n lam g t; rw [hE]; rfl
  have hlooks : ∀ k, 0 < k → E.sc.looks k = true := by intro k hk; rw [hE]; simpa [adaC2] using hk
  have hafter : E.sc.after = adaAfter cp cn := by rw [hE]; rfl
  -- first member
  obtain ⟨s1, hs1⟩ := trainN_ok E.b c (hb.takes c) x y (E.poisson 0 1) E.b.init
  obtain ⟨p1, hp1⟩ := predict1_ok E.b c (hb.takes c) s1 x
  set t1 : Ada := E.sc.count y 1 (E.sc.rezero E.sc.start) with ht1
  have ht1g : t1.Good ∧ 0 < t1.sum := by
    rw [ht1, hE]
    refine ⟨⟨le_refl _, le_refl _, le_refl _, le_refl _, ?_, rfl⟩, ?_⟩
    · show (0 : ℚ) ≤ 0 + 1; norm_num
    · show (0 : ℚ) < 0 + 1; norm_num
  obtain ⟨lam', t', f1, f2, _⟩ := adaAfter_spec cp cn hcp hcn p1 y 1 one_pos t1 ht1g.1 ht1g.2
  obtain ⟨⟨a, ch⟩, hw1⟩ := watch_ok E c (hb.takes c) s1 E.d.new false
  have hj1 : judge E x y 1 (E.poisson 0 1) s1 t1 = .ok (some p1, lam', t') := by
    unfold judge
    rw [if_pos (hlooks _ (hp _ _)), hp1]
    simp only [hafter, f1]
  -- second member
  obtain ⟨s2, hs2⟩ := trainN_ok E.b c (hb.takes c) x y (E.poisson 1 lam') E.b.init
  have hj2 : judge E x y lam' (E.poisson 1 lam') s2 (E.sc.count y lam' E.sc.extra) = .error .indexError := by
    unfold judge
    rw [if_pos (hlooks _ (hp _ _))]
    have hacc : (E.sc.count y lam' E.sc.extra).acc = none := by rw [hE]; rfl
    have hr : ∀ t : Ada, t.acc = none → t.refresh = .error .indexError := by
      intro t h; unfold Ada.refresh; rw [h]
    generalize E.sc.count y lam' E.sc.extra = t at hacc
    have : ∀ p, (p = some 0 ∨ p = some 1) → adaAfter cp cn p y lam' t = .error .indexError := by
      intro p hpp
      unfold adaAfter
      rcases hpp with rfl | rfl <;> rcases hy with rfl | rfl <;> simp [hr, hacc]
    rcases hpred s2 x with h | h
    · rw [h]; simp only [hafter, this _ (.inl rfl)]
    · rw [h]; simp only [hafter, this _ (.inr rfl)]
  have hadj : adjust E [0, 1] (fresh E 1).members =
      [⟨E.b.init, E.d.new, E.sc.rezero E.sc.start⟩, ⟨E.b.init, E.d.new, E.sc.extra⟩] := rfl
  have hgo : ∀ g : Unit, visitAll E c x y 2 [⟨E.b.init, E.d.new, E.sc.rezero E.sc.start⟩, ⟨E.b.init, E.d.new, E.sc.extra⟩]
      0 1 g 0 false = .error .indexError := by
    intro g
    rw [visitAll]
    simp only [hrate]
    rw [hs1]
    dsimp only
    rw [← ht1, hj1]
    dsimp only
    rw [hw1]
    dsimp only
    rw [visitAll]
    simp only [hrate, Nat.zero_add]
    rw [hs2]
    dsimp only
    rw [hj2]
  have hrow : ∀ s : St σ δ Ada Unit, s.members = [⟨E.b.init, E.d.new, E.sc.rezero E.sc.start⟩, ⟨E.b.init, E.d.new, E.sc.extra⟩] →
      s.pos = 0 → trainRow E c x y s = .error .indexError := by
    intro s h1 h2
    rw [trainRow, h1, h2]
    have h3 := hgo s.shared
    simp only [List.length_cons, List.length_nil, Nat.zero_add, Nat.reduceAdd]
    rw [h3]
  have hck : checkClasses (fresh E 1).classes c.classes = .ok [0, 1] := rfl
  unfold partialFit
  rw [hck]
  show trainRows E c [(x, y)] _ = _
  rw [trainRows, hrow _ hadj rfl]

/-- A base learner that predicts the label it was last trained on. -/
def lastLabel : Base Int Unit :=
  ⟨0, fun _ _ y _ _ => .ok y, fun s xs => .ok (xs.map fun _ => some s), fun _ => 0⟩

/-- The number of changes seen so far; never reports a change. -/
def quiet : Det Nat := ⟨0, fun n _ => n + 1, fun n => (false, n), fun _ => 0⟩

theorem lastLabel_total : lastLabel.Total :=
  ⟨fun _ _ y _ _ => ⟨y, rfl⟩, fun s xs => ⟨xs.map fun _ => some s, rfl, by simp⟩⟩

/-- AdaC2 over `lastLabel`; the fourth draw is 0. -/
def adaEnv : Env Int Nat Unit Ada Unit := ⟨adaC2 1 (1/10), lastLabel, quiet, true, fun pos _ => if pos = 3 then 0 else 1⟩

/-- The hypotheses are met: two members, a positive and a negative sample; the second member is not
drawn the second time. -/
example : lastLabel.Total ∧
    ((run adaEnv
      [⟨[((), 1)], some [0, 1], none⟩, ⟨[((), 0)], none, none⟩] (fresh adaEnv 2)).toOption.map fun r =>
        (r.1.map fun v => ((v.i, v.lam), (v.rate, v.seen)))) =
    some [((0, 1), (1, some (some 1))), ((1, 1/2), (1/2, some (some 1))), ((0, 1), (1, some (some 0))), ((1, 1/11), (1/11, none))] :=
  ⟨lastLabel_total, by decide +kernel⟩

example : ((run adaEnv
      [⟨[((), 1)], some [0, 1], none⟩, ⟨[((), 0)], none, none⟩] (fresh adaEnv 2)).toOption.map fun r =>
        r.2.members.map fun m => m.tally.acc) = some [some (11/20, 0), some (1, 0)] := by decide +kernel

end Verif.Meta.Skew
