import Verif.Meta.PatchesLife
import Verif.Meta.PatchesProps
import Mathlib.Data.List.Perm.Subperm
import Mathlib.Algebra.BigOperators.Ring.List

/-!
One step of a member of `Meta/PatchesLife.lean`; used for C138, C139, C141.
-/

namespace Verif.Meta.Patches

variable {T D R : Type}

/-- Member `i` as a machine: its model is the estimator with its feature subset, its
training samples are the instances with positive weight. -/
def mach (E : Env T D R) (c : Conf) (dr : Nat → Nat → Draw R) (i : Nat) :
    Life.Machine (Mem T D) (List ℚ × Int × ℚ) (T × Option (List Nat)) (List ℚ × Int × Nat) where
  feed t a m := feed E c m a t (dr t i)
  tree m := (m.est.tree, m.est.sub)
  created m := m.created
  bg m := m.bg.map fun b => ((b.est.tree, b.est.sub), b.created)
  nWarn m := m.nWarn
  nDrift m := m.nDrift
  smp t a := if 0 < (if c.everySample then 1 else (dr t i).k) then
    some (a.1, a.2.1, if c.everySample then 1 else (dr t i).k) else none

/-- A feature subset like the original one `sub0`: none, or as many distinct features. -/
def SubOk (n : Nat) (sub0 sub : Option (List Nat)) : Prop :=
  match sub0 with
  | none => sub = none
  | some f0 => ∃ f, sub = some f ∧ Drawn f f0.length n

/-- An untrained estimator with a feature subset. -/
def IsNew (E : Env T D R) (n : Nat) (sub0 : Option (List Nat)) (t : T × Option (List Nat)) : Prop :=
  (∃ r, t.1 = E.blank r) ∧ SubOk n sub0 t.2

/-- Learning one sample: only the features of the subset are seen. The draw is paired with
the nominal attributes in use. -/
def trainSub (E : Env T D R) (r : R × Option (List Nat)) (s : List ℚ × Int × Nat) (t : T × Option (List Nat)) :
    T × Option (List Nat) :=
  (E.train r.1 r.2 (sel t.2 s.1, s.2.1, s.2.2) t.1, t.2)

/-- The random draws are subsets of `range(n)` of the size asked for. -/
def ValidDraws (dr : Nat → Nat → Draw R) (n : Nat) : Prop :=
  ∀ t i (k : Nat), k ≤ n → Drawn ((dr t i).subW k) k n ∧ Drawn ((dr t i).subD k) k n

theorem drawn_le (f : List Nat) (k : Int) (n : Nat) (h : Drawn f k n) : f.length ≤ n := by
  have : f.Subperm (List.range n) := List.subperm_of_subset h.2.1 fun i hi => by simpa using h.2.2 i hi
  simpa using this.length_le

theorem subOk_new (n : Nat) (sub0 sub : Option (List Nat)) (choice : Nat → List Nat)
    (h : SubOk n sub0 sub) (hc : ∀ k : Nat, k ≤ n → Drawn (choice k) k n) : SubOk n sub0 (newSubset sub choice) := by
  cases sub0 with
  | none => simp only [SubOk] at h ⊢; rw [h]; rfl
  | some f0 =>
    obtain ⟨f, rfl, hf⟩ := h
    have hl : f.length = f0.length := by exact_mod_cast hf.1
    refine ⟨choice f.length, rfl, ?_⟩
    rw [← hl]
    exact hc _ (drawn_le f _ n hf)

/-- What stays true of a member. -/
structure Shape (d0 w0 : D) (c : Conf) (n : Nat) (sub0 : Option (List Nat)) (m : Mem T D) : Prop where
  sub : SubOk n sub0 m.est.sub
  bgSub : ∀ b, m.bg = some b → SubOk n sub0 b.est.sub
  noBg : c.useBg = false → m.bg = none
  bgDet : ∀ b, m.bg = some b → b.drift = d0 ∧ b.warn = w0

/-- A detector fed with a list of errors. -/
def fed (E : Env T D R) (d : D) (l : List Bool) : D := l.foldl (fun d e => (E.add d e).1) d

theorem fed_append (E : Env T D R) (d : D) (l : List Bool) (b : Bool) :
    fed E d (l ++ [b]) = (E.add (fed E d l) b).1 := by
  simp [fed]

/-- The error handed to the detectors: whether the estimator is wrong about the instance
right after learning it. -/
def errorOf (E : Env T D R) (c : Conf) (dr : Nat → Nat → Draw R) (i : Nat) (t : Nat) (a : List ℚ × Int × ℚ) (m : Mem T D) :
    List Bool :=
  let k := if c.everySample then 1 else (dr t i).k
  if c.useDrift ∧ 0 < k then
    [decide (E.predict (E.train (dr t i).r1 (nomsUsed c.nominal m.est) (sel m.est.sub a.1, a.2.1, k) m.est.tree)
      (sel m.est.sub a.1) ≠ a.2.1)]
  else []

/-- When the warning detector starts anew: at a warning, and at a drift with a background
learner. -/
def warnRestart (p : Option Nat) (w d : Bool) : Bool := w || (d && p.isSome)

/-- Everything one step does. -/
structure StepSpec (E : Env T D R) (c : Conf) (dr : Nat → Nat → Draw R) (i n : Nat) (sub0 : Option (List Nat))
    (m : Mem T D) (t : Nat) (a : List ℚ × Int × ℚ) : Prop where
  life : ∃ nm newW newD, IsNew E n sub0 newW ∧ IsNew E n sub0 newD ∧
    (∀ b, m.bg = some b → nm = nomsUsed c.nominal b.est) ∧ ∀ c0, Life.step (trainSub E) ((mach E c dr i).toLife m c0)
    ⟨t, (mach E c dr i).smp t a, ((dr t i).r1, nomsUsed c.nominal m.est), ((dr t i).r2, nm), newW, newD,
      decide (m.nWarn < ((mach E c dr i).feed t a m).nWarn), decide (m.nDrift < ((mach E c dr i).feed t a m).nDrift)⟩ =
    (mach E c dr i).toLife ((mach E c dr i).feed t a m)
      (if m.nDrift < ((mach E c dr i).feed t a m).nDrift then ((mach E c dr i).feed t a m).created else c0)
  quiet : (mach E c dr i).smp t a = none → ((mach E c dr i).feed t a m).nWarn = m.nWarn ∧
    ((mach E c dr i).feed t a m).nDrift = m.nDrift
  created : ¬ m.nDrift < ((mach E c dr i).feed t a m).nDrift → ((mach E c dr i).feed t a m).created = m.created
  nDrift : m.nDrift ≤ ((mach E c dr i).feed t a m).nDrift ∧ ((mach E c dr i).feed t a m).nDrift ≤ m.nDrift + 1
  nWarn : m.nWarn ≤ ((mach E c dr i).feed t a m).nWarn ∧ ((mach E c dr i).feed t a m).nWarn ≤ m.nWarn + 1
  shape : Shape E.newDrift E.newWarn c n sub0 ((mach E c dr i).feed t a m)
  evals : ((mach E c dr i).feed t a m).evals = if m.nDrift < ((mach E c dr i).feed t a m).nDrift then [] else
    m.evals ++ [(((Lazy.argmax (E.proba m.est.tree (sel m.est.sub a.1)) : Nat) : Int), a.2.1, a.2.2)]
  drift : ∀ l, m.drift = fed E E.newDrift l → ((mach E c dr i).feed t a m).drift = fed E E.newDrift
    (if m.nDrift < ((mach E c dr i).feed t a m).nDrift then [] else l ++ errorOf E c dr i t a m)
  warn : c.useBg = true → ∀ l, m.warn = fed E E.newWarn l → ((mach E c dr i).feed t a m).warn = fed E E.newWarn
    (if warnRestart (((mach E c dr i).bg m).map fun b => b.2) (decide (m.nWarn < ((mach E c dr i).feed t a m).nWarn))
      (decide (m.nDrift < ((mach E c dr i).feed t a m).nDrift)) then [] else l ++ errorOf E c dr i t a m)

set_option maxHeartbeats 2000000 in
theorem step_spec (E : Env T D R) (c : Conf) (dr : Nat → Nat → Draw R) (i n : Nat) (sub0 : Option (List Nat))
    (hv : ValidDraws dr n) (m : Mem T D) (t : Nat) (a : List ℚ × Int × ℚ) (hm : Shape E.newDrift E.newWarn c n sub0 m) :
    StepSpec E c dr i n sub0 m t a := by
  obtain ⟨est, created, nDrift, nWarn, drift, warn, bg, evals⟩ := m
  obtain ⟨x, y, w⟩ := a
  obtain ⟨h1, h2, h3, h4⟩ := hm
  simp only at h1 h2 h3 h4
  have hW := subOk_new n sub0 est.sub (dr t i).subW h1 fun k hk => (hv t i k hk).1
  have hD := subOk_new n sub0 est.sub (dr t i).subD h1 fun k hk => (hv t i k hk).2
  by_cases hk : (if c.everySample then 1 else (dr t i).k) > 0
  · set k := (if c.everySample then 1 else (dr t i).k) with hkdef
    set pred : Int := ((Lazy.argmax (E.proba est.tree (sel est.sub x)) : Nat) : Int) with hpred
    set est' := learn E c.nominal est (dr t i).r1 x y k with hest
    have hsub : est'.sub = est.sub := rfl
    set bg' := bg.map fun b => { b with est := learn E c.nominal b.est (dr t i).r2 x y k } with hbg
    set err := decide (E.predict est'.tree (sel est'.sub x) ≠ y) with herr
    have hfeed : (mach E c dr i).feed t (x, y, w) ⟨est, created, nDrift, nWarn, drift, warn, bg, evals⟩ =
        if c.useDrift then
          driftStep E c (warnStep E c ⟨est', created, nDrift, nWarn, drift, warn, bg', evals ++ [(pred, y, w)]⟩ err t (dr t i))
            err t (dr t i)
        else ⟨est', created, nDrift, nWarn, drift, warn, bg', evals ++ [(pred, y, w)]⟩ := by
      simp only [mach, feed]
      rw [if_pos hk]
      rfl
    have hbg'2 : ∀ b, bg' = some b → SubOk n sub0 b.est.sub := by
      intro b hb
      rw [hbg, Option.map_eq_some_iff] at hb
      obtain ⟨b0, hb0, rfl⟩ := hb
      exact h2 b0 hb0
    have hbg'3 : c.useBg = false → bg' = none := fun h => by rw [hbg, h3 h]; rfl
    have hbg'4 : ∀ b, bg' = some b → b.drift = E.newDrift ∧ b.warn = E.newWarn := by
      intro b hb
      rw [hbg, Option.map_eq_some_iff] at hb
      obtain ⟨b0, hb0, rfl⟩ := hb
      exact h4 b0 hb0
    have hbgS : bg'.isSome = bg.isSome := by rw [hbg]; simp
    have herrs : errorOf E c dr i t (x, y, w) (⟨est, created, nDrift, nWarn, drift, warn, bg, evals⟩ : Mem T D) =
        if c.useDrift then [err] else [] := by
      have hk0 : 0 < (if c.everySample then 1 else (dr t i).k) := hk
      simp only [errorOf, hk0, and_true]
      rfl
    have hsmp : (mach E c dr i).smp t (x, y, w) = some (x, y, k) := by simp only [mach]; rw [if_pos hk]
    have htree : trainSub E ((dr t i).r1, nomsUsed c.nominal est) (x, y, k) (est.tree, est.sub) = (est'.tree, est'.sub) := rfl
    have hbgl : ∀ nm, (∀ b, bg = some b → nm = nomsUsed c.nominal b.est) →
        ((bg.map fun b => ((b.est.tree, b.est.sub), b.created)).map fun b =>
          (trainSub E ((dr t i).r2, nm) (x, y, k) b.1, b.2)) = bg'.map fun b => ((b.est.tree, b.est.sub), b.created) := by
      intro nm hnm
      cases bg with
      | none => rfl
      | some b =>
        rw [hnm b rfl]; rfl
    obtain ⟨nm, hnm⟩ : ∃ nm, ∀ b, bg = some b → nm = nomsUsed c.nominal b.est := by
      cases bg with
      | none => exact ⟨none, fun b hb => nomatch hb⟩
      | some b => exact ⟨_, fun b' hb' => by cases hb'; rfl⟩
    have hbgl := hbgl nm hnm
    -- the step, given the new member
    have build : ∀ m' : Mem T D,
        (mach E c dr i).feed t (x, y, w) ⟨est, created, nDrift, nWarn, drift, warn, bg, evals⟩ = m' →
        (nWarn ≤ m'.nWarn ∧ m'.nWarn ≤ nWarn + 1) → (nDrift ≤ m'.nDrift ∧ m'.nDrift ≤ nDrift + 1) →
        (¬ nDrift < m'.nDrift → m'.created = created ∧ (m'.est.tree, m'.est.sub) = (est'.tree, est'.sub) ∧
          (m'.bg.map fun b => ((b.est.tree, b.est.sub), b.created)) =
            if nWarn < m'.nWarn then some ((E.blank (dr t i).r3, newSubset est.sub (dr t i).subW), t)
            else bg'.map fun b => ((b.est.tree, b.est.sub), b.created)) →
        (nDrift < m'.nDrift → m'.bg = none ∧ ((m'.est.tree, m'.est.sub), m'.created) =
          match (if nWarn < m'.nWarn then some ((E.blank (dr t i).r3, newSubset est.sub (dr t i).subW), t)
            else bg'.map fun b => ((b.est.tree, b.est.sub), b.created)) with
          | some b => b
          | none => ((E.blank (dr t i).r4, newSubset est.sub (dr t i).subD), t)) →
        (c.useBg = false → m'.bg = none) →
        m'.evals = (if nDrift < m'.nDrift then [] else evals ++ [(pred, y, w)]) →
        (∀ b, m'.bg = some b → b.drift = E.newDrift ∧ b.warn = E.newWarn) →
        (m'.drift = if nDrift < m'.nDrift then E.newDrift else if c.useDrift then (E.add drift err).1 else drift) →
        (c.useBg = true → m'.warn = if nWarn < m'.nWarn ∨ (nDrift < m'.nDrift ∧ bg'.isSome) then E.newWarn else
          if c.useDrift then (E.add warn err).1 else warn) →
        StepSpec E c dr i n sub0 ⟨est, created, nDrift, nWarn, drift, warn, bg, evals⟩ t (x, y, w) := by
      intro m' hm' hw hd hq hdr hnb hev hbd hdD hwD
      have hsubs : SubOk n sub0 m'.est.sub ∧ ∀ b, m'.bg = some b → SubOk n sub0 b.est.sub := by
        by_cases hdc : nDrift < m'.nDrift
        · obtain ⟨ha, hb⟩ := hdr hdc
          refine ⟨?_, fun b hb' => by rw [ha] at hb'; cases hb'⟩
          by_cases hwc : nWarn < m'.nWarn
          · rw [if_pos hwc] at hb
            simp only [Prod.mk.injEq] at hb
            rw [hb.1.2]; exact hW
          · rw [if_neg hwc] at hb
            cases hb' : bg' with
            | none =>
              rw [hb'] at hb
              simp only [Option.map_none, Prod.mk.injEq] at hb
              rw [hb.1.2]; exact hD
            | some b =>
              rw [hb'] at hb
              simp only [Option.map_some, Prod.mk.injEq] at hb
              rw [hb.1.2]; exact hbg'2 b hb'
        · obtain ⟨-, ha, hb⟩ := hq hdc
          simp only [Prod.mk.injEq] at ha
          refine ⟨by rw [ha.2]; exact h1, fun b hb' => ?_⟩
          rw [hb'] at hb
          by_cases hwc : nWarn < m'.nWarn
          · rw [if_pos hwc] at hb
            simp only [Option.map_some, Option.some.injEq, Prod.mk.injEq] at hb
            rw [hb.1.2]; exact hW
          · rw [if_neg hwc] at hb
            cases hb'' : bg' with
            | none => rw [hb''] at hb; cases hb
            | some b2 =>
              rw [hb''] at hb
              simp only [Option.map_some, Option.some.injEq, Prod.mk.injEq] at hb
              rw [hb.1.2]; exact hbg'2 b2 hb''
      refine ⟨?_, ?_, ?_, ?_, ?_, ?_, ?_, ?_, ?_⟩
      · refine ⟨nm, (E.blank (dr t i).r3, newSubset est.sub (dr t i).subW), (E.blank (dr t i).r4, newSubset est.sub (dr t i).subD),
          ⟨⟨_, rfl⟩, hW⟩, ⟨⟨_, rfl⟩, hD⟩, hnm, fun c0 => ?_⟩
        rw [hm', hsmp]
        change Life.step (trainSub E) ⟨(est.tree, est.sub), c0, bg.map fun b => ((b.est.tree, b.est.sub), b.created)⟩
          ⟨t, some (x, y, k), _, _, _, _, decide (nWarn < m'.nWarn), decide (nDrift < m'.nDrift)⟩ =
          ⟨(m'.est.tree, m'.est.sub), if nDrift < m'.nDrift then m'.created else c0,
            m'.bg.map fun b => ((b.est.tree, b.est.sub), b.created)⟩
        simp only [Life.step, htree, hbgl, decide_eq_true_eq]
        by_cases hdc : nDrift < m'.nDrift
        · obtain ⟨ha, hb⟩ := hdr hdc
          simp only [if_pos hdc, ha, Option.map_none]
          cases hbb : (if nWarn < m'.nWarn then some ((E.blank (dr t i).r3, newSubset est.sub (dr t i).subW), t)
            else bg'.map fun b => ((b.est.tree, b.est.sub), b.created)) with
          | some b =>
            rw [hbb] at hb
            simp only at hb
            rw [← hb]
          | none =>
            rw [hbb] at hb
            simp only at hb
            rw [Prod.mk.injEq] at hb
            simp only [hb.1, hb.2]
        · obtain ⟨-, ha, hb⟩ := hq hdc
          simp only [if_neg hdc, hb, ha]
      · intro h; rw [hsmp] at h; cases h
      · intro h
        rw [hm'] at h ⊢
        exact (hq h).1
      · rw [hm']; exact hd
      · rw [hm']; exact hw
      · rw [hm']; exact ⟨hsubs.1, hsubs.2, hnb, hbd⟩
      · rw [hm', hev]
      · intro l hl
        rw [hm', hdD, herrs]
        simp only at hl
        by_cases hdc : nDrift < m'.nDrift
        · simp only [if_pos hdc]; rfl
        · simp only [if_neg hdc]
          cases c.useDrift
          · simp [hl]
          · simp [fed_append, hl]
      · intro hub l hl
        rw [hm', hwD hub, herrs]
        simp only at hl
        have hiff : (warnRestart (((mach E c dr i).bg ⟨est, created, nDrift, nWarn, drift, warn, bg, evals⟩).map fun b => b.2)
            (decide (nWarn < m'.nWarn)) (decide (nDrift < m'.nDrift)) = true) ↔
            (nWarn < m'.nWarn ∨ (nDrift < m'.nDrift ∧ bg'.isSome)) := by
          rw [hbgS]
          simp [warnRestart, mach]
        by_cases hc : nWarn < m'.nWarn ∨ (nDrift < m'.nDrift ∧ bg'.isSome)
        · rw [if_pos hc, if_pos (hiff.2 hc)]; rfl
        · rw [if_neg hc, if_neg (fun h => hc (hiff.1 h))]
          cases c.useDrift
          · simp [hl]
          · simp [fed_append, hl]
    refine build _ hfeed ?_ ?_ ?_ ?_ ?_ ?_ ?_ ?_ ?_ <;> clear build
    all_goals
      cases hud : c.useDrift
      · simp_all
      · simp only [if_true]
        obtain ⟨d', c2, hadd⟩ : ∃ d' c2, E.add drift err = (d', c2) := ⟨_, _, rfl⟩
        obtain ⟨w', c1, hadd2⟩ : ∃ w' c1, E.add warn err = (w', c1) := ⟨_, _, rfl⟩
        clear_value pred err est' bg'
        clear hfeed hbgl hnm htree hsmp herrs hbgS
        cases hub : c.useBg <;> cases c1 <;> cases c2 <;> cases hb : bg' <;>
          simp_all [warnStep, driftStep, trigger, resetMem]
  · obtain ⟨nm, hnm⟩ : ∃ nm, ∀ b, bg = some b → nm = nomsUsed c.nominal b.est := by
      cases bg with
      | none => exact ⟨none, fun b hb => nomatch hb⟩
      | some b => exact ⟨_, fun b' hb' => by cases hb'; rfl⟩
    refine ⟨⟨nm, (E.blank (dr t i).r3, newSubset est.sub (dr t i).subW),
      (E.blank (dr t i).r4, newSubset est.sub (dr t i).subD), ⟨⟨_, rfl⟩, hW⟩, ⟨⟨_, rfl⟩, hD⟩, hnm, fun c0 => ?_⟩, ?_, ?_, ?_, ?_,
      ⟨?_, ?_, ?_, ?_⟩, ?_, ?_, ?_⟩ <;> clear hnm <;> simp_all [mach, feed, Life.step, Life.Machine.toLife, errorOf, warnRestart]

theorem step_ok (E : Env T D R) (c : Conf) (dr : Nat → Nat → Draw R) (i n : Nat) (sub0 : Option (List Nat))
    (m : Mem T D) (t : Nat) (a : List ℚ × Int × ℚ) (h : StepSpec E c dr i n sub0 m t a) :
    (mach E c dr i).StepOk (IsNew E n sub0) (trainSub E) m t a := by
  obtain ⟨nm, newW, newD, h1, h2, -, h3⟩ := h.life
  exact ⟨⟨_, _, newW, newD, h1, h2, h3⟩, h.quiet, h.created, h.nDrift, h.nWarn⟩

end Verif.Meta.Patches
