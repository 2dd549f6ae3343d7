import Verif.Trees.MTRProps
import Verif.Trees.HTRPerc

/-!
C201: how far the answers of the perceptrons of a multi-target tree can be from the mean.
-/

namespace Verif.Trees.MT

open Verif.Trees Verif.Trees.Grow
open Verif.Trees.HR (addInto dot norm1)

variable {O H : Type} {T : Nat}

/-! ### Specification -/

/-- Total weight of the rows. -/
def total (es : List (Ev T O H)) : ℚ := (es.map Ev.w).sum

/-- Weighted sum of a quantity over the rows. -/
def wsum (es : List (Ev T O H)) (q : Ev T O H → ℚ) : ℚ := (es.map fun e => e.w * q e).sum

/-- Weighted mean. -/
def mu (es : List (Ev T O H)) (q : Ev T O H → ℚ) : ℚ := wsum es q / total es

/-- Standard deviation with divisor `total - 1`. -/
def spread (sqrt : ℚ → ℚ) (es : List (Ev T O H)) (q : Ev T O H → ℚ) : ℚ :=
  sqrt (wsum es (fun e => (q e - mu es q) ^ 2) / (total es - 1))

/-- Attribute `i` of a row. -/
def Ev.att (i : Nat) (e : Ev T O H) : ℚ := e.x.getD i 0

/-! ### The sums -/

/-- The sums are those of the rows. -/
def Sums.Of (n : Nat) (s : Sums T) (es : List (Ev T O H)) : Prop :=
  s.n = total es ∧ (∀ j, s.y j = wsum es fun e => e.y j) ∧ (∀ j, s.yy j = wsum es fun e => e.y j ^ 2) ∧
  (es = [] → s.x = none ∧ s.xx = none) ∧
  (es ≠ [] → ∃ a b, s.x = some a ∧ s.xx = some b ∧ a.length = n ∧ b.length = n ∧
    ∀ i, a.getD i 0 = wsum es (Ev.att i) ∧ b.getD i 0 = wsum es fun e => e.att i ^ 2)

theorem wsum_snoc (es : List (Ev T O H)) (e : Ev T O H) (q : Ev T O H → ℚ) : wsum (es ++ [e]) q = wsum es q + e.w * q e := by
  simp [wsum]

theorem total_snoc (es : List (Ev T O H)) (e : Ev T O H) : total (es ++ [e]) = total es + e.w := by simp [total]

theorem getD_map (f : ℚ → ℚ) (h0 : f 0 = 0) (l : List ℚ) (i : Nat) : (l.map f).getD i 0 = f (l.getD i 0) := by
  simp only [List.getD_eq_getElem?_getD, List.getElem?_map]
  cases l[i]? <;> simp [h0]

theorem addAtt_spec (n : Nat) (a : List ℚ) (ha : a.length = n) (v : List ℚ) (hv : v.length = n) :
    (addAtt (some a) v).length = n ∧ ∀ i, (addAtt (some a) v).getD i 0 = a.getD i 0 + v.getD i 0 := by
  unfold addAtt
  simp only
  rw [HR.addInto_same (by omega), Option.getD_some]
  refine ⟨by simp [ha, hv], fun i => ?_⟩
  simp only [List.getD_eq_getElem?_getD, List.getElem?_zipWith]
  by_cases hi : i < n
  · rw [List.getElem?_eq_getElem (by omega), List.getElem?_eq_getElem (by omega)]
    simp
  · rw [List.getElem?_eq_none (by omega), List.getElem?_eq_none (by omega)]
    simp

theorem of_add (n : Nat) (s : Sums T) (es : List (Ev T O H)) (h : s.Of n es) (e : Ev T O H) (he : e.x.length = n) :
    (s.add e.x e.y e.w).Of n (es ++ [e]) := by
  obtain ⟨h1, h2, h3, h4, h5⟩ := h
  refine ⟨by simp only [Sums.add, h1, total_snoc], fun j => by simp only [Sums.add, h2, wsum_snoc],
    fun j => by simp only [Sums.add, h3, wsum_snoc]; ring, fun h => by simp at h, fun _ => ?_⟩
  have g1 : ∀ i, (e.x.map (e.w * ·)).getD i 0 = e.w * e.att i := fun i => getD_map _ (mul_zero _) _ _
  have g2 : ∀ i, (e.x.map fun v => e.w * v * v).getD i 0 = e.w * e.att i ^ 2 := by
    intro i; rw [getD_map (fun v => e.w * v * v) (by simp)]; simp only [Ev.att]; ring
  by_cases hes : es = []
  · obtain ⟨k1, k2⟩ := h4 hes
    refine ⟨_, _, rfl, rfl, ?_, ?_, fun i => ⟨?_, ?_⟩⟩
    · simp [k1, addAtt, he]
    · simp [k2, addAtt, he]
    · rw [k1, wsum_snoc, hes]; simp only [addAtt, g1]; simp [wsum]
    · rw [k2, wsum_snoc, hes]; simp only [addAtt, g2]; simp [wsum]
  · obtain ⟨a, b, k1, k2, k3, k4, k5⟩ := h5 hes
    obtain ⟨m1, m2⟩ := addAtt_spec n a k3 (e.x.map (e.w * ·)) (by simpa using he)
    obtain ⟨m3, m4⟩ := addAtt_spec n b k4 (e.x.map fun v => e.w * v * v) (by simpa using he)
    refine ⟨_, _, rfl, rfl, by rw [k1]; exact m1, by rw [k2]; exact m3, fun i => ⟨?_, ?_⟩⟩
    · rw [k1, m2, g1, (k5 i).1, wsum_snoc]
    · rw [k2, m4, g2, (k5 i).2, wsum_snoc]

theorem step_sums (cfg : Cfg T O H) (h h' : Reg T O H) (e : Ev T O H) (hs : step cfg h e = .ok h') :
    h'.sums = h.sums.add e.x e.y e.w := by
  unfold step at hs
  simp only at hs
  split at hs
  · cases hs
  · cases hs; rfl

theorem run_sums (cfg : Cfg T O H) (n : Nat) (es : List (Ev T O H)) (he : ∀ e ∈ es, e.x.length = n) (pre : List (Ev T O H))
    (h h' : Reg T O H) (ho : h.sums.Of n pre) (hr : run cfg h es = .ok h') : h'.sums.Of n (pre ++ es) := by
  induction es generalizing h pre with
  | nil => cases hr; rwa [List.append_nil]
  | cons e es ih =>
    rw [run] at hr
    cases hst : step cfg h e with
    | error err => rw [hst] at hr; cases hr
    | ok h1 =>
      rw [hst] at hr
      have := ih (fun e' h' => he e' (List.mem_cons_of_mem _ h')) (pre ++ [e]) h1
        (by rw [step_sums cfg h h1 e hst]; exact of_add n _ pre ho e (he e List.mem_cons_self)) hr
      rwa [List.append_assoc, List.singleton_append] at this

theorem of_empty (n : Nat) : ({} : Sums T).Of n ([] : List (Ev T O H)) := by
  refine ⟨by simp [total], by simp [wsum], by simp [wsum], fun _ => ⟨rfl, rfl⟩, fun h => absurd rfl h⟩

theorem wsum_sq (es : List (Ev T O H)) (q : Ev T O H → ℚ) (m : ℚ) :
    wsum es (fun e => (q e - m) ^ 2) = wsum es (fun e => q e ^ 2) - 2 * m * wsum es q + m ^ 2 * total es := by
  induction es with
  | nil => simp [wsum, total]
  | cons e es ih =>
    have h1 : ∀ g : Ev T O H → ℚ, wsum (e :: es) g = e.w * g e + wsum es g := by intro g; simp [wsum]
    have h2 : total (e :: es) = e.w + total es := by simp [total]
    rw [h1, h1, h1, h2, ih]
    ring

theorem wsum_nonneg (es : List (Ev T O H)) (hw : ∀ e ∈ es, 0 < e.w) (q : Ev T O H → ℚ) (m : ℚ) :
    0 ≤ wsum es fun e => (q e - m) ^ 2 := by
  unfold wsum
  refine List.sum_nonneg ?_
  simp only [List.mem_map]
  rintro _ ⟨e, he, rfl⟩
  exact mul_nonneg (hw e he).le (sq_nonneg _)

theorem sd_spread (sqrt : ℚ → ℚ) (es : List (Ev T O H)) (hw : ∀ e ∈ es, 0 < e.w) (hn : 1 < total es) (q : Ev T O H → ℚ) :
    sd sqrt (wsum es fun e => q e ^ 2) (wsum es q) (total es) = spread sqrt es q := by
  have hpos : (0 : ℚ) < total es := lt_trans one_pos hn
  have hv : (wsum es (fun e => q e ^ 2) - wsum es q * wsum es q / total es) =
      wsum es (fun e => (q e - mu es q) ^ 2) := by
    rw [wsum_sq, mu]
    field_simp
    ring
  unfold sd spread
  simp only [hv]
  rw [if_pos (div_nonneg (wsum_nonneg es hw q _) (by linarith))]

/-! ### The standardised attributes -/

theorem normalize_le (sqrt : ℚ → ℚ) (hsq : ∀ v, 0 ≤ sqrt v) (n : Nat) (s : Sums T) (es : List (Ev T O H)) (ho : s.Of n es)
    (hw : ∀ e ∈ es, 0 < e.w) (hn : 1 < total es) (x : List ℚ) (hx : x.length = n) (B : ℚ) (hB : 1 ≤ B)
    (hxB : ∀ i < n, |x.getD i 0 - mu es (Ev.att i)| ≤ B * spread sqrt es (Ev.att i)) (xs : List ℚ)
    (h : normalize sqrt s x = .ok xs) : xs.length = n + 1 ∧ ∀ v ∈ xs, |v| ≤ B := by
  obtain ⟨h1, -, -, -, h5⟩ := ho
  have hes : es ≠ [] := by rintro rfl; simp [total] at hn; exact absurd hn (by decide +kernel)
  obtain ⟨a, b, k1, k2, k3, k4, k5⟩ := h5 hes
  unfold normalize at h
  rw [if_neg (by rw [h1]; exact not_le.mpr hn), k1, k2] at h
  simp only [k3, k4, hx, and_self, if_true, Except.ok.injEq] at h
  subst h
  refine ⟨by simp [k3, k4, hx], fun v hv => ?_⟩
  rw [List.mem_append] at hv
  rcases hv with hv | hv
  · obtain ⟨i, hi, rfl⟩ := List.mem_iff_getElem.mp hv
    have hi' : i < n := by simp [k3, k4, hx] at hi; exact hi
    rw [List.getElem_zipWith, List.getElem_zip]
    simp only
    have ga : a[i]'(by omega) = wsum es (Ev.att i) := by
      rw [← (k5 i).1, List.getD_eq_getElem?_getD, List.getElem?_eq_getElem (by omega), Option.getD_some]
    have gb : b[i]'(by omega) = wsum es fun e => e.att i ^ 2 := by
      rw [← (k5 i).2, List.getD_eq_getElem?_getD, List.getElem?_eq_getElem (by omega), Option.getD_some]
    have gx : x[i]'(by omega) = x.getD i 0 := by
      rw [List.getD_eq_getElem?_getD, List.getElem?_eq_getElem (by omega), Option.getD_some]
    rw [ga, gb, gx, h1]
    unfold standard
    simp only [sd_spread sqrt es hw hn]
    by_cases h0 : spread sqrt es (Ev.att i) ≠ 0
    · rw [if_pos h0]
      have hp : 0 < spread sqrt es (Ev.att i) := lt_of_le_of_ne (hsq _) (Ne.symm h0)
      rw [abs_div, abs_of_pos hp, div_le_iff₀ hp]
      exact hxB i hi'
    · rw [if_neg h0, abs_zero]; linarith
  · rw [List.mem_singleton] at hv
    rw [hv, abs_one]; exact hB

/-! ### The weights -/

/-- Rows of absolute sum 1 (or `nan`). -/
def Rows.Unit (w : Rows T) : Prop := ∀ j r, w j = some r → norm1 r = 1

theorem unit_norm (w r : List ℚ) (h : unit w = some r) : norm1 r = 1 := by
  unfold unit at h
  by_cases h0 : norm1 w = 0
  · rw [if_pos h0] at h; cases h
  · rw [if_neg h0, Option.some.injEq] at h
    rw [← h, HR.norm1_div _ _ (HR.norm1_nonneg _)]
    exact div_self h0

theorem adjust_unit (w : Rows T) (lr : ℚ) (err : VN T) (x : List ℚ) : (adjust w lr err x).Unit := by
  intro j r h
  unfold adjust at h
  cases hw : w j with
  | none => simp [hw] at h
  | some a =>
    cases he : err j with
    | none => simp [hw, he] at h
    | some e => simp only [hw, he] at h; exact unit_norm _ _ h

theorem adjust2_unit (w : Rows T) (lr : ℚ) (err p : VN T) : (adjust2 w lr err p).Unit := by
  intro j r h
  unfold adjust2 at h
  cases hw : w j with
  | none => simp [hw] at h
  | some a =>
    cases he : err j with
    | none => simp [hw, he] at h
    | some e =>
      cases hb : withBias p with
      | none => simp [hw, he, hb] at h
      | some x => simp only [hw, he, hb] at h; exact unit_norm _ _ h

theorem times_inv {α : Type} (P : α → Prop) (f : α → Except PyErr α) (hf : ∀ a a', P a → f a = .ok a' → P a') (k : Nat) (a a' : α)
    (ha : P a) (h : times f k a = .ok a') : P a' := by
  induction k generalizing a with
  | zero => cases h; exact ha
  | succ k ih =>
    rw [times] at h
    cases hfa : f a with
    | error e => rw [hfa] at h; cases h
    | ok a1 => rw [hfa] at h; exact ih a1 (hf a a1 ha hfa) h

theorem started_unit (init : Fin T → List ℚ) (w : Option (Rows T)) (hw : ∀ v, w = some v → v.Unit) : (started init w).Unit := by
  cases w with
  | none => exact fun j r h => unit_norm _ _ h
  | some v => exact hw v rfl

theorem percUpdate_unit (sqrt : ℚ → ℚ) (s : Sums T) (e : Row T) (w w' : Rows T) (h : percUpdate sqrt s e w = .ok w') : w'.Unit := by
  unfold percUpdate at h
  cases hn : normalize sqrt s e.x with
  | error err => rw [hn] at h; cases h
  | ok xs =>
    rw [hn] at h
    simp only at h
    by_cases hf : fits w xs.length = true
    · rw [if_pos hf] at h; cases h; exact adjust_unit _ _ _ _
    · rw [if_neg hf] at h; cases h

theorem percHead_unit (sqrt : ℚ → ℚ) (s : Sums T) (st : VStat T) (e : Row T) (h h' : Option (Rows T))
    (hh : ∀ v, h = some v → v.Unit) (hl : (percHead T sqrt).learn s st e h = .ok h') : ∃ v, h' = some v ∧ v.Unit := by
  simp only [percHead] at hl
  cases ht : times (percUpdate sqrt s e) ⌊e.w⌋.toNat (started e.init h) with
  | error err => rw [ht] at hl; cases hl
  | ok v =>
    rw [ht] at hl
    cases hl
    exact ⟨v, rfl, times_inv Rows.Unit _ (fun a a' _ hf => percUpdate_unit sqrt s e a a' hf) _ _ _ (started_unit _ _ hh) ht⟩

theorem stackUpdate_unit (sqrt : ℚ → ℚ) (s : Sums T) (st : VStat T) (e : Row T) (h h' : (Rows T × Rows T) × VN T × VN T × VN T)
    (hu : stackUpdate sqrt s st e h = .ok h') : h'.1.1.Unit ∧ h'.1.2.Unit := by
  unfold stackUpdate at hu
  cases hn : normalize sqrt s e.x with
  | error err => rw [hn] at hu; cases hu
  | ok xs =>
    rw [hn] at hu
    simp only at hu
    by_cases hf : fits h.1.1 xs.length = true ∧ fits h.1.2 (T + 1) = true
    · rw [if_pos hf] at hu; cases hu; exact ⟨adjust_unit _ _ _ _, adjust2_unit _ _ _ _⟩
    · rw [if_neg hf] at hu; cases hu

theorem sstHead_unit (sqrt : ℚ → ℚ) (s : Sums T) (st : VStat T) (e : Row T) (h h' : Option (Rows T × Rows T))
    (hh : ∀ v, h = some v → v.1.Unit ∧ v.2.Unit) (hl : (sstHead T sqrt).learn s st e h = .ok h') :
    ∃ v, h' = some v ∧ v.1.Unit ∧ v.2.Unit := by
  simp only [sstHead] at hl
  cases ht : times (stackUpdate sqrt s st e) ⌊e.w⌋.toNat (started2 e h, fun _ => none, fun _ => none, fun _ => none) with
  | error err => rw [ht] at hl; cases hl
  | ok v =>
    rw [ht] at hl
    cases hl
    refine ⟨v.1, rfl, times_inv (fun a => a.1.1.Unit ∧ a.1.2.Unit) _ (fun a a' _ hf => stackUpdate_unit sqrt s st e a a' hf)
      _ _ _ ?_ ht⟩
    cases h with
    | none => exact ⟨fun j r h => unit_norm _ _ h, fun j r h => unit_norm _ _ h⟩
    | some v => exact hh v rfl

/-- A condition on the heads that learning establishes and that new nodes inherit holds in every
leaf. -/
theorem run_head (cfg : Cfg T O H) (P : H → Prop)
    (hl : ∀ s st e h h', P h ∨ h = cfg.head.fresh → cfg.head.learn s st e h = .ok h' → P h')
    (hc : ∀ h, P h → P (cfg.head.child h)) (hi : ∀ h, P h → P (cfg.head.idle h))
    (es : List (Ev T O H)) (h : Reg T O H) (hr : run cfg {} es = .ok h) :
    ∀ r, h.root = some r → r.All (fun l => P l.head) (fun _ => True) := by
  have hheir : ∀ a s h, P h → P (heir cfg a s h).head := by
    intro a s h hp
    unfold heir
    cases a
    · exact hi h hp
    · exact hc h hp
  refine run_all cfg _ _ es ?_ ?_ {} h (fun r hr => by cases hr) hr
  · intro s e he l l' hpl hll
    have hp' : P l'.head := by
      unfold Leaf.learn at hll
      simp only at hll
      cases hh : cfg.head.learn s (addStat l.stats e.y e.w)
          ⟨e.x, e.y, e.w, cfg.ratio (addStat l.stats e.y e.w).n, e.init, e.init2⟩ l.head with
      | error err => rw [hh] at hll; cases hll
      | ok v =>
        rw [hh] at hll
        cases hll
        refine hl _ _ _ _ _ ?_ hh
        rcases hpl with hpl | rfl
        · exact .inl hpl
        · exact .inr rfl
    refine ⟨hp', ?_⟩
    unfold attempt
    split
    · split
      · exact hp'
      · exact hheir _ _ _ hp'
      · exact ⟨trivial, (kidsFrom_facts 0 _ _ 0).2.2 _ _ (fun d _ => hheir _ _ _ hp')⟩
    · exact hp'
  · intro a l hpl
    cases a with
    | none => exact hpl
    | some a =>
      unfold setActive
      simp only
      by_cases h : l.active = a
      · rw [if_pos h]; exact hpl
      · rw [if_neg h]; exact hheir _ _ _ hpl

theorem fits_spec (w : Rows T) (m : Nat) (h : fits w m = true) (j : Fin T) (r : List ℚ) (hr : w j = some r) : r.length = m := by
  unfold fits at h
  rw [List.all_eq_true] at h
  have := h j (List.mem_finRange j)
  rw [hr] at this
  simpa using this

theorem apply_le (w : Rows T) (hw : w.Unit) (xs : List ℚ) (hf : fits w xs.length = true) (B : ℚ) (hB : ∀ v ∈ xs, |v| ≤ B)
    (j : Fin T) (p : ℚ) (h : apply w xs j = some p) : |p| ≤ B := by
  unfold apply at h
  cases hj : w j with
  | none => rw [hj] at h; cases h
  | some r =>
    rw [hj, Option.map_some, Option.some.injEq] at h
    rw [← h]
    have := HR.dot_le r xs B hB (fits_spec w _ hf j r hj)
    rwa [hw j r hj, one_mul] at this

theorem stack_le (w2 : Rows T) (hw : w2.Unit) (hf : fits w2 (T + 1) = true) (p : VN T) (B : ℚ) (h1 : 1 ≤ B)
    (hB : ∀ j v, p j = some v → |v| ≤ B) (j : Fin T) (q : ℚ) (h : stack w2 p j = some q) : |q| ≤ B := by
  unfold stack at h
  cases hb : withBias p with
  | none => simp [hb] at h
  | some x =>
    cases hj : w2 j with
    | none => simp [hb, hj] at h
    | some r =>
      simp only [hb, hj, Option.some.injEq] at h
      rw [← h]
      unfold withBias at hb
      by_cases hall : ∀ j, (p j).isSome = true
      · rw [if_pos hall, Option.some.injEq] at hb
        subst hb
        have := HR.dot_le r ((List.finRange T).map (fun j => (p j).getD 0) ++ [1]) B (by
          intro v hv
          rw [List.mem_append, List.mem_map, List.mem_singleton] at hv
          rcases hv with ⟨i, -, rfl⟩ | rfl
          · obtain ⟨u, hu⟩ := Option.isSome_iff_exists.mp (hall i)
            rw [hu, Option.getD_some]; exact hB i u hu
          · rw [abs_one]; exact h1) (by rw [fits_spec w2 _ hf j r hj]; simp)
        rwa [hw j r hj, one_mul] at this
      · rw [if_neg hall] at hb; cases hb

theorem denorm_le (sqrt : ℚ → ℚ) (hsq : ∀ v, 0 ≤ sqrt v) (n : Nat) (s : Sums T) (es : List (Ev T O H)) (ho : s.Of n es)
    (hw : ∀ e ∈ es, 0 < e.w) (hn : 1 < total es) (p : VN T) (B : ℚ) (hB : ∀ j v, p j = some v → |v| ≤ B)
    (j : Fin T) (v : ℚ) (h : denorm sqrt s p j = some v) :
    |v - mu es fun e => e.y j| ≤ B * spread sqrt es fun e => e.y j := by
  unfold denorm at h
  cases hp : p j with
  | none => rw [hp] at h; cases h
  | some q =>
    rw [hp, Option.map_some, Option.some.injEq] at h
    rw [← h, ho.2.2.1, ho.2.1, ho.1, sd_spread sqrt es hw hn, mu, add_sub_cancel_right, abs_mul]
    have : 0 ≤ spread sqrt es fun e => e.y j := hsq _
    rw [abs_of_nonneg this]
    exact mul_le_mul_of_nonneg_right (hB j q hp) this

/-- C201: a perceptron leaf of an iSOUP tree, asked about a row whose attributes are at most `B ≥ 1`
standard deviations from their means, answers every target (unless `nan`) within `B` standard
deviations of its mean. -/
theorem C201_perceptron (sqrt : ℚ → ℚ) (hsq : ∀ v, 0 ≤ sqrt v) (cfg : Cfg T O (Option (Rows T)))
    (hh : cfg.head = percHead T sqrt) (n : Nat) (es : List (Ev T O (Option (Rows T)))) (he : ∀ e ∈ es, e.x.length = n ∧ 0 < e.w)
    (hn : 1 < total es) (h : Reg T O (Option (Rows T))) (hr : run cfg {} es = .ok h)
    (r : G (Leaf T O (Option (Rows T))) (Option (VStat T))) (hroot : h.root = some r) (x : List ℚ) (hx : x.length = n)
    (l : Leaf T O (Option (Rows T))) (hl : r.route x = .ok (.leaf l)) (B : ℚ) (hB : 1 ≤ B)
    (hxB : ∀ i < n, |x.getD i 0 - mu es (Ev.att i)| ≤ B * spread sqrt es (Ev.att i))
    (v : VN T) (hv : predictOne cfg h.sums r x = .ok v) (j : Fin T) (p : ℚ) (hp : v j = some p) :
    |p - mu es fun e => e.y j| ≤ B * spread sqrt es fun e => e.y j := by
  have ho := run_sums cfg n es (fun e m => (he e m).1) [] {} h (of_empty n) hr
  rw [List.nil_append] at ho
  have hw : ∀ e ∈ es, 0 < e.w := fun e m => (he e m).2
  have hall := run_head cfg (fun h => ∃ w, h = some w ∧ w.Unit)
    (fun s st e h h' hp hl => by
      rw [hh] at hl hp
      refine percHead_unit sqrt s st e h h' ?_ hl
      rintro v rfl
      rcases hp with ⟨w, hw, hu⟩ | hp
      · cases hw; exact hu
      · cases hp)
    (fun h hp => by rw [hh]; exact hp) (fun h hp => by rw [hh]; exact hp) es h hr r hroot
  obtain ⟨w, hw1, hu⟩ := (G.route_all _ _ x r hall).1 l hl
  unfold predictOne at hv
  rw [hl] at hv
  simp only [hh, percHead, hw1] at hv
  rw [if_neg (by rw [ho.1]; exact not_le.mpr hn)] at hv
  unfold percPred at hv
  cases hno : normalize sqrt h.sums x with
  | error e => rw [hno] at hv; cases hv
  | ok xs =>
    rw [hno] at hv
    simp only at hv
    by_cases hf : fits w xs.length = true
    · rw [if_pos hf] at hv
      cases hv
      obtain ⟨-, hb⟩ := normalize_le sqrt hsq n h.sums es ho hw hn x hx B hB hxB xs hno
      exact denorm_le sqrt hsq n h.sums es ho hw hn _ B (fun j q hq => apply_le w hu xs hf B hb j q hq) j p hp
    · rw [if_neg hf] at hv; cases hv

/-- C201: the same for the stacked perceptrons. -/
theorem C201_stacked (sqrt : ℚ → ℚ) (hsq : ∀ v, 0 ≤ sqrt v) (cfg : Cfg T O (Option (Rows T × Rows T)))
    (hh : cfg.head = sstHead T sqrt) (n : Nat) (es : List (Ev T O (Option (Rows T × Rows T))))
    (he : ∀ e ∈ es, e.x.length = n ∧ 0 < e.w)
    (hn : 1 < total es) (h : Reg T O (Option (Rows T × Rows T))) (hr : run cfg {} es = .ok h)
    (r : G (Leaf T O (Option (Rows T × Rows T))) (Option (VStat T))) (hroot : h.root = some r) (x : List ℚ) (hx : x.length = n)
    (l : Leaf T O (Option (Rows T × Rows T))) (hl : r.route x = .ok (.leaf l)) (B : ℚ) (hB : 1 ≤ B)
    (hxB : ∀ i < n, |x.getD i 0 - mu es (Ev.att i)| ≤ B * spread sqrt es (Ev.att i))
    (v : VN T) (hv : predictOne cfg h.sums r x = .ok v) (j : Fin T) (p : ℚ) (hp : v j = some p) :
    |p - mu es fun e => e.y j| ≤ B * spread sqrt es fun e => e.y j := by
  have ho := run_sums cfg n es (fun e m => (he e m).1) [] {} h (of_empty n) hr
  rw [List.nil_append] at ho
  have hw : ∀ e ∈ es, 0 < e.w := fun e m => (he e m).2
  have hall := run_head cfg (fun h => ∃ w, h = some w ∧ w.1.Unit ∧ w.2.Unit)
    (fun s st e h h' hp hl => by
      rw [hh] at hl hp
      refine sstHead_unit sqrt s st e h h' ?_ hl
      rintro v rfl
      rcases hp with ⟨w, hw, hu⟩ | hp
      · cases hw; exact hu
      · cases hp)
    (fun h hp => by rw [hh]; exact hp) (fun h hp => by rw [hh]; exact hp) es h hr r hroot
  obtain ⟨w, hw1, hu1, hu2⟩ := (G.route_all _ _ x r hall).1 l hl
  unfold predictOne at hv
  rw [hl] at hv
  simp only [hh, sstHead, hw1] at hv
  unfold stackPred at hv
  cases hno : normalize sqrt h.sums x with
  | error e => rw [hno] at hv; cases hv
  | ok xs =>
    rw [hno] at hv
    simp only at hv
    by_cases hf : fits w.1 xs.length = true ∧ fits w.2 (T + 1) = true
    · rw [if_pos hf] at hv
      cases hv
      obtain ⟨-, hb⟩ := normalize_le sqrt hsq n h.sums es ho hw hn x hx B hB hxB xs hno
      simp only [denormS, ho.1] at hp
      rw [if_neg (by intro h; rw [h] at hn; exact absurd hn (by decide +kernel)),
        if_neg (by rintro ⟨h, -⟩; exact absurd h (ne_of_gt hn)), if_neg (ne_of_gt hn)] at hp
      exact denorm_le sqrt hsq n h.sums es ho hw hn _ B (fun j q hq => stack_le w.2 hu2 hf.2 _ B hB
        (fun j q hq => apply_le w.1 hu1 xs hf.1 B hb j q hq) j q hq) j p hp
    · rw [if_neg hf] at hv; cases hv

/-- A root exact on 1 and 4. -/
def toyRoot (v : ℚ) : ℚ := if v = 1 then 1 else if v = 4 then 2 else 0

/-- One target, no splits. -/
def percCfg : Cfg 1 Unit (Option (Rows 1)) := ⟨percHead 1 toyRoot, 100, 1 / 2, 0, true, (), fun _ _ _ _ => ()⟩

/-- A row. -/
def percEv (x y : ℚ) : Ev 1 Unit (Option (Rows 1)) :=
  ⟨[x], ![y], 1, fun _ => [1, 1], fun _ => [], true, fun _ => .prune, fun _ => none⟩

/-- Three rows with attribute and target of standard deviation 1 and 2. -/
def percRows : List (Ev 1 Unit (Option (Rows 1))) := [percEv (-1) (-2), percEv 0 0, percEv 1 2]

example : spread toyRoot percRows (Ev.att 0) = 1 ∧ spread toyRoot percRows (fun e => e.y 0) = 2 ∧ 1 < total percRows := by
  decide +kernel

/-- The answer for attribute 2 is within 2 · 2 of the mean 0. -/
example : ((run percCfg {} percRows).toOption.bind fun h => h.root.bind fun r =>
    (predictOne percCfg h.sums r [2]).toOption.map fun v => v 0) = some (some (10 / 3)) := by
  decide +kernel

/-- The same with stacked perceptrons. -/
def sstCfg : Cfg 1 Unit (Option (Rows 1 × Rows 1)) := ⟨sstHead 1 toyRoot, 100, 1 / 2, 0, true, (), fun _ _ _ _ => ()⟩

/-- A row. -/
def sstEv (x y : ℚ) : Ev 1 Unit (Option (Rows 1 × Rows 1)) :=
  ⟨[x], ![y], 1, fun _ => [1, 1], fun _ => [1, -1], true, fun _ => .prune, fun _ => none⟩

example : ((run sstCfg {} [sstEv (-1) (-2), sstEv 0 0, sstEv 1 2]).toOption.bind fun h => h.root.bind fun r =>
    (predictOne sstCfg h.sums r [2]).toOption.map fun v => v 0) = some (some (10 / 3)) := by
  decide +kernel

end Verif.Trees.MT
