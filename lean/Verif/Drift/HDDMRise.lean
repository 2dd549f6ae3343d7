import Verif.Drift.HDDMProps
import Mathlib.Analysis.SpecialFunctions.Log.Basic
import Mathlib.Tactic.FieldSimp
import Mathlib.Tactic.NormNum

/-! C303: what HDDM_A has seen while it reports nothing, and that lasting rises are reported.
The numbers are reals, the square root and the logarithms those of `math`. -/

namespace Verif.Drift.HDDMRise

open HA

/-- `HDDM_A(drift_confidence, warning_confidence, two_side_option)`, `hddm_a.py:63-77`. -/
noncomputable def par (drift warning : ℝ) (twoSide : Bool) : HAPar ℝ :=
  ⟨Real.log (1 / drift), Real.log (2 / drift), Real.log (2 / warning), twoSide, Real.sqrt⟩

/-- The average of a list of numbers. -/
noncomputable def average (l : List ℝ) : ℝ := l.sum / l.length

/-- What the average of `k` values may differ from the rate they stand for, by Hoeffding's
inequality at the confidence `drift`. -/
noncomputable def deviation (drift : ℝ) (k : ℕ) : ℝ := √(Real.log (1 / drift) / (2 * k))

/-- A small number that depends on the confidence only (0.092 for the default 0.001). -/
noncomputable def slack (drift : ℝ) : ℝ := √(Real.log (2 / drift) / 2) - √(Real.log (1 / drift) / 2)

variable {drift warning : ℝ} {two : Bool}

/-! ### The invariant -/

private def Cut (cur : List ℝ) (n : ℕ) (v : ℝ) : Prop :=
  1 ≤ n ∧ n ≤ cur.length ∧ v = (cur.take n).sum

private noncomputable def key (c : HAPar ℝ) (v : ℝ) (n : ℕ) : ℝ := v / n + c.sqrt (1 / (2 * (n : ℝ)) * c.logD)

private def Lowest (c : HAPar ℝ) (cur : List ℝ) (s : HA ℝ) (m : ℕ) : Prop :=
  ∀ k, 1 ≤ k → k ≤ m → key c s.cMin s.nMin ≤ key c (cur.take k).sum k

private def Sums (cur : List ℝ) (s : HA ℝ) : Prop :=
  cur ≠ [] ∧ s.totalN = cur.length ∧ s.totalC = cur.sum ∧ Cut cur s.nMin s.cMin ∧ Cut cur s.nMax s.cMax

private def Inv (c : HAPar ℝ) (cur : List ℝ) (s : HA ℝ) : Prop := Sums cur s ∧ Lowest c cur s cur.length

private def Empty (s : HA ℝ) : Prop :=
  s.totalN = 0 ∧ s.totalC = 0 ∧ s.nMin = 0 ∧ s.nMax = 0 ∧ s.cMin = 0 ∧ s.cMax = 0

/-- The test of line 117 fails. -/
private def NoRise (c : HAPar ℝ) (s : HA ℝ) : Prop :=
  s.nMin = s.totalN ∨ s.totalC / s.totalN - s.cMin / s.nMin <
    c.sqrt (((s.totalN : ℝ) - s.nMin) / s.nMin * (1 / s.totalN) / 2 * c.log2D)

private def Good (c : HAPar ℝ) : Prop := 0 ≤ c.logD ∧ 0 ≤ c.log2D ∧ 0 ≤ c.log2W

private theorem div_ok {a b : ℝ} (h : b ≠ 0) : pyDiv a b = .ok (a / b) := by simp [pyDiv, h]

private theorem sqrt_ok {f : ℝ → ℝ} {a : ℝ} (h : 0 ≤ a) : pySqrt f a = .ok (f a) := by
  simp [pySqrt, not_lt.2 h]

private theorem cut_append {cur : List ℝ} {n : ℕ} {v : ℝ} (h : Cut cur n v) (x : ℝ) : Cut (cur ++ [x]) n v := by
  obtain ⟨a, b, rfl⟩ := h
  exact ⟨a, by simp; omega, by rw [List.take_append_of_le_length b]⟩

private theorem cut_full {cur : List ℝ} (h : cur ≠ []) : Cut cur cur.length cur.sum :=
  ⟨List.length_pos_iff.2 h, le_refl _, by simp⟩

private theorem count_ok (c : HAPar ℝ) (cur : List ℝ) (s : HA ℝ) (x : ℝ) (h : Inv c cur s ∨ (cur = [] ∧ Empty s)) :
    Sums (cur ++ [x]) (count s x) ∧ Lowest c (cur ++ [x]) (count s x) cur.length := by
  rcases h with ⟨⟨h0, h1, h2, h3, h4⟩, h5⟩ | ⟨rfl, h1, h2, h3, h4, h5, h6⟩
  · unfold count
    have e1 : s.nMin ≠ 0 := by have := h3.1; omega
    have e2 : s.nMax ≠ 0 := by have := h4.1; omega
    simp only [e1, e2, if_false]
    refine ⟨⟨by simp, by simp [h1], by simp [h2], cut_append h3 x, cut_append h4 x⟩, ?_⟩
    intro k hk hk'
    rw [List.take_append_of_le_length hk']
    exact h5 k hk hk'
  · unfold count
    simp only [h3, h4, if_true, h1, h2]
    refine ⟨⟨by simp, rfl, by simp, ?_, ?_⟩, ?_⟩
    · exact ⟨by simp, by simp, by simp⟩
    · exact ⟨by simp, by simp, by simp⟩
    · intro k hk hk'
      simp at hk'
      omega

private theorem ne_of {cur : List ℝ} {s : HA ℝ} (h : Sums cur s) :
    (s.nMin : ℝ) ≠ 0 ∧ (s.nMax : ℝ) ≠ 0 ∧ (s.totalN : ℝ) ≠ 0 := by
  obtain ⟨h0, h1, h2, h3, h4⟩ := h
  have hlen := List.length_pos_iff.2 h0
  refine ⟨?_, ?_, ?_⟩
  · have := h3.1; exact_mod_cast (by omega : s.nMin ≠ 0)
  · have := h4.1; exact_mod_cast (by omega : s.nMax ≠ 0)
  · rw [h1]; exact_mod_cast (by omega : cur.length ≠ 0)

private theorem cut_ok (c : HAPar ℝ) (hv : Good c) (cur : List ℝ) (x : ℝ) (s : HA ℝ) (h : Sums (cur ++ [x]) s)
    (hl : Lowest c (cur ++ [x]) s cur.length) : ∃ s', cut c s = .ok s' ∧ Inv c (cur ++ [x]) s' := by
  obtain ⟨hmin, hmax, htot⟩ := ne_of h
  have hfull : Cut (cur ++ [x]) s.totalN s.totalC := by
    rw [h.2.1, h.2.2.1]; exact cut_full h.1
  have hD := hv.1
  have hsq : ∀ n : ℕ, 0 ≤ 1 / (2 * (n : ℝ)) * c.logD := fun n => by positivity
  unfold cut
  simp only [div_ok hmin, div_ok htot, div_ok (mul_ne_zero two_ne_zero hmin),
    div_ok (mul_ne_zero two_ne_zero htot), sqrt_ok (hsq _), bind, Except.bind]
  generalize hs' : (if s.cMin / (s.nMin : ℝ) + c.sqrt (1 / (2 * (s.nMin : ℝ)) * c.logD) ≥
      s.totalC / (s.totalN : ℝ) + c.sqrt (1 / (2 * (s.totalN : ℝ)) * c.logD) then
      ({ s with cMin := s.totalC, nMin := s.totalN } : HA ℝ) else s) = s'
  have hall : (cur ++ [x]).take (cur ++ [x]).length = cur ++ [x] := List.take_length
  have hprop : Inv c (cur ++ [x]) s' ∧ s'.totalN = s.totalN ∧ s'.totalC = s.totalC := by
    rw [← hs']
    split
    · rename_i hge
      refine ⟨⟨⟨h.1, h.2.1, h.2.2.1, hfull, h.2.2.2.2⟩, ?_⟩, rfl, rfl⟩
      intro k hk hk'
      by_cases hkl : k ≤ cur.length
      · exact le_trans hge (hl k hk hkl)
      · have hke : k = (cur ++ [x]).length := by simp at hk' ⊢; omega
        subst hke
        rw [hall]
        show key c s.totalC s.totalN ≤ _
        rw [h.2.1, h.2.2.1]
    · rename_i hge
      refine ⟨⟨h, ?_⟩, rfl, rfl⟩
      intro k hk hk'
      by_cases hkl : k ≤ cur.length
      · exact hl k hk hkl
      · have hke : k = (cur ++ [x]).length := by simp at hk' ⊢; omega
        subst hke
        rw [hall, ← h.2.1, ← h.2.2.1]
        exact (not_le.1 hge).le
  obtain ⟨hc', hn3, hn4⟩ := hprop
  obtain ⟨hmin', hmax', htot'⟩ := ne_of hc'.1
  simp only [div_ok hmax', div_ok htot', div_ok (mul_ne_zero two_ne_zero hmax'),
    sqrt_ok (hsq _), pure, Except.pure]
  split
  · exact ⟨_, rfl, ⟨hc'.1.1, hc'.1.2.1, hc'.1.2.2.1, hc'.1.2.2.2.1, by rw [hn3, hn4]; exact hfull⟩, hc'.2⟩
  · exact ⟨_, rfl, hc'⟩

private theorem margin_nonneg {n m : ℕ} (h : n ≤ m) (lg : ℝ) (hlg : 0 ≤ lg) :
    0 ≤ ((m : ℝ) - n) / n * (1 / m) / 2 * lg := by
  have : (0 : ℝ) ≤ (m : ℝ) - n := by
    have : (n : ℝ) ≤ m := by exact_mod_cast h
    linarith
  positivity

private theorem incr_ok (f : ℝ → ℝ) (v t lg : ℝ) (n m : ℕ) (hlg : 0 ≤ lg) (h1 : 1 ≤ n) (h2 : n ≤ m) :
    ∃ b, meanIncr f v n t m lg = .ok b ∧
      (b = true ↔ n ≠ m ∧ t / m - v / n ≥ f (((m : ℝ) - n) / n * (1 / m) / 2 * lg)) := by
  unfold meanIncr
  by_cases he : n = m
  · simp [he, pure, Except.pure]
  · have hn : (n : ℝ) ≠ 0 := by exact_mod_cast (by omega : n ≠ 0)
    have hm : (m : ℝ) ≠ 0 := by exact_mod_cast (by omega : m ≠ 0)
    simp only [he, if_false, div_ok hn, div_ok hm, bind, Except.bind, pure, Except.pure,
      sqrt_ok (margin_nonneg h2 lg hlg)]
    exact ⟨_, rfl, by simp [he]⟩

private theorem decr_ok (f : ℝ → ℝ) (v t lg : ℝ) (n m : ℕ) (hlg : 0 ≤ lg) (h1 : 1 ≤ n) (h2 : n ≤ m) :
    ∃ b, meanDecr f v n t m lg = .ok b ∧ (b = true → n ≠ m) := by
  unfold meanDecr
  by_cases he : n = m
  · simp [he, pure, Except.pure]
  · have hn : (n : ℝ) ≠ 0 := by exact_mod_cast (by omega : n ≠ 0)
    have hm : (m : ℝ) ≠ 0 := by exact_mod_cast (by omega : m ≠ 0)
    simp only [he, if_false, div_ok hn, div_ok hm, bind, Except.bind, pure, Except.pure,
      sqrt_ok (margin_nonneg h2 lg hlg)]
    exact ⟨_, rfl, fun _ => he⟩

private theorem update_ok (s : HA ℝ) (h : s.totalN ≠ 0 ∨ s.nEst ≠ 0) :
    ∃ a b e d, updateEstimations s = .ok { s with cEst := a, nEst := b, estimation := e, delay := d } := by
  unfold updateEstimations
  by_cases hge : s.totalN ≥ s.nEst
  · rw [if_pos hge]
    have htot : (s.totalN : ℝ) ≠ 0 := by exact_mod_cast (by omega : s.totalN ≠ 0)
    rw [div_ok htot]
    exact ⟨_, _, _, _, rfl⟩
  · rw [if_neg hge]
    have htot : (s.nEst : ℝ) ≠ 0 := by exact_mod_cast (by omega : s.nEst ≠ 0)
    rw [div_ok htot]
    exact ⟨_, _, _, _, rfl⟩

private theorem step_ok (c : HAPar ℝ) (hv : Good c) (cur : List ℝ) (s : HA ℝ) (x : ℝ)
    (h : Inv c cur s ∨ (cur = [] ∧ Empty s)) : ∃ s', addElement c s x = .ok s' ∧
      ((Inv c (cur ++ [x]) s' ∧ NoRise c s' ∧ s'.change = false) ∨ (Empty s' ∧ s'.change = true) ∨
        (Empty s' ∧ c.twoSide = true ∧ s'.change = false)) := by
  obtain ⟨c1, c2⟩ := count_ok c cur s x h
  obtain ⟨s1, e1, i1⟩ := cut_ok c hv cur x _ c1 c2
  obtain ⟨⟨j0, j1, j2, j3, j4⟩, j5⟩ := i1
  have hle : s1.nMin ≤ s1.totalN := by rw [j1]; exact j3.2.1
  have hle' : s1.nMax ≤ s1.totalN := by rw [j1]; exact j4.2.1
  obtain ⟨b, eb, hb⟩ := incr_ok c.sqrt s1.cMin s1.totalC c.log2D s1.nMin s1.totalN hv.2.1 j3.1 hle
  obtain ⟨b', eb', hb'⟩ := incr_ok c.sqrt s1.cMin s1.totalC c.log2W s1.nMin s1.totalN hv.2.2 j3.1 hle
  obtain ⟨d, ed, hd⟩ := decr_ok c.sqrt s1.cMax s1.totalC c.log2D s1.nMax s1.totalN hv.2.1 j4.1 hle'
  have hpos : s1.totalN ≠ 0 := by have := j3.1; omega
  unfold addElement
  simp only [e1, bind, Except.bind]
  unfold monitorIncr
  simp only [eb, eb', bind, Except.bind]
  cases b with
  | true =>
    obtain ⟨hne, _⟩ := hb.1 rfl
    simp only [if_true, pure, Except.pure]
    have hdec : ∀ t : HA ℝ, t.nMax = t.totalN → monitorDecr c t = .ok t := by
      intro t ht
      unfold monitorDecr meanDecr
      rw [if_pos ht]
      cases c.twoSide <;> rfl
    rw [hdec _ rfl]
    simp only
    obtain ⟨p, q, e, d', hu⟩ := update_ok
      ({ clear { s1 with nEst := s1.totalN - s1.nMin, cEst := s1.totalC - s1.cMin } with
        change := true, warning := false } : HA ℝ) (Or.inr (by simp only [clear]; omega))
    rw [hu]
    exact ⟨_, rfl, Or.inr (Or.inl ⟨⟨rfl, rfl, rfl, rfl, rfl, rfl⟩, rfl⟩)⟩
  | false =>
    have hno : NoRise c s1 := by
      unfold NoRise
      by_cases he : s1.nMin = s1.totalN
      · exact Or.inl he
      · right
        by_contra hcon
        exact Bool.false_ne_true (hb.2 ⟨he, not_lt.1 hcon⟩)
    simp only [Bool.false_eq_true, if_false]
    obtain ⟨w, hw⟩ : ∃ w, (if b' = true then (pure { s1 with change := false, warning := true } : Except PyErr (HA ℝ))
        else pure { s1 with change := false, warning := false })
          = .ok { s1 with change := false, warning := w } := by
      cases b'
      · exact ⟨false, rfl⟩
      · exact ⟨true, rfl⟩
    rw [hw]
    simp only
    unfold monitorDecr
    simp only [ed, bind, Except.bind]
    by_cases ht : c.twoSide = true
    · rw [if_pos ht]
      cases d with
      | true =>
        have hne := hd rfl
        simp only [if_true, pure, Except.pure]
        obtain ⟨p, q, e, d', hu⟩ := update_ok
          (clear { s1 with change := false, warning := w, nEst := s1.totalN - s1.nMax, cEst := s1.totalC - s1.cMax })
          (Or.inr (by simp only [clear]; omega))
        rw [hu]
        exact ⟨_, rfl, Or.inr (Or.inr ⟨⟨rfl, rfl, rfl, rfl, rfl, rfl⟩, ht, rfl⟩)⟩
      | false =>
        simp only [Bool.false_eq_true, if_false, pure, Except.pure]
        obtain ⟨p, q, e, d', hu⟩ := update_ok ({ s1 with change := false, warning := w } : HA ℝ) (Or.inl hpos)
        rw [hu]
        exact ⟨_, rfl, Or.inl ⟨⟨⟨j0, j1, j2, j3, j4⟩, j5⟩, hno, rfl⟩⟩
    · rw [if_neg ht]
      simp only [pure, Except.pure]
      obtain ⟨p, q, e, d', hu⟩ := update_ok ({ s1 with change := false, warning := w } : HA ℝ) (Or.inl hpos)
      rw [hu]
      exact ⟨_, rfl, Or.inl ⟨⟨⟨j0, j1, j2, j3, j4⟩, j5⟩, hno, rfl⟩⟩

private theorem run_inv (c : HAPar ℝ) (hv : Good c) (xs : List ℝ) :
    ∃ s, run c xs = .ok s ∧ ((∃ cur, cur <:+ xs ∧ Inv c cur s ∧ NoRise c s) ∨ Empty s) ∧
      ((∀ ys, ys ≠ [] → ys <+: xs → ∀ t, run c ys = .ok t → t.totalN ≠ 0) → xs ≠ [] → Inv c xs s ∧ NoRise c s) ∧
      (xs ≠ [] → s.totalN = 0 → s.change = true ∨ c.twoSide = true) ∧ (s.change = true → s.totalN = 0) := by
  induction xs using List.reverseRecOn with
  | nil => exact ⟨init, rfl, Or.inr ⟨rfl, rfl, rfl, rfl, rfl, rfl⟩, fun _ h => absurd rfl h, fun h => absurd rfl h,
      fun h => absurd h (by simp [init])⟩
  | append_singleton xs x ih =>
    obtain ⟨s, hr, h1, h2, _, _⟩ := ih
    have hrun : run c (xs ++ [x]) = addElement c s x := by
      unfold run at *
      rw [foldlM_snoc, hr]; rfl
    rw [hrun]
    have hcur : ∃ cur, cur <:+ xs ∧ (Inv c cur s ∨ (cur = [] ∧ Empty s)) := by
      rcases h1 with ⟨cur, a, b, _⟩ | h
      · exact ⟨cur, a, Or.inl b⟩
      · exact ⟨[], by simp, Or.inr ⟨rfl, h⟩⟩
    obtain ⟨cur, hsuf, hs⟩ := hcur
    obtain ⟨s', e, hs'⟩ := step_ok c hv cur s x hs
    have hinv : ∀ l, Inv c (l ++ [x]) s' → s'.totalN ≠ 0 := by
      intro l hl
      rw [hl.1.2.1]
      simp
    refine ⟨s', e, ?_, ?_, ?_, ?_⟩
    · rcases hs' with ⟨a, b, _⟩ | ⟨a, _⟩ | ⟨a, _⟩
      · left
        refine ⟨cur ++ [x], ?_, a, b⟩
        obtain ⟨p, rfl⟩ := hsuf
        exact ⟨p, by simp⟩
      · exact Or.inr a
      · exact Or.inr a
    · intro hno _
      have hx : Inv c xs s ∨ (xs = [] ∧ Empty s) := by
        by_cases hxe : xs = []
        · subst hxe
          right
          refine ⟨rfl, ?_⟩
          have : s = init := by
            have : run c [] = .ok init := rfl
            rw [this] at hr
            exact (Except.ok.inj hr).symm
          subst this
          exact ⟨rfl, rfl, rfl, rfl, rfl, rfl⟩
        · left
          refine (h2 ?_ hxe).1
          intro ys hy hys t htt
          exact hno ys hy (hys.trans (List.prefix_append _ _)) t htt
      obtain ⟨s'', e', h⟩ := step_ok c hv xs s x hx
      rw [e] at e'
      cases e'
      have hch : s'.totalN ≠ 0 := hno (xs ++ [x]) (by simp) List.prefix_rfl s' (by rw [hrun, e])
      rcases h with ⟨a, b, _⟩ | ⟨a, _⟩ | ⟨a, _⟩
      · exact ⟨a, b⟩
      · exact absurd a.1 hch
      · exact absurd a.1 hch
    · intro _ h0
      rcases hs' with ⟨a, _⟩ | ⟨_, a⟩ | ⟨_, a, _⟩
      · exact absurd h0 (hinv _ a)
      · exact Or.inl a
      · exact Or.inr a
    · intro hch
      rcases hs' with ⟨_, _, a⟩ | ⟨a, _⟩ | ⟨_, _, a⟩
      · rw [hch] at a; exact absurd a (by simp)
      · exact a.1
      · rw [hch] at a; exact absurd a (by simp)

private theorem good (hd : 0 < drift) (hd1 : drift < 1) (hw : 0 < warning) (hw1 : warning < 1) :
    Good (par drift warning two) := by
  refine ⟨Real.log_nonneg ?_, Real.log_nonneg ?_, Real.log_nonneg ?_⟩ <;> rw [le_div_iff₀ (by assumption)] <;> linarith

private theorem slack_pos (hd : 0 < drift) (hd1 : drift < 1) : 0 < slack drift := by
  unfold slack
  have h1 : (1 : ℝ) < 1 / drift := by rw [lt_div_iff₀ hd]; linarith
  have h2 : 1 / drift < 2 / drift := by
    apply div_lt_div_of_pos_right _ hd; norm_num
  have h3 := Real.log_lt_log (by linarith) h2
  have h4 := Real.log_pos h1
  have := Real.sqrt_lt_sqrt (by linarith : 0 ≤ Real.log (1 / drift) / 2)
    (by linarith : Real.log (1 / drift) / 2 < Real.log (2 / drift) / 2)
  linarith

private theorem bound (hd : 0 < drift) (hd1 : drift < 1) (cur : List ℝ) (s : HA ℝ)
    (hi : Inv (par drift warning two) cur s) (hn : NoRise (par drift warning two) s) (k : ℕ) (hk : 1 ≤ k)
    (hk' : k ≤ cur.length) :
    average cur < average (cur.take k) + deviation drift k + slack drift := by
  obtain ⟨⟨h0, h1, h2, h3, h4⟩, h5⟩ := hi
  have hkey := h5 k hk hk'
  have hs := slack_pos hd hd1
  have hlen : ((cur.take k).length : ℝ) = k := by rw [List.length_take, min_eq_left hk']
  have hdev : ∀ m : ℕ, (par drift warning two).sqrt (1 / (2 * (m : ℝ)) * (par drift warning two).logD) = deviation drift m := by
    intro m
    show √(1 / (2 * (m : ℝ)) * Real.log (1 / drift)) = √(Real.log (1 / drift) / (2 * m))
    congr 1
    ring
  unfold key at hkey
  rw [hdev, hdev] at hkey
  unfold average
  rw [hlen]
  have hdn : 0 ≤ deviation drift s.nMin := Real.sqrt_nonneg _
  have hnpos : (1 : ℝ) ≤ s.nMin := by exact_mod_cast h3.1
  rcases hn with hn | hn
  · have hc : s.cMin = s.totalC := by
      rw [h3.2.2, hn, h1, h2, List.take_length]
    rw [hc, hn, h1, h2] at hkey
    rw [hn, h1] at hdn
    linarith
  · rw [← h1, ← h2]
    have hle : (s.nMin : ℝ) ≤ s.totalN := by
      have : s.nMin ≤ s.totalN := by rw [h1]; exact h3.2.1
      exact_mod_cast this
    have hL1 : 0 ≤ Real.log (1 / drift) := Real.log_nonneg (by rw [le_div_iff₀ hd]; linarith)
    have hL2 : 0 ≤ Real.log (2 / drift) := Real.log_nonneg (by rw [le_div_iff₀ hd]; linarith)
    have hb : (par drift warning two).sqrt (((s.totalN : ℝ) - s.nMin) / s.nMin * (1 / s.totalN) / 2 *
        (par drift warning two).log2D) ≤ √(1 / (s.nMin : ℝ)) * √(Real.log (2 / drift) / 2) := by
      rw [← Real.sqrt_mul (by positivity)]
      apply Real.sqrt_le_sqrt
      show ((s.totalN : ℝ) - s.nMin) / s.nMin * (1 / s.totalN) / 2 * Real.log (2 / drift) ≤ _
      have : ((s.totalN : ℝ) - s.nMin) / s.nMin * (1 / s.totalN) ≤ 1 / (s.nMin : ℝ) := by
        have ht : (0 : ℝ) < s.totalN := by linarith
        have hm : (0 : ℝ) < s.nMin := by linarith
        rw [div_mul_div_comm, div_le_div_iff₀ (by positivity) hm]
        nlinarith
      have := mul_le_mul_of_nonneg_right this (by positivity : 0 ≤ Real.log (2 / drift) / 2)
      linarith
    have hd2 : deviation drift s.nMin = √(1 / (s.nMin : ℝ)) * √(Real.log (1 / drift) / 2) := by
      unfold deviation
      rw [← Real.sqrt_mul (by positivity)]
      congr 1
      ring
    have hr : √(1 / (s.nMin : ℝ)) ≤ 1 := by
      apply Real.sqrt_le_iff.2
      rw [one_pow, div_le_one (by linarith)]
      exact ⟨zero_le_one, hnpos⟩
    have hmul : √(1 / (s.nMin : ℝ)) * slack drift ≤ slack drift := by nlinarith
    have hex : √(1 / (s.nMin : ℝ)) * slack drift
        = √(1 / (s.nMin : ℝ)) * √(Real.log (2 / drift) / 2) - √(1 / (s.nMin : ℝ)) * √(Real.log (1 / drift) / 2) := by
      unfold slack; ring
    linarith

private theorem lastN_suffix {cur xs : List ℝ} (h : cur <:+ xs) : lastN cur.length xs = cur :=
  (List.suffix_iff_eq_drop.1 h).symm

/-! ### The property -/

/-- **C303.**  HDDM_A never fails, and whatever it was fed, the average of the values since it last
forgot everything (`total_n` many) is less than the average of the first `k` of them plus what `k` values may
deviate by, plus the slack; for every `k`. -/
theorem C303_unreported (hd : 0 < drift) (hd1 : drift < 1) (hw : 0 < warning) (hw1 : warning < 1) (xs : List ℝ) :
    ∃ s, run (par drift warning two) xs = .ok s ∧ ∀ k, 1 ≤ k → k ≤ s.totalN →
      average (lastN s.totalN xs) < average ((lastN s.totalN xs).take k) + deviation drift k + slack drift := by
  obtain ⟨s, hr, h, _⟩ := run_inv (par drift warning two) (good hd hd1 hw hw1) xs
  refine ⟨s, hr, ?_⟩
  intro k hk hk'
  rcases h with ⟨cur, hsuf, hi, hn⟩ | h
  · rw [hi.1.2.1] at hk' ⊢
    rw [lastN_suffix hsuf]
    exact bound hd hd1 cur s hi hn k hk hk'
  · have := h.1
    omega

/-- **C303, when it forgets.**  After a value that is reported as a change everything is forgotten;
otherwise everything is forgotten with `two_side_option` only. -/
theorem C303_forgets (hd : 0 < drift) (hd1 : drift < 1) (hw : 0 < warning) (hw1 : warning < 1) (xs : List ℝ)
    (hne : xs ≠ []) :
    ∃ s, run (par drift warning two) xs = .ok s ∧ (s.change = true → s.totalN = 0) ∧
      (s.totalN = 0 → s.change = true ∨ two = true) := by
  obtain ⟨s, hr, _, _, h1, h2⟩ := run_inv (par drift warning two) (good hd hd1 hw hw1) xs
  exact ⟨s, hr, h2, h1 hne⟩

/-- **C303, rises are found.**  Nothing was forgotten during the values `pre`, which average at most `p`,
and `post` averages at least `q`.  If `post` is long enough for the difference, then one of its values is
reported as a change, or (with `two_side_option`) makes the detector forget because of a fall. -/
theorem C303_found (hd : 0 < drift) (hd1 : drift < 1) (hw : 0 < warning) (hw1 : warning < 1)
    (pre post : List ℝ) (hpre : pre ≠ []) (hpost : post ≠ []) (p q : ℝ) (hp : average pre ≤ p) (hq : q ≤ average post)
    (hkept : ∀ ys, ys ≠ [] → ys <+: pre → ∀ s, run (par drift warning two) ys = .ok s → s.totalN ≠ 0)
    (hlong : (deviation drift pre.length + slack drift) * (pre.length + post.length) ≤ (q - p) * post.length) :
    ∃ mid, mid ≠ [] ∧ mid <+: post ∧ ∃ s, run (par drift warning two) (pre ++ mid) = .ok s ∧
      (s.change = true ∨ (two = true ∧ s.totalN = 0)) := by
  have hv : Good (par drift warning two) := good hd hd1 hw hw1
  by_contra hcon
  have hall : ∀ ys, ys ≠ [] → ys <+: pre ++ post → ∀ s, run (par drift warning two) ys = .ok s → s.totalN ≠ 0 := by
    intro ys hy hys s hs h0
    by_cases hle : ys.length ≤ pre.length
    · exact hkept ys hy (List.prefix_of_prefix_length_le hys (List.prefix_append _ _) hle) s hs h0
    · obtain ⟨mid, rfl⟩ := List.prefix_of_prefix_length_le (List.prefix_append pre post) hys (by omega)
      have hm : mid ≠ [] := by
        rintro rfl
        simp at hle
      refine hcon ⟨mid, hm, (List.prefix_append_right_inj pre).1 hys, s, hs, ?_⟩
      obtain ⟨s', hs', _, _, h4, _⟩ := run_inv (par drift warning two) hv (pre ++ mid)
      rw [hs] at hs'
      cases hs'
      rcases h4 (by simp [hpre]) h0 with h | h
      · exact Or.inl h
      · exact Or.inr ⟨h, h0⟩
  obtain ⟨s, hr, _, h3, _⟩ := run_inv (par drift warning two) hv (pre ++ post)
  obtain ⟨hi, hn⟩ := h3 hall (by simp [hpre])
  have hb := bound hd hd1 (pre ++ post) s hi hn pre.length (List.length_pos_iff.2 hpre) (by simp)
  rw [List.take_left] at hb
  have hk : (0 : ℝ) < pre.length := by exact_mod_cast List.length_pos_iff.2 hpre
  have hm : (0 : ℝ) < post.length := by exact_mod_cast List.length_pos_iff.2 hpost
  have hsum : (pre ++ post).sum = average pre * pre.length + average post * post.length := by
    unfold average
    rw [List.sum_append]
    field_simp
  have hav : average (pre ++ post) * (pre.length + post.length)
      = average pre * pre.length + average post * post.length := by
    rw [← hsum]
    unfold average
    rw [List.length_append]
    push_cast
    field_simp
  have h1 := mul_lt_mul_of_pos_right hb (by linarith : (0 : ℝ) < pre.length + post.length)
  rw [hav] at h1
  have h2 : (q - p) * post.length ≤ (average post - average pre) * post.length :=
    mul_le_mul_of_nonneg_right (by linarith) hm.le
  nlinarith

/-! ### Examples -/

private theorem first_kept (hd : 0 < drift) (hd1 : drift < 1) (x : ℝ) (s : HA ℝ)
    (h : run (par drift warning two) [x] = .ok s) : s.totalN ≠ 0 := by
  have hL1 : Real.log drift < 0 := Real.log_neg hd hd1
  have hq : pySqrt Real.sqrt (-(2⁻¹ * Real.log drift)) = .ok √(-(2⁻¹ * Real.log drift)) := sqrt_ok (by linarith)
  cases two <;>
  · simp [run, List.foldlM, addElement, count, init, cut, monitorIncr, monitorDecr, meanIncr, meanDecr,
      updateEstimations, pyDiv, par, hq, bind, Except.bind, pure, Except.pure] at h
    rw [← h]
    simp

/-- With `drift_confidence = exp(-2)`: after one 0, three values of 10 are enough. -/
example : ∃ mid, mid ≠ [] ∧ mid <+: [10, 10, 10] ∧ ∃ s, run (par (Real.exp (-2)) (1 / 2) false) ([0] ++ mid) = .ok s ∧
    s.change = true := by
  have he : Real.exp (-2) < 1 := by rw [Real.exp_lt_one_iff]; norm_num
  have h1 : Real.log (1 / Real.exp (-2)) = 2 := by rw [one_div, Real.log_inv, Real.log_exp]; norm_num
  have h2 : Real.log (2 / Real.exp (-2)) ≤ 4 := by
    rw [Real.log_div (by norm_num) (Real.exp_pos _).ne', Real.log_exp]
    have := Real.log_le_sub_one_of_pos (by norm_num : (0 : ℝ) < 2)
    linarith
  obtain ⟨mid, a, b, s, d, e⟩ := C303_found (two := false) (warning := 1 / 2) (Real.exp_pos (-2)) he (by norm_num)
    (by norm_num) [0] [10, 10, 10] (by simp) (by simp) 0 10 (by simp [average]) (by simp [average]; norm_num)
    (by
      intro ys hy hys s hs
      have : ys = [0] := by
        obtain ⟨t, ht⟩ := hys
        cases ys with
        | nil => exact absurd rfl hy
        | cons y ys => simp at ht; simp [ht.1, ht.2.1]
      subst this
      exact first_kept (Real.exp_pos _) he 0 s hs)
    (by
      unfold deviation slack
      rw [h1]
      have s1 : √(2 / (2 * (([0] : List ℝ).length : ℝ))) = 1 := by norm_num
      have s2 : √(Real.log (2 / Real.exp (-2)) / 2) ≤ 2 := by
        apply Real.sqrt_le_iff.2
        constructor <;> linarith
      rw [s1]
      have s3 : √((2 : ℝ) / 2) = 1 := by norm_num
      rw [s3]
      simp only [List.length_cons, List.length_nil]
      push_cast
      linarith)
  refine ⟨mid, a, b, s, d, ?_⟩
  rcases e with e | ⟨e, _⟩
  · exact e
  · exact absurd e (by simp)

end Verif.Drift.HDDMRise
