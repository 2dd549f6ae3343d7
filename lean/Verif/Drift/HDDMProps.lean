import Verif.Drift.Model
import Verif.Stats
import Mathlib.Data.List.Induction

/-!
Properties C19 and C50 (HDDM_A) and C20 (HDDM_W).
-/

namespace Verif.Drift

theorem pyDiv_ok {a b : ℚ} (h : b ≠ 0) : pyDiv a b = .ok (a / b) := by simp [pyDiv, h]
theorem pySqrt_ok {f : ℚ → ℚ} {a : ℚ} (h : 0 ≤ a) : pySqrt f a = .ok (f a) := by
  simp [pySqrt, not_lt.2 h]

namespace HA

/-- Valid parameters: confidences in (0, 1), so that all three logarithms are
non-negative. -/
def Valid (c : HAPar) : Prop := 0 ≤ c.logD ∧ 0 ≤ c.log2D ∧ 0 ≤ c.log2W

/-- A cut point inside the current segment. -/
private def Cut (cur : List ℚ) (n : Nat) (s : ℚ) : Prop :=
  1 ≤ n ∧ n ≤ cur.length ∧ s = (cur.take n).sum

private def Cur (cur : List ℚ) (s : HA) : Prop :=
  cur ≠ [] ∧ s.totalN = cur.length ∧ s.totalC = cur.sum ∧ Cut cur s.nMin s.cMin ∧
  Cut cur s.nMax s.cMax

private def Empty (s : HA) : Prop :=
  s.totalN = 0 ∧ s.totalC = 0 ∧ s.nMin = 0 ∧ s.nMax = 0 ∧ s.cMin = 0 ∧ s.cMax = 0

private def Est (h : List ℚ) (s : HA) : Prop :=
  ∃ b, b <:+: h ∧ b.length = s.nEst ∧ b.sum = s.cEst

private theorem cut_append {cur : List ℚ} {n : Nat} {s : ℚ} (h : Cut cur n s) (x : ℚ) :
    Cut (cur ++ [x]) n s := by
  obtain ⟨a, b, rfl⟩ := h
  exact ⟨a, by simp; omega, by rw [List.take_append_of_le_length b]⟩

private theorem cut_full {cur : List ℚ} (h : cur ≠ []) : Cut cur cur.length cur.sum :=
  ⟨List.length_pos_iff.2 h, le_refl _, by simp⟩

private theorem count_cur (cur : List ℚ) (s : HA) (x : ℚ) (h : Cur cur s ∨ (cur = [] ∧ Empty s)) :
    Cur (cur ++ [x]) (count s x) ∧ (count s x).nEst = s.nEst ∧ (count s x).cEst = s.cEst := by
  rcases h with ⟨h0, h1, h2, h3, h4⟩ | ⟨rfl, h1, h2, h3, h4, h5, h6⟩
  · unfold count
    have e1 : s.nMin ≠ 0 := by have := h3.1; omega
    have e2 : s.nMax ≠ 0 := by have := h4.1; omega
    simp only [e1, e2, if_false]
    exact ⟨⟨by simp, by simp [h1], by simp [h2], cut_append h3 x, cut_append h4 x⟩, trivial, trivial⟩
  · unfold count
    simp only [h3, h4, if_true, h1, h2]
    refine ⟨⟨by simp, rfl, by simp, ?_, ?_⟩, trivial, trivial⟩ <;> exact ⟨by simp, by simp, by simp⟩

private theorem cur_ne {cur : List ℚ} {s : HA} (h : Cur cur s) :
    (s.nMin : ℚ) ≠ 0 ∧ (s.nMax : ℚ) ≠ 0 ∧ (s.totalN : ℚ) ≠ 0 := by
  obtain ⟨h0, h1, h2, h3, h4⟩ := h
  have hlen := List.length_pos_iff.2 h0
  refine ⟨?_, ?_, ?_⟩
  · have := h3.1; exact_mod_cast (by omega : s.nMin ≠ 0)
  · have := h4.1; exact_mod_cast (by omega : s.nMax ≠ 0)
  · rw [h1]; exact_mod_cast (by omega : cur.length ≠ 0)

private theorem cut_ok (c : HAPar) (hv : Valid c) (cur : List ℚ) (s : HA) (h : Cur cur s) :
    ∃ s', cut c s = .ok s' ∧ Cur cur s' ∧ s'.nEst = s.nEst ∧ s'.cEst = s.cEst := by
  obtain ⟨hmin, hmax, htot⟩ := cur_ne h
  have hD := hv.1
  have hfull : Cut cur s.totalN s.totalC := by
    rw [h.2.1, h.2.2.1]; exact cut_full h.1
  have hsq : ∀ n : ℕ, 0 ≤ 1 / (2 * (n : ℚ)) * c.logD := fun n => by positivity
  unfold cut
  simp only [pyDiv_ok hmin, pyDiv_ok htot, pyDiv_ok (mul_ne_zero two_ne_zero hmin),
    pyDiv_ok (mul_ne_zero two_ne_zero htot), pySqrt_ok (hsq _), bind, Except.bind]
  generalize hs' : (if s.cMin / (s.nMin : ℚ) + c.sqrt (1 / (2 * (s.nMin : ℚ)) * c.logD) ≥
      s.totalC / (s.totalN : ℚ) + c.sqrt (1 / (2 * (s.totalN : ℚ)) * c.logD) then
      ({ s with cMin := s.totalC, nMin := s.totalN } : HA) else s) = s'
  have hprop : Cur cur s' ∧ s'.nEst = s.nEst ∧ s'.cEst = s.cEst ∧ s'.totalN = s.totalN ∧
      s'.totalC = s.totalC := by
    rw [← hs']
    split
    · exact ⟨⟨h.1, h.2.1, h.2.2.1, hfull, h.2.2.2.2⟩, rfl, rfl, rfl, rfl⟩
    · exact ⟨h, rfl, rfl, rfl, rfl⟩
  obtain ⟨hc', hn1, hn2, hn3, hn4⟩ := hprop
  obtain ⟨hmin', hmax', htot'⟩ := cur_ne hc'
  simp only [pyDiv_ok hmax', pyDiv_ok htot', pyDiv_ok (mul_ne_zero two_ne_zero hmax'),
    pySqrt_ok (hsq _), pure, Except.pure]
  split
  · exact ⟨_, rfl, ⟨hc'.1, hc'.2.1, hc'.2.2.1, hc'.2.2.2.1, by rw [hn3, hn4]; exact hfull⟩, hn1, hn2⟩
  · exact ⟨_, rfl, hc', hn1, hn2⟩

private theorem incr_ok (sqrt : ℚ → ℚ) (cMin totalC lg : ℚ) (nMin totalN : Nat) (hlg : 0 ≤ lg)
    (h1 : 1 ≤ nMin) (h2 : nMin ≤ totalN) :
    meanIncr sqrt cMin nMin totalC totalN lg = .ok (decide (nMin ≠ totalN ∧
      totalC / totalN - cMin / nMin ≥
        sqrt (((totalN : ℚ) - nMin) / nMin * (1 / totalN) / 2 * lg))) := by
  unfold meanIncr
  by_cases he : nMin = totalN
  · simp [he, pure, Except.pure]
  · have hmin : (nMin : ℚ) ≠ 0 := by exact_mod_cast (by omega : nMin ≠ 0)
    have htot : (totalN : ℚ) ≠ 0 := by exact_mod_cast (by omega : totalN ≠ 0)
    have hsub : (0 : ℚ) ≤ (totalN : ℚ) - nMin := by
      have : (nMin : ℚ) ≤ totalN := by exact_mod_cast h2
      linarith
    have hnn : 0 ≤ ((totalN : ℚ) - nMin) / nMin * (1 / totalN) / 2 * lg :=
      mul_nonneg (div_nonneg (mul_nonneg (div_nonneg hsub (by positivity)) (by positivity))
        (by norm_num)) hlg
    simp only [he, if_false, pyDiv_ok hmin, pyDiv_ok htot, bind, Except.bind, pure, Except.pure,
      pySqrt_ok hnn]
    simp
    exact fun _ => he

private theorem decr_ok (sqrt : ℚ → ℚ) (cMin totalC lg : ℚ) (nMin totalN : Nat) (hlg : 0 ≤ lg)
    (h1 : 1 ≤ nMin) (h2 : nMin ≤ totalN) :
    meanDecr sqrt cMin nMin totalC totalN lg = .ok (decide (nMin ≠ totalN ∧
      cMin / nMin - totalC / totalN ≥
        sqrt (((totalN : ℚ) - nMin) / nMin * (1 / totalN) / 2 * lg))) := by
  unfold meanDecr
  by_cases he : nMin = totalN
  · simp [he, pure, Except.pure]
  · have hmin : (nMin : ℚ) ≠ 0 := by exact_mod_cast (by omega : nMin ≠ 0)
    have htot : (totalN : ℚ) ≠ 0 := by exact_mod_cast (by omega : totalN ≠ 0)
    have hsub : (0 : ℚ) ≤ (totalN : ℚ) - nMin := by
      have : (nMin : ℚ) ≤ totalN := by exact_mod_cast h2
      linarith
    have hnn : 0 ≤ ((totalN : ℚ) - nMin) / nMin * (1 / totalN) / 2 * lg :=
      mul_nonneg (div_nonneg (mul_nonneg (div_nonneg hsub (by positivity)) (by positivity))
        (by norm_num)) hlg
    simp only [he, if_false, pyDiv_ok hmin, pyDiv_ok htot, bind, Except.bind, pure, Except.pure,
      pySqrt_ok hnn]
    simp
    exact fun _ => he

/-- Dropping the first `n` elements leaves the estimate counters. -/
private theorem cut_rest {cur h : List ℚ} (hsuf : cur <:+ h) {n : Nat} {s : ℚ} (hc : Cut cur n s) :
    ∃ b, b <:+: h ∧ b.length = cur.length - n ∧ b.sum = cur.sum - s := by
  obtain ⟨_, _, rfl⟩ := hc
  refine ⟨cur.drop n, ?_, by simp, ?_⟩
  · obtain ⟨p, rfl⟩ := hsuf
    exact ⟨p ++ cur.take n, [], by rw [List.append_assoc, List.append_nil, List.append_assoc,
      List.take_append_drop]⟩
  · have := congrArg List.sum (List.take_append_drop n cur)
    rw [List.sum_append] at this; linarith

/-- What the monitoring stages establish: either the segment goes on, or it was
cleared and a non-empty estimate was saved. -/
private def Mid (h cur : List ℚ) (s : HA) : Prop :=
  (Cur cur s ∧ Est h s) ∨ (Empty s ∧ Est h s ∧ 1 ≤ s.nEst)

private theorem clear_mid {h cur : List ℚ} (hsuf : cur <:+ h) (s : HA) (hc : Cur cur s) (n : Nat)
    (v : ℚ) (hcut : Cut cur n v) (hne : n ≠ s.totalN) :
    Mid h cur (clear { s with nEst := s.totalN - n, cEst := s.totalC - v }) := by
  right
  refine ⟨⟨rfl, rfl, rfl, rfl, rfl, rfl⟩, ?_, ?_⟩
  · obtain ⟨b, h1, h2, h3⟩ := cut_rest hsuf hcut
    exact ⟨b, h1, by simp [clear, h2, hc.2.1], by simp [clear, h3, hc.2.2.1]⟩
  · have h1 := hc.2.1
    have h2 := hcut.2.1
    simp only [clear]
    omega

private theorem monitorIncr_ok (c : HAPar) (hv : Valid c) {h cur : List ℚ} (hsuf : cur <:+ h) (s : HA)
    (hc : Cur cur s) (he : Est h s) :
    ∃ s', monitorIncr c s = .ok s' ∧ Mid h cur s' ∧ ¬ (s'.change = true ∧ s'.warning = true) ∧
      (Cur cur s' ∨ s'.change = true) ∧
      ((s'.change = true ∨ s'.warning = true) → ∃ lg, (lg = c.log2D ∨ lg = c.log2W) ∧
        s.nMin ≠ s.totalN ∧ s.totalC / s.totalN - s.cMin / s.nMin ≥
          c.sqrt (((s.totalN : ℚ) - s.nMin) / s.nMin * (1 / s.totalN) / 2 * lg)) := by
  have h3 := hc.2.2.2.1
  have hle : s.nMin ≤ s.totalN := by rw [hc.2.1]; exact h3.2.1
  unfold monitorIncr
  rw [incr_ok c.sqrt s.cMin s.totalC c.log2D s.nMin s.totalN hv.2.1 h3.1 hle,
    incr_ok c.sqrt s.cMin s.totalC c.log2W s.nMin s.totalN hv.2.2 h3.1 hle]
  simp only [bind, Except.bind, pure, Except.pure]
  split
  · rename_i hd
    have hd := of_decide_eq_true hd
    refine ⟨_, rfl, ?_, by simp, by simp, fun _ => ⟨_, Or.inl rfl, hd⟩⟩
    rcases clear_mid hsuf s hc s.nMin s.cMin h3 hd.1 with ⟨a, b⟩ | ⟨a, b, d⟩
    · exact Or.inl ⟨a, b⟩
    · exact Or.inr ⟨a, b, d⟩
  · split
    · rename_i hd
      have hd := of_decide_eq_true hd
      exact ⟨_, rfl, Or.inl ⟨hc, he⟩, by simp, Or.inl hc, fun _ => ⟨_, Or.inr rfl, hd⟩⟩
    · exact ⟨_, rfl, Or.inl ⟨hc, he⟩, by simp, Or.inl hc, by simp⟩

private theorem monitorDecr_ok (c : HAPar) (hv : Valid c) {h cur : List ℚ} (hsuf : cur <:+ h) (s : HA)
    (hm : Mid h cur s) :
    ∃ s', monitorDecr c s = .ok s' ∧ Mid h cur s' ∧ s'.change = s.change ∧ s'.warning = s.warning := by
  unfold monitorDecr
  cases c.twoSide
  · simp only [Bool.false_eq_true, if_false]
    exact ⟨s, rfl, hm, rfl, rfl⟩
  · simp only [if_true]
    rcases hm with ⟨hc, he⟩ | ⟨he, he2, hn⟩
    · have h4 := hc.2.2.2.2
      have hle : s.nMax ≤ s.totalN := by rw [hc.2.1]; exact h4.2.1
      rw [decr_ok c.sqrt s.cMax s.totalC c.log2D s.nMax s.totalN hv.2.1 h4.1 hle]
      simp only [bind, Except.bind, pure, Except.pure]
      split
      · rename_i hd
        have hd := of_decide_eq_true hd
        exact ⟨_, rfl, clear_mid hsuf s hc s.nMax s.cMax h4 hd.1, rfl, rfl⟩
      · exact ⟨s, rfl, Or.inl ⟨hc, he⟩, rfl, rfl⟩
    · have : meanDecr c.sqrt s.cMax s.nMax s.totalC s.totalN c.log2D = .ok false := by
        unfold meanDecr; rw [he.1, he.2.2.2.1]; rfl
      rw [this]
      exact ⟨s, rfl, Or.inr ⟨he, he2, hn⟩, rfl, rfl⟩

private theorem update_ok {h cur : List ℚ} (hsuf : cur <:+ h) (s : HA) (hm : Mid h cur s) :
    ∃ s', updateEstimations s = .ok s' ∧ s'.change = s.change ∧ s'.warning = s.warning ∧
      (Cur cur s' ∨ Empty s') ∧ Est h s' ∧
      ∃ b, b <:+: h ∧ b ≠ [] ∧ s'.estimation = mean b ∧ s'.delay = b.length := by
  have hest : Est h s := by rcases hm with ⟨_, h⟩ | ⟨_, h, _⟩ <;> exact h
  unfold updateEstimations
  by_cases hge : s.totalN ≥ s.nEst
  · rw [if_pos hge]
    rcases hm with ⟨hc, _⟩ | ⟨he, _, hn⟩
    · have hlen := List.length_pos_iff.2 hc.1
      have htot : (s.totalN : ℚ) ≠ 0 := by
        rw [hc.2.1]; exact_mod_cast (by omega : cur.length ≠ 0)
      rw [pyDiv_ok htot]
      refine ⟨_, rfl, rfl, rfl, Or.inl hc, ⟨[], ⟨[], h, by simp⟩, rfl, rfl⟩, cur, hsuf.isInfix,
        hc.1, ?_, hc.2.1⟩
      simp [mean, hc.2.1, hc.2.2.1]
    · have := he.1; omega
  · rw [if_neg hge]
    obtain ⟨b, h1, h2, h3⟩ := hest
    have hb : b ≠ [] := by
      intro hb; rw [hb] at h2; simp at h2; omega
    have hne : (s.nEst : ℚ) ≠ 0 := by exact_mod_cast (by omega : s.nEst ≠ 0)
    rw [pyDiv_ok hne]
    refine ⟨_, rfl, rfl, rfl, ?_, ⟨b, h1, h2, h3⟩, b, h1, hb, ?_, h2.symm⟩
    · rcases hm with ⟨hc, _⟩ | ⟨he, _, hn⟩
      · exact Or.inl hc
      · exact Or.inr he
    · simp [mean, h2, h3]

/-- The increase test behind a reported change or warning: at some point `n`
inside the current segment `cur` (a suffix of the stream), the mean of the
whole segment exceeds the mean of its first `n` values by the bound. -/
def IncreaseWitness (c : HAPar) (xs : List ℚ) : Prop :=
  ∃ cur n lg, cur <:+ xs ∧ 1 ≤ n ∧ n < cur.length ∧ (lg = c.log2D ∨ lg = c.log2W) ∧
    mean cur - mean (cur.take n) ≥
      c.sqrt (((cur.length : ℚ) - n) / n * (1 / cur.length) / 2 * lg)

private theorem step_ok (c : HAPar) (hv : Valid c) (h cur : List ℚ) (s : HA) (x : ℚ)
    (hsuf : cur <:+ h) (hs : Cur cur s ∨ (cur = [] ∧ Empty s)) (he : Est h s) :
    ∃ s', addElement c s x = .ok s' ∧ (Cur (cur ++ [x]) s' ∨ Empty s') ∧
      Est (h ++ [x]) s' ∧ ¬ (s'.change = true ∧ s'.warning = true) ∧
      ((s'.change = true ∨ s'.warning = true) → IncreaseWitness c (h ++ [x])) ∧
      ∃ b, b <:+: h ++ [x] ∧ b ≠ [] ∧ s'.estimation = mean b ∧ s'.delay = b.length := by
  have hsuf' : cur ++ [x] <:+ h ++ [x] := by
    obtain ⟨p, rfl⟩ := hsuf; exact ⟨p, by simp⟩
  obtain ⟨c1, c2, c3⟩ := count_cur cur s x hs
  obtain ⟨s1, e1, d1, d2, d3⟩ := cut_ok c hv _ _ c1
  have hest1 : Est (h ++ [x]) s1 := by
    obtain ⟨b, ⟨p, q, rfl⟩, b2, b3⟩ := he
    exact ⟨b, ⟨p, q ++ [x], by simp⟩, by rw [d2, c2, b2], by rw [d3, c3, b3]⟩
  obtain ⟨s2, e2, f1, f2, f3, f4⟩ := monitorIncr_ok c hv hsuf' s1 d1 hest1
  obtain ⟨s3, e3, g1, g2, g3⟩ := monitorDecr_ok c hv hsuf' s2 f1
  obtain ⟨s4, e4, k1, k2, k3, k4, k5⟩ := update_ok hsuf' s3 g1
  refine ⟨s4, ?_, k3, k4, ?_, ?_, k5⟩
  · unfold addElement
    simp only [e1, e2, e3, e4, bind, Except.bind]
  · rw [k1, k2, g2, g3]; exact f2
  · rw [k1, k2, g2, g3]
    intro hfl
    obtain ⟨lg, hlg, hn, hge⟩ := f4 hfl
    obtain ⟨m1, m2, m3⟩ := d1.2.2.2.1
    rw [d1.2.1, d1.2.2.1, m3] at hge
    rw [d1.2.1] at hn
    refine ⟨cur ++ [x], s1.nMin, lg, hsuf', m1, by omega, hlg, ?_⟩
    have : ((List.take s1.nMin (cur ++ [x])).length : ℚ) = s1.nMin := by
      rw [List.length_take, min_eq_left m2]
    unfold mean
    rw [this]
    exact hge

private theorem run_inv (c : HAPar) (hv : Valid c) (xs : List ℚ) :
    ∃ s, run c xs = .ok s ∧ (∃ cur, cur <:+ xs ∧ (Cur cur s ∨ (cur = [] ∧ Empty s))) ∧ Est xs s ∧
      ¬ (s.change = true ∧ s.warning = true) ∧
      ((s.change = true ∨ s.warning = true) → IncreaseWitness c xs) ∧
      (xs ≠ [] → ∃ b, b <:+: xs ∧ b ≠ [] ∧ s.estimation = mean b ∧ s.delay = b.length) := by
  induction xs using List.reverseRecOn with
  | nil =>
    exact ⟨init, rfl, ⟨[], by simp, Or.inr ⟨rfl, rfl, rfl, rfl, rfl, rfl, rfl⟩⟩,
      ⟨[], by simp, rfl, rfl⟩, by simp [init], by simp [init], by simp⟩
  | append_singleton xs x ih =>
    obtain ⟨s, hr, ⟨cur, hsuf, hs⟩, he, _⟩ := ih
    obtain ⟨s', a, b, d, e, f, g⟩ := step_ok c hv xs cur s x hsuf hs he
    refine ⟨s', ?_, ?_, d, e, f, fun _ => g⟩
    · unfold run at *
      rw [foldlM_snoc, hr]; exact a
    · rcases b with b | b
      · refine ⟨cur ++ [x], ?_, Or.inl b⟩
        obtain ⟨p, rfl⟩ := hsuf; exact ⟨p, by simp⟩
      · exact ⟨[], by simp, Or.inr ⟨rfl, b⟩⟩

/-- **C19.** HDDM_A never raises (no division by zero, no square root of a
negative number); the published estimation is the mean of a non-empty run of
consecutive inputs whose length is the published delay; change and warning are
never both set. -/
theorem C19_estimation (c : HAPar) (hv : Valid c) (xs : List ℚ) (hne : xs ≠ []) :
    ∃ s, run c xs = .ok s ∧ ¬ (s.change = true ∧ s.warning = true) ∧
      ∃ b, b <:+: xs ∧ b ≠ [] ∧ s.estimation = mean b ∧ s.delay = b.length := by
  obtain ⟨s, a, _, _, d, _, e⟩ := run_inv c hv xs
  exact ⟨s, a, d, e hne⟩

/-- **C19 (range).** The estimation stays inside the range of the inputs. -/
theorem C19_range (c : HAPar) (hv : Valid c) (xs : List ℚ) (hne : xs ≠ []) (lo hi : ℚ)
    (hb : ∀ x ∈ xs, lo ≤ x ∧ x ≤ hi) :
    ∃ s, run c xs = .ok s ∧ lo ≤ s.estimation ∧ s.estimation ≤ hi := by
  obtain ⟨s, a, _, b, hsub, hbne, he, _⟩ := C19_estimation c hv xs hne
  refine ⟨s, a, ?_, ?_⟩ <;> rw [he]
  · exact le_mean b lo hbne fun x hx => (hb x (hsub.subset hx)).1
  · exact mean_le b hi hbne fun x hx => (hb x (hsub.subset hx)).2

private theorem mean_take_ge (cur : List ℚ) (hd : cur.Pairwise (· ≥ ·)) (n : Nat) (h1 : 1 ≤ n)
    (h2 : n < cur.length) : mean cur ≤ mean (cur.take n) := by
  have ht : cur.take n ≠ [] := by
    intro h
    have := congrArg List.length h
    simp only [List.length_take, List.length_nil] at this; omega
  have hdr : cur.drop n ≠ [] := by
    intro h
    have := congrArg List.length h
    simp only [List.length_drop, List.length_nil] at this; omega
  have hsplit := List.take_append_drop n cur
  rw [← hsplit, List.pairwise_append] at hd
  obtain ⟨_, _, hcross⟩ := hd
  -- every later value is at most every earlier one, hence at most the earlier mean
  have hle : ∀ y ∈ cur.drop n, y ≤ mean (cur.take n) := fun y hy =>
    le_mean _ _ ht fun x hx => hcross x hx y hy
  have hm : mean (cur.drop n) ≤ mean (cur.take n) := mean_le _ _ hdr hle
  have hs : cur.sum = (cur.take n).sum + (cur.drop n).sum := by
    rw [← List.sum_append, hsplit]
  have l1 := length_mul_mean (cur.take n)
  have l2 := length_mul_mean (cur.drop n)
  have l3 : ((cur.take n).length : ℚ) + (cur.drop n).length = cur.length := by
    exact_mod_cast (by rw [← List.length_append, hsplit])
  have hpos : (0 : ℚ) < cur.length := by exact_mod_cast (by omega : 0 < cur.length)
  have hdpos : (0 : ℚ) ≤ (cur.drop n).length := by positivity
  rw [mean, div_le_iff₀ hpos, hs, ← l1, ← l2, ← l3]
  nlinarith

/-- **C50.** HDDM_A never reports a decrease: on a stream that never increases
neither a change nor a warning is ever reported, in one-sided and in two-sided
mode (the two-sided mode only restarts silently). -/
theorem C50_decrease_never_reported (c : HAPar) (hD : 0 ≤ c.logD) (h2D : 0 < c.log2D)
    (h2W : 0 < c.log2W) (hsq : ∀ q, 0 < q → 0 < c.sqrt q) (xs : List ℚ)
    (hmono : xs.Pairwise (· ≥ ·)) :
    ∃ s, run c xs = .ok s ∧ s.change = false ∧ s.warning = false := by
  obtain ⟨s, a, _, _, _, hw, _⟩ := run_inv c ⟨hD, h2D.le, h2W.le⟩ xs
  have key : ¬ (s.change = true ∨ s.warning = true) := by
    intro hfl
    obtain ⟨cur, n, lg, hsuf, h1, h2, hlg, hge⟩ := hw hfl
    have hle := mean_take_ge cur (hmono.sublist hsuf.sublist) n h1 h2
    have hlgp : 0 < lg := by rcases hlg with rfl | rfl <;> assumption
    have hn : (0 : ℚ) < n := by exact_mod_cast h1
    have hl : (0 : ℚ) < cur.length := by exact_mod_cast (by omega : 0 < cur.length)
    have hsub : (0 : ℚ) < (cur.length : ℚ) - n := by
      have : (n : ℚ) < cur.length := by exact_mod_cast h2
      linarith
    have := hsq (((cur.length : ℚ) - n) / n * (1 / cur.length) / 2 * lg)
      (mul_pos (div_pos (mul_pos (div_pos hsub hn) (by positivity)) (by norm_num)) hlgp)
    linarith
  refine ⟨s, a, ?_, ?_⟩
  · cases h : s.change
    · rfl
    · exact absurd (Or.inl h) key
  · cases h : s.warning
    · rfl
    · exact absurd (Or.inr h) key

/-- **C19 (what a report means).** A change or warning is only reported when the
mean of the values since the last restart exceeds the mean of a proper initial
part of them by the Hoeffding-type bound. -/
theorem C19_report_means_increase (c : HAPar) (hv : Valid c) (xs : List ℚ) :
    ∃ s, run c xs = .ok s ∧ ((s.change = true ∨ s.warning = true) → IncreaseWitness c xs) := by
  obtain ⟨s, a, _, _, _, hw, _⟩ := run_inv c hv xs
  exact ⟨s, a, hw⟩

-- Concrete parameters; a jump from 0 to 1 is reported, a drop from 1 to 0 is not.
def demo : HAPar := ⟨1, 1, 1, true, fun q => q⟩
example : Valid demo := by norm_num [Valid, demo]
example : (run demo [0, 0, 0, 0, 1]).toOption.map (·.change) = some true ∧
    (run demo [1, 1, 1, 1, 0, 0]).toOption.map (fun s => (s.change, s.delay)) = some (false, 1) := by
  decide +kernel

end HA

namespace HW

/-- The observable outputs after a stream. -/
def outputs (c : HWPar) (xs : List ℚ) : Except PyErr (Bool × Bool × ℚ × Nat × Nat) :=
  (run c xs).map fun s => (s.change, s.warning, s.estimation, s.delay, s.width)

private theorem updIncr_decr (c : HWPar) (s : HW) (t : ℚ × ℚ) (x : ℚ) (s' : HW)
    (h : updIncr c s t x = .ok s') : s'.decrCut = s.decrCut ∧ s'.s1decr = s.s1decr := by
  unfold updIncr at h
  cases hq : pySqrt c.sqrt (t.2 * c.logD / 2) with
  | error e => rw [hq] at h; simp [bind, Except.bind] at h
  | ok b =>
    rw [hq] at h
    simp only [bind, Except.bind, pure, Except.pure] at h
    split at h <;> (injection h with h; subst h; exact ⟨rfl, rfl⟩)

private theorem updDecr_decr (c : HWPar) (s : HW) (t : ℚ × ℚ) (x : ℚ) (s' : HW)
    (hn : s.decrCut = none) (h1 : s.s1decr = none)
    (h : updDecr c s t x = .ok s') : s'.decrCut = none ∧ s'.s1decr = none := by
  unfold updDecr at h
  cases hq : pySqrt c.sqrt (t.2 * c.logD / 2) with
  | error e => rw [hq] at h; simp [bind, Except.bind] at h
  | ok b =>
    rw [hq] at h
    simp only [bind, Except.bind, pure, Except.pure, hn, gtCut, Bool.false_eq_true, if_false] at h
    injection h with h; subst h; exact ⟨rfl, h1⟩

private theorem detect_none (sqrt : ℚ → ℚ) (lg : ℚ) (s : SampleInfo) :
    detectIncr sqrt lg s none = .ok false := by cases s <;> rfl

private theorem add_same (c : HWPar) (s : HW) (x : ℚ) (hn : s.decrCut = none)
    (h1 : s.s1decr = none) :
    addElement { c with twoSide := true } s x = addElement { c with twoSide := false } s x ∧
    ∀ s', addElement { c with twoSide := true } s x = .ok s' →
      s'.decrCut = none ∧ s'.s1decr = none := by
  unfold addElement
  simp only [bind, Except.bind]
  have e1 : ∀ b, updIncr { c with twoSide := b }
      { s with width := s.width + 1, total := some (ewma c.lam s.total x) }
      (ewma c.lam s.total x) x = updIncr c
      { s with width := s.width + 1, total := some (ewma c.lam s.total x) }
      (ewma c.lam s.total x) x := fun _ => rfl
  simp only [e1]
  cases hu : updIncr c { s with width := s.width + 1, total := some (ewma c.lam s.total x) }
      (ewma c.lam s.total x) x with
  | error e => simp
  | ok s1 =>
    obtain ⟨d1, d2⟩ := updIncr_decr c _ _ _ _ hu
    simp only at d1 d2
    simp only
    cases detectIncr c.sqrt c.logD s1.s1incr s1.s2incr with
    | error e => simp
    | ok b =>
      cases b
      · simp only [Bool.false_eq_true, if_false]
        cases detectIncr c.sqrt c.logW s1.s1incr s1.s2incr with
        | error e => simp
        | ok w =>
          simp only
          have e2 : ∀ b, updDecr { c with twoSide := b } { s1 with change := false, warning := w }
              (ewma c.lam s.total x) x = updDecr c { s1 with change := false, warning := w }
              (ewma c.lam s.total x) x := fun _ => rfl
          simp only [e2]
          cases hd : updDecr c { s1 with change := false, warning := w }
              (ewma c.lam s.total x) x with
          | error e => simp
          | ok s2 =>
            obtain ⟨k1, k2⟩ := updDecr_decr c { s1 with change := false, warning := w } _ _ _
              (d1.trans hn) (d2.trans h1) hd
            simp only [k2, detect_none, if_true, Bool.false_eq_true, if_false, pure, Except.pure,
              true_and]
            intro s' hs'
            injection hs' with hs'
            subst hs'
            exact ⟨k1, rfl⟩
      · simp only [if_true, pure, Except.pure, true_and]
        intro s' hs'
        injection hs' with hs'
        subst hs'
        exact ⟨rfl, rfl⟩

/-- **C20.** `two_side_option` has no effect: on every stream, for all other
parameters, the detector with and without it reports the same change flags,
warning flags, estimations, delays and widths (and raises in the same cases). -/
theorem C20_two_side_option_inert (c : HWPar) (xs : List ℚ) :
    outputs { c with twoSide := true } xs = outputs { c with twoSide := false } xs := by
  suffices h : run { c with twoSide := true } xs = run { c with twoSide := false } xs ∧
      ∀ s, run { c with twoSide := true } xs = .ok s → s.decrCut = none ∧ s.s1decr = none by
    unfold outputs; rw [h.1]
  induction xs using List.reverseRecOn with
  | nil =>
    refine ⟨rfl, fun s hs => ?_⟩
    have : init = s := by simpa [run, pure, Except.pure] using hs
    subst this; exact ⟨rfl, rfl⟩
  | append_singleton xs x ih =>
    obtain ⟨ih1, ih2⟩ := ih
    unfold run at *
    rw [foldlM_snoc, foldlM_snoc, ← ih1]
    cases hr : xs.foldlM (addElement { c with twoSide := true }) init with
    | error e => exact ⟨rfl, fun s hs => by simp [bind, Except.bind] at hs⟩
    | ok s =>
      obtain ⟨a, b⟩ := ih2 s hr
      exact add_same c s x a b

/-- **C20 (validity).** With confidences in (0, 1] the detector never raises. -/
theorem C20_never_raises (c : HWPar) (hD : 0 ≤ c.logD) (hW : 0 ≤ c.logW) (xs : List ℚ) :
    ∃ s, run c xs = .ok s := by
  let P : SampleInfo → Prop := fun s => ∀ e b, s = some (e, b) → 0 ≤ b
  let I : HW → Prop := fun s => P s.total ∧ P s.s1decr ∧ P s.s1incr ∧ P s.s2decr ∧ P s.s2incr
  have hnone : P none := by intro e b h; simp at h
  have hew : ∀ s x, P s → 0 ≤ (ewma c.lam s x).2 := by
    intro s x hs
    unfold ewma
    cases s with
    | none => simp
    | some t =>
      obtain ⟨e, b⟩ := t
      have := hs e b rfl
      simp only
      split
      · simp
      · simp only
        nlinarith [mul_self_nonneg c.lam, mul_self_nonneg (1 - c.lam),
          mul_nonneg (mul_self_nonneg (1 - c.lam)) this]
  have hsome : ∀ t : ℚ × ℚ, 0 ≤ t.2 → P (some t) := by
    intro t ht e b h
    injection h with h
    rw [h] at ht; exact ht
  have hdet : ∀ lg, 0 ≤ lg → ∀ a b, P a → P b → ∃ r, detectIncr c.sqrt lg a b = .ok r := by
    intro lg hlg a b ha hb
    unfold detectIncr
    cases a with
    | none => exact ⟨false, rfl⟩
    | some a =>
      cases b with
      | none => exact ⟨false, rfl⟩
      | some b =>
        obtain ⟨e1, b1⟩ := a
        obtain ⟨e2, b2⟩ := b
        have h1 := ha e1 b1 rfl
        have h2 := hb e2 b2 rfl
        simp only
        split
        · exact ⟨_, rfl⟩
        · rw [pySqrt_ok (by positivity)]
          exact ⟨_, rfl⟩
  suffices h : ∃ s, run c xs = .ok s ∧ I s by obtain ⟨s, h, _⟩ := h; exact ⟨s, h⟩
  induction xs using List.reverseRecOn with
  | nil => exact ⟨init, rfl, hnone, hnone, hnone, hnone, hnone⟩
  | append_singleton xs x ih =>
    obtain ⟨s, hr, i1, i2, i3, i4, i5⟩ := ih
    unfold run at *
    rw [foldlM_snoc, hr]
    change ∃ s', addElement c s x = .ok s' ∧ I s'
    have ht := hew s.total x i1
    unfold addElement
    simp only [bind, Except.bind]
    obtain ⟨s1, hu, j1, j2, j3, j4, j5⟩ : ∃ s1, updIncr c
        { s with width := s.width + 1, total := some (ewma c.lam s.total x) }
        (ewma c.lam s.total x) x = .ok s1 ∧ I s1 := by
      unfold updIncr
      rw [pySqrt_ok (by positivity)]
      simp only [bind, Except.bind, pure, Except.pure]
      split
      · exact ⟨_, rfl, hsome _ ht, i2, hsome _ ht, i4, hnone⟩
      · exact ⟨_, rfl, hsome _ ht, i2, i3, i4, hsome _ (hew _ _ i5)⟩
    rw [hu]
    simp only
    obtain ⟨r1, hr1⟩ := hdet c.logD hD s1.s1incr s1.s2incr j3 j5
    obtain ⟨r2, hr2⟩ := hdet c.logW hW s1.s1incr s1.s2incr j3 j5
    rw [hr1, hr2]
    simp only
    cases r1
    · simp only [Bool.false_eq_true, if_false]
      obtain ⟨s2, hu2, k1, k2, k3, k4, k5⟩ : ∃ s2, updDecr c { s1 with change := false, warning := r2 }
          (ewma c.lam s.total x) x = .ok s2 ∧ I s2 := by
        unfold updDecr
        rw [pySqrt_ok (by positivity)]
        simp only [bind, Except.bind, pure, Except.pure]
        split
        · exact ⟨_, rfl, j1, hsome _ ht, j3, hnone, j5⟩
        · exact ⟨_, rfl, j1, j2, j3, hsome _ (hew _ _ j4), j5⟩
      rw [hu2]
      simp only
      obtain ⟨r3, hr3⟩ := hdet c.logD hD s2.s2decr s2.s1decr k4 k2
      rw [hr3]
      split
      · cases r3
        · exact ⟨_, rfl, k1, k2, k3, k4, k5⟩
        · exact ⟨_, rfl, hnone, hnone, hnone, hnone, hnone⟩
      · exact ⟨_, rfl, k1, k2, k3, k4, k5⟩
    · exact ⟨_, rfl, hnone, hnone, hnone, hnone, hnone⟩

-- A drop from 1 to 0 leaves the two-sided detector silent; a rise is reported.
def demo : HWPar := ⟨1 / 10, 1 / 20, 1 / 2, true, fun q => q⟩
example : (outputs demo [1, 1, 1, 0, 0, 0, 0]).toOption.map (fun o => (o.1, o.2.1)) = some (false, false) ∧
    (outputs demo [0, 0, 0, 1]).toOption.map (fun o => o.1) = some true := by
  decide +kernel

end HW

end Verif.Drift
