import Verif.Drift.HDDMProps
import Mathlib.Algebra.Order.Field.Basic

/-!
C292 and C293: the level (and unit) of the values that PageHinkley, HDDM_A and HDDM_W are fed.
-/

namespace Verif.Drift

/-! ### Page-Hinkley -/

namespace PH

/-- What a user sees. -/
def flags (s : PH) : Bool × Bool := (s.change, s.warning)

/-- The states on the two streams. -/
private def Level (k : ℚ) (s s' : PH) : Prop :=
  1 ≤ s.sampleCount ∧ s'.sampleCount = s.sampleCount ∧ s'.sum = s.sum ∧ s'.change = s.change ∧ s'.warning = s.warning ∧
    (s.sampleCount = 1 ∨ s'.mean = s.mean + k)

private theorem level_step (c : PHPar) (k : ℚ) (s s' : PH) (x : ℚ) (h : Level k s s') :
    Level k (addElement c s x) (addElement c s' (x + k)) ∧
      (addElement c s' (x + k)).estimation = (addElement c s x).estimation + k := by
  have key : ∀ t t' : PH, Level k t t' →
      t'.mean + (x + k - t'.mean) / t'.sampleCount = t.mean + (x - t.mean) / t.sampleCount + k := by
    rintro t t' ⟨h1, h2, -, -, -, h6⟩
    rw [h2]
    rcases h6 with h6 | h6
    · rw [h6]; norm_num
    · rw [h6, show x + k - (t.mean + k) = x - t.mean by ring]; ring
  have hstart : Level k (if s.change then init else s) (if s'.change then init else s') := by
    rw [h.2.2.2.1]
    split
    · exact ⟨le_rfl, rfl, rfl, rfl, rfl, .inl rfl⟩
    · exact h
  have hk := key _ _ hstart
  obtain ⟨h1, h2, h3, -, -, -⟩ := hstart
  unfold addElement
  simp only
  generalize (if s.change then init else s) = t at *
  generalize (if s'.change then init else s') = t' at *
  rw [hk, h2, h3]
  have e : x + k - (t.mean + (x - t.mean) / t.sampleCount + k) - c.delta = x - (t.mean + (x - t.mean) / t.sampleCount) - c.delta := by ring
  rw [e]
  split
  · exact ⟨⟨by simp, rfl, rfl, rfl, rfl, .inr rfl⟩, rfl⟩
  · split
    · exact ⟨⟨by simp, rfl, rfl, rfl, rfl, .inr rfl⟩, rfl⟩
    · exact ⟨⟨by simp, rfl, rfl, rfl, rfl, .inr rfl⟩, rfl⟩

private theorem level_run (c : PHPar) (k : ℚ) (xs : List ℚ) : Level k (run c xs) (run c (xs.map (· + k))) := by
  induction xs using List.reverseRecOn with
  | nil => exact ⟨le_rfl, rfl, rfl, rfl, rfl, .inl rfl⟩
  | append_singleton xs x ih =>
    have e1 : run c (xs ++ [x]) = addElement c (run c xs) x := by simp [run]
    have e2 : run c ((xs ++ [x]).map (· + k)) = addElement c (run c (xs.map (· + k))) (x + k) := by simp [run]
    rw [e1, e2]
    exact (level_step c k _ _ x ih).1

/-- **C292**, Page-Hinkley: raising every value by `k` changes no flag; the estimation is raised by `k`. -/
theorem C292_page_hinkley_level (c : PHPar) (k : ℚ) (xs : List ℚ) :
    flags (run c (xs.map (· + k))) = flags (run c xs) ∧
      (xs ≠ [] → (run c (xs.map (· + k))).estimation = (run c xs).estimation + k) := by
  have h := level_run c k xs
  refine ⟨by simp [flags, h.2.2.2.1, h.2.2.2.2.1], fun hne => ?_⟩
  rcases List.eq_nil_or_concat xs with he | ⟨ys, y, rfl⟩
  · exact absurd he hne
  · have e1 : run c (ys.concat y) = addElement c (run c ys) y := by simp [run]
    have e2 : run c ((ys.concat y).map (· + k)) = addElement c (run c (ys.map (· + k))) (y + k) := by simp [run]
    rw [e1, e2]
    exact (level_step c k _ _ y (level_run c k ys)).2

/-- The state when values, `delta` and `threshold` are given in another unit. -/
private def scale (a : ℚ) (s : PH) : PH := { s with mean := a * s.mean, sum := a * s.sum, estimation := a * s.estimation }

private theorem scale_step (c : PHPar) (a : ℚ) (ha : 0 < a) (s : PH) (x : ℚ) :
    addElement { c with delta := a * c.delta, threshold := a * c.threshold } (scale a s) (a * x) = scale a (addElement c s x) := by
  have hi : scale a init = init := by simp [scale, init]
  have hstart : (if (scale a s).change then init else scale a s) = scale a (if s.change then init else s) := by
    have : (scale a s).change = s.change := rfl
    rw [this]
    split
    · exact hi.symm
    · rfl
  have u : ∀ (c : PHPar) (s : PH) (x : ℚ), addElement c s x =
      (fun t : PH =>
        let mean := t.mean + (x - t.mean) / t.sampleCount
        let sum := max 0 (c.alpha * t.sum + (x - mean - c.delta))
        let n := t.sampleCount + 1
        if n < c.minInstances then ⟨n, mean, sum, false, false, mean⟩
        else if sum > c.threshold then ⟨n, mean, sum, true, false, mean⟩
        else ⟨n, mean, sum, false, false, mean⟩) (if s.change then init else s) := fun _ _ _ => rfl
  rw [u, u, hstart]
  generalize (if s.change then init else s) = t
  have e1 : (scale a t).mean + (a * x - (scale a t).mean) / (scale a t).sampleCount = a * (t.mean + (x - t.mean) / t.sampleCount) := by
    simp only [scale]; ring
  have e2 : ∀ m : ℚ, max 0 (c.alpha * (scale a t).sum + (a * x - a * m - a * c.delta)) = a * max 0 (c.alpha * t.sum + (x - m - c.delta)) := by
    intro m
    rw [mul_max_of_nonneg _ _ ha.le, mul_zero]
    congr 1
    simp only [scale]; ring
  simp only [e1, e2]
  have e3 : (scale a t).sampleCount = t.sampleCount := rfl
  rw [e3]
  by_cases hn : t.sampleCount + 1 < c.minInstances
  · rw [if_pos hn, if_pos hn]; rfl
  · rw [if_neg hn, if_neg hn]
    have hthr : ∀ z : ℚ, (a * z > a * c.threshold) ↔ z > c.threshold := fun z => mul_lt_mul_iff_right₀ ha
    by_cases ht : max 0 (c.alpha * t.sum + (x - (t.mean + (x - t.mean) / t.sampleCount) - c.delta)) > c.threshold
    · rw [if_pos ht, if_pos ((hthr _).2 ht)]; rfl
    · rw [if_neg ht, if_neg (fun h => ht ((hthr _).1 h))]; rfl

/-- **C292**, Page-Hinkley: in another unit (values, `delta` and `threshold` multiplied by the same positive number),
the flags are the same and the estimation is in the new unit. -/
theorem C292_page_hinkley_unit (c : PHPar) (a : ℚ) (ha : 0 < a) (xs : List ℚ) :
    flags (run { c with delta := a * c.delta, threshold := a * c.threshold } (xs.map (a * ·))) = flags (run c xs) ∧
      (run { c with delta := a * c.delta, threshold := a * c.threshold } (xs.map (a * ·))).estimation = a * (run c xs).estimation := by
  have : run { c with delta := a * c.delta, threshold := a * c.threshold } (xs.map (a * ·)) = scale a (run c xs) := by
    induction xs using List.reverseRecOn with
    | nil => simp [run, scale, init]
    | append_singleton xs x ih =>
      have e1 : run c (xs ++ [x]) = addElement c (run c xs) x := by simp [run]
      rw [e1, ← scale_step c a ha, ← ih]
      simp [run]
  rw [this]
  exact ⟨rfl, rfl⟩

/-- **C292**, Page-Hinkley is one-sided: a sequence that never increases raises no flag. -/
theorem C292_page_hinkley_decrease (c : PHPar) (hd : 0 ≤ c.delta) (ht : 0 ≤ c.threshold) (xs : List ℚ)
    (h : xs.Pairwise (· ≥ ·)) : flags (run c xs) = (false, false) := by
  have key : 1 ≤ (run c xs).sampleCount ∧ (run c xs).sum = 0 ∧ flags (run c xs) = (false, false) ∧
      ((run c xs).sampleCount = 1 ∨ ∀ y, (∀ x ∈ xs, y ≤ x) → y ≤ (run c xs).mean) := by
    induction xs using List.reverseRecOn with
    | nil => exact ⟨le_rfl, rfl, rfl, .inl rfl⟩
    | append_singleton xs x ih =>
      rw [List.pairwise_append] at h
      obtain ⟨h1, -, h2⟩ := h
      obtain ⟨i1, i2, i3, i4⟩ := ih h1
      have e1 : run c (xs ++ [x]) = addElement c (run c xs) x := by simp [run]
      rw [e1]
      generalize run c xs = s at i1 i2 i3 i4
      have hn : (0 : ℚ) < s.sampleCount := by exact_mod_cast i1
      have hch : s.change = false := (Prod.mk.inj i3).1
      have hmean : x ≤ s.mean + (x - s.mean) / s.sampleCount := by
        rcases i4 with i4 | i4
        · rw [i4]; norm_num
        · have hx := i4 x fun y hy => h2 y hy x (by simp)
          have h1n : (1 : ℚ) ≤ s.sampleCount := by exact_mod_cast i1
          have : (x - s.mean) ≤ (x - s.mean) / s.sampleCount := by
            rw [le_div_iff₀ hn]
            nlinarith
          linarith
      have hsum : max 0 (c.alpha * s.sum + (x - (s.mean + (x - s.mean) / s.sampleCount) - c.delta)) = 0 := by
        rw [i2, mul_zero, zero_add]
        exact max_eq_left (by linarith)
      have hlow : ∀ y, (∀ z ∈ xs ++ [x], y ≤ z) → y ≤ s.mean + (x - s.mean) / s.sampleCount := fun y hy =>
        le_trans (hy x (by simp)) hmean
      unfold addElement
      simp only [hch, Bool.false_eq_true, if_false, hsum]
      split
      · exact ⟨by simp, rfl, rfl, .inr hlow⟩
      · rw [if_neg (by linarith : ¬ (0 : ℚ) > c.threshold)]
        exact ⟨by simp, rfl, rfl, .inr hlow⟩
  exact key.2.2.1

end PH

/-! ### HDDM_A -/

namespace HA

/-- What a user sees. -/
def flags (s : HA) : Bool × Bool × Nat := (s.change, s.warning, s.delay)

private def lev (k d : ℚ) (s : HA) : HA :=
  { s with cMin := s.cMin + k * s.nMin, totalC := s.totalC + k * s.totalN, cMax := s.cMax + k * s.nMax,
           cEst := s.cEst + k * s.nEst, estimation := s.estimation + d }

private def Ord (s : HA) : Prop := s.nMin ≤ s.totalN ∧ s.nMax ≤ s.totalN

private theorem count_lev (k d : ℚ) (s : HA) (x : ℚ) : count (lev k d s) (x + k) = lev k d (count s x) := by
  have e : s.totalC + k * s.totalN + (x + k) = s.totalC + x + k * ((s.totalN + 1 : Nat) : ℚ) := by push_cast; ring
  unfold count lev
  simp only [e]
  by_cases h1 : s.nMin = 0 <;> by_cases h2 : s.nMax = 0 <;> simp [h1, h2]

private theorem count_ord (s : HA) (x : ℚ) (h : Ord s) : Ord (count s x) := by
  obtain ⟨h1, h2⟩ := h
  unfold count Ord
  by_cases g1 : s.nMin = 0 <;> by_cases g2 : s.nMax = 0 <;> simp [g1, g2] <;> omega

private theorem pyDiv_lev (k C : ℚ) (n : Nat) : pyDiv (C + k * n) n = (pyDiv C n).map (· + k) := by
  unfold pyDiv
  by_cases h : (n : ℚ) = 0
  · rw [if_pos h, if_pos h]; rfl
  · rw [if_neg h, if_neg h]
    simp only [Except.map]
    congr 1
    field_simp

private theorem incr_lev (sqrt : ℚ → ℚ) (k cMin totalC lg : ℚ) (nMin totalN : Nat) :
    meanIncr sqrt (cMin + k * nMin) nMin (totalC + k * totalN) totalN lg = meanIncr sqrt cMin nMin totalC totalN lg := by
  unfold meanIncr
  by_cases he : nMin = totalN
  · simp only [he, if_true]
  · simp only [he, if_false, pyDiv_lev]
    cases pyDiv ((totalN : ℚ) - nMin) nMin with
    | error e => rfl
    | ok p =>
    cases pyDiv 1 (totalN : ℚ) with
    | error e => rfl
    | ok q =>
    simp only [bind, Except.bind]
    cases pySqrt sqrt (p * q / 2 * lg) with
    | error e => rfl
    | ok r =>
    cases pyDiv totalC (totalN : ℚ) with
    | error e => rfl
    | ok u =>
    cases pyDiv cMin (nMin : ℚ) with
    | error e => rfl
    | ok v =>
    simp only [Except.map, add_sub_add_right_eq_sub]

private theorem decr_lev (sqrt : ℚ → ℚ) (k cMax totalC lg : ℚ) (nMax totalN : Nat) :
    meanDecr sqrt (cMax + k * nMax) nMax (totalC + k * totalN) totalN lg = meanDecr sqrt cMax nMax totalC totalN lg := by
  unfold meanDecr
  by_cases he : nMax = totalN
  · simp only [he, if_true]
  · simp only [he, if_false, pyDiv_lev]
    cases pyDiv ((totalN : ℚ) - nMax) nMax with
    | error e => rfl
    | ok p =>
    cases pyDiv 1 (totalN : ℚ) with
    | error e => rfl
    | ok q =>
    simp only [bind, Except.bind]
    cases pySqrt sqrt (p * q / 2 * lg) with
    | error e => rfl
    | ok r =>
    cases pyDiv cMax (nMax : ℚ) with
    | error e => rfl
    | ok u =>
    cases pyDiv totalC (totalN : ℚ) with
    | error e => rfl
    | ok v =>
    simp only [Except.map, add_sub_add_right_eq_sub]

private theorem cut_lev (c : HAPar) (k d : ℚ) (s : HA) : cut c (lev k d s) = (cut c s).map (lev k d) := by
  have e0 : (lev k d s).cMin = s.cMin + k * s.nMin := rfl
  have e1 : (lev k d s).totalC = s.totalC + k * s.totalN := rfl
  have e2 : (lev k d s).nMin = s.nMin := rfl
  have e3 : (lev k d s).totalN = s.totalN := rfl
  unfold cut
  rw [e0, e1, e2, e3, pyDiv_lev, pyDiv_lev]
  simp only [bind, Except.bind]
  cases pyDiv 1 (2 * (s.nMin : ℚ)) with
  | error e => rfl
  | ok a =>
  simp only
  cases pySqrt c.sqrt (a * c.logD) with
  | error e => rfl
  | ok cota =>
  simp only
  cases pyDiv 1 (2 * (s.totalN : ℚ)) with
  | error e => rfl
  | ok b =>
  simp only
  cases pySqrt c.sqrt (b * c.logD) with
  | error e => rfl
  | ok cota1 =>
  simp only
  cases pyDiv s.cMin (s.nMin : ℚ) with
  | error e => rfl
  | ok u =>
  simp only [Except.map]
  cases hv : pyDiv s.totalC (s.totalN : ℚ) with
  | error e => rfl
  | ok v =>
  simp only
  have hs : (if u + k + cota ≥ v + k + cota1 then { lev k d s with cMin := s.totalC + k * s.totalN, nMin := s.totalN } else lev k d s) =
      lev k d (if u + cota ≥ v + cota1 then { s with cMin := s.totalC, nMin := s.totalN } else s) := by
    have : (u + k + cota ≥ v + k + cota1) ↔ u + cota ≥ v + cota1 := by constructor <;> intro h <;> linarith
    by_cases h : u + cota ≥ v + cota1
    · rw [if_pos h, if_pos (this.2 h)]; rfl
    · rw [if_neg h, if_neg (fun g => h (this.1 g))]
  have ht : (if u + cota ≥ v + cota1 then { s with cMin := s.totalC, nMin := s.totalN } else s).totalC = s.totalC ∧
      (if u + cota ≥ v + cota1 then { s with cMin := s.totalC, nMin := s.totalN } else s).totalN = s.totalN := by
    split <;> exact ⟨rfl, rfl⟩
  dsimp only at hs ht
  rw [e1, e3] at hs
  rw [hs]
  generalize (if u + cota ≥ v + cota1 then { s with cMin := s.totalC, nMin := s.totalN } else s) = t at ht
  have f0 : (lev k d t).cMax = t.cMax + k * t.nMax := rfl
  have f1 : (lev k d t).totalC = t.totalC + k * t.totalN := rfl
  have f2 : (lev k d t).nMax = t.nMax := rfl
  have f3 : (lev k d t).totalN = t.totalN := rfl
  rw [f0, f1, f2, f3, pyDiv_lev, pyDiv_lev, ht.1, ht.2, hv]
  cases pyDiv 1 (2 * (t.nMax : ℚ)) with
  | error e => rfl
  | ok a' =>
  simp only
  cases pySqrt c.sqrt (a' * c.logD) with
  | error e => rfl
  | ok cota' =>
  simp only
  cases pyDiv t.cMax (t.nMax : ℚ) with
  | error e => rfl
  | ok u' =>
  simp only [Except.map, pure, Except.pure]
  have : (u' + k - cota' ≤ v + k - cota1) ↔ u' - cota' ≤ v - cota1 := by constructor <;> intro h <;> linarith
  by_cases h : u' - cota' ≤ v - cota1
  · rw [if_pos h, if_pos (this.2 h), ← ht.1, ← ht.2]; rfl
  · rw [if_neg h, if_neg (fun g => h (this.1 g))]

private theorem cut_ord (c : HAPar) (s s' : HA) (h : Ord s) (hc : cut c s = .ok s') : Ord s' := by
  obtain ⟨h1, h2⟩ := h
  unfold cut at hc
  simp only [bind, Except.bind, pure, Except.pure] at hc
  repeat' (split at hc <;> try cases hc)
  all_goals
    unfold Ord
    constructor <;> (repeat' split) <;> simp_all

private theorem incrM_lev (c : HAPar) (k d : ℚ) (s : HA) (h : Ord s) : monitorIncr c (lev k d s) = (monitorIncr c s).map (lev k d) := by
  have e0 : (lev k d s).cMin = s.cMin + k * s.nMin := rfl
  have e1 : (lev k d s).totalC = s.totalC + k * s.totalN := rfl
  have e2 : (lev k d s).nMin = s.nMin := rfl
  have e3 : (lev k d s).totalN = s.totalN := rfl
  unfold monitorIncr
  rw [e0, e1, e2, e3, incr_lev, incr_lev]
  simp only [bind, Except.bind]
  cases meanIncr c.sqrt s.cMin s.nMin s.totalC s.totalN c.log2D with
  | error e => rfl
  | ok b =>
  cases b with
  | true =>
    simp only [if_true, pure, Except.pure, Except.map, clear, lev]
    congr 1
    simp only [HA.mk.injEq, true_and, and_true]
    rw [Nat.cast_sub h.1]
    simp
    ring
  | false =>
    simp only [Bool.false_eq_true, if_false]
    cases meanIncr c.sqrt s.cMin s.nMin s.totalC s.totalN c.log2W with
    | error e => rfl
    | ok b => cases b <;> rfl

private theorem incrM_ord (c : HAPar) (s s' : HA) (h : Ord s) (hc : monitorIncr c s = .ok s') : Ord s' := by
  unfold monitorIncr at hc
  simp only [bind, Except.bind, pure, Except.pure] at hc
  repeat' (split at hc <;> try cases hc)
  all_goals first
    | exact h
    | exact ⟨le_rfl, le_rfl⟩

private theorem decrM_lev (c : HAPar) (k d : ℚ) (s : HA) (h : Ord s) : monitorDecr c (lev k d s) = (monitorDecr c s).map (lev k d) := by
  have e0 : (lev k d s).cMax = s.cMax + k * s.nMax := rfl
  have e1 : (lev k d s).totalC = s.totalC + k * s.totalN := rfl
  have e2 : (lev k d s).nMax = s.nMax := rfl
  have e3 : (lev k d s).totalN = s.totalN := rfl
  unfold monitorDecr
  rw [e0, e1, e2, e3, decr_lev]
  by_cases ht : c.twoSide = true
  · simp only [ht, if_true, bind, Except.bind]
    cases meanDecr c.sqrt s.cMax s.nMax s.totalC s.totalN c.log2D with
    | error e => rfl
    | ok b =>
    cases b with
    | true =>
      simp only [if_true, pure, Except.pure, Except.map, clear, lev]
      congr 1
      simp only [HA.mk.injEq, true_and, and_true]
      rw [Nat.cast_sub h.2]
      simp
      ring
    | false => rfl
  · simp only [ht]; rfl

private theorem decrM_ord (c : HAPar) (s s' : HA) (h : Ord s) (hc : monitorDecr c s = .ok s') : Ord s' := by
  unfold monitorDecr at hc
  simp only [bind, Except.bind, pure, Except.pure] at hc
  repeat' (split at hc <;> try cases hc)
  all_goals first
    | exact h
    | exact ⟨le_rfl, le_rfl⟩

private theorem upd_lev (k d : ℚ) (s : HA) : updateEstimations (lev k d s) = (updateEstimations s).map (lev k k) := by
  have e0 : (lev k d s).cEst = s.cEst + k * s.nEst := rfl
  have e1 : (lev k d s).totalC = s.totalC + k * s.totalN := rfl
  have e2 : (lev k d s).nEst = s.nEst := rfl
  have e3 : (lev k d s).totalN = s.totalN := rfl
  unfold updateEstimations
  rw [e0, e1, e2, e3, pyDiv_lev, pyDiv_lev]
  by_cases h : s.totalN ≥ s.nEst
  · simp only [if_pos h]
    cases pyDiv s.totalC (s.totalN : ℚ) with
    | error e => rfl
    | ok u => simp [bind, Except.bind, Except.map, pure, Except.pure, lev]
  · simp only [if_neg h]
    cases pyDiv s.cEst (s.nEst : ℚ) with
    | error e => rfl
    | ok u => simp [bind, Except.bind, Except.map, pure, Except.pure, lev]

private theorem upd_ord (s s' : HA) (h : Ord s) (hc : updateEstimations s = .ok s') : Ord s' := by
  unfold updateEstimations at hc
  simp only [bind, Except.bind, pure, Except.pure] at hc
  repeat' (split at hc <;> try cases hc)
  all_goals exact h

private theorem add_lev (c : HAPar) (k d : ℚ) (s : HA) (x : ℚ) (h : Ord s) :
    addElement c (lev k d s) (x + k) = (addElement c s x).map (lev k k) ∧ ∀ s', addElement c s x = .ok s' → Ord s' := by
  have h1 := count_ord s x h
  unfold addElement
  rw [count_lev, cut_lev]
  simp only [bind, Except.bind]
  cases hc : cut c (count s x) with
  | error e => exact ⟨rfl, fun s' h => by cases h⟩
  | ok s1 =>
  have h2 := cut_ord c _ _ h1 hc
  simp only [Except.map]
  rw [incrM_lev c k d s1 h2]
  cases hi : monitorIncr c s1 with
  | error e => exact ⟨rfl, fun s' h => by cases h⟩
  | ok s2 =>
  have h3 := incrM_ord c _ _ h2 hi
  simp only [Except.map]
  rw [decrM_lev c k d s2 h3]
  cases hd : monitorDecr c s2 with
  | error e => exact ⟨rfl, fun s' h => by cases h⟩
  | ok s3 =>
  have h4 := decrM_ord c _ _ h3 hd
  simp only [Except.map]
  exact ⟨upd_lev k d s3, fun s' h => upd_ord _ _ h4 h⟩

private theorem run_lev (c : HAPar) (k : ℚ) (xs : List ℚ) :
    (∃ d, run c (xs.map (· + k)) = (run c xs).map (lev k d) ∧ (xs ≠ [] → d = k)) ∧ ∀ s, run c xs = .ok s → Ord s := by
  induction xs using List.reverseRecOn with
  | nil =>
    refine ⟨⟨0, ?_, fun h => absurd rfl h⟩, ?_⟩
    · simp [run, pure, Except.pure, Except.map, lev, init]
    · intro s h
      simp only [run, List.foldlM_nil, pure, Except.pure, Except.ok.injEq] at h
      rw [← h]; exact ⟨le_rfl, le_rfl⟩
  | append_singleton xs x ih =>
    obtain ⟨⟨d, h1, -⟩, h2⟩ := ih
    have e1 : run c (xs ++ [x]) = run c xs >>= fun s => addElement c s x := by
      simp [run, List.foldlM_append]
    have e2 : run c ((xs ++ [x]).map (· + k)) = run c (xs.map (· + k)) >>= fun s => addElement c s (x + k) := by
      simp [run, List.foldlM_append]
    rw [e1, e2, h1]
    cases hr : run c xs with
    | error e => exact ⟨⟨k, rfl, fun _ => rfl⟩, fun s h => by cases h⟩
    | ok s =>
      obtain ⟨g1, g2⟩ := add_lev c k d s x (h2 s hr)
      exact ⟨⟨k, g1, fun _ => rfl⟩, g2⟩

/-- **C292**, HDDM_A: raising every value by `k` changes no flag and no delay; the estimation is raised by `k`. -/
theorem C292_hddm_a_level (c : HAPar) (hv : Valid c) (k : ℚ) (xs : List ℚ) (hne : xs ≠ []) :
    ∃ s s', run c xs = .ok s ∧ run c (xs.map (· + k)) = .ok s' ∧ flags s' = flags s ∧ s'.estimation = s.estimation + k := by
  obtain ⟨s, hs, -⟩ := C19_estimation c hv xs hne
  obtain ⟨⟨d, h1, h2⟩, -⟩ := run_lev c k xs
  rw [hs, h2 hne] at h1
  exact ⟨s, _, hs, h1, rfl, rfl⟩

end HA

/-! ### HDDM_W -/

namespace HW

private def up (k : ℚ) (i : SampleInfo) : SampleInfo := i.map fun p => (p.1 + k, p.2)

private def lev (k d : ℚ) (s : HW) : HW :=
  { s with total := up k s.total, s1decr := up k s.s1decr, s1incr := up k s.s1incr, s2decr := up k s.s2decr,
           s2incr := up k s.s2incr, incrCut := s.incrCut.map (· + k), decrCut := s.decrCut.map (· + k),
           estimation := s.estimation + d }

private def NN (i : SampleInfo) : Prop := ∀ p, i = some p → 0 ≤ p.1

private structure Pos (s : HW) : Prop where
  total : NN s.total
  s1decr : NN s.s1decr
  s1incr : NN s.s1incr
  s2decr : NN s.s2decr
  s2incr : NN s.s2incr

private theorem nn_none : NN none := fun p h => by cases h

private theorem nn_some {p : ℚ × ℚ} (h : 0 ≤ p.1) : NN (some p) := fun q e => by cases e; exact h

private theorem ewma_lev (lam k : ℚ) (hk : 0 ≤ k) (i : SampleInfo) (h : NN i) (x : ℚ) :
    ewma lam (up k i) (x + k) = ((ewma lam i x).1 + k, (ewma lam i x).2) := by
  cases i with
  | none => rfl
  | some p =>
    obtain ⟨e, b⟩ := p
    have he : 0 ≤ e := h _ rfl
    simp only [up, Option.map, ewma]
    rw [if_neg (by linarith), if_neg (by linarith)]
    ext
    · simp only; ring
    · rfl

private theorem ewma_nn (lam : ℚ) (h0 : 0 ≤ lam) (h1 : lam ≤ 1) (i : SampleInfo) (h : NN i) (x : ℚ) (hx : 0 ≤ x) :
    0 ≤ (ewma lam i x).1 := by
  cases i with
  | none => exact hx
  | some p =>
    obtain ⟨e, b⟩ := p
    have he : 0 ≤ e := h _ rfl
    simp only [ewma]
    rw [if_neg (by linarith)]
    have : 0 ≤ 1 - lam := by linarith
    positivity

private theorem detect_lev (sqrt : ℚ → ℚ) (lg k : ℚ) (hk : 0 ≤ k) (i j : SampleInfo) (hi : NN i) (hj : NN j) :
    detectIncr sqrt lg (up k i) (up k j) = detectIncr sqrt lg i j := by
  cases i with
  | none => rfl
  | some p =>
  cases j with
  | none => rfl
  | some q =>
    obtain ⟨e1, b1⟩ := p
    obtain ⟨e2, b2⟩ := q
    have h1 : 0 ≤ e1 := hi _ rfl
    have h2 : 0 ≤ e2 := hj _ rfl
    simp only [up, Option.map, detectIncr]
    rw [if_neg (by rintro (h | h) <;> linarith), if_neg (by rintro (h | h) <;> linarith), add_sub_add_right_eq_sub]

private theorem updIncr_lev (c : HWPar) (k d : ℚ) (hk : 0 ≤ k) (s : HW) (t : ℚ × ℚ) (x : ℚ) (hs : Pos s) :
    updIncr c (lev k d s) (t.1 + k, t.2) (x + k) = (updIncr c s t x).map (lev k d) := by
  unfold updIncr
  simp only [bind, Except.bind]
  cases pySqrt c.sqrt (t.2 * c.logD / 2) with
  | error e => rfl
  | ok bound =>
    simp only [pure, Except.pure]
    have e : ltCut (t.1 + k + bound) (lev k d s).incrCut = ltCut (t.1 + bound) s.incrCut := by
      simp only [lev]
      cases s.incrCut with
      | none => rfl
      | some q =>
        simp only [Option.map, ltCut]
        congr 1
        rw [eq_iff_iff]
        constructor <;> intro h <;> linarith
    rw [e]
    split
    · simp only [Except.map, lev, up, Option.map]
      congr 2
      ring_nf
    · have e2 : (lev k d s).s2incr = up k s.s2incr := rfl
      rw [e2, ewma_lev c.lam k hk _ hs.s2incr]
      rfl

private theorem updIncr_pos (c : HWPar) (h0 : 0 ≤ c.lam) (h1 : c.lam ≤ 1) (s s' : HW) (t : ℚ × ℚ) (x : ℚ) (hs : Pos s) (ht : 0 ≤ t.1)
    (hx : 0 ≤ x) (h : updIncr c s t x = .ok s') : Pos s' := by
  unfold updIncr at h
  simp only [bind, Except.bind, pure, Except.pure] at h
  split at h
  · cases h
  · split at h <;> cases h
    · exact ⟨hs.total, hs.s1decr, nn_some ht, hs.s2decr, nn_none⟩
    · exact ⟨hs.total, hs.s1decr, hs.s1incr, hs.s2decr, nn_some (ewma_nn _ h0 h1 _ hs.s2incr _ hx)⟩

private theorem updDecr_lev (c : HWPar) (k d : ℚ) (hk : 0 ≤ k) (s : HW) (t : ℚ × ℚ) (x : ℚ) (hs : Pos s) :
    updDecr c (lev k d s) (t.1 + k, t.2) (x + k) = (updDecr c s t x).map (lev k d) := by
  unfold updDecr
  simp only [bind, Except.bind]
  cases pySqrt c.sqrt (t.2 * c.logD / 2) with
  | error e => rfl
  | ok bound =>
    simp only [pure, Except.pure]
    have e : gtCut (t.1 + k - bound) (lev k d s).decrCut = gtCut (t.1 - bound) s.decrCut := by
      simp only [lev]
      cases s.decrCut with
      | none => rfl
      | some q =>
        simp only [Option.map, gtCut]
        congr 1
        rw [eq_iff_iff]
        constructor <;> intro h <;> linarith
    rw [e]
    split
    · simp only [Except.map, lev, up, Option.map]
      congr 2
      ring_nf
    · have e2 : (lev k d s).s2decr = up k s.s2decr := rfl
      rw [e2, ewma_lev c.lam k hk _ hs.s2decr]
      rfl

private theorem updDecr_pos (c : HWPar) (h0 : 0 ≤ c.lam) (h1 : c.lam ≤ 1) (s s' : HW) (t : ℚ × ℚ) (x : ℚ) (hs : Pos s) (ht : 0 ≤ t.1)
    (hx : 0 ≤ x) (h : updDecr c s t x = .ok s') : Pos s' := by
  unfold updDecr at h
  simp only [bind, Except.bind, pure, Except.pure] at h
  split at h
  · cases h
  · split at h <;> cases h
    · exact ⟨hs.total, nn_some ht, hs.s1incr, nn_none, hs.s2incr⟩
    · exact ⟨hs.total, hs.s1decr, hs.s1incr, nn_some (ewma_nn _ h0 h1 _ hs.s2decr _ hx), hs.s2incr⟩

private theorem pos_init (ch w : Bool) (e : ℚ) : Pos { init with change := ch, warning := w, estimation := e } :=
  ⟨nn_none, nn_none, nn_none, nn_none, nn_none⟩

private theorem add_lev (c : HWPar) (h0 : 0 ≤ c.lam) (h1 : c.lam ≤ 1) (k d : ℚ) (hk : 0 ≤ k) (s : HW) (x : ℚ) (hx : 0 ≤ x) (hs : Pos s) :
    (∃ d', addElement c (lev k d s) (x + k) = (addElement c s x).map (lev k d') ∧
      ∀ s', addElement c s x = .ok s' → c.twoSide = false → d' = if s'.change then 0 else k) ∧
    ∀ s', addElement c s x = .ok s' → Pos s' := by
  have htn := ewma_nn c.lam h0 h1 s.total hs.total x hx
  unfold addElement
  have e0 : (lev k d s).total = up k s.total := rfl
  have e1 : ({ lev k d s with width := (lev k d s).width + 1, total := some (ewma c.lam (lev k d s).total (x + k)) } : HW) =
      lev k d { s with width := s.width + 1, total := some (ewma c.lam s.total x) } := by
    rw [e0, ewma_lev c.lam k hk _ hs.total]; rfl
  have hp1 : Pos { s with width := s.width + 1, total := some (ewma c.lam s.total x) } :=
    ⟨nn_some htn, hs.s1decr, hs.s1incr, hs.s2decr, hs.s2incr⟩
  simp only [e1]
  rw [e0, ewma_lev c.lam k hk _ hs.total, updIncr_lev c k d hk _ _ _ hp1]
  simp only [bind, Except.bind]
  cases hu : updIncr c { s with width := s.width + 1, total := some (ewma c.lam s.total x) } (ewma c.lam s.total x) x with
  | error e => exact ⟨⟨0, rfl, fun s' h => by cases h⟩, fun s' h => by cases h⟩
  | ok s1 =>
  have hp2 := updIncr_pos c h0 h1 _ _ _ _ hp1 htn hx hu
  simp only [Except.map]
  have f1 : (lev k d s1).s1incr = up k s1.s1incr := rfl
  have f2 : (lev k d s1).s2incr = up k s1.s2incr := rfl
  rw [f1, f2, detect_lev _ _ k hk _ _ hp2.s1incr hp2.s2incr, detect_lev _ _ k hk _ _ hp2.s1incr hp2.s2incr]
  cases detectIncr c.sqrt c.logD s1.s1incr s1.s2incr with
  | error e => exact ⟨⟨0, rfl, fun s' h => by cases h⟩, fun s' h => by cases h⟩
  | ok b =>
  cases b with
  | true =>
    simp only [if_true, pure, Except.pure]
    refine ⟨⟨0, ?_, ?_⟩, ?_⟩
    · simp [lev, up, init]
    · intro s' h _; cases h; rfl
    · intro s' h; cases h; exact pos_init true false 0
  | false =>
  simp only [Bool.false_eq_true, if_false]
  cases detectIncr c.sqrt c.logW s1.s1incr s1.s2incr with
  | error e => exact ⟨⟨0, rfl, fun s' h => by cases h⟩, fun s' h => by cases h⟩
  | ok w =>
  have hp3 : Pos { s1 with change := false, warning := w } := ⟨hp2.total, hp2.s1decr, hp2.s1incr, hp2.s2decr, hp2.s2incr⟩
  have g1 : ({ lev k d s1 with change := false, warning := w } : HW) = lev k d { s1 with change := false, warning := w } := rfl
  dsimp only at g1
  rw [f1, f2] at g1
  simp only [g1]
  rw [updDecr_lev c k d hk _ _ _ hp3]
  cases hd : updDecr c { s1 with change := false, warning := w } (ewma c.lam s.total x) x with
  | error e => exact ⟨⟨0, rfl, fun s' h => by cases h⟩, fun s' h => by cases h⟩
  | ok s2 =>
  have hp4 := updDecr_pos c h0 h1 _ _ _ _ hp3 htn hx hd
  have hch : s2.change = false := by
    unfold updDecr at hd
    simp only [bind, Except.bind, pure, Except.pure] at hd
    split at hd
    · cases hd
    · split at hd <;> cases hd <;> rfl
  have q1 : (lev k d s2).s1decr = up k s2.s1decr := rfl
  have q2 : (lev k d s2).s2decr = up k s2.s2decr := rfl
  simp only [Except.map]
  rw [q1, q2, detect_lev _ _ k hk _ _ hp4.s2decr hp4.s1decr]
  have hp5 : Pos { s2 with estimation := (ewma c.lam s.total x).1 } := ⟨hp4.total, hp4.s1decr, hp4.s1incr, hp4.s2decr, hp4.s2incr⟩
  by_cases hts : c.twoSide = true
  · simp only [hts, if_true]
    cases detectIncr c.sqrt c.logD s2.s2decr s2.s1decr with
    | error e => exact ⟨⟨0, rfl, fun s' h => by cases h⟩, fun s' h => by cases h⟩
    | ok b =>
      cases b with
      | true =>
        simp only [if_true, pure, Except.pure]
        refine ⟨⟨0, ?_, fun s' _ h => by cases h⟩, ?_⟩
        · simp [lev, up, init]
        · intro s' h; cases h; exact pos_init false false (-1)
      | false =>
        simp only [Bool.false_eq_true, if_false, pure, Except.pure]
        refine ⟨⟨k, rfl, fun s' _ h => by cases h⟩, ?_⟩
        intro s' h; cases h; exact hp5
  · simp only [hts, Bool.false_eq_true, if_false, pure, Except.pure]
    refine ⟨⟨k, rfl, ?_⟩, ?_⟩
    · intro s' h _
      cases h
      simp only [hch, Bool.false_eq_true, if_false]
    · intro s' h; cases h; exact hp5

private theorem run_lev (c : HWPar) (h0 : 0 ≤ c.lam) (h1 : c.lam ≤ 1) (ht : c.twoSide = false) (k : ℚ) (hk : 0 ≤ k) (xs : List ℚ)
    (hx : ∀ x ∈ xs, 0 ≤ x) :
    (∃ d, run c (xs.map (· + k)) = (run c xs).map (lev k d) ∧
      ∀ s, run c xs = .ok s → xs ≠ [] → d = if s.change then 0 else k) ∧ ∀ s, run c xs = .ok s → Pos s := by
  induction xs using List.reverseRecOn with
  | nil =>
    refine ⟨⟨0, ?_, fun s _ h => absurd rfl h⟩, ?_⟩
    · simp [run, pure, Except.pure, Except.map, lev, init, up]
    · intro s h
      simp only [run, List.foldlM_nil, pure, Except.pure, Except.ok.injEq] at h
      rw [← h]; exact pos_init false false 0
  | append_singleton xs x ih =>
    obtain ⟨⟨d, g1, -⟩, g2⟩ := ih fun y hy => hx y (List.mem_append_left _ hy)
    have e1 : run c (xs ++ [x]) = run c xs >>= fun s => addElement c s x := by
      simp [run, List.foldlM_append]
    have e2 : run c ((xs ++ [x]).map (· + k)) = run c (xs.map (· + k)) >>= fun s => addElement c s (x + k) := by
      simp [run, List.foldlM_append]
    rw [e1, e2, g1]
    cases hr : run c xs with
    | error e => exact ⟨⟨k, rfl, fun s h => by cases h⟩, fun s h => by cases h⟩
    | ok s =>
      obtain ⟨⟨d', q1, q2⟩, q3⟩ := add_lev c h0 h1 k d hk s x (hx x (by simp)) (g2 s hr)
      exact ⟨⟨d', q1, fun s' h _ => q2 s' h ht⟩, q3⟩

/-- **C293** (part): raising every value of a stream without negative values changes no flag, delay or width of HDDM_W, and
raises the estimation by `k`, except just after a change, when it is not set. -/
theorem C293_level_partial (c : HWPar) (h0 : 0 ≤ c.lam) (h1 : c.lam ≤ 1) (hD : 0 ≤ c.logD) (hW : 0 ≤ c.logW) (k : ℚ) (hk : 0 ≤ k)
    (xs : List ℚ) (hne : xs ≠ []) (hx : ∀ x ∈ xs, 0 ≤ x) :
    ∃ ch w e dl wd, outputs c xs = .ok (ch, w, e, dl, wd) ∧
      outputs c (xs.map (· + k)) = .ok (ch, w, if ch then e else e + k, dl, wd) := by
  have hside : ∀ ys, outputs c ys = outputs { c with twoSide := false } ys := by
    intro ys
    cases ht : c.twoSide with
    | true =>
      rw [← C20_two_side_option_inert c ys]
      congr 1
      cases c; simp only at ht; subst ht; rfl
    | false =>
      congr 1
      cases c; simp only at ht; subst ht; rfl
  rw [hside, hside]
  obtain ⟨s, hs⟩ := C20_never_raises { c with twoSide := false } hD hW xs
  obtain ⟨⟨d, g1, g2⟩, -⟩ := run_lev { c with twoSide := false } h0 h1 rfl k hk xs hx
  have hd := g2 s hs hne
  refine ⟨s.change, s.warning, s.estimation, s.delay, s.width, by rw [outputs, hs]; rfl, ?_⟩
  rw [outputs, g1, hs]
  simp only [Except.map, lev, hd]
  split <;> simp

/-- No flag on negative values. -/
theorem negative_never (c : HWPar) (hD : 0 ≤ c.logD) (hW : 0 ≤ c.logW) (xs : List ℚ) (hx : ∀ x ∈ xs, x < 0) :
    ∃ s, run c xs = .ok s ∧ s.change = false ∧ s.warning = false := by
  suffices h : ∃ s, run c xs = .ok s ∧ s.change = false ∧ s.warning = false ∧ SampleInfo.neg s.total = true ∧
      SampleInfo.neg s.s1incr = true ∧ SampleInfo.neg s.s1decr = true by
    obtain ⟨s, h1, h2, h3, -⟩ := h
    exact ⟨s, h1, h2, h3⟩
  induction xs using List.reverseRecOn with
  | nil => exact ⟨init, rfl, rfl, rfl, rfl, rfl, rfl⟩
  | append_singleton xs x ih =>
    obtain ⟨s, h1, h2, h3, h4, h5, h6⟩ := ih fun y hy => hx y (List.mem_append_left _ hy)
    have hxn := hx x (by simp)
    have e1 : run c (xs ++ [x]) = addElement c s x := by
      have : run c (xs ++ [x]) = run c xs >>= fun s => addElement c s x := by simp [run, List.foldlM_append]
      rw [this, h1]; rfl
    rw [e1]
    have hew : ewma c.lam s.total x = (x, 1) := by
      cases hto : s.total with
      | none => rfl
      | some p =>
        rw [hto] at h4
        have : p.1 < 0 := by simpa [SampleInfo.neg] using h4
        obtain ⟨e, b⟩ := p
        simp only [ewma]
        rw [if_pos this]
    have hnx : SampleInfo.neg (some (x, 1)) = true := by simpa [SampleInfo.neg] using hxn
    have hdet : ∀ (lg : ℚ) (i j : SampleInfo), SampleInfo.neg i = true → detectIncr c.sqrt lg i j = .ok false := by
      intro lg i j hi
      cases i with
      | none => cases j <;> rfl
      | some p =>
        cases j with
        | none => rfl
        | some q =>
          have : p.1 < 0 := by simpa [SampleInfo.neg] using hi
          simp only [detectIncr]
          rw [if_pos (.inl this)]
    have hdet' : ∀ (lg : ℚ) (i j : SampleInfo), SampleInfo.neg j = true → detectIncr c.sqrt lg i j = .ok false := by
      intro lg i j hi
      cases i with
      | none => cases j <;> rfl
      | some p =>
        cases j with
        | none => rfl
        | some q =>
          have : q.1 < 0 := by simpa [SampleInfo.neg] using hi
          simp only [detectIncr]
          rw [if_pos (.inr this)]
    have hsq : pySqrt c.sqrt (1 * c.logD / 2) = .ok (c.sqrt (1 * c.logD / 2)) := Verif.Drift.pySqrt_ok (by positivity)
    unfold addElement
    simp only [hew]
    obtain ⟨s1, hu, u1, u2, u3⟩ : ∃ s1, updIncr c { s with width := s.width + 1, total := some (x, 1) } (x, 1) x = .ok s1 ∧
        SampleInfo.neg s1.total = true ∧ SampleInfo.neg s1.s1incr = true ∧ SampleInfo.neg s1.s1decr = true := by
      unfold updIncr
      simp only [hsq, bind, Except.bind, pure, Except.pure]
      split
      · exact ⟨_, rfl, hnx, hnx, h6⟩
      · exact ⟨_, rfl, hnx, h5, h6⟩
    rw [hu]
    simp only [bind, Except.bind]
    rw [hdet _ _ _ u2]
    simp only [Bool.false_eq_true, if_false]
    rw [hdet _ _ _ u2]
    simp only
    obtain ⟨s2, hd, v0, v00, v1, v2, v3⟩ : ∃ s2, updDecr c { s1 with change := false, warning := false } (x, 1) x = .ok s2 ∧
        s2.change = false ∧ s2.warning = false ∧
        SampleInfo.neg s2.total = true ∧ SampleInfo.neg s2.s1incr = true ∧ SampleInfo.neg s2.s1decr = true := by
      unfold updDecr
      simp only [hsq, bind, Except.bind, pure, Except.pure]
      split
      · exact ⟨_, rfl, rfl, rfl, u1, u2, hnx⟩
      · exact ⟨_, rfl, rfl, rfl, u1, u2, u3⟩
    rw [hd]
    simp only
    rw [hdet' _ _ _ v3]
    simp only [Bool.false_eq_true, if_false, pure, Except.pure]
    split
    · exact ⟨_, rfl, v0, v00, v1, v2, v3⟩
    · exact ⟨_, rfl, v0, v00, v1, v2, v3⟩

/-- **C293** is violated: for all parameters (with `lambda` positive and confidences in (0, 1]) there is a stream with a
reported change, none of which is reported when every value is lowered by the same number.  (A negative average is taken for
`no average yet`, lines 111, 140, 172.) -/
theorem C293_level_violated (c : HWPar) (h0 : 0 < c.lam) (hD : 0 ≤ c.logD) (hW : 0 ≤ c.logW) :
    ∃ (xs : List ℚ) (k : ℚ) (s s' : HW), run c xs = .ok s ∧ s.change = true ∧
      run c (xs.map (· + k)) = .ok s' ∧ s'.change = false ∧ s'.warning = false := by
  set b1 := c.sqrt (1 * c.logD / 2) with hb1
  set t2 := c.lam * c.lam + (1 - c.lam) * (1 - c.lam) * 1 with ht2
  set b2 := c.sqrt (t2 * c.logD / 2) with hb2
  set b3 := c.sqrt ((1 + 1) * c.logD / 2) with hb3
  set z := |b3| + (|b1| + |b2|) / c.lam + 1 with hz
  have hz0 : 0 < z := by positivity
  obtain ⟨s', g1, g2, g3⟩ := negative_never c hD hW ([0, z].map (· + (-z - 1))) (by
    intro x hx
    simp only [List.map_cons, List.map_nil, List.mem_cons, List.not_mem_nil, or_false] at hx
    rcases hx with rfl | rfl <;> linarith)
  have q1 : pySqrt c.sqrt (1 * c.logD / 2) = .ok b1 := Verif.Drift.pySqrt_ok (by positivity)
  have q2 : pySqrt c.sqrt (t2 * c.logD / 2) = .ok b2 := Verif.Drift.pySqrt_ok (by
    have : 0 ≤ t2 := by rw [ht2]; nlinarith [sq_nonneg c.lam, sq_nonneg (1 - c.lam)]
    positivity)
  have q3 : pySqrt c.sqrt ((1 + 1) * c.logD / 2) = .ok b3 := Verif.Drift.pySqrt_ok (by positivity)
  have hlz : c.lam * z ≥ |b1| + |b2| := by
    have : c.lam * z = c.lam * |b3| + (|b1| + |b2|) + c.lam := by rw [hz]; field_simp
    rw [this]
    have := mul_nonneg h0.le (abs_nonneg b3)
    linarith
  have hcut : ¬ (c.lam * z + (1 - c.lam) * 0 + b2 < 0 + b1) := by
    have := le_abs_self b1
    have := neg_abs_le b2
    linarith
  have hbig : z - 0 > b3 := by
    have := le_abs_self b3
    have : 0 ≤ (|b1| + |b2|) / c.lam := by positivity
    linarith
  have hfirst : ∃ s1, addElement c init 0 = .ok s1 ∧ s1.total = some (0, 1) ∧ s1.s1incr = some (0, 1) ∧ s1.s2incr = none ∧
      s1.incrCut = some (0 + b1) := by
    unfold addElement updIncr updDecr
    simp only [init, ewma, q1, bind, Except.bind, pure, Except.pure, ltCut, if_true, detectIncr, Bool.false_eq_true, if_false, gtCut]
    split
    · exact ⟨_, rfl, rfl, rfl, rfl, rfl⟩
    · exact ⟨_, rfl, rfl, rfl, rfl, rfl⟩
  obtain ⟨s1, a0, a1, a2, a3, a4⟩ := hfirst
  have hsecond : ∃ s2, addElement c s1 z = .ok s2 ∧ s2.change = true := by
    unfold addElement updIncr
    simp only [a1, a2, a3, a4, ewma, lt_irrefl, if_false]
    simp only [← ht2, q2, bind, Except.bind, pure, Except.pure, ltCut]
    rw [if_neg (by simpa using hcut)]
    have hz' : ¬ z < 0 := by linarith
    simp only [detectIncr, lt_irrefl, hz', or_self, if_false, q3, bind, Except.bind, pure, Except.pure]
    rw [decide_eq_true hbig]
    exact ⟨_, rfl, rfl⟩
  obtain ⟨s2, c0, c1⟩ := hsecond
  refine ⟨[0, z], -z - 1, s2, s', ?_, c1, g1, g2, g3⟩
  have : run c [0, z] = (addElement c init 0 >>= fun s => addElement c s z) := by simp [run]
  rw [this, a0]
  exact c0

end HW

/-! ### Examples -/

/-- Page-Hinkley reports a rise, wherever it takes place and in whatever unit, and no fall. -/
example :
    PH.flags (PH.run ⟨3, 1/100, 2, 1⟩ [0, 0, 0, 0, 1, 1, 1]) = (true, false) ∧
    PH.flags (PH.run ⟨3, 1/100, 2, 1⟩ ([0, 0, 0, 0, 1, 1, 1].map (· + (-5)))) = (true, false) ∧
    PH.flags (PH.run ⟨3, 1/10, 20, 1⟩ ([0, 0, 0, 0, 1, 1, 1].map (10 * ·))) = (true, false) ∧
    PH.flags (PH.run ⟨3, 1/100, 2, 1⟩ [1, 1, 1, 1, 0, 0, 0, 0]) = (false, false) := by
  decide +kernel

/-- HDDM_A, with a change. -/
example : (HA.run HA.demo [0, 0, 0, 0, 2]).toOption.map HA.flags = (HA.run HA.demo [-9, -9, -9, -9, -7]).toOption.map HA.flags ∧
    ((HA.run HA.demo [0, 0, 0, 0, 2]).toOption.map fun s => (s.change, s.estimation)) = some (true, 2) ∧
    ((HA.run HA.demo [-9, -9, -9, -9, -7]).toOption.map fun s => (s.change, s.estimation)) = some (true, -7) := by
  decide +kernel

/-- HDDM_W: the change is seen above zero and not below. -/
example : ((HW.run HW.demo [0, 0, 0, 2]).toOption.map fun s => s.change) = some true ∧
    ((HW.run HW.demo [3, 3, 3, 5]).toOption.map fun s => s.change) = some true ∧
    ((HW.run HW.demo [-3, -3, -3, -1]).toOption.map fun s => s.change) = some false := by
  decide +kernel

end Verif.Drift
