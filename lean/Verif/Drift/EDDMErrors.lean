import Verif.Drift.EDDMProps
import Mathlib.Data.Nat.Sqrt
import Mathlib.Data.Rat.Floor
import Mathlib.Tactic.FieldSimp
import Mathlib.Algebra.Order.Ring.Abs
import Mathlib.Tactic.Linarith

/-!
Property C300: what a change reported by EDDM says about the distances between
errors.
-/

namespace Verif.Drift.EDDM

/-! ### Specification -/

/-- Whether the last prediction of a stream was reported as a change. -/
def reported (sqrt : ℚ → ℚ) (xs : List Bool) : Bool := (run sqrt xs).change

/-- The mean distance between the first `j` errors. -/
def meanDist (xs : List Bool) (j : Nat) : ℚ := ((distances xs).take j).sum / j

/-- The square root of the mean squared deviation from `meanDist`. -/
def spread (sqrt : ℚ → ℚ) (xs : List Bool) (j : Nat) : ℚ :=
  sqrt ((((distances xs).take j).map fun g => (g - meanDist xs j) * (g - meanDist xs j)).sum / j)

/-! ### Proofs -/

private theorem gaps_prefix (seg : List Bool) (k : Nat) (b : Bool) :
    ∃ t, gaps k (seg ++ [b]) = gaps k seg ++ t := by
  induction seg generalizing k with
  | nil => exact ⟨_, rfl⟩
  | cons a s ih =>
    cases a
    · obtain ⟨t, ht⟩ := ih (k + 1)
      exact ⟨t, by simpa [gaps] using ht⟩
    · obtain ⟨t, ht⟩ := ih 0
      exact ⟨t, by simpa [gaps] using ht⟩

private theorem gaps_pos (seg : List Bool) (k : Nat) : ∀ x ∈ gaps k seg, (1 : ℚ) ≤ x := by
  induction seg generalizing k with
  | nil => simp [gaps]
  | cons a t ih =>
    cases a
    · simpa [gaps] using ih (k + 1)
    · intro x hx
      simp only [gaps, List.mem_cons] at hx
      rcases hx with rfl | hx
      · have : (0 : ℚ) ≤ k := by positivity
        linarith
      · exact ih 0 x hx

private theorem sinceChange_whole (flag : List Bool → Bool) (xs : List Bool)
    (h : ∀ i, i < xs.length → flag (xs.take i) = false) : sinceChange flag xs = xs := by
  induction xs using List.reverseRecOn with
  | nil => rfl
  | append_singleton xs x ih =>
    rw [sinceChange_append]
    have h0 : flag xs = false := by
      have := h xs.length (by simp)
      rwa [List.take_left'] at this
      rfl
    rw [h0, ih]
    · simp
    · intro i hi
      have := h i (by simp; omega)
      rwa [List.take_append_of_le_length (by omega)] at this

private theorem mean_replicate (n : Nat) (d : ℚ) (hn : n ≠ 0) : Verif.mean (List.replicate n d) = d := by
  have : (n : ℚ) ≠ 0 := by exact_mod_cast hn
  unfold Verif.mean
  simp only [List.sum_replicate, List.length_replicate, nsmul_eq_mul]
  field_simp

private theorem level_const (sqrt : ℚ → ℚ) (h0 : sqrt 0 = 0) (D : List ℚ) (d : ℚ)
    (hD : ∀ g ∈ D, g = d) (j : Nat) (hj : 1 ≤ j) (hl : j ≤ D.length) : level sqrt D j = d := by
  have e : D.take j = List.replicate j d := by
    apply List.eq_replicate_iff.2
    exact ⟨by simp; omega, fun g hg => hD g (List.mem_of_mem_take hg)⟩
  unfold level
  rw [e, mean_replicate j d (by omega)]
  have hv : variance (List.replicate j d) = 0 := by
    unfold variance sumSqDev
    rw [mean_replicate j d (by omega)]
    simp
  rw [hv, h0]; ring

private theorem distances_take (xs : List Bool) (i : Nat) :
    ∃ t, distances xs = distances (xs.take i) ++ t := by
  have key : ∀ (a b : List Bool), ∃ t, distances (a ++ b) = distances a ++ t := by
    intro a b
    induction b using List.reverseRecOn with
    | nil => exact ⟨[], by simp⟩
    | append_singleton b x ih =>
      obtain ⟨t, ht⟩ := ih
      obtain ⟨u, hu⟩ := gaps_prefix (a ++ b) 0 x
      refine ⟨t ++ u, ?_⟩
      unfold distances at *
      rw [← List.append_assoc, hu, ht, List.append_assoc]
  obtain ⟨t, ht⟩ := key (xs.take i) (xs.drop i)
  rw [List.take_append_drop] at ht
  exact ⟨t, ht⟩

/-! ### The property -/

/-- **C300, regular errors.**  When all distances between consecutive errors (and
the one from the start to the first error) are equal, nothing is ever reported,
neither a change nor a warning. -/
theorem C300_regular_partial (sqrt : ℚ → ℚ) (hs : ∀ q, 0 ≤ sqrt q) (h0 : sqrt 0 = 0)
    (xs : List Bool) (d : ℚ) (hd : ∀ g ∈ distances xs, g = d) :
    (run sqrt xs).change = false ∧ (run sqrt xs).warning = false := by
  have nb : ∀ (ys : List Bool) (q : ℚ), q ≤ 1 → (∀ g ∈ distances ys, g = d) →
      ¬ Below sqrt (distances ys) q := by
    rintro ys q hq hy ⟨hlen, j, ⟨j1, j2, _⟩, hlt⟩
    rw [level_const sqrt h0 _ d hy _ (by omega) (le_refl _), level_const sqrt h0 _ d hy j j1 j2] at hlt
    have hpos : 1 ≤ d := by
      cases hD : distances ys with
      | nil => rw [hD] at hlen; simp at hlen
      | cons g t =>
        rw [← hy g (by rw [hD]; simp)]
        exact gaps_pos ys 0 g (by unfold distances at hD; rw [hD]; simp)
    nlinarith
  have main : ∀ n, ∀ ys : List Bool, ys.length = n → (∀ g ∈ distances ys, g = d) →
      segment sqrt ys = ys ∧ (run sqrt ys).change = false := by
    intro n
    induction n using Nat.strong_induction_on with
    | _ n ih =>
      intro ys hn hy
      have hseg : segment sqrt ys = ys := by
        apply sinceChange_whole
        intro i hi
        obtain ⟨t, ht⟩ := distances_take ys i
        exact (ih (ys.take i).length (by simp; omega) (ys.take i) rfl
          (fun g hg => hy g (by rw [ht]; simp [hg]))).2
      refine ⟨hseg, ?_⟩
      by_contra hc
      have := (((C17_decision sqrt hs ys).1).1 (by simpa using hc)).2
      rw [hseg] at this
      exact nb ys _ (by norm_num) hy this
  obtain ⟨hseg, hch⟩ := main xs.length xs rfl hd
  refine ⟨hch, ?_⟩
  by_contra hc
  have := (((C17_decision sqrt hs xs).2).1 (by simpa using hc)).1
  rw [hseg] at this
  exact nb xs _ (by norm_num) hd this

/-- **C300, meaning.**  A reported change means that, since the last reported change, the
mean distance between errors or the spread of these distances is less than 0.9 of
what it was at an earlier error. -/
theorem C300_meaning_partial (sqrt : ℚ → ℚ) (hs : ∀ q, 0 ≤ sqrt q) (xs : List Bool)
    (h : reported sqrt xs = true) :
    ∃ j n, 1 ≤ j ∧ j ≤ n ∧ n = (distances (segment sqrt xs)).length ∧ 30 < n ∧
      (meanDist (segment sqrt xs) n < 9 / 10 * meanDist (segment sqrt xs) j ∨
        spread sqrt (segment sqrt xs) n < 9 / 10 * spread sqrt (segment sqrt xs) j) := by
  obtain ⟨_, hlen, j, ⟨j1, j2, _⟩, hlt⟩ := ((C17_decision sqrt hs xs).1).1 h
  refine ⟨j, _, j1, j2, rfl, hlen, ?_⟩
  have lv : ∀ i, i ≤ (distances (segment sqrt xs)).length →
      level sqrt (distances (segment sqrt xs)) i
        = meanDist (segment sqrt xs) i + 2 * spread sqrt (segment sqrt xs) i := by
    intro i hi
    have hl : ((distances (segment sqrt xs)).take i).length = i := by simp; omega
    unfold level meanDist spread variance sumSqDev meanDist Verif.mean
    rw [hl]
    simp only [pow_two]
  rw [lv _ (le_refl _), lv j j2] at hlt
  by_contra hno
  rw [not_or, not_lt, not_lt] at hno
  linarith [hno.1, hno.2]

/-! A stream whose errors become rarer: distances 1, 9, 1, 9, ..., then 6. -/

private def apart (d : Nat) : List Bool := List.replicate (d - 1) false ++ [true]

private def rarer : List Bool :=
  (List.replicate 15 (apart 1 ++ apart 9)).flatten ++ (List.replicate 20 (apart 6)).flatten

private def rarerD : List ℚ := (List.replicate 15 [1, 9]).flatten ++ List.replicate 20 6

private theorem rarer_dist : distances rarer = rarerD := by decide +kernel

private theorem rarer_means : ∀ k, k < 51 → 30 < k → ∀ j, j < k → 1 ≤ j →
    (rarerD.take j).sum / (j : ℚ) < (rarerD.take k).sum / (k : ℚ) := by decide +kernel

/-- **C300, violation.**  An alarm need not mean that errors come faster: there is
a stream which every sufficiently exact square root makes EDDM report at a moment
when the mean distance between errors is larger than it was at every earlier error. -/
theorem C300_rarer_violated :
    ∃ xs : List Bool, ∀ sqrt : ℚ → ℚ, (∀ q, 0 ≤ sqrt q) →
      (∀ q, 0 ≤ q → q ≤ 100 → |sqrt q * sqrt q - q| ≤ 1 / 1000) →
      ∃ i, reported sqrt (xs.take i) = true ∧ segment sqrt (xs.take i) = xs.take i ∧
        ∀ j, 1 ≤ j → j < (distances (xs.take i)).length →
          meanDist (xs.take i) j < meanDist (xs.take i) (distances (xs.take i)).length := by
  refine ⟨rarer, fun sqrt hs hq => ?_⟩
  have hex : ∃ i, reported sqrt (rarer.take i) = true := by
    by_contra hno
    have hall : ∀ i, reported sqrt (rarer.take i) = false := by
      intro i
      by_contra hc
      exact hno ⟨i, by simpa using hc⟩
    have hseg : segment sqrt rarer = rarer := sinceChange_whole _ _ fun i _ => hall i
    have hrep : reported sqrt rarer = true := by
      refine ((C17_decision sqrt hs rarer).1).2 ?_
      rw [hseg, rarer_dist]
      refine ⟨by decide +kernel, by decide +kernel, 30, ⟨by norm_num, by decide +kernel, by decide +kernel⟩, ?_⟩
      have hlen : rarerD.length = 50 := by decide +kernel
      have hm1 : Verif.mean (rarerD.take 50) = 27 / 5 := by decide +kernel
      have hm2 : Verif.mean (rarerD.take 30) = 5 := by decide +kernel
      have hv1 : variance (rarerD.take 50) = 246 / 25 := by decide +kernel
      have hv2 : variance (rarerD.take 30) = 16 := by decide +kernel
      unfold level
      rw [hlen, hm1, hm2, hv1, hv2]
      have a := abs_le.1 (hq (246 / 25) (by norm_num) (by norm_num))
      have b := abs_le.1 (hq 16 (by norm_num) (by norm_num))
      have sa := hs (246 / 25)
      have sb := hs 16
      have a' : sqrt (246 / 25) ≤ 3138 / 1000 := by
        by_contra hc
        nlinarith [a.2, not_le.1 hc]
      have b' : 3999 / 1000 ≤ sqrt 16 := by
        by_contra hc
        nlinarith [b.1, not_le.1 hc]
      linarith
    have := hall rarer.length
    rw [List.take_of_length_le (le_refl _), hrep] at this
    cases this
  classical
  let i := Nat.find hex
  have hi : reported sqrt (rarer.take i) = true := Nat.find_spec hex
  have hmin : ∀ k, k < i → reported sqrt (rarer.take k) = false := fun k hk => by
    have := Nat.find_min hex hk
    simpa using this
  have hseg : segment sqrt (rarer.take i) = rarer.take i := by
    apply sinceChange_whole
    intro k hk
    rw [List.length_take] at hk
    rw [List.take_take, min_eq_left (by omega)]
    exact hmin k (by omega)
  refine ⟨i, hi, hseg, ?_⟩
  obtain ⟨_, hlen, _⟩ := ((C17_decision sqrt hs (rarer.take i)).1).1 hi
  rw [hseg] at hlen
  obtain ⟨t, ht⟩ := distances_take rarer i
  rw [rarer_dist] at ht
  intro j hj hjl
  have hk : (distances (rarer.take i)).length ≤ 50 := by
    have := congrArg List.length ht
    rw [show rarerD.length = 50 by decide +kernel, List.length_append] at this
    omega
  have hD : distances (rarer.take i) = rarerD.take (distances (rarer.take i)).length := by
    rw [ht, List.take_left' rfl]
  have := rarer_means (distances (rarer.take i)).length (by omega) hlen j hjl hj
  have hD2 : (distances (rarer.take i)).take j = rarerD.take j := by
    rw [ht, List.take_append_of_le_length (by omega)]
  unfold meanDist
  rw [hD2, List.take_of_length_le (le_refl _)]
  rw [← hD] at this
  exact this

/-! ### Examples -/

/-- A square root good to six digits. -/
def sqrt6 (q : ℚ) : ℚ := (Nat.sqrt ⌊q * 1000000000000⌋.toNat : ℚ) / 1000000

private theorem sqrt6_ok (q : ℚ) (h0 : 0 ≤ q) (h1 : q ≤ 100) : |sqrt6 q * sqrt6 q - q| ≤ 1 / 1000 := by
  unfold sqrt6
  set z := ⌊q * 1000000000000⌋ with hz
  have hz0 : 0 ≤ z := Int.floor_nonneg.2 (by linarith)
  have hzq : (z : ℚ) ≤ q * 1000000000000 := Int.floor_le _
  have hzq' : q * 1000000000000 < (z : ℚ) + 1 := Int.lt_floor_add_one _
  obtain ⟨n, hn⟩ := Int.eq_ofNat_of_zero_le hz0
  rw [hn] at hzq hzq' ⊢
  simp only [Int.toNat_natCast] at *
  have e1 : ((Nat.sqrt n : ℚ)) * Nat.sqrt n ≤ n := by exact_mod_cast Nat.sqrt_le n
  have e2 : (n : ℚ) + 1 ≤ ((Nat.sqrt n : ℚ) + 1) * ((Nat.sqrt n : ℚ) + 1) := by
    have : n < (Nat.sqrt n + 1) * (Nat.sqrt n + 1) := Nat.lt_succ_sqrt n
    exact_mod_cast this
  push_cast at *
  have e3 : (Nat.sqrt n : ℚ) ≤ 10000000 := by
    by_contra hc
    nlinarith [not_le.1 hc]
  rw [abs_le]
  constructor
  · rw [div_mul_div_comm]; linarith
  · rw [div_mul_div_comm]; linarith

example : (∀ q, 0 ≤ sqrt6 q) ∧ ∀ q, 0 ≤ q → q ≤ 100 → |sqrt6 q * sqrt6 q - q| ≤ 1 / 1000 :=
  ⟨fun q => by unfold sqrt6; positivity, sqrt6_ok⟩

/-- 40 errors, one in every four predictions. -/
example : ∀ g ∈ distances (List.replicate 40 (apart 4)).flatten, g = 4 := by decide +kernel

/-- Errors that come faster are reported. -/
example : reported sqrt6 ((List.replicate 20 (apart 4)).flatten ++ List.replicate 26 true) = false ∧
    reported sqrt6 ((List.replicate 20 (apart 4)).flatten ++ List.replicate 27 true) = true := by
  decide +kernel

end Verif.Drift.EDDM
