import Mathlib.Analysis.SpecialFunctions.Exp
import Mathlib.Tactic.Linarith
import Mathlib.Tactic.NormNum
import Mathlib.Tactic.Positivity
import Mathlib.Tactic.Ring

/-!
# The normal distribution function (C224)

Model of `src/skmultiflow/utils/statistics.py` over the real numbers: the two
polynomial evaluators, the error function, the complementary error function and
`normal_probability`.  The constants are those of the source, digit for digit.
`np.exp` is the real exponential; rounding of floating point is not modelled.
-/

namespace Verif.Utils.Stat

open Real

noncomputable section

/-- `SQRTH`, statistics.py 3. -/
def SQRTH : ℝ := 7.07106781186547524401E-1

/-- `MAXLOG`, statistics.py 4. -/
def MAXLOG : ℝ := 7.09782712893383996732E2

/-- `T` of `error_function`, statistics.py 48-52. -/
def T : List ℝ := [9.60497373987051638749E0, 9.00260197203842689217E1,
  2.23200534594684319226E3, 7.00332514112805075473E3, 5.55923013010394962768E4]

/-- `U` of `error_function`, statistics.py 53-57. -/
def U : List ℝ := [3.35617141647503099647E1, 5.21357949780152679795E2,
  4.59432382970980127987E3, 2.26290000613890934246E4, 4.92673942608635921086E4]

/-- `P` of `error_function_complemented`, statistics.py 79-87. -/
def P : List ℝ := [2.46196981473530512524E-10, 5.64189564831068821977E-1,
  7.46321056442269912687E0, 4.86371970985681366614E1, 1.96520832956077098242E2,
  5.26445194995477358631E2, 9.34528527171957607540E2, 1.02755188689515710272E3,
  5.57535335369399327526E2]

/-- `Q` of `error_function_complemented`, statistics.py 89-96. -/
def Q : List ℝ := [1.32281951154744992508E1, 8.67072140885989742329E1,
  3.54937778887819891062E2, 9.75708501743205489753E2, 1.82390916687909736289E3,
  2.24633760818710981792E3, 1.65666309194161350182E3, 5.57535340817727675546E2]

/-- `R` of `error_function_complemented`, statistics.py 98-103. -/
def R : List ℝ := [5.64189583547755073984E-1, 1.27536670759978104416E0,
  5.01905042251180477414E0, 6.16021097993053585195E0, 7.40974269950448939160E0,
  2.97886665372100240670E0]

/-- `S` of `error_function_complemented`, statistics.py 105-110. -/
def S : List ℝ := [2.26052863220117276590E0, 9.39603524938001434673E0,
  1.20489539808096656605E1, 1.70814450747565897222E1, 9.60896809063285878198E0,
  3.36907645100081516050E0]

/-- `pol_evl(x, coef, N)`, statistics.py 168-171.  All callers pass a list of `N + 1`
coefficients, so `coef[i]` exists. -/
def polEvl (x : ℝ) (coef : List ℝ) (N : Nat) : ℝ :=
  (List.range' 1 N).foldl (fun ans i => ans * x + coef.getD i 0) (coef.getD 0 0)

/-- `p1_evl(x, coef, N)`, statistics.py 192-195: the same with a leading coefficient one.
All callers pass a list of `N` coefficients. -/
def p1Evl (x : ℝ) (coef : List ℝ) (N : Nat) : ℝ :=
  (List.range' 1 (N - 1)).foldl (fun ans i => ans * x + coef.getD i 0) (x + coef.getD 0 0)

/-- The branch of `error_function` for `|x| ≤ 1`, statistics.py 62-64. -/
def erfNear (x : ℝ) : ℝ :=
  let z := x * x
  x * polEvl z T 4 / p1Evl z U 5

/-- `error_function_complemented(a)`, statistics.py 116-149.  The call
`error_function(a)` in line 119 is made with `|a| < 1` only, where the test of line 59
fails, so it is the branch 62-64; the two functions never call each other in a circle. -/
def erfc (a : ℝ) : ℝ :=
  let x := |a|
  if x < 1 then 1 - erfNear a
  else
    let z := -a * a
    if z < -MAXLOG then (if a < 0 then 2 else 0)
    else
      let e := exp z
      let p := if x < 8 then polEvl x P 8 else polEvl x R 5
      let q := if x < 8 then p1Evl x Q 8 else p1Evl x S 6
      let y := (e * p) / q
      let y := if a < 0 then 2 - y else y
      if y = 0 then (if a < 0 then 2 else 0) else y

/-- `error_function(x)`, statistics.py 59-64. -/
def erf (x : ℝ) : ℝ :=
  if |x| > 1 then 1 - erfc x else erfNear x

/-- `normal_probability(a)`, statistics.py 23-32. -/
def normalProbability (a : ℝ) : ℝ :=
  let x := a * SQRTH
  let z := |x|
  if z < SQRTH then 0.5 + 0.5 * erf x
  else
    let y := 0.5 * erfc z
    if x > 0 then 1 - y else y

/-! ## The polynomials -/

theorem polT (z : ℝ) : polEvl z T 4 =
    9.60497373987051638749E0 * z ^ 4 + 9.00260197203842689217E1 * z ^ 3 +
    2.23200534594684319226E3 * z ^ 2 + 7.00332514112805075473E3 * z +
    5.55923013010394962768E4 := by
  simp only [polEvl, T, List.range', List.foldl, List.getD_cons_zero, List.getD_cons_succ]
  ring

theorem polU (z : ℝ) : p1Evl z U 5 =
    z ^ 5 + 3.35617141647503099647E1 * z ^ 4 + 5.21357949780152679795E2 * z ^ 3 +
    4.59432382970980127987E3 * z ^ 2 + 2.26290000613890934246E4 * z +
    4.92673942608635921086E4 := by
  simp only [p1Evl, U, List.range', List.foldl, List.getD_cons_zero, List.getD_cons_succ,
    Nat.reduceSub]
  ring

theorem polP (x : ℝ) : polEvl x P 8 =
    2.46196981473530512524E-10 * x ^ 8 + 5.64189564831068821977E-1 * x ^ 7 +
    7.46321056442269912687E0 * x ^ 6 + 4.86371970985681366614E1 * x ^ 5 +
    1.96520832956077098242E2 * x ^ 4 + 5.26445194995477358631E2 * x ^ 3 +
    9.34528527171957607540E2 * x ^ 2 + 1.02755188689515710272E3 * x +
    5.57535335369399327526E2 := by
  simp only [polEvl, P, List.range', List.foldl, List.getD_cons_zero, List.getD_cons_succ]
  ring

theorem polQ (x : ℝ) : p1Evl x Q 8 =
    x ^ 8 + 1.32281951154744992508E1 * x ^ 7 + 8.67072140885989742329E1 * x ^ 6 +
    3.54937778887819891062E2 * x ^ 5 + 9.75708501743205489753E2 * x ^ 4 +
    1.82390916687909736289E3 * x ^ 3 + 2.24633760818710981792E3 * x ^ 2 +
    1.65666309194161350182E3 * x + 5.57535340817727675546E2 := by
  simp only [p1Evl, Q, List.range', List.foldl, List.getD_cons_zero, List.getD_cons_succ,
    Nat.reduceSub]
  ring

theorem polR (x : ℝ) : polEvl x R 5 =
    5.64189583547755073984E-1 * x ^ 5 + 1.27536670759978104416E0 * x ^ 4 +
    5.01905042251180477414E0 * x ^ 3 + 6.16021097993053585195E0 * x ^ 2 +
    7.40974269950448939160E0 * x + 2.97886665372100240670E0 := by
  simp only [polEvl, R, List.range', List.foldl, List.getD_cons_zero, List.getD_cons_succ]
  ring

theorem polS (x : ℝ) : p1Evl x S 6 =
    x ^ 6 + 2.26052863220117276590E0 * x ^ 5 + 9.39603524938001434673E0 * x ^ 4 +
    1.20489539808096656605E1 * x ^ 3 + 1.70814450747565897222E1 * x ^ 2 +
    9.60896809063285878198E0 * x + 3.36907645100081516050E0 := by
  simp only [p1Evl, S, List.range', List.foldl, List.getD_cons_zero, List.getD_cons_succ,
    Nat.reduceSub]
  ring

/-- The quotient used on `|x| ≤ 1`. -/
def small (x : ℝ) : ℝ := x * polEvl (x * x) T 4 / p1Evl (x * x) U 5

/-- The quotient used beyond. -/
def ratio (x : ℝ) : ℝ :=
  (if x < 8 then polEvl x P 8 else polEvl x R 5) / (if x < 8 then p1Evl x Q 8 else p1Evl x S 6)

theorem polT_pos {z : ℝ} (h : 0 ≤ z) : 0 < polEvl z T 4 := by rw [polT]; positivity

theorem polU_pos {z : ℝ} (h : 0 ≤ z) : 0 < p1Evl z U 5 := by rw [polU]; positivity

theorem small_neg (x : ℝ) : small (-x) = -small x := by
  unfold small
  rw [neg_mul_neg]; ring

theorem small_pos {x : ℝ} (h : 0 < x) : 0 < small x :=
  div_pos (mul_pos h (polT_pos (mul_self_nonneg x))) (polU_pos (mul_self_nonneg x))

theorem small_zero : small 0 = 0 := by simp [small]

/-- On `0 ≤ x ≤ 1` the quotient stays below one. -/
theorem small_lt_one {x : ℝ} (h0 : 0 ≤ x) (h1 : x ≤ 1) : small x < 1 := by
  unfold small
  rw [div_lt_one (polU_pos (mul_self_nonneg x))]
  have hz0 : 0 ≤ x * x := mul_self_nonneg x
  rw [polT, polU]
  generalize hz : x * x = z at hz0 ⊢
  have hxz : z ≤ 1 := by rw [← hz]; nlinarith
  have q2 : 0 ≤ z ^ 2 := by positivity
  have q3 : 0 ≤ z ^ 3 := by positivity
  have q4 : 0 ≤ z ^ 4 := by positivity
  have q5 : 0 ≤ z ^ 5 := by positivity
  by_cases hx : x ≤ 4/5
  · have e : x * (9.60497373987051638749E0 * z ^ 4 + 9.00260197203842689217E1 * z ^ 3 +
        2.23200534594684319226E3 * z ^ 2 + 7.00332514112805075473E3 * z +
        5.55923013010394962768E4) ≤ 4/5 * (9.60497373987051638749E0 * z ^ 4 +
        9.00260197203842689217E1 * z ^ 3 + 2.23200534594684319226E3 * z ^ 2 +
        7.00332514112805075473E3 * z + 5.55923013010394962768E4) :=
      mul_le_mul_of_nonneg_right hx (by positivity)
    linarith
  · have hz6 : 3/5 ≤ z := by rw [← hz]; nlinarith
    have e : x * (9.60497373987051638749E0 * z ^ 4 + 9.00260197203842689217E1 * z ^ 3 +
        2.23200534594684319226E3 * z ^ 2 + 7.00332514112805075473E3 * z +
        5.55923013010394962768E4) ≤ 1 * (9.60497373987051638749E0 * z ^ 4 +
        9.00260197203842689217E1 * z ^ 3 + 2.23200534594684319226E3 * z ^ 2 +
        7.00332514112805075473E3 * z + 5.55923013010394962768E4) :=
      mul_le_mul_of_nonneg_right h1 (by positivity)
    linarith

theorem ratio_pos {x : ℝ} (h : 0 ≤ x) : 0 < ratio x := by
  unfold ratio
  by_cases h8 : x < 8
  · rw [if_pos h8, if_pos h8, polP, polQ]; positivity
  · rw [if_neg h8, if_neg h8, polR, polS]; positivity

theorem ratio_lt_one {x : ℝ} (h : 0 ≤ x) : ratio x < 1 := by
  unfold ratio
  have q2 : 0 ≤ x ^ 2 := by positivity
  have q3 : 0 ≤ x ^ 3 := by positivity
  have q4 : 0 ≤ x ^ 4 := by positivity
  have q5 : 0 ≤ x ^ 5 := by positivity
  have q6 : 0 ≤ x ^ 6 := by positivity
  have q7 : 0 ≤ x ^ 7 := by positivity
  have q8 : 0 ≤ x ^ 8 := by positivity
  by_cases h8 : x < 8
  · rw [if_pos h8, if_pos h8, polP, polQ, div_lt_one (by positivity)]; linarith
  · rw [if_neg h8, if_neg h8, polR, polS, div_lt_one (by positivity)]; linarith

/-! ## The error functions -/

theorem erf_small {x : ℝ} (h : |x| ≤ 1) : erf x = small x := by
  rw [erf, if_neg (not_lt.mpr h)]; rfl

theorem erf_large {x : ℝ} (h : 1 < |x|) : erf x = 1 - erfc x := by
  rw [erf, if_pos h]

theorem erfc_small {x : ℝ} (h : |x| < 1) : erfc x = 1 - small x := by
  rw [erfc]; simp only
  rw [if_pos h]; rfl

/-- The tail used from one onwards: zero beyond the range of `exp`. -/
def tail (a : ℝ) : ℝ := if -(a * a) < -MAXLOG then 0 else exp (-(a * a)) * ratio a

theorem tail_nonneg {a : ℝ} (h : 0 ≤ a) : 0 ≤ tail a := by
  unfold tail
  split
  · exact le_refl _
  · exact mul_nonneg (exp_pos _).le (ratio_pos h).le

theorem tail_le_exp {a : ℝ} (h : 0 ≤ a) : tail a ≤ exp (-(a * a)) := by
  unfold tail
  split
  · exact (exp_pos _).le
  · have := mul_le_mul_of_nonneg_left (ratio_lt_one h).le (exp_pos (-(a * a))).le
    simpa using this

theorem tail_lt_one {a : ℝ} (h : 1 ≤ a) : tail a < 1 := by
  refine lt_of_le_of_lt (tail_le_exp (by linarith)) ?_
  rw [exp_lt_one_iff]
  nlinarith

theorem erfc_large {a : ℝ} (h : 1 ≤ a) : erfc a = tail a := by
  have h0 : ¬ a < 0 := by linarith
  have ha : |a| = a := abs_of_nonneg (by linarith)
  rw [erfc]; simp only
  rw [if_neg (by rw [ha]; linarith)]
  simp only [ha, if_neg h0, neg_mul]
  unfold tail
  by_cases hm : -(a * a) < -MAXLOG
  · rw [if_pos hm, if_pos hm]
  · rw [if_neg hm, if_neg hm]
    have e : exp (-(a * a)) * (if a < 8 then polEvl a P 8 else polEvl a R 5) /
        (if a < 8 then p1Evl a Q 8 else p1Evl a S 6) = exp (-(a * a)) * ratio a := by
      rw [ratio]; ring
    rw [e, if_neg (ne_of_gt (mul_pos (exp_pos _) (ratio_pos (by linarith))))]

theorem erfc_large_neg {a : ℝ} (h : 1 ≤ a) : erfc (-a) = 2 - tail a := by
  have h0 : -a < 0 := by linarith
  have ha : |(-a)| = a := by rw [abs_neg]; exact abs_of_nonneg (by linarith)
  rw [erfc]; simp only
  rw [if_neg (by rw [ha]; linarith)]
  simp only [ha, if_pos h0, neg_neg, mul_neg]
  have t1 := tail_lt_one h
  unfold tail at t1 ⊢
  by_cases hm : -(a * a) < -MAXLOG
  · rw [if_pos hm, if_pos hm]; norm_num
  · rw [if_neg hm] at t1
    rw [if_neg hm, if_neg hm]
    have e : exp (-(a * a)) * (if a < 8 then polEvl a P 8 else polEvl a R 5) /
        (if a < 8 then p1Evl a Q 8 else p1Evl a S 6) = exp (-(a * a)) * ratio a := by
      rw [ratio]; ring
    rw [e, if_neg (by linarith)]

/-- C224: the error functions.  `erfc(a) + erfc(-a) = 2` and `erf` is odd, for every
argument; the two add up to one except at `±1`, where the two formulas meet; `erf` has
the sign of its argument and both stay within their ranges. -/
theorem C224_error_functions (a : ℝ) :
    erfc a + erfc (-a) = 2 ∧ erf (-a) = -erf a ∧
    (|a| ≠ 1 → erf a + erfc a = 1) ∧
    (0 < a → 0 < erf a ∧ erf a ≤ 1 ∧ 0 ≤ erfc a ∧ erfc a < 1) := by
  have key : ∀ b : ℝ, 0 ≤ b → erfc b + erfc (-b) = 2 := by
    intro b hb
    by_cases h : b < 1
    · rw [erfc_small (by rwa [abs_of_nonneg hb]),
        erfc_small (by rwa [abs_neg, abs_of_nonneg hb]), small_neg]; ring
    · rw [erfc_large (not_lt.mp h), erfc_large_neg (not_lt.mp h)]; ring
  have hc : ∀ b : ℝ, erfc b + erfc (-b) = 2 := by
    intro b
    by_cases hb : 0 ≤ b
    · exact key b hb
    · have := key (-b) (by linarith)
      rw [neg_neg] at this; linarith
  refine ⟨hc a, ?_, ?_, ?_⟩
  · by_cases h : |a| ≤ 1
    · rw [erf_small h, erf_small (by rwa [abs_neg]), small_neg]
    · rw [erf_large (not_le.mp h), erf_large (by rw [abs_neg]; exact not_le.mp h)]
      have := hc a; linarith
  · intro hne
    rcases lt_or_gt_of_ne hne with h | h
    · rw [erf_small h.le, erfc_small h]; ring
    · rw [erf_large h]; ring
  · intro ha
    have hab : |a| = a := abs_of_pos ha
    rcases lt_trichotomy a 1 with h | h | h
    · rw [erf_small (by rw [hab]; exact h.le), erfc_small (by rwa [hab])]
      have h1 := small_pos ha
      have h2 := small_lt_one ha.le h.le
      exact ⟨h1, h2.le, by linarith, by linarith⟩
    · rw [erf_small (by rw [hab]; exact h.le), erfc_large h.ge]
      exact ⟨small_pos ha, (small_lt_one ha.le h.le).le, tail_nonneg ha.le, tail_lt_one h.ge⟩
    · rw [erf_large (by rwa [hab]), erfc_large h.le]
      have h1 := tail_nonneg ha.le
      have h2 := tail_lt_one h.le
      exact ⟨by linarith, by linarith, h1, h2⟩

theorem sqrth_pos : 0 < SQRTH := by norm_num [SQRTH]

theorem sqrth_le : SQRTH ≤ 1 := by norm_num [SQRTH]

theorem np_pos {a : ℝ} (ha : 0 < a) :
    1/2 < normalProbability a ∧ normalProbability a ≤ 1 ∧
    normalProbability a + normalProbability (-a) = 1 := by
  have hx : 0 < a * SQRTH := mul_pos ha sqrth_pos
  have hab : |a * SQRTH| = a * SQRTH := abs_of_pos hx
  obtain ⟨_, e2, _, e4⟩ := C224_error_functions (a * SQRTH)
  obtain ⟨f1, f2, f3, f4⟩ := e4 hx
  unfold normalProbability
  simp only [neg_mul, abs_neg, hab]
  by_cases h : a * SQRTH < SQRTH
  · simp only [if_pos h, e2]
    refine ⟨by linarith, by linarith, by ring_nf⟩
  · simp only [if_neg h]
    rw [if_pos hx, if_neg (by linarith)]
    refine ⟨by linarith, by linarith, by ring_nf⟩

/-- **C224**: `normal_probability` has the properties of the distribution function of a
symmetric random variable.  It is a probability, one half at zero, more than one half
exactly for positive arguments, its values at `a` and `-a` add up to one, and beyond one
standard deviation times `√2` the tail is at most half of `exp(-a²/2)` (with the square
root as it is rounded in the source). -/
theorem C224_normal_probability (a : ℝ) :
    (0 ≤ normalProbability a ∧ normalProbability a ≤ 1) ∧
    normalProbability a + normalProbability (-a) = 1 ∧
    (a = 0 → normalProbability a = 1/2) ∧
    (1/2 < normalProbability a ↔ 0 < a) ∧
    (a * SQRTH ≤ -1 → normalProbability a ≤ exp (-(a * SQRTH * (a * SQRTH))) / 2) := by
  have h0 : normalProbability 0 = 1/2 := by
    unfold normalProbability
    simp only [zero_mul, abs_zero, if_pos sqrth_pos]
    rw [erf_small (by simp), small_zero]; norm_num
  have sym : ∀ b : ℝ, normalProbability b + normalProbability (-b) = 1 := by
    intro b
    rcases lt_trichotomy b 0 with h | h | h
    · have := (np_pos (a := -b) (by linarith)).2.2
      rw [neg_neg] at this; linarith
    · rw [h, neg_zero, h0]; norm_num
    · exact (np_pos h).2.2
  have rng : ∀ b : ℝ, 0 < b → 0 ≤ normalProbability (-b) ∧ normalProbability (-b) < 1/2 := by
    intro b hb
    have := np_pos hb
    constructor <;> linarith [this.1, this.2.1, this.2.2]
  refine ⟨?_, sym a, fun h => by rw [h]; exact h0, ?_, ?_⟩
  · rcases lt_trichotomy a 0 with h | h | h
    · have := rng (-a) (by linarith)
      rw [neg_neg] at this
      exact ⟨this.1, by linarith [this.2]⟩
    · rw [h, h0]; norm_num
    · have := np_pos h
      exact ⟨by linarith [this.1], this.2.1⟩
  · constructor
    · intro h
      by_contra hn
      rcases lt_or_eq_of_le (not_lt.mp hn) with h1 | h1
      · have := rng (-a) (by linarith)
        rw [neg_neg] at this
        linarith [this.2]
      · rw [h1, h0] at h; exact lt_irrefl _ h
    · exact fun h => (np_pos h).1
  · intro h
    have hs := sqrth_le
    have hab : |a * SQRTH| = -(a * SQRTH) := abs_of_neg (by linarith)
    unfold normalProbability
    simp only [hab]
    rw [if_neg (by linarith), if_neg (by linarith), erfc_large (by linarith)]
    have := tail_le_exp (a := -(a * SQRTH)) (by linarith)
    rw [neg_mul_neg] at this
    linarith

/-- C224: the constant `SQRTH` is the square root of one half to twenty digits, so the bound on the tail is
in terms of `a²/2`. -/
theorem C224_tail (a : ℝ) (ha : a ≤ -(1.4142135623730951)) :
    |2 * (SQRTH * SQRTH) - 1| < 1E-20 ∧ normalProbability a ≤ exp (-((1 - 1E-20) * (a ^ 2 / 2))) / 2 := by
  have hs : |2 * (SQRTH * SQRTH) - 1| < 1E-20 := by
    rw [abs_lt]; constructor <;> norm_num [SQRTH]
  refine ⟨hs, ?_⟩
  have h := (C224_normal_probability a).2.2.2.2 (by norm_num [SQRTH] at ha ⊢; linarith)
  refine h.trans ?_
  have : exp (-(a * SQRTH * (a * SQRTH))) ≤ exp (-((1 - 1E-20) * (a ^ 2 / 2))) := by
    apply exp_le_exp.2
    have h1 := (abs_lt.1 hs).1
    have h2 : (1 - 1E-20) * (a ^ 2 / 2) ≤ (2 * (SQRTH * SQRTH)) * (a ^ 2 / 2) :=
      mul_le_mul_of_nonneg_right (by linarith) (by positivity)
    have e : a * SQRTH * (a * SQRTH) = (2 * (SQRTH * SQRTH)) * (a ^ 2 / 2) := by ring
    rw [e]; linarith
  linarith

/-- A value of the distribution function: beyond 38 standard deviations the source
answers exactly zero, hence exactly one on the other side. -/
example : normalProbability (-40) = 0 ∧ normalProbability 40 = 1 := by
  have h : normalProbability (-40) = 0 := by
    unfold normalProbability
    have e : |(-40 : ℝ) * SQRTH| = 40 * SQRTH := by
      rw [neg_mul, abs_neg]; exact abs_of_pos (mul_pos (by norm_num) sqrth_pos)
    simp only [e]
    rw [if_neg (by norm_num [SQRTH]), if_neg (by norm_num [SQRTH]),
      erfc_large (by norm_num [SQRTH]), tail, if_pos (by norm_num [SQRTH, MAXLOG])]
    norm_num
  exact ⟨h, by have := (C224_normal_probability 40).2.1; linarith⟩

/-- Another: within one standard deviation the answer is the quotient of polynomials. -/
example : (67/100 : ℝ) < normalProbability (1/2) ∧ normalProbability (1/2) < 7/10 := by
  unfold normalProbability
  have e : |(1/2 : ℝ) * SQRTH| = 1/2 * SQRTH := abs_of_pos (mul_pos (by norm_num) sqrth_pos)
  simp only [e]
  rw [if_pos (by norm_num [SQRTH]), erf_small (by rw [e]; norm_num [SQRTH]), small, polT, polU]
  norm_num [SQRTH]

end

end Verif.Utils.Stat
