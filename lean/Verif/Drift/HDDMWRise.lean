import Verif.Drift.HDDMW
import Mathlib.Analysis.Complex.ExponentialBounds
import Mathlib.Analysis.SpecificLimits.Basic
import Mathlib.Tactic.FieldSimp

/-! C305: which rises HDDM_W can see.  The numbers are reals, the square root and the logarithms those of `math`. -/

namespace Verif.Drift.HDDMWRise

open HW

/-- `HDDM_W(drift_confidence, warning_confidence, lambda_option, two_side_option)`, `hddm_w.py:70-90`. -/
noncomputable def par (drift warning lam : ℝ) (twoSide : Bool) : HWPar ℝ :=
  ⟨Real.log (1 / drift), Real.log (1 / warning), lam, twoSide, Real.sqrt⟩

/-- What an exponentially weighted average of `m` values may differ from the level they stand for, at the
confidence `drift`. -/
noncomputable def deviation (drift lam : ℝ) (m : ℕ) : ℝ := √(sqw lam m * Real.log (1 / drift) / 2)

variable {drift warning lam : ℝ} {two : Bool}

/-! ### The squared weights never get small -/

theorem sqw_ge (h0 : 0 < lam) (h1 : lam ≤ 1) (m : ℕ) (hm : 1 ≤ m) : lam / (2 - lam) ≤ sqw lam m := by
  have hp : 0 < 2 - lam := by linarith
  induction m, hm using Nat.le_induction with
  | base => rw [sqw_one, div_le_one hp]; linarith
  | succ m hm ih =>
    rw [sqw_succ lam m (by omega)]
    have e : lam / (2 - lam) = lam * lam + (1 - lam) * (1 - lam) * (lam / (2 - lam)) := by field_simp; ring
    rw [e]
    have := mul_le_mul_of_nonneg_left ih (mul_self_nonneg (1 - lam))
    linarith

theorem sqw_anti (h0 : 0 < lam) (h1 : lam ≤ 1) (j m : ℕ) (hj : 1 ≤ j) (hjm : j ≤ m) : sqw lam m ≤ sqw lam j := by
  have hp : 0 < 2 - lam := by linarith
  induction m, hjm using Nat.le_induction with
  | base => exact le_refl _
  | succ m hm ih =>
    refine le_trans ?_ ih
    rw [sqw_succ lam m (by omega)]
    have := sqw_ge h0 h1 m (by omega)
    rw [div_le_iff₀ hp] at this
    nlinarith

/-- The limit of the squared weights. -/
theorem sqw_formula (h0 : 0 < lam) (h1 : lam ≤ 1) (m : ℕ) :
    sqw lam (m + 1) = lam / (2 - lam) + (1 - lam / (2 - lam)) * ((1 - lam) ^ m * (1 - lam) ^ m) := by
  have hp : 2 - lam ≠ 0 := by linarith
  induction m with
  | zero => rw [sqw_one]; simp
  | succ m ih =>
    rw [sqw_succ lam _ (by omega), ih, pow_succ]
    have e : lam / (2 - lam) = lam * lam + (1 - lam) * (1 - lam) * (lam / (2 - lam)) := by field_simp; ring
    linear_combination -e

/-! ### Averages -/

theorem avg_low (h0 : 0 ≤ lam) (h1 : lam ≤ 1) (h : ℝ) (hh : 0 ≤ h) (a b : List ℝ) (ha : ∀ x ∈ a ++ b, 0 ≤ x)
    (hb : ∀ x ∈ b, h ≤ x) : h * (1 - (1 - lam) ^ b.length) ≤ avg lam (a ++ b) := by
  induction b using List.reverseRecOn with
  | nil => simpa using avg_nonneg lam h0 h1 a (fun x hx => ha x (by simp [hx]))
  | append_singleton b x ih =>
    have ih := ih (fun y hy => ha y (by simp at hy ⊢; tauto)) (fun y hy => hb y (by simp [hy]))
    have hx := hb x (by simp)
    have hpow : 0 ≤ (1 - lam) ^ (b ++ [x]).length := pow_nonneg (by linarith) _
    by_cases hne : a ++ b = []
    · rw [← List.append_assoc, hne, List.nil_append, avg_single]
      nlinarith
    · rw [← List.append_assoc, avg_snoc lam _ x hne, List.length_append, List.length_singleton, pow_succ]
      nlinarith [mul_le_mul_of_nonneg_left ih (by linarith : 0 ≤ 1 - lam), mul_le_mul_of_nonneg_left hx h0]

/-! ### The trace -/

theorem bestCut_unique (c : HWPar ℝ) (l : List ℝ) (n m : ℕ) (hn : BestCut c l n) (hm : BestCut c l m) : n = m := by
  rcases Nat.lt_trichotomy n m with h | h | h
  · exact absurd (hm.first n hn.pos h) (not_lt.2 (hn.least m hm.pos hm.le))
  · exact h
  · exact absurd (hn.first m hm.pos h) (not_lt.2 (hm.least n hn.pos hn.le))

theorem trace_det (c : HWPar ℝ) {xs seg : List ℝ} {ch w : Bool} (h : Trace c xs seg ch w) :
    ∀ {ys seg' : List ℝ} {ch' w' : Bool}, Trace c ys seg' ch' w' → ys = xs → seg' = seg ∧ ch' = ch ∧ w' = w := by
  induction h with
  | start =>
    intro ys seg' ch' w' h' e
    cases h' with
    | start => exact ⟨rfl, rfl, rfl⟩
    | change _ _ _ => simp at e
    | warn _ _ _ _ => simp at e
    | quiet _ _ _ _ => simp at e
  | change _ hb hE ih =>
    intro ys seg' ch' w' h' e
    cases h' with
    | start => simp at e
    | change h2 hb' hE' => exact ⟨rfl, rfl, rfl⟩
    | warn h2 hb' hE' _ =>
      obtain ⟨e1, e2⟩ := List.append_inj' e rfl
      obtain ⟨rfl, _, _⟩ := ih h2 e1
      cases e2
      rw [bestCut_unique c _ _ _ hb hb'] at hE
      exact absurd hE hE'
    | quiet h2 hb' hE' _ =>
      obtain ⟨e1, e2⟩ := List.append_inj' e rfl
      obtain ⟨rfl, _, _⟩ := ih h2 e1
      cases e2
      rw [bestCut_unique c _ _ _ hb hb'] at hE
      exact absurd hE hE'
  | warn _ hb hE hW ih =>
    intro ys seg' ch' w' h' e
    cases h' with
    | start => simp at e
    | change h2 hb' hE' =>
      obtain ⟨e1, e2⟩ := List.append_inj' e rfl
      obtain ⟨rfl, _, _⟩ := ih h2 e1
      cases e2
      rw [bestCut_unique c _ _ _ hb hb'] at hE
      exact absurd hE' hE
    | warn h2 hb' hE' _ =>
      obtain ⟨e1, e2⟩ := List.append_inj' e rfl
      obtain ⟨rfl, _, _⟩ := ih h2 e1
      cases e2
      exact ⟨rfl, rfl, rfl⟩
    | quiet h2 hb' hE' hW' =>
      obtain ⟨e1, e2⟩ := List.append_inj' e rfl
      obtain ⟨rfl, _, _⟩ := ih h2 e1
      cases e2
      rw [bestCut_unique c _ _ _ hb hb'] at hW
      exact absurd hW hW'
  | quiet _ hb hE hW ih =>
    intro ys seg' ch' w' h' e
    cases h' with
    | start => simp at e
    | change h2 hb' hE' =>
      obtain ⟨e1, e2⟩ := List.append_inj' e rfl
      obtain ⟨rfl, _, _⟩ := ih h2 e1
      cases e2
      rw [bestCut_unique c _ _ _ hb hb'] at hE
      exact absurd hE' hE
    | warn h2 hb' hE' hW' =>
      obtain ⟨e1, e2⟩ := List.append_inj' e rfl
      obtain ⟨rfl, _, _⟩ := ih h2 e1
      cases e2
      rw [bestCut_unique c _ _ _ hb hb'] at hW
      exact absurd hW' hW
    | quiet h2 hb' hE' _ =>
      obtain ⟨e1, e2⟩ := List.append_inj' e rfl
      obtain ⟨rfl, _, _⟩ := ih h2 e1
      cases e2
      exact ⟨rfl, rfl, rfl⟩

/-- What holds of the values since the last change, by the last step. -/
theorem trace_last (c : HWPar ℝ) {xs seg : List ℝ} {ch w : Bool} (h : Trace c xs seg ch w) (hne : seg ≠ []) :
    ∃ n, BestCut c seg n ∧ ¬ Exceeds c c.logD seg n := by
  cases h with
  | start => exact absurd rfl hne
  | change _ _ _ => exact absurd rfl hne
  | warn _ hb hE _ => exact ⟨_, hb, hE⟩
  | quiet _ hb hE _ => exact ⟨_, hb, hE⟩

/-- A step without a reported change keeps all values. -/
theorem trace_step (c : HWPar ℝ) {xs ys seg : List ℝ} {x : ℝ} {w : Bool} (h : Trace c ys seg false w) (e : ys = xs ++ [x]) :
    ∃ seg' ch' w', Trace c xs seg' ch' w' ∧ seg = seg' ++ [x] := by
  cases h with
  | start => simp at e
  | warn h2 hb' hE' _ =>
    obtain ⟨e1, e2⟩ := List.append_inj' e rfl
    cases e2; subst e1
    exact ⟨_, _, _, h2, rfl⟩
  | quiet h2 hb' hE' _ =>
    obtain ⟨e1, e2⟩ := List.append_inj' e rfl
    cases e2; subst e1
    exact ⟨_, _, _, h2, rfl⟩

theorem log_nonneg (hd : 0 < drift) (hd1 : drift ≤ 1) : 0 ≤ Real.log (1 / drift) :=
  Real.log_nonneg (by rw [le_div_iff₀ hd]; linarith)

/-! ### Nothing can be reported -/

/-- Values between 0 and 1: averages differ by at most 1. -/
theorem not_exceeds (h0 : 0 < lam) (h1 : lam ≤ 1) (lg : ℝ) (hlg : 1 ≤ lam / (2 - lam) * lg) (c : HWPar ℝ)
    (hc : c.lam = lam) (hs : c.sqrt = Real.sqrt) (l : List ℝ) (hl : ∀ x ∈ l, 0 ≤ x ∧ x ≤ 1) (n : ℕ) (hn : 1 ≤ n) :
    ¬ Exceeds c lg l n := by
  rintro ⟨hlt, hgt⟩
  rw [hc, hs] at hgt
  have b1 := (avg_bounds lam h0.le h1 0 1 (l.take n) (by
    rw [Ne, List.take_eq_nil_iff]; rintro (h | h)
    · omega
    · subst h; simp at hlt) (fun y hy => hl y (List.mem_of_mem_take hy))).1
  have b2 := (avg_bounds lam h0.le h1 0 1 (l.drop n) (by rw [Ne, List.drop_eq_nil_iff]; omega)
    (fun y hy => hl y (List.mem_of_mem_drop hy))).2
  have hpos : 0 < lam / (2 - lam) := div_pos h0 (by linarith)
  have hlg0 : 0 ≤ lg := by
    by_contra hneg
    have := mul_neg_of_pos_of_neg hpos (not_le.1 hneg)
    linarith
  have s1 := mul_le_mul_of_nonneg_right (sqw_ge h0 h1 n hn) hlg0
  have s2 := mul_le_mul_of_nonneg_right (sqw_ge h0 h1 (l.length - n) (by omega)) hlg0
  have : 1 ≤ √((sqw lam n + sqw lam (l.length - n)) * lg / 2) := by
    rw [Real.one_le_sqrt]
    nlinarith
  linarith

/-- **C305, blind.**  If `λ / (2 - λ) · ln(1 / drift_confidence) ≥ 1` then no sequence of values between 0 and 1 is ever
reported as a change; and with the warning confidence in place of the other, none ever gives a warning. -/
theorem C305_blind (hd : 0 < drift) (hd1 : drift ≤ 1) (hw : 0 < warning) (hw1 : warning ≤ 1) (h0 : 0 < lam) (h1 : lam ≤ 1)
    (hblind : 1 ≤ lam / (2 - lam) * Real.log (1 / drift)) (xs : List ℝ) (hx : ∀ x ∈ xs, 0 ≤ x ∧ x ≤ 1) :
    ∃ s, run (par drift warning lam two) xs = .ok s ∧ s.change = false ∧ s.width = xs.length ∧
      (1 ≤ lam / (2 - lam) * Real.log (1 / warning) → s.warning = false) := by
  obtain ⟨s, seg, hr, ht, _, hwd, _⟩ := C108_follows_specification (par drift warning lam two) h0.le h1 (log_nonneg hd hd1)
    (log_nonneg hw hw1) xs (fun x h => (hx x h).1)
  refine ⟨s, hr, ?_⟩
  have main : ∀ xs seg ch w, Trace (par drift warning lam two) xs seg ch w → (∀ x ∈ xs, 0 ≤ x ∧ x ≤ 1) →
      seg = xs ∧ ch = false ∧ (1 ≤ lam / (2 - lam) * Real.log (1 / warning) → w = false) := by
    intro xs seg ch w h
    induction h with
    | start => intro _; exact ⟨rfl, rfl, fun _ => rfl⟩
    | change _ hb hE ih =>
      intro hx
      obtain ⟨e, _⟩ := ih fun x hx' => hx x (by simp [hx'])
      rw [e] at hE hb
      exact absurd hE (not_exceeds h0 h1 _ hblind _ rfl rfl _ hx _ hb.pos)
    | warn _ hb _ hE ih =>
      intro hx
      obtain ⟨e, _⟩ := ih fun x hx' => hx x (by simp [hx'])
      rw [e] at hE hb ⊢
      exact ⟨rfl, rfl, fun hbw => absurd hE (not_exceeds h0 h1 _ hbw _ rfl rfl _ hx _ hb.pos)⟩
    | quiet _ _ _ _ ih =>
      intro hx
      obtain ⟨e, _⟩ := ih fun x hx' => hx x (by simp [hx'])
      rw [e]
      exact ⟨rfl, rfl, fun _ => rfl⟩
  obtain ⟨a, b, d⟩ := main xs seg _ _ ht hx
  exact ⟨b, by rw [hwd, a], d⟩

theorem log_thousand : 6.9 ≤ Real.log 1000 := by
  have h2 := Real.log_two_gt_d9
  have e : (1000 : ℝ) = 2 ^ 10 * (1000 / 1024) := by norm_num
  rw [e, Real.log_mul (by norm_num) (by norm_num), Real.log_pow]
  have h3 := Real.one_sub_inv_le_log_of_pos (by norm_num : (0 : ℝ) < 1000 / 1024)
  norm_num at h3 ⊢
  linarith

/-- **C305, blind with the default confidence.**  With `drift_confidence = 0.001` every `lambda_option` from 0.26 up
makes HDDM_W report nothing about values between 0 and 1. -/
theorem C305_blind_default (h0 : 0.26 ≤ lam) (h1 : lam ≤ 1) (xs : List ℝ) (hx : ∀ x ∈ xs, 0 ≤ x ∧ x ≤ 1) :
    ∃ s, run (par 0.001 0.005 lam two) xs = .ok s ∧ s.change = false := by
  have hl : Real.log (1 / 0.001) = Real.log 1000 := by norm_num
  obtain ⟨s, a, b, _⟩ := C305_blind (drift := 0.001) (warning := 0.005) (two := two) (by norm_num) (by norm_num) (by norm_num)
    (by norm_num) (by linarith : 0 < lam) h1 (by
      rw [hl, div_mul_eq_mul_div, le_div_iff₀ (by linarith)]
      have := log_thousand
      nlinarith) xs hx
  exact ⟨s, a, b⟩

/-! ### Lasting rises are reported -/

theorem deviation_add (hd : 0 < drift) (hd1 : drift ≤ 1) (n m : ℕ) :
    √((sqw lam n + sqw lam m) * Real.log (1 / drift) / 2) ≤ deviation drift lam n + deviation drift lam m := by
  have hL := log_nonneg hd hd1
  unfold deviation
  apply Real.sqrt_le_iff.2
  have a := mul_nonneg (sqw_nonneg lam n) hL
  have b := mul_nonneg (sqw_nonneg lam m) hL
  refine ⟨by positivity, ?_⟩
  have s1 := Real.sq_sqrt (by linarith : 0 ≤ sqw lam n * Real.log (1 / drift) / 2)
  have s2 := Real.sq_sqrt (by linarith : 0 ≤ sqw lam m * Real.log (1 / drift) / 2)
  have s3 := mul_nonneg (Real.sqrt_nonneg (sqw lam n * Real.log (1 / drift) / 2)) (Real.sqrt_nonneg (sqw lam m * Real.log (1 / drift) / 2))
  nlinarith

/-- While nothing is reported, the last values cannot all be high. -/
theorem quiet_bound (hd : 0 < drift) (hd1 : drift ≤ 1) (h0 : 0 < lam) (h1 : lam ≤ 1) (pre post : List ℝ) (hpost : post ≠ [])
    (hpos : ∀ x ∈ pre ++ post, 0 ≤ x) (h : ℝ) (hh : 0 ≤ h) (hhigh : ∀ x ∈ post, h ≤ x) (n : ℕ)
    (hb : BestCut (par drift warning lam two) (pre ++ post) n)
    (hE : ¬ Exceeds (par drift warning lam two) (par drift warning lam two).logD (pre ++ post) n) (k : ℕ) (hk : 1 ≤ k)
    (hk' : k ≤ (pre ++ post).length) :
    h * (1 - (1 - lam) ^ ((post.length + 1) / 2)) ≤
      avg lam ((pre ++ post).take k) + deviation drift lam k + deviation drift lam ((post.length + 1) / 2) := by
  have hL := log_nonneg hd hd1
  have hm : 1 ≤ post.length := List.length_pos_iff.2 hpost
  set j := (post.length + 1) / 2 with hj
  have hj1 : 1 ≤ j := by omega
  have hup : ∀ i, i ≤ (pre ++ post).length →
      upper (par drift warning lam two) ((pre ++ post).take i) = avg lam ((pre ++ post).take i) + deviation drift lam i := by
    intro i hi
    unfold upper deviation
    rw [List.length_take, min_eq_left hi]
    rfl
  have hleast := hb.least k hk hk'
  rw [hup n hb.le, hup k hk'] at hleast
  have hdj : 0 ≤ deviation drift lam j := Real.sqrt_nonneg _
  have hdn : 0 ≤ deviation drift lam n := Real.sqrt_nonneg _
  have hlen : (pre ++ post).length = pre.length + post.length := by simp
  have hpw : ∀ i, j ≤ i → h * (1 - (1 - lam) ^ j) ≤ h * (1 - (1 - lam) ^ i) := by
    intro i hi
    have := pow_le_pow_of_le_one (by linarith : 0 ≤ 1 - lam) (by linarith : 1 - lam ≤ 1) hi
    exact mul_le_mul_of_nonneg_left (by linarith) hh
  by_cases hcase : n + j ≤ (pre ++ post).length
  · -- enough high values after the cut
    have hlt : n < (pre ++ post).length := by omega
    have hnot : avg lam ((pre ++ post).drop n) - avg lam ((pre ++ post).take n) ≤
        √((sqw lam n + sqw lam ((pre ++ post).length - n)) * Real.log (1 / drift) / 2) := by
      by_contra hcon
      exact hE ⟨hlt, not_le.1 hcon⟩
    have hadd := deviation_add (lam := lam) hd hd1 n ((pre ++ post).length - n)
    have hanti : deviation drift lam ((pre ++ post).length - n) ≤ deviation drift lam j := by
      unfold deviation
      apply Real.sqrt_le_sqrt
      have := mul_le_mul_of_nonneg_right (sqw_anti h0 h1 j ((pre ++ post).length - n) hj1 (by omega)) hL
      linarith
    have hlow : h * (1 - (1 - lam) ^ j) ≤ avg lam ((pre ++ post).drop n) := by
      have hsplit : (pre ++ post).drop n = (pre.drop n ++ (post.drop (n - pre.length)).take ((post.drop (n - pre.length)).length - j)) ++
          (post.drop (n - pre.length)).drop ((post.drop (n - pre.length)).length - j) := by
        rw [List.drop_append, List.append_assoc, List.take_append_drop]
      have hdl : (post.drop (n - pre.length)).length = post.length - (n - pre.length) := by simp
      have := avg_low h0.le h1 h hh (pre.drop n ++ (post.drop (n - pre.length)).take ((post.drop (n - pre.length)).length - j))
        ((post.drop (n - pre.length)).drop ((post.drop (n - pre.length)).length - j))
        (by rw [← hsplit]; exact fun x hx => hpos x (List.mem_of_mem_drop hx))
        (fun x hx => hhigh x (List.mem_of_mem_drop (List.mem_of_mem_drop hx)))
      rw [← hsplit] at this
      refine le_trans (hpw _ ?_) this
      rw [List.length_drop, hdl]
      omega
    linarith
  · -- enough high values before the cut
    have hlow : h * (1 - (1 - lam) ^ j) ≤ avg lam ((pre ++ post).take n) := by
      have hn : n = pre.length + (n - pre.length) := by omega
      have hsplit : (pre ++ post).take n = pre ++ post.take (n - pre.length) := by
        rw [List.take_append, List.take_of_length_le (by omega)]
      have := avg_low h0.le h1 h hh pre (post.take (n - pre.length))
        (by rw [← hsplit]; exact fun x hx => hpos x (List.mem_of_mem_take hx))
        (fun x hx => hhigh x (List.mem_of_mem_take hx))
      rw [← hsplit] at this
      refine le_trans (hpw _ ?_) this
      rw [List.length_take]
      have := hb.le
      omega
    linarith

/-- **C305, rises are found.**  The detector has kept the values `pre` (`width` counts them all), and then sees `post`, all of it
at `h` or more.  If `post` is long enough, so that `h` less the remaining weight of the old values exceeds the average of
`pre` by the two deviations, then a change is reported at one of the values of `post`. -/
theorem C305_found (hd : 0 < drift) (hd1 : drift ≤ 1) (hw : 0 < warning) (hw1 : warning ≤ 1) (h0 : 0 < lam) (h1 : lam ≤ 1)
    (pre post : List ℝ) (hpre : pre ≠ []) (hpost : post ≠ []) (hpos : ∀ x ∈ pre ++ post, 0 ≤ x) (h : ℝ) (hh : 0 ≤ h)
    (hhigh : ∀ x ∈ post, h ≤ x)
    (hkept : ∀ s, run (par drift warning lam two) pre = .ok s → s.width = pre.length)
    (hlong : avg lam pre + deviation drift lam pre.length + deviation drift lam ((post.length + 1) / 2) <
      h * (1 - (1 - lam) ^ ((post.length + 1) / 2))) :
    ∃ mid, mid ≠ [] ∧ mid <+: post ∧ ∃ s, run (par drift warning lam two) (pre ++ mid) = .ok s ∧ s.change = true := by
  set c := par drift warning lam two with hc
  have spec : ∀ xs : List ℝ, (∀ x ∈ xs, 0 ≤ x) → _ := fun xs hx =>
    C108_follows_specification c h0.le h1 (log_nonneg hd hd1) (log_nonneg hw hw1) xs hx
  by_contra hcon
  have hall : ∀ mid, mid <+: post → ∃ ch w, Trace c (pre ++ mid) (pre ++ mid) ch w := by
    intro mid
    induction mid using List.reverseRecOn with
    | nil =>
      intro _
      obtain ⟨s, seg, hr, ht, hsuf, hwd, _⟩ := spec pre (fun x hx => hpos x (by simp [hx]))
      have : seg = pre := hsuf.eq_of_length (by rw [← hwd, hkept s hr])
      subst this
      rw [List.append_nil]
      exact ⟨_, _, ht⟩
    | append_singleton mid x ih =>
      intro hm
      obtain ⟨ch, w, ih⟩ := ih ((List.prefix_append _ _).trans hm)
      obtain ⟨s, seg, hr, ht, _⟩ := spec (pre ++ (mid ++ [x])) (fun y hy => hpos y (by
        rcases List.mem_append.1 hy with hy | hy
        · simp [hy]
        · simp [hm.subset hy]))
      have hch : s.change = false := by
        cases hs : s.change with
        | false => rfl
        | true => exact absurd ⟨mid ++ [x], by simp, hm, s, hr, hs⟩ hcon
      rw [hch] at ht
      obtain ⟨seg', ch', w', t', e⟩ := trace_step c ht (List.append_assoc _ _ _).symm
      obtain ⟨e', _⟩ := trace_det c ih t' rfl
      rw [e, e', List.append_assoc] at ht
      exact ⟨_, _, ht⟩
  obtain ⟨ch, w, ht⟩ := hall post List.prefix_rfl
  obtain ⟨n, hb, hE⟩ := trace_last c ht (by simp [hpre])
  have := quiet_bound hd hd1 h0 h1 pre post hpost hpos h hh hhigh n hb hE pre.length (List.length_pos_iff.2 hpre) (by simp)
  rw [List.take_left] at this
  linarith

/-- **C305, every lasting rise large enough is found.**  If `h` exceeds the average of the values kept, plus their deviation,
plus the square root of `λ / (2 - λ) · ln(1 / drift_confidence) / 2`, then any long enough run of values at `h` or more
is reported. -/
theorem C305_lasting (hd : 0 < drift) (hd1 : drift ≤ 1) (hw : 0 < warning) (hw1 : warning ≤ 1) (h0 : 0 < lam) (h1 : lam ≤ 1)
    (pre : List ℝ) (hpre : pre ≠ []) (hpos : ∀ x ∈ pre, 0 ≤ x) (h : ℝ)
    (hkept : ∀ s, run (par drift warning lam two) pre = .ok s → s.width = pre.length)
    (hrise : avg lam pre + deviation drift lam pre.length + √(lam / (2 - lam) * Real.log (1 / drift) / 2) < h) :
    ∃ M, ∀ post : List ℝ, M ≤ post.length → (∀ x ∈ post, h ≤ x) →
      ∃ mid, mid ≠ [] ∧ mid <+: post ∧ ∃ s, run (par drift warning lam two) (pre ++ mid) = .ok s ∧ s.change = true := by
  have hh : 0 ≤ h := by
    have a := avg_nonneg lam h0.le h1 pre hpos
    have b : 0 ≤ deviation drift lam pre.length := Real.sqrt_nonneg _
    have d := Real.sqrt_nonneg (lam / (2 - lam) * Real.log (1 / drift) / 2)
    linarith
  have hp := tendsto_pow_atTop_nhds_zero_of_lt_one (by linarith : 0 ≤ 1 - lam) (by linarith : 1 - lam < 1)
  have hq : Filter.Tendsto (fun m => √(sqw lam (m + 1) * Real.log (1 / drift) / 2)) Filter.atTop
      (nhds √(lam / (2 - lam) * Real.log (1 / drift) / 2)) := by
    have : Filter.Tendsto (fun m => sqw lam (m + 1)) Filter.atTop (nhds (lam / (2 - lam))) := by
      have e : (fun m => sqw lam (m + 1)) = fun m => lam / (2 - lam) + (1 - lam / (2 - lam)) * ((1 - lam) ^ m * (1 - lam) ^ m) := by
        funext m; exact sqw_formula h0 h1 m
      rw [e]
      simpa using ((hp.mul hp).const_mul (1 - lam / (2 - lam))).const_add (lam / (2 - lam))
    exact ((this.mul_const _).div_const 2).sqrt
  have hr : Filter.Tendsto (fun m => h * (1 - (1 - lam) ^ (m + 1)) - √(sqw lam (m + 1) * Real.log (1 / drift) / 2)) Filter.atTop
      (nhds (h - √(lam / (2 - lam) * Real.log (1 / drift) / 2))) := by
    have h2 := ((Filter.tendsto_add_atTop_iff_nat 1).2 hp).const_sub 1
    have h3 := (h2.const_mul h).sub hq
    simpa using h3
  have hev := hr.eventually (lt_mem_nhds (by linarith : avg lam pre + deviation drift lam pre.length <
    h - √(lam / (2 - lam) * Real.log (1 / drift) / 2)))
  obtain ⟨N, hN⟩ := Filter.eventually_atTop.1 hev
  refine ⟨2 * N + 2, ?_⟩
  intro post hlen hhigh
  refine C305_found hd hd1 hw hw1 h0 h1 pre post hpre (by rintro rfl; simp at hlen) ?_ h hh hhigh hkept ?_
  · intro x hx
    rcases List.mem_append.1 hx with hx | hx
    · exact hpos x hx
    · exact le_trans hh (hhigh x hx)
  · have := hN ((post.length + 1) / 2 - 1) (by omega)
    rw [show (post.length + 1) / 2 - 1 + 1 = (post.length + 1) / 2 by omega] at this
    unfold deviation at this ⊢
    linarith

/-! ### Examples -/

/-- After the value 0 with the default settings: a run of values of at least 3 is reported if it is long enough. -/
example : ∃ M, ∀ post : List ℝ, M ≤ post.length → (∀ x ∈ post, 3 ≤ x) →
    ∃ mid, mid ≠ [] ∧ mid <+: post ∧ ∃ s, run (par 0.001 0.005 0.05 true) ([0] ++ mid) = .ok s ∧ s.change = true := by
  have hl : Real.log (1 / 0.001) ≤ 7 := by
    have h2 := Real.log_two_lt_d9
    have e : Real.log (1 / 0.001) ≤ Real.log (2 ^ 10) := Real.log_le_log (by norm_num) (by norm_num)
    rw [Real.log_pow] at e
    norm_num at e ⊢
    linarith
  have hl0 : 0 ≤ Real.log (1 / 0.001) := Real.log_nonneg (by norm_num)
  refine C305_lasting (by norm_num) (by norm_num) (by norm_num) (by norm_num) (by norm_num) (by norm_num) [0] (by simp) (by simp) 3 ?_ ?_
  · intro s hs
    obtain ⟨s', seg, hr, ht, _, hw, _⟩ := C108_follows_specification (par 0.001 0.005 0.05 true) (by norm_num [par]) (by norm_num [par])
      (log_nonneg (by norm_num) (by norm_num)) (log_nonneg (by norm_num) (by norm_num)) [0] (by simp)
    rw [hs] at hr
    cases hr
    rw [hw]
    have hx : ∀ {ch}, s.change = ch → ch = false := by
      intro ch hch
      cases ch with
      | false => rfl
      | true =>
        rw [hch] at ht
        generalize hys : ([0] : List ℝ) = ys at ht
        generalize seg = sg at ht
        generalize s.warning = w at ht
        cases ht with
        | change h2 hb hE =>
          obtain ⟨e1, e2⟩ := List.append_inj' (hys.symm.trans (List.nil_append _).symm : _ = [] ++ [(0 : ℝ)]) rfl
          subst e1
          obtain ⟨e3, _⟩ := trace_det _ Trace.start h2 rfl
          have h3 := hE.1
          have h4 := hb.pos
          rw [e3, List.nil_append, List.length_singleton] at h3
          omega
    have hch : s.change = false := hx rfl
    rw [hch] at ht
    obtain ⟨seg', ch', w', t', e⟩ := trace_step _ ht (List.nil_append _).symm
    obtain ⟨e', _⟩ := trace_det _ Trace.start t' rfl
    rw [e, e']
    rfl
  · rw [avg_single]
    unfold deviation
    have s1 : √(sqw 0.05 ([0] : List ℝ).length * Real.log (1 / 0.001) / 2) ≤ 2 := by
      apply Real.sqrt_le_iff.2
      rw [List.length_singleton, sqw_one]
      constructor <;> linarith
    have s2 : √(0.05 / (2 - 0.05) * Real.log (1 / 0.001) / 2) < 1 := by
      rw [Real.sqrt_lt' (by norm_num)]
      norm_num at hl ⊢
      linarith
    linarith

/-- Without a decay small enough: 0 for as long as you like, then 1 for as long as you like. -/
example (a b : ℕ) : ∃ s, run (par 0.001 0.005 0.3 true) (List.replicate a 0 ++ List.replicate b 1) = .ok s ∧ s.change = false :=
  C305_blind_default (by norm_num) (by norm_num) _ (by
    intro x hx
    rcases List.mem_append.1 hx with h | h <;> rw [List.eq_of_mem_replicate h] <;> norm_num)

end Verif.Drift.HDDMWRise
