import Verif.Adwin.Shift

/-! C306: which splits of its window ADWIN is certain to notice, and that lasting changes are found. -/

namespace Verif.Adwin

/-! ### The oldest row -/

/-- The number of elements says how many rows there are and, roughly, how long the last one is. -/
theorem shape_bounds : ∀ (rows : List (List Bucket)) (i : Nat) (ps : List (List (List ℚ))) (row : List Bucket),
    Shape rows → RunsOf i rows ps → rows.getLast? = some row →
    (4 + row.length) * 2 ^ (i + (rows.length - 1)) ≤ (content ps).length + 4 * 2 ^ i ∧
      (content ps).length + 5 * 2 ^ i ≤ (5 + row.length) * 2 ^ (i + (rows.length - 1)) ∧ 1 ≤ row.length ∧ row.length ≤ 5 := by
  intro rows
  induction rows with
  | nil => intro i ps row h; simp [Shape] at h
  | cons r rest ih =>
    intro i ps row hs hr hl
    have hsc := shape_cons hs
    have hlen := content_length _ _ _ hr
    simp only at hlen
    cases hr with
    | cons hrow hrest =>
    rename_i p ps
    simp only [List.tail_cons] at hlen
    cases rest with
    | nil =>
      cases hrest
      simp only [List.getLast?_singleton, Option.some.injEq] at hl
      subst hl
      have hlen' : (content [p]).length = r.length * 2 ^ i := by
        simpa [content] using hlen
      rw [hlen']
      simp only [List.length_singleton, Nat.sub_self, Nat.add_zero]
      refine ⟨?_, ?_, hsc.1, hsc.2.1⟩ <;> rw [Nat.add_mul] <;> omega
    | cons r2 rest =>
      obtain ⟨h4, hs'⟩ := hsc.2.2 (by simp)
      obtain ⟨i1, i2, i3, i4⟩ := ih (i + 1) ps row hs' hrest (by simpa using hl)
      simp only [List.length_cons, Nat.add_sub_cancel] at i1 i2 ⊢
      rw [show i + 1 + rest.length = i + (rest.length + 1) by omega, Nat.pow_succ] at i1 i2
      rw [hlen]
      have a1 := Nat.mul_le_mul_right (2 ^ i) h4
      have a2 := Nat.mul_le_mul_right (2 ^ i) hsc.2.1
      exact ⟨by omega, by omega, i3, i4⟩

/-- Between `(5 + j) 2^R - 4` and `10 · 2^R - 5` elements, the oldest buckets hold `2^R` elements each and there are
more than `j` of them. -/
theorem oldest_row {s : State} {w : List ℚ} (h : Inv s w) (R j : Nat) (hj : 1 ≤ j) (h1 : (5 + j) * 2 ^ R ≤ w.length + 4)
    (h2 : w.length + 5 ≤ 10 * 2 ^ R) : ∃ row, s.rows.getLast? = some row ∧ j < row.length ∧ s.rows.length - 1 = R := by
  have hp : 0 < 2 ^ R := Nat.pos_of_ne_zero (by positivity)
  have h6 : 6 * 2 ^ R ≤ (5 + j) * 2 ^ R := Nat.mul_le_mul_right _ (by omega)
  have hs := not_shape_of_empty h (by rw [h.width]; omega)
  obtain ⟨ps, hr, hc⟩ := h.runs
  cases hrow : s.rows.getLast? with
  | none =>
    rw [List.getLast?_eq_none_iff] at hrow
    rw [hrow] at hs
    simp [Shape] at hs
  | some row =>
    obtain ⟨b1, b2, b3, b4⟩ := shape_bounds _ _ _ _ hs hr hrow
    rw [hc, Nat.zero_add, Nat.pow_zero] at b1 b2
    generalize hR' : s.rows.length - 1 = R' at b1 b2 ⊢
    have hpp : 0 < 2 ^ R' := Nat.pos_of_ne_zero (by positivity)
    have c1 : 5 * 2 ^ R' ≤ (4 + row.length) * 2 ^ R' := Nat.mul_le_mul_right _ (by omega)
    have c2 : (5 + row.length) * 2 ^ R' ≤ 10 * 2 ^ R' := Nat.mul_le_mul_right _ (by omega)
    have e : R' = R := by
      rcases Nat.lt_trichotomy R' R with hlt | heq | hgt
      · exfalso
        have : 2 ^ (R' + 1) ≤ 2 ^ R := Nat.pow_le_pow_right (by omega) hlt
        rw [Nat.pow_succ] at this
        omega
      · exact heq
      · exfalso
        have : 2 ^ (R + 1) ≤ 2 ^ R' := Nat.pow_le_pow_right (by omega) hgt
        rw [Nat.pow_succ] at this
        omega
    subst e
    refine ⟨row, rfl, ?_, rfl⟩
    by_contra hle
    have := Nat.mul_le_mul_right (2 ^ R') (by omega : 5 + row.length ≤ 5 + j)
    omega

/-- Any check that is due reports a difference beyond the threshold between the oldest `j · 2^R` elements and the rest,
in a window of the length stated. -/
theorem split_noticed (delta : ℝ) {s : State} {w : List ℚ} (h : Inv s w) (hclk : 0 < s.clock) (R j : Nat) (hj : 1 ≤ j)
    (h1 : (5 + j) * 2 ^ R ≤ w.length + 4) (h2 : w.length + 5 ≤ 10 * 2 ^ R) (hdue : (s.time + 1) % s.clock = 0) (h10 : 10 < w.length)
    (hd : Differ delta ((s.variance / s.width : ℚ) : ℝ) (w.take (j * 2 ^ R)) (w.drop (j * 2 ^ R))) :
    ∃ s', detectedChange (realCut delta) (s.width + 1) s = some (.ok (true, s')) := by
  obtain ⟨row, hrow, hjl, hR⟩ := oldest_row h R j hj h1 h2
  have hjle : j * 2 ^ R ≤ w.length := by
    have hp : 0 < 2 ^ R := Nat.pos_of_ne_zero (by positivity)
    rw [Nat.add_mul] at h1
    omega
  obtain ⟨b, s', q1, q2⟩ := oldest_answer delta h hclk
  have := q2 _ row (w.take (j * 2 ^ R)) (w.drop (j * 2 ^ R)) (by rw [varianceProp, if_neg (by rw [h.width]; omega)]) hrow
    (List.take_append_drop _ _).symm ⟨j, hjl, by rw [List.length_take, hR, Nat.min_eq_left hjle]⟩ hdue h10 hd
  exact ⟨s', by rw [q1, this]⟩

/-- **C306, splits.**  Let a check be due and the window `w` hold more than ten elements, at least `(5 + j) 2^R - 4` and at most `10 · 2^R - 5`.
If the means of its oldest `j · 2^R` elements and of the others differ by more than the threshold, the check answers `True`. -/
theorem C306_split (delta : ℝ) (ops : List Op) (hok : ClockOK ops) :
    ∃ s w, run (realCut delta) ops init = some (.ok s) ∧ w <:+ added ops [] ∧ s.width = w.length ∧
      ∀ R j v, 1 ≤ j → (5 + j) * 2 ^ R ≤ w.length + 4 → w.length + 5 ≤ 10 * 2 ^ R → 10 < w.length →
        (s.time + 1) % s.clock = 0 → varianceProp s = some v →
        Differ delta (v : ℚ) (w.take (j * 2 ^ R)) (w.drop (j * 2 ^ R)) →
        ∃ s', detectedChange (realCut delta) (s.width + 1) s = some (.ok (true, s')) := by
  obtain ⟨s, w, e, h, hc, hx, _⟩ := reach (realCut delta) ops hok
  refine ⟨s, w, e, hx, h.width, ?_⟩
  intro R j v hj h1 h2 h10 hdue hv hd
  rw [varianceProp, if_neg (by rw [h.width]; omega), Option.some.injEq] at hv
  rw [← hv] at hd
  exact split_noticed delta h hc R j hj h1 h2 hdue h10 hd

/-! ### Lasting rises -/

/-- The detector is fed the values one by one, each followed by a check, and some check answers `True`. -/
def Alarms (cut : Cut) : State → List ℚ → Prop
  | _, [] => False
  | s, v :: vs => ∃ s1 b s2, step cut s (.add v) = some (.ok (false, s1)) ∧ step cut s1 .check = some (.ok (b, s2)) ∧
      (b = true ∨ Alarms cut s2 vs)

theorem alarms_of_last (cut : Cut) : ∀ (post rest : List ℚ) (s : State) (w : List ℚ), Inv s w → 0 < s.clock → post ≠ [] →
    (∀ s', Inv s' (w ++ post) → s'.variance - sumSqDev (w ++ post) = s.variance - sumSqDev w → s'.time + 1 = s.time + post.length → s'.clock = s.clock →
      ∃ s'', detectedChange cut (s'.width + 1) s' = some (.ok (true, s''))) →
    Alarms cut s (post ++ rest) := by
  intro post
  induction post with
  | nil => intro _ _ _ _ _ h; exact absurd rfl h
  | cons v vs ih =>
    intro rest s w h hc _ hlast
    obtain ⟨s1, e1, h1, c1, _, v1⟩ := add_ok h v
    have st : step cut s (.add v) = some (.ok (false, s1)) := by simp [step, e1, Except.map]
    have f1 := step_fields cut s s1 (.add v) false st
    simp only at f1
    obtain ⟨b, s2, w', r, e2, hw, h2, c2, _, _, hb, _, v2, _⟩ := check_ok cut h1 (by omega) (s1.width + 1) (by omega)
    have f2 := step_fields cut s1 s2 .check b e2
    simp only at f2
    refine ⟨s1, b, s2, st, e2, ?_⟩
    cases b with
    | true => exact .inl rfl
    | false =>
      right
      have hr : r = [] := by
        by_contra hne
        exact absurd (hb.mpr hne) (by simp)
      subst hr
      rw [List.nil_append] at hw
      subst hw
      cases vs with
      | nil =>
        exfalso
        obtain ⟨s'', e⟩ := hlast s1 h1 v1 (by simp [f1.1]) c1
        rw [e2] at e
        simp at e
      | cons x xs =>
        refine ih rest s2 (w ++ [v]) h2 (by omega) (by simp) ?_
        intro s' i1 i2 i3 i4
        rw [v2 rfl, v1] at i2
        rw [List.append_assoc, List.singleton_append] at i1 i2
        refine hlast s' i1 i2 ?_ (by omega)
        simp only [List.length_cons] at i3 ⊢
        omega

/-- For long windows the threshold is small. -/
theorem threshold_small (delta D g : ℝ) (hd : 0 < delta) (hD0 : 0 ≤ D) (hg : 0 < g) :
    ∃ N : Nat, ∀ (B W n1 : Nat) (V : ℝ), N ≤ B → B ≤ n1 → W ≤ 10 * B → 11 ≤ W → 0 ≤ V → V ≤ D → threshold delta W B n1 V < g := by
  obtain ⟨e, he, he1, he2⟩ : ∃ e : ℝ, 0 < e ∧ 72 * D * e ≤ g ^ 2 ∧ 8 * e ≤ g := by
    have hD : 0 < 72 * D + 1 := by positivity
    refine ⟨min (g ^ 2 / (72 * D + 1)) (g / 8), by positivity, ?_, ?_⟩
    · have h1 : min (g ^ 2 / (72 * D + 1)) (g / 8) ≤ g ^ 2 / (72 * D + 1) := min_le_left _ _
      rw [le_div_iff₀ hD] at h1
      have h2 : 0 < min (g ^ 2 / (72 * D + 1)) (g / 8) := by positivity
      nlinarith
    · have h1 : min (g ^ 2 / (72 * D + 1)) (g / 8) ≤ g / 8 := min_le_right _ _
      linarith
  obtain ⟨N, hN⟩ := exists_nat_ge ((14 / (delta * e)) ^ 2)
  refine ⟨N + 8, ?_⟩
  intro B W n1 V hB hn hW hW11 hV hVD
  have hB8 : (8 : ℝ) ≤ B := by exact_mod_cast (by omega : 8 ≤ B)
  have hBN : (N : ℝ) ≤ B := by exact_mod_cast (by omega : N ≤ B)
  have hnB : (B : ℝ) ≤ n1 := by exact_mod_cast hn
  have hWB : (W : ℝ) ≤ 10 * B := by exact_mod_cast hW
  have hW0 : (11 : ℝ) ≤ W := by exact_mod_cast hW11
  have hlog : 0 < Real.log W := Real.log_pos (by linarith)
  have hdd : Real.log (2 * Real.log W / delta) ≤ 2 * Real.log W / delta := by
    have := Real.log_le_sub_one_of_pos (x := 2 * Real.log W / delta) (by positivity)
    linarith
  have hsB : 0 < Real.sqrt B := Real.sqrt_pos.mpr (by linarith)
  have hss : Real.sqrt B * Real.sqrt B = B := Real.mul_self_sqrt (by linarith)
  have hlW : Real.log W ≤ 7 * Real.sqrt B := by
    have h1 : Real.log W = 2 * Real.log (Real.sqrt W) := by
      rw [Real.log_sqrt (by linarith)]; ring
    have hsW : 0 < Real.sqrt W := Real.sqrt_pos.mpr (by linarith)
    have h2 := Real.log_le_sub_one_of_pos hsW
    have h3 : Real.sqrt W ≤ 7 / 2 * Real.sqrt B := by
      rw [Real.sqrt_le_left (by positivity)]
      nlinarith
    linarith
  have hroot : 14 / (delta * e) ≤ Real.sqrt B := by
    refine Real.le_sqrt_of_sq_le ?_
    linarith
  have hde : Real.log (2 * Real.log W / delta) ≤ e * B := by
    refine le_trans hdd ?_
    rw [div_le_iff₀ hd]
    rw [div_le_iff₀ (by positivity)] at hroot
    have : 14 * Real.sqrt B ≤ Real.sqrt B * (delta * e) * Real.sqrt B := mul_le_mul_of_nonneg_right hroot hsB.le
    nlinarith
  have hm : 1 / ((B : ℝ) - 5 + 1) + 1 / ((n1 : ℝ) - 5 + 1) ≤ 4 / B := by
    have h1 : 1 / ((B : ℝ) - 5 + 1) ≤ 2 / B := by
      rw [div_le_div_iff₀ (by linarith) (by linarith)]; linarith
    have h2 : 1 / ((n1 : ℝ) - 5 + 1) ≤ 2 / B := by
      rw [div_le_div_iff₀ (by linarith) (by linarith)]; linarith
    have : (4 : ℝ) / B = 2 / B + 2 / B := by ring
    linarith
  have hm0 : 0 < 1 / ((B : ℝ) - 5 + 1) + 1 / ((n1 : ℝ) - 5 + 1) := by
    have h1 : 0 < 1 / ((B : ℝ) - 5 + 1) := one_div_pos.mpr (by linarith)
    have h2 : 0 < 1 / ((n1 : ℝ) - 5 + 1) := one_div_pos.mpr (by linarith)
    linarith
  unfold threshold
  simp only
  generalize Real.log (2 * Real.log W / delta) = dd at *
  generalize 1 / ((B : ℝ) - 5 + 1) + 1 / ((n1 : ℝ) - 5 + 1) = M at *
  have hMd : M * dd ≤ 4 * e := by
    calc M * dd ≤ M * (e * B) := mul_le_mul_of_nonneg_left hde hm0.le
      _ ≤ 4 / B * (e * B) := mul_le_mul_of_nonneg_right hm (by positivity)
      _ = 4 * e := by field_simp
  have hs : Real.sqrt (2 * M * V * dd) ≤ g / 3 := by
    rw [Real.sqrt_le_left (by positivity)]
    have : 2 * M * V * dd = 2 * V * (M * dd) := by ring
    rw [this]
    have h1 : 2 * V * (M * dd) ≤ 2 * V * (4 * e) := mul_le_mul_of_nonneg_left hMd (by positivity)
    have h2 : 2 * V * (4 * e) ≤ 2 * D * (4 * e) := by nlinarith
    nlinarith
  nlinarith

theorem sumSqDev_bounds (w : List ℚ) (lo hi : ℚ) (hl : 0 < w.length) (h : ∀ x ∈ w, lo ≤ x ∧ x ≤ hi) :
    0 ≤ sumSqDev w ∧ sumSqDev w ≤ (hi - lo) ^ 2 * w.length := by
  obtain ⟨m1, m2⟩ := mean_bounds w lo hi hl h
  unfold sumSqDev
  generalize mean w = m at *
  clear hl
  induction w with
  | nil => simp
  | cons x w ih =>
    obtain ⟨i1, i2⟩ := ih fun y hy => h y (List.mem_cons_of_mem _ hy)
    obtain ⟨x1, x2⟩ := h x (by simp)
    simp only [List.map_cons, List.sum_cons, List.length_cons]
    push_cast
    have : (x - m) ^ 2 ≤ (hi - lo) ^ 2 := by
      apply sq_le_sq'
      · linarith
      · linarith
    have := sq_nonneg (x - m)
    constructor <;> linarith

/-- The mean of a few values of at least `l0` and at least seven times as many of at least `h0`. -/
theorem mean_mixed (c d : List ℚ) (l0 l1 h0 : ℚ) (hl : l0 ≤ l1) (hh : l1 < h0) (hc : ∀ x ∈ c, l0 ≤ x) (hd : ∀ x ∈ d, h0 ≤ x)
    (hcd : 7 * c.length ≤ d.length) (hp : 0 < d.length) :
    (7 * (h0 - l1) - (l1 - l0)) / 8 ≤ mean (c ++ d) - l1 := by
  have key : ∀ (l : List ℚ) (b : ℚ), (∀ x ∈ l, b ≤ x) → b * l.length ≤ l.sum := by
    intro l b
    induction l with
    | nil => simp
    | cons x l ih =>
      intro h
      have i := ih fun y hy => h y (List.mem_cons_of_mem _ hy)
      have := h x (by simp)
      simp only [List.sum_cons, List.length_cons]
      push_cast
      linarith
  have k1 := key c l0 hc
  have k2 := key d h0 hd
  have hq : (7 : ℚ) * c.length ≤ d.length := by exact_mod_cast hcd
  have hd0 : (0 : ℚ) < d.length := by exact_mod_cast hp
  have hc0 : (0 : ℚ) ≤ c.length := by positivity
  rw [mean, List.sum_append, List.length_append]
  push_cast
  rw [le_sub_iff_add_le, le_div_iff₀ (by linarith)]
  have := mul_nonneg (sub_nonneg.mpr hq) (by linarith : 0 ≤ (h0 - l1) + (l1 - l0))
  nlinarith

/-- A check is due within every `c` calls. -/
theorem next_due (t c k : Nat) (hc : 0 < c) : ∃ m, k ≤ m ∧ m < k + c ∧ (t + m) % c = 0 := by
  have h0 := Nat.mod_lt (t + k) hc
  have hdm := Nat.div_add_mod (t + k) c
  by_cases h : (t + k) % c = 0
  · exact ⟨k, le_rfl, by omega, h⟩
  · refine ⟨k + (c - (t + k) % c), by omega, by omega, ?_⟩
    have : t + (k + (c - (t + k) % c)) = c * ((t + k) / c + 1) := by
      rw [Nat.mul_add, Nat.mul_one]
      omega
    rw [this, Nat.mul_mod_right]

theorem lasting_core (delta : ℝ) (hd : 0 < delta) (g V0 lo hi : ℚ) (hg : 0 < g) (hV0 : 0 ≤ V0) :
    ∃ N : Nat, ∀ (s : State) (w post : List ℚ), Inv s w → 0 < s.clock → s.clock ≤ 32 → N ≤ w.length → s.variance ≤ V0 * w.length →
      (∀ x ∈ w, lo ≤ x ∧ x ≤ hi) → (∀ x ∈ post, lo ≤ x ∧ x ≤ hi) → 9 * w.length ≤ post.length →
      (∀ k m, 0 < k → k ≤ w.length → 7 * (w.length - k) ≤ m → 0 < m → m ≤ post.length →
        g ≤ |mean (w.take k) - mean (w.drop k ++ post.take m)|) →
      Alarms (realCut delta) s post := by
  have hgr : (0 : ℝ) < (g : ℝ) := by exact_mod_cast hg
  have hD0 : (0 : ℝ) ≤ (((hi - lo) ^ 2 + V0 : ℚ) : ℝ) := by
    have : 0 ≤ (hi - lo) ^ 2 + V0 := by positivity
    exact_mod_cast this
  obtain ⟨N, hN⟩ := threshold_small delta _ _ hd hD0 hgr
  refine ⟨2 * N + 128, ?_⟩
  intro s w post hinv hc hclk hNw hvar hpre hpost hlong hmean
  generalize hp : w.length = p at *
  -- the size of the oldest buckets at the check considered
  obtain ⟨R, hB1, hB2⟩ : ∃ R, 2 ^ R ≤ p ∧ p < 2 * 2 ^ R := by
    refine ⟨Nat.log 2 p, Nat.pow_log_le_self 2 (by omega), ?_⟩
    have := Nat.lt_pow_succ_log_self (b := 2) (by omega) p
    rw [Nat.pow_succ] at this
    omega
  obtain ⟨m, hm1, hm2, hm3⟩ := next_due s.time s.clock (9 * 2 ^ R - p) hc
  have hml : m ≤ post.length := by omega
  rw [← List.take_append_drop m post]
  have hlen : (post.take m).length = m := by rw [List.length_take]; omega
  refine alarms_of_last _ _ _ s w hinv hc (by intro h; rw [h] at hlen; simp at hlen; omega) ?_
  intro s' i1 i2 i3 i4
  rw [hlen] at i3
  have hWl : (w ++ post.take m).length = p + m := by rw [List.length_append, hp, hlen]
  refine split_noticed delta i1 (by omega) R 1 le_rfl (by rw [hWl]; omega) (by rw [hWl]; omega) (by rw [i3, i4]; exact hm3)
    (by rw [hWl]; omega) ?_
  rw [Nat.one_mul, List.take_append_of_le_length (by omega), List.drop_append_of_le_length (by omega)]
  have la : (w.take (2 ^ R)).length = 2 ^ R := by rw [List.length_take]; omega
  have lc : (w.drop (2 ^ R) ++ post.take m).length = p + m - 2 ^ R := by
    rw [List.length_append, List.length_drop, hp, hlen]; omega
  have hall : ∀ x ∈ w ++ post.take m, lo ≤ x ∧ x ≤ hi := by
    intro x hx
    rcases List.mem_append.mp hx with h | h
    · exact hpre x h
    · exact hpost x (List.mem_of_mem_take h)
  obtain ⟨sv1, sv2⟩ := sumSqDev_bounds (w ++ post.take m) lo hi (by omega) hall
  obtain ⟨sw1, _⟩ := sumSqDev_bounds w lo hi (by omega) hpre
  have hWpos : (0 : ℚ) < ((w ++ post.take m).length : ℚ) := by
    have : 0 < (w ++ post.take m).length := by omega
    exact_mod_cast this
  have hpW : (p : ℚ) ≤ ((w ++ post.take m).length : ℚ) := by
    have : p ≤ (w ++ post.take m).length := by omega
    exact_mod_cast this
  have hV : 0 ≤ s'.variance / s'.width ∧ s'.variance / s'.width ≤ (hi - lo) ^ 2 + V0 := by
    have h0 := i1.var
    rw [i1.width]
    refine ⟨div_nonneg (by linarith) hWpos.le, (div_le_iff₀ hWpos).mpr ?_⟩
    have := mul_le_mul_of_nonneg_left hpW hV0
    linarith
  refine ⟨by omega, by omega, ?_⟩
  rw [la, lc]
  have ht := hN (2 ^ R) (2 ^ R + (p + m - 2 ^ R)) (p + m - 2 ^ R) ((s'.variance / s'.width : ℚ) : ℝ) (by omega) (by omega) (by omega)
    (by omega) (by exact_mod_cast hV.1) (by exact_mod_cast hV.2)
  refine lt_of_lt_of_le ht ?_
  have := hmean (2 ^ R) m (by omega) hB1 (by omega) (by omega) hml
  exact_mod_cast this

theorem mean_neg (a : List ℚ) : mean (a.map fun x => -x) = -mean a := by
  have : ∀ l : List ℚ, (l.map fun x => -x).sum = -l.sum := by
    intro l
    induction l with
    | nil => simp
    | cons x l ih => simp only [List.map_cons, List.sum_cons, ih]; ring
  rw [mean, mean, this, List.length_map, neg_div]

/-- **C306, lasting changes.**  Let the values in the window lie between `l0` and `l1` and the later ones between `h0` and `h1`.
Let `d` be the gap between the two ranges, whichever is the higher, and let the spread `l1 - l0` be less than `7 d`.
Then there is a length `N` so that in every reachable state with a window of at least `N` values, a variance of at most `V0` and
checks at least every 32 calls, some check answers `True` while the next values are fed, if those are at least nine times as many. -/
theorem C306_lasting (delta : ℝ) (hd : 0 < delta) (l0 l1 h0 h1 d V0 : ℚ) (hl : l0 ≤ l1) (hpos : 0 < d) (hV0 : 0 ≤ V0)
    (hside : l1 + d ≤ h0 ∨ h1 + d ≤ l0) (hgap : l1 - l0 < 7 * d) :
    ∃ N : Nat, ∀ (ops : List Op) (s : State) (V : ℚ) (post : List ℚ), ClockOK ops → run (realCut delta) ops init = some (.ok s) →
      s.clock ≤ 32 → N ≤ s.width → varianceProp s = some V → V ≤ V0 → (∀ x ∈ lastN s.width (added ops []), l0 ≤ x ∧ x ≤ l1) →
      (∀ x ∈ post, h0 ≤ x ∧ x ≤ h1) → 9 * s.width ≤ post.length → Alarms (realCut delta) s post := by
  obtain ⟨N, hN⟩ := lasting_core delta hd ((7 * d - (l1 - l0)) / 8) V0 (min l0 h0) (max l1 h1) (by linarith) hV0
  refine ⟨N + 1, ?_⟩
  intro ops s V post hok hrun hclk hNw hVs hVV hpre hpost hlong
  obtain ⟨s', w, e, hinv, hc, hx, _⟩ := reach (realCut delta) ops hok
  rw [hrun] at e
  simp only [Option.some.injEq, Except.ok.injEq] at e
  subst e
  have hW := hinv.width
  have hwl : lastN s.width (added ops []) = w := by
    obtain ⟨t, ht⟩ := hx
    rw [← ht, lastN, hW, List.length_append, Nat.add_sub_cancel, List.drop_left]
  rw [hwl] at hpre
  rw [varianceProp, if_neg (by omega), Option.some.injEq] at hVs
  have hwp : (0 : ℚ) < (s.width : ℚ) := by
    have : 0 < s.width := by omega
    exact_mod_cast this
  refine hN s w post hinv hc hclk (by omega) ?_ (fun x hx => ⟨le_trans (min_le_left _ _) (hpre x hx).1, le_trans (hpre x hx).2 (le_max_left _ _)⟩)
    (fun x hx => ⟨le_trans (min_le_right _ _) (hpost x hx).1, le_trans (hpost x hx).2 (le_max_right _ _)⟩) (by omega) ?_
  · rw [← hVs, div_le_iff₀ hwp] at hVV
    rw [← hW]
    exact hVV
  · intro k m hk hkw hkm hm hmp
    have hlk : (w.take k).length = k := by rw [List.length_take]; omega
    have hlm : (post.take m).length = m := by rw [List.length_take]; omega
    have ma := mean_bounds (w.take k) l0 l1 (by omega) fun x hx => hpre x (List.mem_of_mem_take hx)
    rcases hside with hs | hs
    · have mc := mean_mixed (w.drop k) (post.take m) l0 l1 (l1 + d) hl (by linarith) (fun x hx => (hpre x (List.mem_of_mem_drop hx)).1)
        (fun x hx => by linarith [(hpost x (List.mem_of_mem_take hx)).1]) (by rw [List.length_drop, hlm]; omega) (by omega)
      rw [abs_sub_comm]
      refine le_trans ?_ (le_abs_self _)
      linarith [ma.2]
    · have mc := mean_mixed ((w.drop k).map fun x => -x) ((post.take m).map fun x => -x) (-l1) (-l0) (-l0 + d) (by linarith) (by linarith)
        (fun x hx => by
          obtain ⟨y, hy, rfl⟩ := List.mem_map.mp hx
          linarith [(hpre y (List.mem_of_mem_drop hy)).2])
        (fun x hx => by
          obtain ⟨y, hy, rfl⟩ := List.mem_map.mp hx
          linarith [(hpost y (List.mem_of_mem_take hy)).2])
        (by rw [List.length_map, List.length_map, List.length_drop, hlm]; omega) (by rw [List.length_map]; omega)
      rw [← List.map_append, mean_neg] at mc
      refine le_trans ?_ (le_abs_self _)
      linarith [ma.1]

/-- **C306, the first change.**  As `C306_lasting`, for a stream of at least `N` values of which nothing has been dropped: no condition
on the variance is needed. -/
theorem C306_first (delta : ℝ) (hd : 0 < delta) (l0 l1 h0 h1 d : ℚ) (hl : l0 ≤ l1) (hpos : 0 < d)
    (hside : l1 + d ≤ h0 ∨ h1 + d ≤ l0) (hgap : l1 - l0 < 7 * d) :
    ∃ N : Nat, ∀ (ops : List Op) (s : State) (post : List ℚ), ClockOK ops → run (realCut delta) ops init = some (.ok s) →
      s.clock ≤ 32 → s.width = (added ops []).length → N ≤ s.width → (∀ x ∈ added ops [], l0 ≤ x ∧ x ≤ l1) →
      (∀ x ∈ post, h0 ≤ x ∧ x ≤ h1) → 9 * s.width ≤ post.length → Alarms (realCut delta) s post := by
  obtain ⟨N, hN⟩ := C306_lasting delta hd l0 l1 h0 h1 d ((l1 - l0) ^ 2) hl hpos (by positivity) hside hgap
  refine ⟨N + 1, ?_⟩
  intro ops s post hok hrun hclk hwid hNw hpre hpost hlong
  obtain ⟨s', e, hv⟩ := C15_variance_exact_partial (realCut delta) ops hok
  rw [hrun] at e
  simp only [Option.some.injEq, Except.ok.injEq] at e
  subst e
  have hlen : 0 < (added ops []).length := by omega
  refine hN ops s _ post hok hrun hclk (by omega) (hv hwid (List.length_pos_iff.mp hlen)) ?_ ?_ hpost hlong
  · rw [Verif.variance, div_le_iff₀ (by exact_mod_cast hlen)]
    exact (sumSqDev_bounds _ l0 l1 hlen hpre).2
  · intro x hx
    exact hpre x (List.mem_of_mem_drop hx)

/-- Non-vacuity of `C306_lasting`: ranges `[0, 1/10]` and `[1/2, 1]` have the gap `2/5`. -/
example : (1/10 : ℚ) + 2/5 ≤ 1/2 ∧ (1/10 : ℚ) - 0 < 7 * (2/5) := by norm_num

/-- Non-vacuity of `C306_first`: a constant stream of any length with a check after every value drops nothing (C280), so
windows of every length are reached; here one of 40. -/
example : ∃ s, run (realCut (1 / 500)) (watched (List.replicate 40 0)) init = some (.ok s) ∧ s.width = 40 ∧ s.clock = 32 := by
  obtain ⟨s, w, e, _, _, _, _, hf⟩ := quiet_state (watched (List.replicate 40 0)) (watched_clock _)
    (fun s => decide (s.width = 40) && decide (s.clock = 32)) (by decide +kernel)
  simp only [Bool.and_eq_true, decide_eq_true_eq] at hf
  exact ⟨s, e, hf⟩

/-- A jump that `C306_split` covers: 32 zeros, then 32 tens (`R = 3`, `j = 3`). -/
def step64 : List ℚ := List.replicate 32 0 ++ List.replicate 32 10

/-- Non-vacuity of `C306_split`: with the default `delta` the 64th check finds the change of `step64`. -/
example : ∃ s s', run (realCut (1 / 500)) (watched step64) init = some (.ok s) ∧
    detectedChange (realCut (1 / 500)) (s.width + 1) s = some (.ok (true, s')) := by
  obtain ⟨s, w, e, hi, hc, hw, hv, hf⟩ := quiet_state (watched step64) (watched_clock _)
    (fun s => decide (s.width = 64) && decide ((s.time + 1) % s.clock = 0)) (by decide +kernel)
  simp only [Bool.and_eq_true, decide_eq_true_eq] at hf
  obtain ⟨f1, f2⟩ := hf
  have hadd : added (watched step64) [] = step64 := by decide +kernel
  have hlen : step64.length = 64 := by decide +kernel
  have hwj : w = step64 := by
    rw [hadd] at hw
    exact hw.eq_of_length (by rw [← hi.width, f1, hlen])
  have hvar := hv (by rw [hwj, hadd])
  subst hwj
  obtain ⟨s0, w0, e0, hw0, hl0, key⟩ := C306_split (1 / 500) (watched step64) (watched_clock _)
  rw [e] at e0
  simp only [Option.some.injEq, Except.ok.injEq] at e0
  subst e0
  have hwj : w0 = step64 := by
    rw [hadd] at hw0
    exact hw0.eq_of_length (by rw [← hl0, f1, hlen])
  subst hwj
  obtain ⟨s', h⟩ := key 3 3 (s.variance / s.width) (by omega) (by rw [hlen]; norm_num) (by rw [hlen]; norm_num) (by omega) f2
    (by rw [varianceProp, if_neg (by omega)]) (by
      have l1 : (step64.take (3 * 2 ^ 3)).length = 24 := by decide +kernel
      have l2 : (step64.drop (3 * 2 ^ 3)).length = 40 := by decide +kernel
      refine ⟨by omega, by omega, ?_⟩
      rw [mean_cast, mean_cast, l1, l2, hvar, f1]
      exact cut_of_test 64 24 40 _ _ _ (by omega) (by omega) (by omega) (by omega) (by decide +kernel) (by decide +kernel))
  exact ⟨s, s', e, h⟩

end Verif.Adwin
