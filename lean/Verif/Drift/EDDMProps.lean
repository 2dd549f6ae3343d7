import Verif.Drift.Model
import Verif.Drift.Segments
import Mathlib.Data.List.GetD

/-!
Property C17 (EDDM).
-/

namespace Verif.Drift.EDDM

/-! ### Specification -/

/-- The predictions since the last reported change. -/
def segment (sqrt : ℚ → ℚ) (xs : List Bool) : List Bool :=
  sinceChange (fun h => (run sqrt h).change) xs

/-- Distances between consecutive errors; `k` predictions were correct since the
previous error (or since the start). -/
def gaps : Nat → List Bool → List ℚ
  | _, [] => []
  | k, true :: t => ((k : ℚ) + 1) :: gaps 0 t
  | k, false :: t => gaps (k + 1) t

/-- The distances between consecutive errors of a segment. -/
def distances (seg : List Bool) : List ℚ := gaps 0 seg

/-- `mean + 2 * standard deviation` of the first `j` distances. -/
def level (sqrt : ℚ → ℚ) (D : List ℚ) (j : Nat) : ℚ :=
  Verif.mean (D.take j) + 2 * sqrt (variance (D.take j))

/-- Error number `j` is used by the test: it happened at position 29 of the
segment or later. -/
def Checked (D : List ℚ) (j : Nat) : Prop := 1 ≤ j ∧ j ≤ D.length ∧ 29 ≤ (D.take j).sum

/-- The level at the last error is below `q` times the level at some checked error. -/
def Below (sqrt : ℚ → ℚ) (D : List ℚ) (q : ℚ) : Prop :=
  30 < D.length ∧ ∃ j, Checked D j ∧ level sqrt D D.length < q * level sqrt D j

/-! ### Proofs -/

private def trail : Nat → List Bool → Nat
  | k, [] => k
  | _, true :: t => trail 0 t
  | k, false :: t => trail (k + 1) t

private theorem gaps_append (seg : List Bool) (k : Nat) (b : Bool) :
    gaps k (seg ++ [b]) = gaps k seg ++ (if b then [((trail k seg : ℕ) : ℚ) + 1] else []) := by
  induction seg generalizing k with
  | nil => cases b <;> simp [gaps, trail]
  | cons a t ih => cases a <;> simp [gaps, trail, ih]

private theorem gaps_sum (seg : List Bool) (k : Nat) :
    (gaps k seg).sum + trail k seg = k + seg.length := by
  induction seg generalizing k with
  | nil => simp [gaps, trail]
  | cons a t ih =>
    cases a
    · simp only [gaps, trail, ih, List.length_cons]; push_cast; ring
    · simp only [gaps, trail, List.sum_cons, List.length_cons]
      have := ih 0
      push_cast at *
      linarith

private theorem gaps_ge_one (seg : List Bool) (k : Nat) : ∀ x ∈ gaps k seg, (1 : ℚ) ≤ x := by
  induction seg generalizing k with
  | nil => simp [gaps]
  | cons a t ih =>
    cases a
    · simpa [gaps] using ih (k + 1)
    · intro x hx
      simp only [gaps, List.mem_cons] at hx
      rcases hx with rfl | hx
      · have : (0 : ℚ) ≤ k := by positivity
        linarith
      · exact ih 0 x hx

private theorem reset_step (sqrt : ℚ → ℚ) (s : EDDM) (x : Bool) (h : s.change = true) :
    addElement sqrt s x = addElement sqrt init x := by
  unfold addElement; rw [h]; rfl

private def MaxOK (sqrt : ℚ → ℚ) (D : List ℚ) (M : ℚ) : Prop :=
  (∀ j, Checked D j → level sqrt D j ≤ M) ∧
  ((M = 0 ∧ ∀ j, ¬ Checked D j) ∨ ∃ j, Checked D j ∧ M = level sqrt D j)

private def Inv (sqrt : ℚ → ℚ) (seg : List Bool) (s : EDDM) : Prop :=
  s.n = seg.length + 1 ∧ s.numErrors = (distances seg).length ∧
  (s.d : ℚ) = (distances seg).sum ∧ s.d ≤ seg.length ∧ s.mean = Verif.mean (distances seg) ∧
  s.estimation = Verif.mean (distances seg) ∧ s.stdTemp = sumSqDev (distances seg) ∧
  MaxOK sqrt (distances seg) s.m2sMax ∧
  (s.change = true → Below sqrt (distances seg) (9/10) ∧ seg.getLast? = some true) ∧
  (Below sqrt (distances seg) (9/10) → s.change = true ∨ seg.getLast? ≠ some true) ∧
  (s.warning = true ↔ Below sqrt (distances seg) (95/100) ∧ ¬ Below sqrt (distances seg) (9/10))

private theorem level_pos (sqrt : ℚ → ℚ) (hs : ∀ q, 0 ≤ sqrt q) (D : List ℚ)
    (hD : ∀ x ∈ D, (1 : ℚ) ≤ x) (j : Nat) (h1 : 1 ≤ j) (h2 : j ≤ D.length) : 1 ≤ level sqrt D j := by
  have hne : D.take j ≠ [] := by
    intro h
    have := congrArg List.length h
    simp only [List.length_take, List.length_nil] at this; omega
  have := le_mean (D.take j) 1 hne fun x hx => hD x (List.mem_of_mem_take hx)
  have := hs (variance (D.take j))
  unfold level; linarith

private theorem length_le_sum (D : List ℚ) (hD : ∀ x ∈ D, (1 : ℚ) ≤ x) : (D.length : ℚ) ≤ D.sum := by
  induction D with
  | nil => simp
  | cons a t ih =>
    have h1 := hD a (by simp)
    have h2 := ih fun x hx => hD x (by simp [hx])
    simp only [List.length_cons, List.sum_cons]; push_cast; linarith

private theorem level_append (sqrt : ℚ → ℚ) (D : List ℚ) (x : ℚ) (j : Nat) (h : j ≤ D.length) :
    level sqrt (D ++ [x]) j = level sqrt D j := by
  unfold level; rw [List.take_append_of_le_length h]

private theorem checked_append (D : List ℚ) (x : ℚ) (j : Nat) :
    Checked (D ++ [x]) j ↔ Checked D j ∨ (j = D.length + 1 ∧ 29 ≤ D.sum + x) := by
  unfold Checked
  constructor
  · rintro ⟨h1, h2, h3⟩
    by_cases hj : j ≤ D.length
    · rw [List.take_append_of_le_length hj] at h3
      exact Or.inl ⟨h1, hj, h3⟩
    · have : j = D.length + 1 := by simp at h2; omega
      subst this
      rw [List.take_of_length_le (by simp)] at h3
      exact Or.inr ⟨rfl, by simpa using h3⟩
  · rintro (⟨h1, h2, h3⟩ | ⟨rfl, h3⟩)
    · exact ⟨h1, by simp; omega, by rw [List.take_append_of_le_length h2]; exact h3⟩
    · exact ⟨by omega, by simp, by rw [List.take_of_length_le (by simp)]; simpa using h3⟩

private theorem inv_correct (sqrt : ℚ → ℚ) (seg : List Bool) (s : EDDM) (hc : s.change = false)
    (hi : Inv sqrt seg s) : Inv sqrt (seg ++ [false]) (addElement sqrt s false) := by
  obtain ⟨h1, h2, h3, h4, h5, h6, h7, h8, h9, h10, h11⟩ := hi
  have hd : distances (seg ++ [false]) = distances seg := by simp [distances, gaps_append]
  unfold addElement
  rw [hc]
  simp only [Bool.false_eq_true, if_false]
  unfold Inv
  rw [hd]
  refine ⟨by simp [h1], h2, h3, by simp; omega, h5, h6, h7, h8, by simp, fun _ => by simp, h11⟩

private theorem below_iff (sqrt : ℚ → ℚ) (hs : ∀ q, 0 ≤ sqrt q) (D : List ℚ) (d : ℚ) (M : ℚ)
    (hD : ∀ x ∈ D ++ [d], (1 : ℚ) ≤ x) (hM : MaxOK sqrt D M) (q : ℚ) (hq0 : 0 < q) (hq1 : q < 1) :
    Below sqrt (D ++ [d]) q ↔ 30 < D.length + 1 ∧ M ≠ 0 ∧
      level sqrt (D ++ [d]) (D.length + 1) / M < q := by
  have hD' : ∀ x ∈ D, (1 : ℚ) ≤ x := fun x hx => hD x (by simp [hx])
  have hlast := level_pos sqrt hs (D ++ [d]) hD (D.length + 1) (by omega) (by simp)
  obtain ⟨m1, m2⟩ := hM
  have hlen : (D ++ [d]).length = D.length + 1 := by simp
  unfold Below
  rw [hlen]
  constructor
  · rintro ⟨a, j, hj, hlt⟩
    refine ⟨a, ?_⟩
    rw [checked_append] at hj
    have hjD : Checked D j := by
      rcases hj with hj | ⟨rfl, _⟩
      · exact hj
      · nlinarith
    rw [level_append sqrt D d j hjD.2.1] at hlt
    have hjM := m1 j hjD
    have hjpos := level_pos sqrt hs D hD' j hjD.1 hjD.2.1
    have hMpos : 0 < M := by linarith
    refine ⟨hMpos.ne', ?_⟩
    rw [div_lt_iff₀ hMpos]
    nlinarith
  · rintro ⟨a, hM0, hlt⟩
    rcases m2 with ⟨h0, _⟩ | ⟨j, hj, rfl⟩
    · exact absurd h0 hM0
    · have hjpos := level_pos sqrt hs D hD' j hj.1 hj.2.1
      rw [div_lt_iff₀ (by linarith)] at hlt
      refine ⟨a, j, (checked_append D d j).2 (Or.inl hj), ?_⟩
      rw [level_append sqrt D d j hj.2.1]; exact hlt

private theorem maxOK_snoc (sqrt : ℚ → ℚ) (hs : ∀ q, 0 ≤ sqrt q) (D : List ℚ) (d M : ℚ)
    (hD : ∀ x ∈ D ++ [d], (1 : ℚ) ≤ x) (hM : MaxOK sqrt D M) (h29 : 29 ≤ D.sum + d) :
    MaxOK sqrt (D ++ [d]) (if level sqrt (D ++ [d]) (D.length + 1) > M then
      level sqrt (D ++ [d]) (D.length + 1) else M) := by
  have hlast := level_pos sqrt hs (D ++ [d]) hD (D.length + 1) (by omega) (by simp)
  obtain ⟨m1, m2⟩ := hM
  have hck : Checked (D ++ [d]) (D.length + 1) := (checked_append D d _).2 (Or.inr ⟨rfl, h29⟩)
  split
  · rename_i hgt
    refine ⟨?_, Or.inr ⟨_, hck, rfl⟩⟩
    intro j hj
    rw [checked_append] at hj
    rcases hj with hj | ⟨rfl, _⟩
    · rw [level_append sqrt D d j hj.2.1]
      exact (m1 j hj).trans hgt.le
    · exact le_refl _
  · rename_i hgt
    have hle := not_lt.1 hgt
    refine ⟨?_, ?_⟩
    · intro j hj
      rw [checked_append] at hj
      rcases hj with hj | ⟨rfl, _⟩
      · rw [level_append sqrt D d j hj.2.1]; exact m1 j hj
      · exact hle
    · rcases m2 with ⟨h0, _⟩ | ⟨j, hj, rfl⟩
      · rw [h0] at hle; linarith
      · exact Or.inr ⟨j, (checked_append D d j).2 (Or.inl hj), (level_append sqrt D d j hj.2.1).symm⟩

private theorem inv_error (sqrt : ℚ → ℚ) (hs : ∀ q, 0 ≤ sqrt q) (seg : List Bool) (s : EDDM)
    (hc : s.change = false) (hi : Inv sqrt seg s) :
    Inv sqrt (seg ++ [true]) (addElement sqrt s true) := by
  obtain ⟨h1, h2, h3, h4, h5, h6, h7, h8, h9, h10, h11⟩ := hi
  have hgs := gaps_sum seg 0
  obtain ⟨D, hDdef⟩ : ∃ D, D = distances seg := ⟨_, rfl⟩
  obtain ⟨dist, hdist⟩ : ∃ t : ℚ, t = (trail 0 seg : ℚ) + 1 := ⟨_, rfl⟩
  have hd : distances (seg ++ [true]) = D ++ [dist] := by
    simp [distances, gaps_append, hDdef, hdist]
  have hge : ∀ x ∈ D ++ [dist], (1 : ℚ) ≤ x := by rw [← hd]; exact gaps_ge_one _ 0
  rw [← hDdef] at h2 h3 h5 h6 h7 h8 h9 h10 h11
  have hsum : D.sum + dist = seg.length + 1 := by
    have : D.sum + (trail 0 seg : ℚ) = (0 : ℕ) + seg.length := by rw [hDdef]; exact hgs
    rw [hdist]; push_cast at this; linarith
  have hdq : ((s.n + 1 - 1 : ℕ) : ℚ) - (s.d : ℚ) = dist := by
    rw [h3, h1]; push_cast [Nat.add_sub_cancel]; linarith
  have hmean : s.mean + (dist - s.mean) / ((s.numErrors + 1 : ℕ) : ℚ) = Verif.mean (D ++ [dist]) :=
    mean_step D dist _ (by rw [h2]; push_cast; ring) _ (fun _ => h5)
  have hstd : s.stdTemp + (dist - Verif.mean (D ++ [dist])) * (dist - s.mean) = sumSqDev (D ++ [dist]) := by
    rw [h7, h5, sumSqDev_append]
  have hlev : Verif.mean (D ++ [dist]) + 2 * sqrt (sumSqDev (D ++ [dist]) / ((s.numErrors + 1 : ℕ) : ℚ)) =
      level sqrt (D ++ [dist]) (D.length + 1) := by
    unfold level variance
    rw [List.take_of_length_le (by simp), h2]
    simp
  have hn29 : (s.n + 1 < 30) ↔ ¬ 29 ≤ D.sum + dist := by
    rw [hsum, h1]
    constructor
    · intro h h'
      have : (29 : ℕ) ≤ seg.length + 1 := by exact_mod_cast h'
      omega
    · intro h
      by_contra h'
      apply h
      have : (29 : ℕ) ≤ seg.length + 1 := by omega
      exact_mod_cast this
  have hlastT : (seg ++ [true]).getLast? = some true := by simp
  unfold addElement
  rw [hc]
  simp only [Bool.false_eq_true, if_false, if_true]
  simp only [hdq, hmean, hstd, hlev]
  unfold Inv
  rw [hd]
  have hB := fun q h0 h1 => below_iff sqrt hs D dist s.m2sMax hge h8 q h0 h1
  have b9 := hB (9/10) (by norm_num) (by norm_num)
  have b95 := hB (95/100) (by norm_num) (by norm_num)
  have hge' : (D.length : ℚ) + 1 ≤ D.sum + dist := by
    have := length_le_sum _ hge
    simpa using this
  have hlenk : s.numErrors + 1 = D.length + 1 := by rw [h2]
  by_cases hlt : s.n + 1 < 30
  · rw [if_pos hlt]
    have hnb : ∀ q, 0 < q → q < 1 → ¬ Below sqrt (D ++ [dist]) q := by
      intro q _ _ hb
      have : 30 < (D ++ [dist]).length := hb.1
      have h30 : (30 : ℚ) < D.length + 1 := by
        have : 30 < D.length + 1 := by simpa using this
        exact_mod_cast this
      rw [hn29] at hlt
      apply hlt; linarith
    refine ⟨by simp [h1], by simp [h2], ?_, by simp; omega, rfl, rfl, rfl, ?_, by simp, ?_, ?_⟩
    · simp only [List.sum_append, List.sum_cons, List.sum_nil, add_zero]
      rw [hsum, h1]; push_cast [Nat.add_sub_cancel]; ring
    · rw [hn29] at hlt
      obtain ⟨m1, m2⟩ := h8
      have hck : ∀ j, Checked (D ++ [dist]) j ↔ Checked D j := by
        intro j; rw [checked_append]
        constructor
        · rintro (h | ⟨_, h⟩)
          · exact h
          · exact absurd h hlt
        · exact Or.inl
      refine ⟨fun j hj => ?_, ?_⟩
      · have := (hck j).1 hj
        rw [level_append sqrt D dist j this.2.1]; exact m1 j this
      · rcases m2 with ⟨a, b⟩ | ⟨j, hj, e⟩
        · exact Or.inl ⟨a, fun j hj => b j ((hck j).1 hj)⟩
        · exact Or.inr ⟨j, (hck j).2 hj, by rw [level_append sqrt D dist j hj.2.1]; exact e⟩
    · exact fun hb => absurd hb (hnb _ (by norm_num) (by norm_num))
    · simp only [Bool.false_eq_true, false_iff]
      exact fun hb => hnb _ (by norm_num) (by norm_num) hb.1
  · rw [if_neg hlt]
    have h29 : 29 ≤ D.sum + dist := by
      by_contra h; exact hlt (hn29.2 h)
    have hMx := maxOK_snoc sqrt hs D dist s.m2sMax hge h8 h29
    have hdeq : ((s.n + 1 - 1 : ℕ) : ℚ) = (D ++ [dist]).sum := by
      simp only [List.sum_append, List.sum_cons, List.sum_nil, add_zero]
      rw [hsum, h1]; push_cast [Nat.add_sub_cancel]; ring
    have hMnn : s.m2sMax = 0 ∨ 0 < s.m2sMax := by
      rcases h8.2 with ⟨h, _⟩ | ⟨j, hj, e⟩
      · exact Or.inl h
      · right; rw [e]
        have := level_pos sqrt hs D (fun x hx => hge x (by simp [hx])) j hj.1 hj.2.1
        linarith
    have hlpos := level_pos sqrt hs (D ++ [dist]) hge (D.length + 1) (by omega) (by simp)
    by_cases hgt : level sqrt (D ++ [dist]) (D.length + 1) > s.m2sMax
    · rw [if_pos hgt] at *
      have hnb : ∀ q, 0 < q → q < 1 → ¬ Below sqrt (D ++ [dist]) q := by
        intro q h0 h1 hb
        obtain ⟨_, hne, hlt⟩ := (hB q h0 h1).1 hb
        rcases hMnn with h | h
        · exact hne h
        · rw [div_lt_iff₀ h] at hlt
          nlinarith
      refine ⟨by simp [h1], by simp [h2], hdeq, by simp; omega, rfl, rfl, rfl, hMx, by simp,
        fun hb => absurd hb (hnb _ (by norm_num) (by norm_num)), ?_⟩
      simp only [Bool.false_eq_true, false_iff]
      exact fun hb => hnb _ (by norm_num) (by norm_num) hb.1
    · rw [if_neg hgt] at *
      have hM0 : s.m2sMax ≠ 0 := by
        intro h; rw [h] at hgt; apply hgt; linarith
      have c9 : (s.numErrors + 1 > 30 ∧ level sqrt (D ++ [dist]) (D.length + 1) / s.m2sMax < 9 / 10) ↔
          Below sqrt (D ++ [dist]) (9 / 10) := by
        rw [b9, hlenk]; simp [hM0]
      have c95 : (s.numErrors + 1 > 30 ∧ level sqrt (D ++ [dist]) (D.length + 1) / s.m2sMax < 95 / 100) ↔
          Below sqrt (D ++ [dist]) (95 / 100) := by
        rw [b95, hlenk]; simp [hM0]
      by_cases k9 : Below sqrt (D ++ [dist]) (9 / 10)
      · rw [if_pos (c9.2 k9)]
        refine ⟨by simp [h1], by simp [h2], hdeq, by simp; omega, rfl, rfl, rfl, hMx,
          fun _ => ⟨k9, hlastT⟩, fun _ => Or.inl rfl, ?_⟩
        simp [k9]
      · rw [if_neg fun h => k9 (c9.1 h)]
        by_cases k95 : Below sqrt (D ++ [dist]) (95 / 100)
        · rw [if_pos (c95.2 k95)]
          refine ⟨by simp [h1], by simp [h2], hdeq, by simp; omega, rfl, rfl, rfl, hMx,
            by simp, fun h => absurd h k9, ?_⟩
          simp [k9, k95]
        · rw [if_neg fun h => k95 (c95.1 h)]
          refine ⟨by simp [h1], by simp [h2], hdeq, by simp; omega, rfl, rfl, rfl, hMx,
            by simp, fun h => absurd h k9, ?_⟩
          simp [k95]

private theorem inv_run (sqrt : ℚ → ℚ) (hs : ∀ q, 0 ≤ sqrt q) (xs : List Bool) :
    Inv sqrt (segment sqrt xs) (run sqrt xs) := by
  refine segment_inv (addElement sqrt) init (fun s => s.change)
    (fun s x h => reset_step sqrt s x h) rfl (Inv sqrt) ?_ ?_ xs
  · refine ⟨rfl, rfl, by simp [init, distances, gaps], le_refl _, by simp [init, distances, gaps, Verif.mean],
      by simp [init, distances, gaps, Verif.mean], by simp [init, distances, gaps, sumSqDev], ?_, by simp [init], ?_, ?_⟩
    · have : ∀ j, ¬ Checked (distances []) j := by
        rintro j ⟨a, b, _⟩; simp [distances, gaps] at b; omega
      exact ⟨fun j hj => absurd hj (this j), Or.inl ⟨rfl, this⟩⟩
    · intro h; have := h.1; simp [distances, gaps] at this
    · simp only [init, Bool.false_eq_true, false_iff]
      intro h; have := h.1.1; simp [distances, gaps] at this
  · intro seg s x hc hi
    cases x
    · exact inv_correct sqrt seg s hc hi
    · exact inv_error sqrt hs seg s hc hi

/-- **C17 (restart).** -/
theorem C17_restart (sqrt : ℚ → ℚ) (xs : List Bool) (h : (run sqrt xs).change = true) (x : Bool)
    (rest : List Bool) : run sqrt (xs ++ x :: rest) = run sqrt (x :: rest) := by
  unfold run at *
  rw [List.foldl_append, List.foldl_cons, List.foldl_cons, reset_step sqrt _ x h]

/-- **C17 (statistics).** The published mean is the mean distance between
consecutive errors since the last change, and the error count is their number. -/
theorem C17_statistics (sqrt : ℚ → ℚ) (hs : ∀ q, 0 ≤ sqrt q) (xs : List Bool) :
    (run sqrt xs).mean = Verif.mean (distances (segment sqrt xs)) ∧
    (run sqrt xs).estimation = Verif.mean (distances (segment sqrt xs)) ∧
    (run sqrt xs).numErrors = (segment sqrt xs).count true ∧
    (run sqrt xs).stdTemp = sumSqDev (distances (segment sqrt xs)) := by
  obtain ⟨_, h2, _, _, h5, h6, h7, _⟩ := inv_run sqrt hs xs
  refine ⟨h5, h6, ?_, h7⟩
  rw [h2]
  unfold distances
  generalize 0 = k
  induction segment sqrt xs generalizing k with
  | nil => rfl
  | cons a t ih => cases a <;> simp [gaps, ih]

/-- **C17 (decision).** A change is reported exactly when the last prediction
was an error, more than 30 errors were seen since the last change, and the
level (mean + 2 deviations of the distances) fell below 0.9 times the level at
some earlier checked error.  A warning is reported exactly when, at the last
error, the level was below 0.95 times but not below 0.9 times an earlier level. -/
theorem C17_decision (sqrt : ℚ → ℚ) (hs : ∀ q, 0 ≤ sqrt q) (xs : List Bool) :
    ((run sqrt xs).change = true ↔ (segment sqrt xs).getLast? = some true ∧
      Below sqrt (distances (segment sqrt xs)) (9 / 10)) ∧
    ((run sqrt xs).warning = true ↔ Below sqrt (distances (segment sqrt xs)) (95 / 100) ∧
      ¬ Below sqrt (distances (segment sqrt xs)) (9 / 10)) := by
  obtain ⟨_, _, _, _, _, _, _, _, h9, h10, h11⟩ := inv_run sqrt hs xs
  refine ⟨⟨fun h => ⟨(h9 h).2, (h9 h).1⟩, fun h => ?_⟩, h11⟩
  rcases h10 h.2 with h' | h'
  · exact h'
  · exact absurd h.1 h'

/-- **C17.** A change is only reported on an error, and only after more than 30
errors since the last change. -/
theorem C17_only_after_30_errors (sqrt : ℚ → ℚ) (hs : ∀ q, 0 ≤ sqrt q) (xs : List Bool) (x : Bool)
    (h : (run sqrt (xs ++ [x])).change = true) :
    x = true ∧ 30 < (segment sqrt (xs ++ [x])).count true := by
  obtain ⟨h1, h2⟩ := ((C17_decision sqrt hs (xs ++ [x])).1).1 h
  constructor
  · unfold segment at h1
    rw [sinceChange_append] at h1
    split at h1 <;> simpa using h1
  · rw [← (C17_statistics sqrt hs (xs ++ [x])).2.2.1]
    rw [(inv_run sqrt hs (xs ++ [x])).2.1]
    exact h2.1

/-- **C17.** Change and warning are never reported together. -/
theorem C17_exclusive (sqrt : ℚ → ℚ) (hs : ∀ q, 0 ≤ sqrt q) (xs : List Bool) :
    ¬ ((run sqrt xs).change = true ∧ (run sqrt xs).warning = true) := by
  rintro ⟨a, b⟩
  exact ((C17_decision sqrt hs xs).2.1 b).2 ((C17_decision sqrt hs xs).1.1 a).2

-- Errors first 10 apart, then consecutive: a change is reported.
example : (run (fun _ => 0) ((List.replicate 20 [false, false, false, true]).flatten ++
    List.replicate 11 true)).change = true := by decide +kernel

end Verif.Drift.EDDM
