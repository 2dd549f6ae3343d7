import Verif.Common

/-!
Model of `LeveragingBaggingClassifier.__init_output_codes`
(meta/leverage_bagging.py 306-326); C42.

Simplifications: the random source is an arbitrary infinite bit sequence read from a
position; the `while` loop gets fuel (`none`: not finished within the fuel).
-/

namespace Verif.Meta.Leverage

/-- One pass of the `for j` loop, lines 313-323: the code row and the number of random
bits read. -/
def drawRow (k : Nat) (rng : Nat → Bool) (pos : Nat) : List Bool × Nat :=
  if k = 2 then ([rng pos, !rng pos], pos + 1)
  else ((List.range k).map fun j : Nat => rng (pos + j), pos + k)

/-- `n_ones - n_zeros`. -/
def diff : List Bool → Int
  | [] => 0
  | true :: l => diff l + 1
  | false :: l => diff l - 1

/-- The `while condition` loop, lines 310-325, for one ensemble member. -/
def genRow (n k : Nat) (rng : Nat → Bool) : Nat → Nat → Option (List Bool × Nat)
  | 0, _ => none
  | fuel + 1, pos =>
    let r := drawRow k rng pos
    if diff r.1 * diff r.1 > (n % 2 : Nat) then genRow n k rng fuel r.2 else some r

/-- Rows for `m` remaining members. -/
def genRows (n k : Nat) (rng : Nat → Bool) (fuel : Nat) : Nat → Nat → Option (List (List Bool))
  | 0, _ => some []
  | m + 1, pos =>
    match genRow n k rng fuel pos with
    | none => none
    | some (row, pos') => (genRows n k rng fuel m pos').map (row :: ·)

/-- `__init_output_codes` for `n` members and `k` classes. -/
def initCodes (n k : Nat) (rng : Nat → Bool) (fuel : Nat) : Option (List (List Bool)) :=
  genRows n k rng fuel n 0

theorem diff_parity (l : List Bool) : ∃ z : Int, diff l = l.length - 2 * z := by
  induction l with
  | nil => exact ⟨0, by simp [diff]⟩
  | cons b l ih =>
    obtain ⟨z, hz⟩ := ih
    cases b with
    | true => exact ⟨z, by simp only [diff, hz, List.length_cons]; push_cast; ring⟩
    | false => exact ⟨z + 1, by simp only [diff, hz, List.length_cons]; push_cast; ring⟩

theorem length_drawRow (k : Nat) (rng : Nat → Bool) (pos : Nat) : (drawRow k rng pos).1.length = k := by
  unfold drawRow
  split_ifs with h
  · simp [h]
  · simp

theorem genRow_none (n k : Nat) (hn : n % 2 = 0) (hk : k % 2 = 1) (rng : Nat → Bool) (fuel pos : Nat) :
    genRow n k rng fuel pos = none := by
  induction fuel generalizing pos with
  | zero => rfl
  | succ fuel ih =>
    simp only [genRow]
    rw [if_pos, ih]
    obtain ⟨z, hz⟩ := diff_parity (drawRow k rng pos).1
    rw [length_drawRow] at hz
    have hne : diff (drawRow k rng pos).1 ≠ 0 := by omega
    rw [hn]
    have := mul_self_pos.mpr hne
    simpa using this

/-- C42 (violated): with an even, non-zero number of members and an odd number of classes
the generation of the code matrix never finishes, whatever the random source. -/
theorem C42_never_terminates_violated (n k : Nat) (hn0 : 0 < n) (hn : n % 2 = 0) (hk : k % 2 = 1)
    (rng : Nat → Bool) : ∀ fuel, initCodes n k rng fuel = none := by
  intro fuel
  obtain ⟨m, rfl⟩ : ∃ m, n = m + 1 := ⟨n - 1, by omega⟩
  simp [initCodes, genRows, genRow_none (m + 1) k hn hk]

/-- The default ensemble size with three classes. -/
example (rng : Nat → Bool) (fuel : Nat) : initCodes 10 3 rng fuel = none :=
  C42_never_terminates_violated 10 3 (by decide) (by decide) (by decide) rng fuel

theorem genRow_some (n k : Nat) (rng : Nat → Bool) (fuel pos : Nat) (r : List Bool × Nat)
    (h : genRow n k rng fuel pos = some r) : r.1.length = k ∧ diff r.1 * diff r.1 ≤ (n % 2 : Nat) := by
  induction fuel generalizing pos with
  | zero => simp [genRow] at h
  | succ fuel ih =>
    simp only [genRow] at h
    split_ifs at h with hc
    · exact ih _ h
    · simp only [Option.some.injEq] at h
      rw [← h]
      exact ⟨length_drawRow k rng pos, not_lt.mp hc⟩

/-- Numbers of ones and zeros in a row. -/
def ones (row : List Bool) : Nat := row.count true
/-- See `ones`. -/
def zeros (row : List Bool) : Nat := row.count false

theorem diff_eq (l : List Bool) : diff l = (ones l : Int) - zeros l := by
  induction l with
  | nil => rfl
  | cons b l ih => cases b <;> simp [diff, ih, ones, zeros] <;> ring

/-- C42 (what holds): every accepted matrix has one row per member, one column per class,
and in each row the numbers of ones and zeros are equal (even ensemble) or differ by at
most one (odd ensemble). -/
theorem C42_rows_balanced (n k : Nat) (rng : Nat → Bool) (fuel : Nat) (rows : List (List Bool))
    (h : initCodes n k rng fuel = some rows) :
    rows.length = n ∧ ∀ row ∈ rows, row.length = k ∧
      ones row ≤ zeros row + n % 2 ∧ zeros row ≤ ones row + n % 2 := by
  have gen : ∀ (m pos : Nat) (rows : List (List Bool)), genRows n k rng fuel m pos = some rows →
      rows.length = m ∧ ∀ row ∈ rows, row.length = k ∧ diff row * diff row ≤ (n % 2 : Nat) := by
    intro m
    induction m with
    | zero => intro pos rows h; simp only [genRows, Option.some.injEq] at h; subst h; simp
    | succ m ih =>
      intro pos rows h
      simp only [genRows] at h
      cases hg : genRow n k rng fuel pos with
      | none => rw [hg] at h; cases h
      | some r =>
        obtain ⟨row, pos'⟩ := r
        rw [hg] at h
        simp only [Option.map_eq_some_iff] at h
        obtain ⟨rs, hrs, rfl⟩ := h
        obtain ⟨h1, h2⟩ := ih pos' rs hrs
        refine ⟨by simp [h1], ?_⟩
        intro r hr
        rcases List.mem_cons.mp hr with rfl | h'
        · exact genRow_some n k rng fuel pos _ hg
        · exact h2 r h'
  obtain ⟨h1, h2⟩ := gen n 0 rows h
  refine ⟨h1, ?_⟩
  intro row hr
  obtain ⟨a, b⟩ := h2 row hr
  refine ⟨a, ?_⟩
  rw [diff_eq] at b
  set d : Int := (ones row : Int) - zeros row with hd
  have hn2 : n % 2 < 2 := Nat.mod_lt _ (by decide)
  have hb1 : d ≤ (n % 2 : Nat) := by
    by_contra hc
    rcases Nat.lt_or_ge 0 (n % 2) with h0 | h0
    · have : n % 2 = 1 := by omega
      rw [this] at b hc; push_cast at b hc; nlinarith
    · have : n % 2 = 0 := by omega
      rw [this] at b hc; push_cast at b hc; nlinarith
  have hb2 : -d ≤ (n % 2 : Nat) := by
    by_contra hc
    rcases Nat.lt_or_ge 0 (n % 2) with h0 | h0
    · have : n % 2 = 1 := by omega
      rw [this] at b hc; push_cast at b hc; nlinarith
    · have : n % 2 = 0 := by omega
      rw [this] at b hc; push_cast at b hc; nlinarith
  omega

/-- Alternating bits. -/
def alt : Nat → Bool := fun i => i % 2 == 0

/-- C42 (what holds): in every other configuration generation can finish: from any position
some random source gives an acceptable row at the first draw. -/
theorem C42_can_terminate (n k : Nat) (h : n % 2 = 1 ∨ k % 2 = 0) :
    ∃ (rng : Nat → Bool) (rows : List (List Bool)), initCodes n k rng 1 = some rows := by
  have hdiff : ∀ (k s : Nat), diff ((List.range k).map fun j : Nat => alt (s + j)) =
      if k % 2 = 0 then 0 else if s % 2 = 0 then 1 else -1 := by
    intro k
    induction k with
    | zero => intro s; simp [diff]
    | succ k ih =>
      intro s
      rw [List.range_succ_eq_map, List.map_cons, List.map_map]
      have : ((fun j : Nat => alt (s + j)) ∘ Nat.succ) = fun j : Nat => alt (s + 1 + j) := by
        funext j; simp only [Function.comp]; congr 1; omega
      rw [this]
      simp only [Nat.add_zero]
      by_cases hs : s % 2 = 0
      · have : alt s = true := by simp [alt, hs]
        rw [this, diff, ih (s + 1)]
        rcases Nat.mod_two_eq_zero_or_one k with hk | hk
        · rw [if_pos hk, if_neg (by omega), if_pos hs]; rfl
        · rw [if_neg (by omega), if_neg (by omega), if_pos (by omega)]; rfl
      · have : alt s = false := by simp [alt]; omega
        rw [this, diff, ih (s + 1)]
        rcases Nat.mod_two_eq_zero_or_one k with hk | hk
        · rw [if_pos hk, if_neg (by omega), if_neg hs]; rfl
        · rw [if_neg (by omega), if_pos (by omega), if_pos (by omega)]; rfl
  have hrow : ∀ pos, genRow n k alt 1 pos = some (drawRow k alt pos) := by
    intro pos
    simp only [genRow]
    rw [if_neg]
    rw [not_lt]
    unfold drawRow
    split_ifs with h2
    · have hn0 : (0 : Int) ≤ (n % 2 : Nat) := Int.natCast_nonneg _
      cases alt pos <;> simpa [diff] using hn0
    · rw [hdiff]
      rcases h with hn | hk
      · rw [hn]; split_ifs <;> simp
      · rw [if_pos hk]; simpa using Int.natCast_nonneg (n % 2)
  have gen : ∀ m pos, ∃ rows, genRows n k alt 1 m pos = some rows := by
    intro m
    induction m with
    | zero => intro pos; exact ⟨[], rfl⟩
    | succ m ih =>
      intro pos
      obtain ⟨rs, hrs⟩ := ih (drawRow k alt pos).2
      refine ⟨(drawRow k alt pos).1 :: rs, ?_⟩
      simp [genRows, hrow pos, hrs]
  obtain ⟨rows, hr⟩ := gen n 0
  exact ⟨alt, rows, hr⟩

example : initCodes 3 3 (fun i => i % 3 == 0) 5 =
    some [[true, false, false], [true, false, false], [true, false, false]] := by decide +kernel

end Verif.Meta.Leverage
