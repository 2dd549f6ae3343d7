import Verif.Transform.Props
import Mathlib.Tactic.FieldSimp
import Mathlib.Algebra.Order.Ring.Abs

/-! C302: what the windowed standard scaler makes of the units of the columns. -/

namespace Verif.Transform

open Verif.Buffers

variable {c : Nat}

/-- A row with column `j` in another unit and from another zero: `a j * value + b j`. -/
def inUnits (a b : Fin c → ℚ) (row : Fin c → ℚ) : Fin c → ℚ := fun j => a j * row j + b j

/-- What is known of a standard deviation: it ignores the level and follows the unit. -/
def Deviation (std : List ℚ → ℚ) : Prop :=
  ∀ (a b : ℚ) (l : List ℚ), std (l.map fun v => a * v + b) = |a| * std l

/-- What the scaler returns for several calls, one list of rows each, after one another. -/
def calls (std : List ℚ → ℚ) : FastBuffer (Fin c → ℚ) → List (List (Fin c → ℚ)) → List (Fin c → ℚ)
  | _, [] => []
  | w, X :: rest => (standard std w X).2 ++ calls std (standard std w X).1 rest

/-- What a new scaler returns for the rows in one call. -/
def scaled (std : List ℚ → ℚ) (n : Nat) (rows : List (Fin c → ℚ)) : List (Fin c → ℚ) :=
  (standard std (FastBuffer.init n) rows).2

private theorem mean_affine (a b : ℚ) (l : List ℚ) (hne : l ≠ []) :
    mean (l.map fun v => a * v + b) = a * mean l + b := by
  have h0 : (l.length : ℚ) ≠ 0 := by
    have := List.length_pos_iff.2 hne
    exact_mod_cast this.ne'
  have hs : (l.map fun v => a * v + b).sum = a * l.sum + l.length * b := by
    clear hne h0
    induction l with
    | nil => simp
    | cons x l ih => simp only [List.map_cons, List.sum_cons, ih, List.length_cons]; push_cast; ring
  unfold mean
  rw [hs, List.length_map]
  field_simp

private theorem lastN_map {α β : Type} (f : α → β) (k : Nat) (l : List α) :
    lastN k (l.map f) = (lastN k l).map f := by
  unfold lastN; simp

private theorem lastN_ne_nil {α : Type} (k : Nat) (hk : 1 ≤ k) (l : List α) (hl : l ≠ []) : lastN k l ≠ [] := by
  unfold lastN
  intro h
  rw [List.drop_eq_nil_iff] at h
  have := List.length_pos_iff.2 hl
  omega

private theorem scaled_eq (std : List ℚ → ℚ) (n : Nat) (rows : List (Fin c → ℚ)) :
    scaled std n rows = (standard std (holding n []) rows).2 := by
  unfold scaled holding lastN FastBuffer.init
  simp

/-- **C302.**  With the columns in other units (`a j > 0`) and from other zeros, every cell of a
row after the first comes out the same, if the column was not constant over the window before it.
If it was, the result, which is the distance from that constant, is in the new unit; and the
first row is not scaled at all. -/
theorem C302_units_partial (std : List ℚ → ℚ) (hstd : Deviation std) (n : Nat) (hn : 1 ≤ n)
    (a b : Fin c → ℚ) (ha : ∀ j, 0 < a j) (rows : List (Fin c → ℚ)) (i : Nat) (out : Fin c → ℚ)
    (ho : (scaled std n rows)[i]? = some out) :
    ∃ out', (scaled std n (rows.map (inUnits a b)))[i]? = some out' ∧
      (i = 0 → ∀ j, out' j = a j * out j + b j) ∧
      (i ≠ 0 → ∀ j, let window := (lastN n (rows.take i)).map fun r => r j
        (std window ≠ 0 → out' j = out j) ∧ (std window = 0 → out' j = a j * out j)) := by
  rw [scaled_eq] at ho ⊢
  obtain ⟨h1, h2⟩ := C59_standardised std n hn ([] : List (Fin c → ℚ)) rows
  obtain ⟨h1', h2'⟩ := C59_standardised std n hn ([] : List (Fin c → ℚ)) (rows.map (inUnits a b))
  have hi : i < rows.length := by
    have := (List.getElem?_eq_some_iff.1 ho).1
    omega
  obtain ⟨o, e1, e2⟩ := h2 i rows[i] (List.getElem?_eq_getElem hi)
  rw [ho] at e1
  cases e1
  obtain ⟨o', e1', e2'⟩ := h2' i (inUnits a b rows[i]) (by simp [hi])
  refine ⟨o', e1', ?_, ?_⟩
  · rintro rfl j
    have := e2 j
    have h' := e2' j
    simp only [List.take_zero, List.append_nil, if_true] at this h'
    rw [h', this]
    rfl
  · intro hi0 j
    have hb : ([] : List (Fin c → ℚ)) ++ rows.take i ≠ [] := by
      intro h
      have := congrArg List.length h
      simp only [List.nil_append, List.length_take, List.length_nil] at this
      omega
    have hb' : ([] : List (Fin c → ℚ)) ++ (rows.map (inUnits a b)).take i ≠ [] := by
      intro h
      have := congrArg List.length h
      simp only [List.nil_append, List.length_take, List.length_map, List.length_nil] at this
      omega
    have h := e2 j
    have h' := e2' j
    rw [List.nil_append] at hb hb'
    simp only [List.nil_append, if_neg hb, if_neg hb'] at h h'
    have hcol : (lastN n ((rows.map (inUnits a b)).take i)).map (fun r => r j)
        = ((lastN n (rows.take i)).map fun r => r j).map fun v => a j * v + b j := by
      rw [← List.map_take, lastN_map, List.map_map, List.map_map]
      rfl
    rw [hcol, mean_affine _ _ _ (by
      intro e
      exact lastN_ne_nil n hn (rows.take i) hb (by simpa using e)), hstd] at h'
    generalize (lastN n (rows.take i)).map (fun r => r j) = w at h h'
    have haj := ha j
    rw [abs_of_pos haj] at h'
    have hrow : inUnits a b rows[i] j = a j * rows[i] j + b j := rfl
    constructor
    · intro hs
      rw [if_neg hs] at h
      rw [if_neg (mul_ne_zero haj.ne' hs), hrow] at h'
      have hq : a j * rows[i] j + b j - (a j * mean w + b j) = a j * (rows[i] j - mean w) := by ring
      rw [h, h', hq, mul_div_mul_left _ _ haj.ne']
    · intro hs
      rw [if_pos hs] at h
      rw [hs, mul_zero, if_pos rfl, hrow] at h'
      rw [h, h']
      ring

/-- **C302, violation.**  The unit of a column is not removed from a column that was constant
over the window: for every scaler, the cell that follows `k` equal ones comes out in its unit,
as far from 0 as it is from the constant. -/
theorem C302_constant_violated (std : List ℚ → ℚ) (hstd : Deviation std) (n : Nat) (hn : 1 ≤ n) (k : Nat)
    (hk : 1 ≤ k) (v d : ℚ) :
    (scaled (c := 1) std n (List.replicate k (fun _ => v) ++ [fun _ => v + d]))[k]? = some fun _ => d := by
  rw [scaled_eq]
  obtain ⟨h1, h2⟩ := C59_standardised (c := 1) std n hn []
    (List.replicate k (fun _ => v) ++ [fun _ => v + d])
  obtain ⟨o, e1, e2⟩ := h2 k (fun _ => v + d) (by simp)
  rw [e1]
  congr 1
  funext j
  have h := e2 j
  have hb : ([] : List (Fin 1 → ℚ)) ++ (List.replicate k (fun _ => v) ++ [fun _ => v + d]).take k ≠ [] := by
    intro h
    have := congrArg List.length h
    simp at this
    omega
  rw [List.nil_append] at hb
  simp only [List.nil_append, if_neg hb] at h
  have ht : (List.replicate k (fun _ => v) ++ [fun _ => v + d] : List (Fin 1 → ℚ)).take k
      = List.replicate k (fun _ => v) := by
    rw [List.take_append_of_le_length (by simp)]; simp
  have hcol : ∃ m, m ≠ 0 ∧ (lastN n (List.replicate k ((fun _ => v) : Fin 1 → ℚ))).map (fun r => r j)
      = List.replicate m v := by
    refine ⟨k - (k - n), by omega, ?_⟩
    unfold lastN; simp
  obtain ⟨m, hm, hcol⟩ := hcol
  have hm0 : (m : ℚ) ≠ 0 := by exact_mod_cast hm
  have hmean : mean (List.replicate m v) = v := by
    unfold mean
    simp only [List.sum_replicate, List.length_replicate, nsmul_eq_mul]
    field_simp
  have hs : std (List.replicate m v) = 0 := by
    have := hstd 0 v (List.replicate m v)
    simpa using this
  rw [ht, hcol, hmean, hs, if_pos rfl] at h
  rw [h]
  simp

private theorem standard_append (std : List ℚ → ℚ) (w : FastBuffer (Fin c → ℚ)) (X Y : List (Fin c → ℚ)) :
    standard std w (X ++ Y) = ((standard std (standard std w X).1 Y).1,
      (standard std w X).2 ++ (standard std (standard std w X).1 Y).2) := by
  induction X generalizing w with
  | nil => simp [standard]
  | cons r X ih => simp only [List.cons_append, standard, ih]

/-- **C302, the calls.**  How the rows are cut into calls of `transform` does not matter. -/
theorem C302_calls (std : List ℚ → ℚ) (n : Nat) (Xs : List (List (Fin c → ℚ))) :
    calls std (FastBuffer.init n) Xs = scaled std n Xs.flatten := by
  unfold scaled
  generalize FastBuffer.init n = w
  induction Xs generalizing w with
  | nil => rfl
  | cons X Xs ih => simp only [calls, List.flatten_cons, standard_append, ih]

/-! ### Examples -/

/-- The mean absolute deviation is such a deviation (the standard deviation over the reals is another). -/
example : Deviation fun l => mean (l.map fun v => |v - mean l|) := by
  intro a b l
  by_cases hl : l = []
  · subst hl; simp [mean]
  · have hne : (l.map fun v => |v - mean l|) ≠ [] := by simpa using hl
    have := mean_affine |a| 0 (l.map fun v => |v - mean l|) hne
    simp only [add_zero] at this
    rw [← this]
    show mean _ = _
    rw [List.map_map, List.map_map]
    congr 1
    apply List.map_congr_left
    intro v _
    simp only [Function.comp]
    rw [mean_affine a b l hl, ← abs_mul]
    congr 1
    ring

private def mad (l : List ℚ) : ℚ := mean (l.map fun v => |v - mean l|)

example : (scaled (c := 1) mad 2 [fun _ => 1, fun _ => 3, fun _ => 4, fun _ => 9]).map (fun r => r 0)
      = [1, 2, 2, 11] ∧
    (scaled (c := 1) mad 2 ([fun _ => 1, fun _ => 3, fun _ => 4, fun _ => 9].map
      (inUnits (fun _ => 10) (fun _ => 5)))).map (fun r => r 0) = [15, 20, 2, 11] := by decide +kernel

end Verif.Transform
