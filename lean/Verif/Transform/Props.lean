import Verif.Transform.Model
import Mathlib.Data.List.Forall2

/-! C29, C30, C59, C60: the transformers. -/

namespace Verif.Transform

open Verif.Buffers

variable {c : Nat}

/-- A buffer that holds the last `n` of a history. -/
def holding {α : Type} (n : Nat) (h : List α) : FastBuffer α := ⟨n, (lastN n h).length, lastN n h⟩

theorem add_holding {α : Type} (n : Nat) (hn : 1 ≤ n) (h : List α) (x : α) :
    ((holding n h).addElement [x]).2 = holding n (h ++ [x]) := by
  unfold holding
  rw [addElement_single n hn]

/-- Every window reached by `partial_fit` calls on a new transformer is of that form. -/
theorem reachable_holding {α : Type} (n : Nat) (hn : 1 ≤ n) (batches : List (List α)) :
    (batches.foldl (fun b xs => (b.addElement xs).2) (FastBuffer.init n)).getQueue =
      (holding n batches.flatten).getQueue := C01_queue_is_newest n hn batches

theorem queue_holding {α : Type} (n : Nat) (h : List α) : (holding n h).getQueue = lastN n h := rfl

theorem isEmpty_holding {α : Type} (n : Nat) (hn : 1 ≤ n) (h : List α) :
    (holding n h).isEmpty = h.isEmpty := by
  unfold holding FastBuffer.isEmpty
  cases h with
  | nil => simp
  | cons a t => simp; omega

theorem lastN_snoc {α : Type} (n : Nat) (hn : 1 ≤ n) (h : List α) (x : α) :
    lastN n (h ++ [x]) = lastN (n - 1) h ++ [x] := by
  unfold lastN
  have : (h ++ [x]).length - n = h.length - (n - 1) := by simp; omega
  rw [this, List.drop_append_of_le_length (by omega)]

theorem setNewest_holding (n : Nat) (hn : 1 ≤ n) (h : List (Fin c → Cell)) (x y : Fin c → Cell) :
    setNewest (holding n (h ++ [x])) y = holding n (h ++ [y]) := by
  unfold setNewest holding
  simp only [lastN_snoc n hn, List.dropLast_concat, List.length_append, List.length_cons,
    List.length_nil]

/-! ### C29 -/

/-- Specification: the value that replaces a missing cell of row `row`, when
`hist` are the rows seen before (cleaned if they went through `transform`). -/
def replacement (s : Strategy) (newValue : Cell) (n : Nat) (hist : List (Fin c → Cell))
    (row : Fin c → Cell) (j : Fin c) : Cell :=
  match s with
  | .zero => some 0
  | .custom => newValue
  | .windowed stat => stat ((lastN n (hist ++ [row])).map fun r => r j)

/-- Specification of `transform`: only missing cells change, to the replacement. -/
def cleanSpec (s : Strategy) (markers : List ℚ) (newValue : Cell) (n : Nat) :
    List (Fin c → Cell) → List (Fin c → Cell) → List (Fin c → Cell)
  | _, [] => []
  | hist, row :: rows =>
    let out := fun j => if missing markers (row j) then replacement s newValue n hist row j else row j
    out :: cleanSpec s markers newValue n (hist ++ [out]) rows

theorem map_lastN_update (n : Nat) (hn : 1 ≤ n) (hist : List (Fin c → Cell)) (r r' : Fin c → Cell)
    (j : Fin c) (h : r j = r' j) :
    (lastN n (hist ++ [r])).map (fun r => r j) = (lastN n (hist ++ [r'])).map fun r => r j := by
  simp [lastN_snoc n hn, h]

theorem cleanRow_windowed (stat : List Cell → Cell) (markers : List ℚ) (newValue : Cell) (n : Nat)
    (hn : 1 ≤ n) (hist : List (Fin c → Cell)) (row : Fin c → Cell) :
    let out := fun j => if missing markers (row j) then
      replacement (.windowed stat) newValue n hist row j else row j
    cleanRow (.windowed stat) markers newValue (holding n hist) row = (holding n (hist ++ [out]), out) := by
  intro out
  unfold cleanRow
  simp only [add_holding n hn]
  suffices H : ∀ (js : List (Fin c)) (cur : Fin c → Cell), js.Nodup →
      (∀ j ∈ js, cur j = row j) →
      js.foldl (fun (st : FastBuffer (Fin c → Cell) × (Fin c → Cell)) j =>
        if missing markers (st.2 j) then
          (setNewest st.1 (Function.update st.2 j (substitute (.windowed stat) newValue st.1 j)),
            Function.update st.2 j (substitute (.windowed stat) newValue st.1 j))
        else st) (holding n (hist ++ [cur]), cur) =
      (holding n (hist ++ [fun j => if j ∈ js then out j else cur j]),
        fun j => if j ∈ js then out j else cur j) by
    have := H (List.finRange c) row (List.nodup_finRange c) (fun _ _ => rfl)
    simpa using this
  intro js
  induction js with
  | nil => intro cur _ _; simp
  | cons j js ih =>
    intro cur hnd hcur
    have hj := hcur j (by simp)
    have hnotin : j ∉ js := (List.nodup_cons.mp hnd).1
    rw [List.foldl_cons]
    by_cases hm : missing markers (row j) = true
    · have hsub : substitute (.windowed stat) newValue (holding n (hist ++ [cur])) j = out j := by
        simp only [substitute, isEmpty_holding n hn, queue_holding, out, hm, if_true, replacement]
        rw [map_lastN_update n hn hist cur row j hj]
        simp
      simp only [hj, hm, if_true, hsub, setNewest_holding n hn]
      rw [ih _ (List.nodup_cons.mp hnd).2 (by
        intro k hk
        rw [Function.update_of_ne (by rintro rfl; exact hnotin hk)]
        exact hcur k (by simp [hk]))]
      have : (fun k => if k ∈ js then out k else Function.update cur j (out j) k) =
          fun k => if k ∈ j :: js then out k else cur k := by
        funext k
        by_cases hk : k ∈ js
        · simp [hk]
        · by_cases hkj : k = j
          · subst hkj; simp [hk]
          · simp [hk, hkj]
      rw [this]
    · simp only [hj, hm, if_false, Bool.false_eq_true]
      rw [ih _ (List.nodup_cons.mp hnd).2 (fun k hk => hcur k (by simp [hk]))]
      have : (fun k => if k ∈ js then out k else cur k) =
          fun k => if k ∈ j :: js then out k else cur k := by
        funext k
        by_cases hk : k ∈ js
        · simp [hk]
        · by_cases hkj : k = j
          · subst hkj
            have ho : out k = row k := by simp only [out, hm]; rfl
            simp [hk, ho, hj]
          · simp [hk, hkj]
      rw [this]

theorem cleanRow_const (s : Strategy) (hs : ∀ stat, s ≠ .windowed stat) (markers : List ℚ)
    (newValue : Cell) (n : Nat) (w : FastBuffer (Fin c → Cell)) (hist : List (Fin c → Cell))
    (row : Fin c → Cell) :
    (cleanRow s markers newValue w row).2 = fun j => if missing markers (row j) then
      replacement s newValue n hist row j else row j := by
  have key : ∀ (v : Cell) (js : List (Fin c)) (w : FastBuffer (Fin c → Cell)) (cur : Fin c → Cell),
      js.Nodup → (∀ j ∈ js, cur j = row j) →
      (js.foldl (fun (st : FastBuffer (Fin c → Cell) × (Fin c → Cell)) j =>
        if missing markers (st.2 j) then (st.1, Function.update st.2 j v) else st) (w, cur)).2 =
      fun j => if j ∈ js then (if missing markers (row j) then v else row j) else cur j := by
    intro v js
    induction js with
    | nil => intro w cur _ _; simp
    | cons j js ih =>
      intro w cur hnd hcur
      have hj := hcur j (by simp)
      have hnotin : j ∉ js := (List.nodup_cons.mp hnd).1
      rw [List.foldl_cons]
      by_cases hm : missing markers (row j) = true
      · simp only [hj, hm, if_true]
        rw [ih _ _ (List.nodup_cons.mp hnd).2 (by
          intro k hk
          rw [Function.update_of_ne (by rintro rfl; exact hnotin hk)]
          exact hcur k (by simp [hk]))]
        funext k
        by_cases hk : k ∈ js
        · simp [hk]
        · by_cases hkj : k = j
          · subst hkj; simp [hk, hm]
          · simp [hk, hkj]
      · simp only [hj, hm, if_false, Bool.false_eq_true]
        rw [ih _ _ (List.nodup_cons.mp hnd).2 (fun k hk => hcur k (by simp [hk]))]
        funext k
        by_cases hk : k ∈ js
        · simp [hk]
        · by_cases hkj : k = j
          · subst hkj; simp [hk, hm, hj]
          · simp [hk, hkj]
  cases s with
  | zero =>
    have := key (some 0) (List.finRange c) w row (List.nodup_finRange c) (fun _ _ => rfl)
    simpa [cleanRow, substitute, replacement] using this
  | custom =>
    have := key newValue (List.finRange c) w row (List.nodup_finRange c) (fun _ _ => rfl)
    simpa [cleanRow, substitute, replacement] using this
  | windowed stat => exact absurd rfl (hs stat)

/-- C29: for every strategy, marker list, window history and matrix, `transform`
changes exactly the missing cells (NaN or a marker): each becomes the strategy's
value, where the windowed statistic of a column ranges over the newest
`window_size` rows including the row being cleaned; all other cells are
unchanged. -/
theorem C29_only_missing_replaced (s : Strategy) (markers : List ℚ) (newValue : Cell) (n : Nat)
    (hn : 1 ≤ n) (hist rows : List (Fin c → Cell)) :
    (clean s markers newValue (holding n hist) rows).2 = cleanSpec s markers newValue n hist rows := by
  cases s with
  | windowed stat =>
    induction rows generalizing hist with
    | nil => rfl
    | cons row rows ih =>
      unfold clean cleanSpec
      rw [cleanRow_windowed stat markers newValue n hn]
      simp only [ih]
  | zero =>
    have : ∀ w hist, (clean .zero markers newValue w rows).2 =
        cleanSpec (c := c) .zero markers newValue n hist rows := by
      induction rows with
      | nil => intro w hist; rfl
      | cons row rows ih =>
        intro w hist
        unfold clean cleanSpec
        have e := cleanRow_const .zero (by simp) markers newValue n w hist row
        simp only [e]
        rw [ih]
    exact this _ _
  | custom =>
    have : ∀ w hist, (clean .custom markers newValue w rows).2 =
        cleanSpec (c := c) .custom markers newValue n hist rows := by
      induction rows with
      | nil => intro w hist; rfl
      | cons row rows ih =>
        intro w hist
        unfold clean cleanSpec
        have e := cleanRow_const .custom (by simp) markers newValue n w hist row
        simp only [e]
        rw [ih]
    exact this _ _

/-- C29: with strategy `zero` (0 not a marker) or `custom` (the new value neither
NaN nor a marker) no missing value remains. -/
theorem C29_none_left (s : Strategy) (markers : List ℚ) (newValue : Cell) (n : Nat)
    (hn : 1 ≤ n) (hist rows : List (Fin c → Cell))
    (h : s = .zero ∧ (0 : ℚ) ∉ markers ∨ s = .custom ∧ ∃ v, newValue = some v ∧ v ∉ markers) :
    ∀ r ∈ (clean s markers newValue (holding n hist) rows).2, ∀ j, ∃ q, r j = some q ∧ q ∉ markers := by
  have h : s = .zero ∧ (0 : ℚ) ∉ markers ∨ s = .custom ∧ missing markers newValue = false := by
    rcases h with h | ⟨h1, v, rfl, hv⟩
    · exact .inl h
    · exact .inr ⟨h1, by simpa [missing] using hv⟩
  suffices H : ∀ r ∈ (clean s markers newValue (holding n hist) rows).2, ∀ j,
      missing markers (r j) = false by
    intro r hr j
    have := H r hr j
    cases hq : r j with
    | none => rw [hq] at this; simp [missing] at this
    | some q => rw [hq] at this; exact ⟨q, rfl, by simpa [missing] using this⟩
  rw [C29_only_missing_replaced s markers newValue n hn]
  induction rows generalizing hist with
  | nil => intro r hr; cases hr
  | cons row rows ih =>
    intro r hr j
    rcases List.mem_cons.mp hr with rfl | hr
    · by_cases hm : missing markers (row j) = true
      · rcases h with ⟨rfl, h0⟩ | ⟨rfl, h0⟩
        · simp only [hm, if_true, replacement]; simpa [missing] using h0
        · simp only [hm, if_true, replacement]; exact h0
      · simpa [hm] using hm
    · exact ih _ r hr j

/-- C29 fails in its full form for the windowed strategies: the row being cleaned is
itself in the window, so with strategy `mean` and marker -1 the first row keeps
its marker, and with NaN it keeps NaN. -/
theorem C29_windowed_violated :
    (clean (c := 1) (.windowed nanmean) [-1] (some 1) (holding 200 []) [fun _ => some (-1)]).2 =
      [fun _ => some (-1)] ∧
    (clean (c := 1) (.windowed nanmean) [] (some 1) (holding 200 []) [fun _ => none]).2 =
      [fun _ => none] := by
  constructor <;> rw [C29_only_missing_replaced _ _ _ _ (by decide)] <;>
    simp only [cleanSpec, List.cons.injEq, and_true] <;> funext j <;> revert j <;> decide +kernel

/-- Non-vacuity: a matrix with a marker and a NaN, strategy `mean`. -/
example : ((clean (c := 2) (.windowed nanmean) [-1] (some 1) (holding 3 [fun _ => some 4, fun _ => some 6])
    [fun j => if j = 0 then none else some 7, fun j => if j = 0 then some 2 else some (-1)]).2.map
      fun r => [r 0, r 1]) = [[some 5, some 7], [some 2, some 4]] := by decide +kernel

/-! ### C30 -/

/-- C30: the min-max transform leaves a cell unchanged unless the window's
minimum and maximum of the column are equal, in which case it becomes 0; the
window before row `i` is the last `n` of the earlier rows. -/
theorem C30_identity (n : Nat) (hn : 1 ≤ n) (hist rows : List (Fin c → ℚ)) :
    (minmax (holding n hist) rows).2.length = rows.length ∧
    ∀ i row, rows[i]? = some row → ∃ out, (minmax (holding n hist) rows).2[i]? = some out ∧ ∀ j, out j =
      if hist ++ rows.take i ≠ [] ∧
        ∀ a ∈ lastN n (hist ++ rows.take i), ∀ b ∈ lastN n (hist ++ rows.take i), a j = b j
      then 0 else row j := by
  have cell : ∀ (h : List (Fin c → ℚ)) (j : Fin c) (v : ℚ),
      minmaxCell (getMin (holding n h) j) (getMax (holding n h) j) v =
        if h ≠ [] ∧ ∀ a ∈ lastN n h, ∀ b ∈ lastN n h, a j = b j then 0 else v := by
    intro h j v
    have hid : ∀ mn mx : ℚ, minmaxCell mn mx v = if mx = mn then 0 else v := by
      intro mn mx
      unfold minmaxCell
      by_cases he : mx = mn
      · simp [he]
      · have hne : mx - mn ≠ 0 := sub_ne_zero.mpr he
        rw [if_neg hne, if_neg he]
        show (v - mn) / (mx - mn) * (mx - mn) + mn = v
        rw [div_mul_cancel₀ _ hne]
        ring
    rw [hid]
    unfold getMin getMax
    rw [isEmpty_holding n hn, queue_holding]
    by_cases hemp : h = []
    · subst hemp; simp
    · have hie : h.isEmpty = false := by simpa using hemp
      simp only [hie, Bool.not_false, if_true]
      set col := (lastN n h).map fun r => r j with hcol
      have hcne : col ≠ [] := by
        intro hh
        have hl := congrArg List.length hh
        simp only [hcol, List.length_map, length_lastN, List.length_nil] at hl
        have : h.length > 0 := List.length_pos_iff.mpr hemp
        omega
      obtain ⟨mn, hmn⟩ : ∃ m, col.min? = some m := by
        cases hm : col.min? with
        | none => exact absurd (List.min?_eq_none_iff.mp hm) hcne
        | some m => exact ⟨m, rfl⟩
      obtain ⟨mx, hmx⟩ : ∃ m, col.max? = some m := by
        cases hm : col.max? with
        | none => exact absurd (List.max?_eq_none_iff.mp hm) hcne
        | some m => exact ⟨m, rfl⟩
      have hmn' := List.min?_eq_some_iff.mp hmn
      have hmx' := List.max?_eq_some_iff.mp hmx
      rw [hmn, hmx]
      simp only [Option.getD_some]
      by_cases heq : mx = mn
      · rw [if_pos heq, if_pos]
        refine ⟨hemp, ?_⟩
        have all : ∀ a ∈ lastN n h, a j = mn := by
          intro a ha
          have hm : a j ∈ col := List.mem_map_of_mem (f := fun r : Fin c → ℚ => r j) ha
          exact le_antisymm (heq ▸ hmx'.2 _ hm) (hmn'.2 _ hm)
        intro a ha b hb
        rw [all a ha, all b hb]
      · rw [if_neg heq, if_neg]
        rintro ⟨_, hall⟩
        obtain ⟨a, ha, rfl⟩ := List.mem_map.mp hmx'.1
        obtain ⟨b, hb, rfl⟩ := List.mem_map.mp hmn'.1
        exact heq (hall a ha b hb)
  induction rows generalizing hist with
  | nil => exact ⟨rfl, by intro i r hr; simp at hr⟩
  | cons row rows ih =>
    obtain ⟨ih1, ih2⟩ := ih (hist ++ [row])
    have hstep : (minmax (holding n hist) (row :: rows)).2 =
        (fun j => minmaxCell (getMin (holding n hist) j) (getMax (holding n hist) j) (row j)) ::
          (minmax (holding n (hist ++ [row])) rows).2 := by
      conv_lhs => unfold minmax
      rw [add_holding n hn]
    refine ⟨by rw [hstep]; simp [ih1], ?_⟩
    intro i r hr
    rw [hstep]
    cases i with
    | zero =>
      have hr' : row = r := by simpa using hr
      subst hr'
      exact ⟨_, rfl, fun j => by simp [cell]⟩
    | succ i =>
      obtain ⟨out, h1, h2⟩ := ih2 i r (by simpa using hr)
      refine ⟨out, by simpa using h1, ?_⟩
      simpa using h2

/-- C30: hence the transform does not scale: with a window containing 0 and 10,
the value 5 stays 5 instead of becoming 0.5, and 30 stays 30. -/
theorem C30_scaling_violated :
    ((minmax (c := 1) (holding 200 [fun _ => 0, fun _ => 10]) [fun _ => 5, fun _ => 30]).2.map
      fun r => r 0) = [5, 30] := by decide +kernel

/-! ### C59 -/

/-- C59: each cell is standardised with the column mean and standard deviation of
the last `n` rows before it (not including its own row); a zero deviation counts
as 1, and with no earlier row the cell is unchanged. -/
theorem C59_standardised (std : List ℚ → ℚ) (n : Nat) (hn : 1 ≤ n) (hist rows : List (Fin c → ℚ)) :
    (standard std (holding n hist) rows).2.length = rows.length ∧
    ∀ i row, rows[i]? = some row → ∃ out, (standard std (holding n hist) rows).2[i]? = some out ∧
      ∀ j,
        let before := hist ++ rows.take i
        let col := (lastN n before).map fun r => r j
        out j = if before = [] then row j
          else (row j - mean col) / (if std col = 0 then 1 else std col) := by
  induction rows generalizing hist with
  | nil => exact ⟨rfl, by intro i r hr; simp at hr⟩
  | cons row rows ih =>
    obtain ⟨ih1, ih2⟩ := ih (hist ++ [row])
    have hstep : (standard std (holding n hist) (row :: rows)).2 =
        (fun j => (row j - getMean (holding n hist) j) / getStd std (holding n hist) j) ::
          (standard std (holding n (hist ++ [row])) rows).2 := by
      conv_lhs => unfold standard
      rw [add_holding n hn]
    refine ⟨by rw [hstep]; simp [ih1], ?_⟩
    intro i r hr
    rw [hstep]
    cases i with
    | zero =>
      have hr' : row = r := by simpa using hr
      subst hr'
      refine ⟨_, rfl, fun j => ?_⟩
      simp only [List.take_zero, List.append_nil, getMean, getStd, isEmpty_holding n hn, queue_holding]
      by_cases he : hist = []
      · subst he; simp
      · have hie : hist.isEmpty = false := by simpa using he
        simp [he]
    | succ i =>
      obtain ⟨out, h1, h2⟩ := ih2 i r (by simpa using hr)
      refine ⟨out, by simpa using h1, fun j => ?_⟩
      have h3 := h2 j
      simp only [List.append_assoc, List.singleton_append] at h3
      simp only [List.take_succ_cons]
      exact h3

/-- C59, non-vacuity: mean 3, deviation 2 (any function may be the deviation). -/
example : ((standard (c := 1) (fun _ => 2) (holding 2 [fun _ => 9, fun _ => 1, fun _ => 5])
    [fun _ => 7]).2.map fun r => r 0) = [2] := by decide +kernel

/-! ### C60 -/

/-- A row layout: ordinary cells, then a one-hot block, repeatedly. -/
abbrev Layout := List (List ℚ × List ℚ)

/-- The row with this layout, followed by `trailing` ordinary cells. -/
def rowOf (segs : Layout) (trailing : List ℚ) : List ℚ :=
  (segs.flatMap fun s => s.1 ++ s.2) ++ trailing

/-- The index list of every block, as `categorical_list` should be given. -/
def catsOf : Nat → Layout → List (List Nat)
  | _, [] => []
  | i, s :: segs => List.range' (i + s.1.length) s.2.length :: catsOf (i + s.1.length + s.2.length) segs

/-- Specification: ordinary cells are kept, a block becomes the position of its
first 1 (its length if there is none). -/
def decode (segs : Layout) : List ℚ :=
  segs.flatMap fun s => s.1 ++ [((s.2.takeWhile fun v => !(v == 1)).length : ℚ)]

theorem countBefore_spec (pre blk post : List ℚ) :
    ∀ (done todo : List ℚ) (found : Bool) (acc : Nat), blk = done ++ todo →
    countBefore (pre ++ blk ++ post) pre.length todo.length done.length found acc =
      .ok (if found then acc else acc + (todo.takeWhile fun v => !(v == 1)).length) := by
  intro done todo
  induction todo generalizing done with
  | nil => intro found acc _; simp [countBefore]
  | cons v todo ih =>
    intro found acc hb
    have hget : (pre ++ blk ++ post)[pre.length + done.length]? = some v := by
      subst hb
      simp [List.append_assoc]
    have hb' : blk = (done ++ [v]) ++ todo := by rw [hb]; simp
    rw [List.length_cons, countBefore]
    simp only [hget]
    have := ih (done ++ [v]) (found || v == 1) (if (found || v == 1) then acc else acc + 1) hb'
    rw [List.length_append, List.length_singleton] at this
    rw [this]
    cases found with
    | true => simp
    | false =>
      by_cases hv : (v == 1) = true
      · simp [hv]
      · have hv' : (v == 1) = false := by simpa using hv
        simp only [hv', Bool.or_false, Bool.false_eq_true, if_false, Bool.not_false,
          List.takeWhile_cons, if_true, List.length_cons]
        congr 1; omega

theorem getElem?_catsOf (segs : Layout) : ∀ i k, (catsOf i segs).length = segs.length ∧
    (k = segs.length → (catsOf i segs)[k]? = none) := by
  induction segs with
  | nil => intro i k; exact ⟨rfl, by intro h; simp [catsOf]⟩
  | cons s segs ih =>
    intro i k
    have := ih (i + s.1.length + s.2.length) (k - 1)
    refine ⟨by simp [catsOf, this.1], ?_⟩
    intro h
    subst h
    rw [List.getElem?_eq_none]
    simp [catsOf, this.1]

/-- C60: for every row made of ordinary cells and non-empty one-hot blocks whose
index lists are given in order: if the row ends with a block, ordinary cells are
kept and every block is replaced by the position of its first 1; if any ordinary
cell follows the last block, an `IndexError` is raised. -/
theorem C60_one_hot (segs : Layout) (trailing : List ℚ) (hb : ∀ s ∈ segs, s.2 ≠ []) (fuel : Nat)
    (hf : (rowOf segs trailing).length < fuel) :
    oneHot (catsOf 0 segs) (rowOf segs trailing) fuel =
      some (if trailing = [] then .ok (decode segs) else .error .indexError) := by
  -- generalise over what was read already
  suffices H : ∀ (todo : Layout) (cats : List (List Nat)) (li : Nat) (pre out : List ℚ) (fuel : Nat),
      (∀ s ∈ todo, s.2 ≠ []) → cats.drop li = catsOf pre.length todo →
      (rowOf todo trailing).length < fuel →
      oneHotLoop cats (pre ++ rowOf todo trailing) fuel pre.length li out =
        some (if trailing = [] then .ok (out ++ decode todo) else .error .indexError) by
    have := H segs (catsOf 0 segs) 0 [] [] fuel hb (by simp) hf
    simpa [oneHot] using this
  intro todo
  induction todo with
  | nil =>
    intro cats li pre out fuel _ hc hf
    obtain ⟨fuel, rfl⟩ : ∃ f, fuel = f + 1 := ⟨fuel - 1, by omega⟩
    cases trailing with
    | nil => simp [oneHotLoop, rowOf, decode]
    | cons v t =>
      have hget : (pre ++ rowOf [] (v :: t))[pre.length]? = some v := by simp [rowOf]
      have hcat : cats[li]? = none := by
        have := congrArg List.length hc
        simp only [List.length_drop, catsOf, List.length_nil] at this
        exact List.getElem?_eq_none (by omega)
      unfold oneHotLoop
      simp only [hget, hcat]
      simp
  | cons s todo ih =>
    intro cats li pre out fuel hne hc hf
    obtain ⟨nums, blk⟩ := s
    have hblk : blk ≠ [] := hne (nums, blk) (by simp)
    have hcat : cats[li]? = some (List.range' (pre.length + nums.length) blk.length) := by
      have := congrArg (fun l => l[0]?) hc
      simpa [catsOf] using this
    have hrest : cats.drop (li + 1) = catsOf (pre.length + nums.length + blk.length) todo := by
      have := congrArg List.tail hc
      simpa [catsOf] using this
    have hlen : (rowOf ((nums, blk) :: todo) trailing).length =
        nums.length + blk.length + (rowOf todo trailing).length := by
      simp only [rowOf, List.flatMap_cons, List.length_append]; omega
    have hrow : rowOf ((nums, blk) :: todo) trailing = nums ++ (blk ++ rowOf todo trailing) := by
      simp [rowOf]
    rw [hlen] at hf
    rw [hrow]
    -- first the ordinary cells
    have step : ∀ (ns done out : List ℚ) (fuel : Nat), nums = done ++ ns →
        ns.length + blk.length + (rowOf todo trailing).length < fuel →
        oneHotLoop cats (pre ++ (nums ++ (blk ++ rowOf todo trailing))) fuel
          (pre.length + done.length) li out =
        some (if trailing = [] then .ok (out ++ ns ++
          [((blk.takeWhile fun v => !(v == 1)).length : ℚ)] ++ decode todo) else .error .indexError) := by
      intro ns
      induction ns with
      | nil =>
        intro done out fuel hd hf
        have hd' : nums = done := by simpa using hd
        subst hd'
        obtain ⟨fuel, rfl⟩ : ∃ f, fuel = f + 1 := ⟨fuel - 1, by omega⟩
        obtain ⟨v, bt, hbv⟩ := List.exists_cons_of_ne_nil hblk
        have hget : (pre ++ (nums ++ (blk ++ rowOf todo trailing)))[pre.length + nums.length]? = some v := by
          rw [hbv, ← List.append_assoc]; simp
        have hin : (List.range' (pre.length + nums.length) blk.length).contains
            (pre.length + nums.length) = true := by
          rw [hbv]; simp
        have hcb := countBefore_spec (pre ++ nums) blk (rowOf todo trailing) [] blk false 0 (by simp)
        rw [List.length_append, List.append_assoc, List.append_assoc] at hcb
        simp only [List.length_nil, Bool.false_eq_true, if_false, Nat.zero_add] at hcb
        unfold oneHotLoop
        simp only [hget, hcat, hin, if_true, List.length_range', hcb]
        have hrec := ih cats (li + 1) (pre ++ nums ++ blk)
          (out ++ [((blk.takeWhile fun v => !(v == 1)).length : ℚ)]) fuel
          (fun s hs => hne s (by simp [hs])) (by
            rw [hrest]; simp [Nat.add_assoc]) (by
            have : blk.length > 0 := List.length_pos_iff.mpr hblk
            simp at hf; omega)
        simp only [List.append_assoc, List.length_append] at hrec ⊢
        rw [Nat.add_assoc]
        rw [hrec]
        simp
      | cons v ns ihn =>
        intro done out fuel hd hf
        obtain ⟨fuel, rfl⟩ : ∃ f, fuel = f + 1 := ⟨fuel - 1, by omega⟩
        have hget : (pre ++ (nums ++ (blk ++ rowOf todo trailing)))[pre.length + done.length]? = some v := by
          rw [hd]; simp
        have hnin : (List.range' (pre.length + nums.length) blk.length).contains
            (pre.length + done.length) = false := by
          have : done.length < nums.length := by rw [hd]; simp
          simp [List.mem_range'_1]
          omega
        unfold oneHotLoop
        simp only [hget, hcat, hnin, Bool.false_eq_true, if_false]
        have hrec := ihn (done ++ [v]) (out ++ [v]) fuel (by rw [hd]; simp) (by
          simp only [List.length_cons] at hf; omega)
        simp only [List.length_append, List.length_singleton] at hrec
        rw [Nat.add_assoc, hrec]
        simp
    have := step nums [] out fuel (by simp) hf
    simp only [List.length_nil, Nat.add_zero] at this
    rw [this]
    simp [decode]

/-- C60, non-vacuity: two ordinary cells, a block, one cell, a block. -/
example : oneHot (catsOf 0 [([5, 6], [0, 1, 0]), ([7], [0, 0])]) [5, 6, 0, 1, 0, 7, 0, 0] 10 =
    some (.ok [5, 6, 1, 7, 2]) := by decide +kernel

end Verif.Transform
