import Verif.Transform.Props
import Mathlib.Tactic.FieldSimp
import Mathlib.Data.List.Induction

/-! C311: what the missing-value cleaner puts in the place of NaN with a windowed strategy. -/

namespace Verif.Transform

open Verif.Buffers

variable {c : Nat}

/-! ### Specification -/

/-- What is known of the mean and the median of a column that ignore NaN: without a number the result is NaN, otherwise it is a
number between any bounds of the numbers. -/
def Central (stat : List Cell → Cell) : Prop :=
  ∀ col, ((∀ x ∈ col, x = none) → stat col = none) ∧
    ((∃ v, some v ∈ col) → ∃ q, stat col = some q ∧
      ∀ lo hi, (∀ v, some v ∈ col → lo ≤ v ∧ v ≤ hi) → lo ≤ q ∧ q ≤ hi)

/-- What a new cleaner with a windowed strategy and `missing_value=nan` returns for the rows. -/
def cleaned (stat : List Cell → Cell) (newValue : Cell) (n : Nat) (rows : List (Fin c → Cell)) : List (Fin c → Cell) :=
  (clean (.windowed stat) [] newValue (FastBuffer.init n) rows).2

/-- The outputs of several calls after one another. -/
def cleanCalls (stat : List Cell → Cell) (newValue : Cell) :
    FastBuffer (Fin c → Cell) → List (List (Fin c → Cell)) → List (Fin c → Cell)
  | _, [] => []
  | w, X :: rest => (clean (.windowed stat) [] newValue w X).2 ++ cleanCalls stat newValue (clean (.windowed stat) [] newValue w X).1 rest

/-- A row with every column in another unit and from another zero; NaN stays NaN. -/
def cellsIn (a b : Fin c → ℚ) (row : Fin c → Cell) : Fin c → Cell := fun j => (row j).map fun v => a j * v + b j

/-! ### Proofs -/

private theorem cleaned_eq (stat : List Cell → Cell) (nv : Cell) (n : Nat) (hn : 1 ≤ n) (rows : List (Fin c → Cell)) :
    cleaned stat nv n rows = cleanSpec (.windowed stat) [] nv n [] rows := by
  rw [← C29_only_missing_replaced _ _ _ _ hn]
  unfold cleaned holding lastN FastBuffer.init
  simp

private theorem spec_append (stat : List Cell → Cell) (nv : Cell) (n : Nat) (a b hist : List (Fin c → Cell)) :
    cleanSpec (.windowed stat) [] nv n hist (a ++ b)
      = cleanSpec (.windowed stat) [] nv n hist a
        ++ cleanSpec (.windowed stat) [] nv n (hist ++ cleanSpec (.windowed stat) [] nv n hist a) b := by
  induction a generalizing hist with
  | nil => simp [cleanSpec]
  | cons r a ih =>
    simp only [List.cons_append, cleanSpec, ih, List.append_assoc, List.nil_append]

private theorem mem_lastN {α : Type} {k : Nat} {l : List α} {x : α} (h : x ∈ lastN k l) : x ∈ l := by
  unfold lastN at h
  exact List.mem_of_mem_drop h

private theorem missing_nil (v : Cell) : missing [] v = v.isNone := by
  cases v <;> simp [missing]

/-- The three facts on the outputs of a column. -/
private theorem column (stat : List Cell → Cell) (hstat : Central stat) (nv : Cell) (n : Nat) (j : Fin c) (rows hist : List (Fin c → Cell)) :
    (∀ lo hi, (∀ r ∈ hist ++ rows, ∀ v, r j = some v → lo ≤ v ∧ v ≤ hi) →
      ∀ r ∈ cleanSpec (.windowed stat) [] nv n hist rows, ∀ v, r j = some v → lo ≤ v ∧ v ≤ hi) ∧
    ((∀ r ∈ hist ++ rows, r j = none) → ∀ r ∈ cleanSpec (.windowed stat) [] nv n hist rows, r j = none) := by
  induction rows generalizing hist with
  | nil => exact ⟨fun _ _ _ r hr => by simp [cleanSpec] at hr, fun _ r hr => by simp [cleanSpec] at hr⟩
  | cons row rows ih =>
    simp only [cleanSpec, missing_nil, replacement]
    set out : Fin c → Cell := fun k => if (row k).isNone = true then stat ((lastN n (hist ++ [row])).map fun r => r k) else row k with hout
    have hwin : ∀ x ∈ (lastN n (hist ++ [row])).map (fun r => r j), ∃ r ∈ hist ++ row :: rows, r j = x := by
      intro x hx
      obtain ⟨r, hr, rfl⟩ := List.mem_map.1 hx
      have := mem_lastN hr
      refine ⟨r, ?_, rfl⟩
      simp only [List.mem_append, List.mem_cons, List.not_mem_nil, or_false] at this ⊢
      tauto
    constructor
    · intro lo hi hb
      have ho : ∀ v, out j = some v → lo ≤ v ∧ v ≤ hi := by
        intro v hv
        simp only [hout] at hv
        by_cases hm : (row j).isNone = true
        · rw [if_pos hm] at hv
          by_cases hk : ∃ v, some v ∈ (lastN n (hist ++ [row])).map fun r => r j
          · obtain ⟨q, hq, hq2⟩ := (hstat _).2 hk
            rw [hq] at hv
            cases hv
            refine hq2 lo hi ?_
            intro u hu
            obtain ⟨r, hr, hru⟩ := hwin _ hu
            exact hb r hr u hru
          · rw [(hstat _).1 (by
              intro x hx
              cases x with
              | none => rfl
              | some u => exact absurd ⟨u, hx⟩ hk)] at hv
            cases hv
        · rw [if_neg hm] at hv
          exact hb row (by simp) v hv
      intro r hr
      rcases List.mem_cons.1 hr with rfl | hr
      · exact ho
      · refine (ih (hist ++ [out])).1 lo hi ?_ r hr
        intro r' hr'
        simp only [List.mem_append, List.mem_cons, List.not_mem_nil, or_false] at hr'
        rcases hr' with (h | rfl) | h
        · exact hb r' (by simp [h])
        · exact ho
        · exact hb r' (by simp [h])
    · intro hall
      have ho : out j = none := by
        simp only [hout]
        rw [if_pos (by rw [hall row (by simp)]; rfl)]
        refine (hstat _).1 ?_
        intro x hx
        obtain ⟨r, hr, rfl⟩ := hwin _ hx
        exact hall r hr
      intro r hr
      rcases List.mem_cons.1 hr with rfl | hr
      · exact ho
      · refine (ih (hist ++ [out])).2 ?_ r hr
        intro r' hr'
        simp only [List.mem_append, List.mem_cons, List.not_mem_nil, or_false] at hr'
        rcases hr' with (h | rfl) | h
        · exact hall r' (by simp [h])
        · exact ho
        · exact hall r' (by simp [h])

/-- After a known cell a column stays known. -/
private theorem stays (stat : List Cell → Cell) (hstat : Central stat) (nv : Cell) (n : Nat) (hn : 2 ≤ n) (j : Fin c) (rows : List (Fin c → Cell)) :
    (∃ r ∈ rows, r j ≠ none) →
    ∃ r, (cleanSpec (.windowed stat) [] nv n [] rows).getLast? = some r ∧ r j ≠ none := by
  induction rows using List.reverseRecOn with
  | nil => rintro ⟨r, hr, -⟩; cases hr
  | append_singleton rows row ih =>
    intro hex
    rw [spec_append, List.nil_append]
    simp only [cleanSpec, List.getLast?_append, List.getLast?_singleton, Option.some_or, missing_nil, replacement]
    refine ⟨_, rfl, ?_⟩
    by_cases hm : (row j).isNone = true
    · simp only [hm, if_true]
      have hrow : row j = none := by simpa using hm
      obtain ⟨r, hr, hrj⟩ := ih (by
        obtain ⟨r, hr, hrj⟩ := hex
        rcases List.mem_append.1 hr with h | h
        · exact ⟨r, h, hrj⟩
        · rw [List.mem_singleton.1 h] at hrj; exact absurd hrow hrj)
      obtain ⟨init, hinit⟩ : ∃ init, cleanSpec (.windowed stat) [] nv n [] rows = init ++ [r] := by
        obtain ⟨ys, hys⟩ := List.getLast?_eq_some_iff.1 hr
        exact ⟨ys, hys⟩
      rw [hinit]
      obtain ⟨v, hv⟩ := Option.ne_none_iff_exists'.1 hrj
      have hmem : some v ∈ (lastN n (init ++ [r] ++ [row])).map fun r => r j := by
        refine List.mem_map.2 ⟨r, ?_, hv⟩
        unfold lastN
        rw [List.append_assoc, List.drop_append, List.mem_append]
        right
        have : (init ++ ([r] ++ [row])).length - n - init.length = 0 := by simp; omega
        rw [this]
        simp
      obtain ⟨q, hq, -⟩ := (hstat _).2 ⟨v, hmem⟩
      rw [hq]
      simp
    · intro h
      simp only [if_neg hm] at h
      simp [h] at hm

private theorem nanmean_map (a b : ℚ) (col : List Cell) :
    nanmean (col.map fun x => x.map fun v => a * v + b) = (nanmean col).map fun v => a * v + b := by
  have hf : (col.map fun x => x.map fun v => a * v + b).filterMap id = (col.filterMap id).map fun v => a * v + b := by
    induction col with
    | nil => rfl
    | cons x col ih => cases x <;> simpa using ih
  unfold nanmean
  rw [hf]
  cases hl : col.filterMap id with
  | nil => rfl
  | cons x l =>
    simp only [List.map_cons, Option.map_some, Option.some.injEq]
    have hs : ∀ l : List ℚ, (l.map fun v => a * v + b).sum = a * l.sum + l.length * b := by
      intro l
      induction l with
      | nil => simp
      | cons x l ih => simp only [List.map_cons, List.sum_cons, ih, List.length_cons]; push_cast; ring
    have h0 : ((x :: l).length : ℚ) ≠ 0 := by simp only [List.length_cons]; positivity
    rw [← List.map_cons (f := fun v => a * v + b)]
    unfold mean
    rw [hs, List.length_map]
    field_simp

/-! ### The property -/

/-- The mean is central. -/
theorem central_nanmean : Central nanmean := by
  intro col
  have hm : ∀ v, some v ∈ col ↔ v ∈ col.filterMap id := by intro v; simp
  constructor
  · intro h
    have : col.filterMap id = [] := by
      rw [List.filterMap_eq_nil_iff]
      intro x hx
      exact h x hx
    unfold nanmean
    rw [this]
  · rintro ⟨v, hv⟩
    unfold nanmean
    cases hl : col.filterMap id with
    | nil => rw [hm, hl] at hv; cases hv
    | cons x l =>
      refine ⟨_, rfl, ?_⟩
      intro lo hi hb
      have hb' : ∀ u ∈ x :: l, lo ≤ u ∧ u ≤ hi := by
        intro u hu
        exact hb u (by rw [hm, hl]; exact hu)
      have key : ∀ l : List ℚ, (∀ u ∈ l, lo ≤ u ∧ u ≤ hi) → lo * l.length ≤ l.sum ∧ l.sum ≤ hi * l.length := by
        intro l
        induction l with
        | nil => simp
        | cons y l ih =>
          intro h
          obtain ⟨h1, h2⟩ := ih fun u hu => h u (List.mem_cons_of_mem _ hu)
          obtain ⟨h3, h4⟩ := h y (by simp)
          simp only [List.sum_cons, List.length_cons]
          push_cast
          constructor <;> linarith
      have h0 : (0 : ℚ) < ((x :: l).length : ℚ) := by simp only [List.length_cons]; positivity
      obtain ⟨h1, h2⟩ := key _ hb'
      unfold mean
      exact ⟨(le_div_iff₀ h0).2 h1, (div_le_iff₀ h0).2 h2⟩

/-- **C311.**  Window of at least two rows.  A row that follows others is returned with its known cells unchanged (and what was returned before stays);
its cell in column `j` is a number exactly if some row so far has a number there, and lies between any bounds of those numbers. -/
theorem C311_filled (stat : List Cell → Cell) (hstat : Central stat) (nv : Cell) (n : Nat) (hn : 2 ≤ n) (rows : List (Fin c → Cell))
    (row : Fin c → Cell) : ∃ out : Fin c → Cell, cleaned stat nv n (rows ++ [row]) = cleaned stat nv n rows ++ [out] ∧ ∀ j,
    (∀ v, row j = some v → out j = some v) ∧
    (out j ≠ none ↔ ∃ r ∈ rows ++ [row], r j ≠ none) ∧
    ∀ lo hi, (∀ r ∈ rows ++ [row], ∀ v, r j = some v → lo ≤ v ∧ v ≤ hi) → ∀ q, out j = some q → lo ≤ q ∧ q ≤ hi := by
  have hn1 : 1 ≤ n := by omega
  obtain ⟨out, hout⟩ : ∃ out, out = fun j => if missing [] (row j) then
    replacement (.windowed stat) nv n (cleanSpec (.windowed stat) [] nv n [] rows) row j else row j := ⟨_, rfl⟩
  have happ : cleanSpec (.windowed stat) [] nv n [] (rows ++ [row]) = cleanSpec (.windowed stat) [] nv n [] rows ++ [out] := by
    rw [spec_append, List.nil_append]
    simp only [cleanSpec, hout]
  refine ⟨out, ?_, ?_⟩
  · rw [cleaned_eq _ _ _ hn1, cleaned_eq _ _ _ hn1, happ]
  · intro j
    obtain ⟨c1, c2⟩ := column stat hstat nv n j (rows ++ [row]) []
    rw [happ] at c1 c2
    refine ⟨?_, ⟨?_, ?_⟩, ?_⟩
    · intro v hv
      rw [hout]
      simp [hv, missing]
    · intro ho
      by_contra hno
      refine ho (c2 ?_ out (by simp))
      intro r hr
      by_contra hr'
      exact hno ⟨r, by simpa using hr, hr'⟩
    · intro hex
      obtain ⟨r, hr, hrj⟩ := stays stat hstat nv n hn j (rows ++ [row]) hex
      rw [happ] at hr
      simp only [List.getLast?_append, List.getLast?_singleton, Option.some_or, Option.some.injEq] at hr
      rw [hr]
      exact hrj
    · intro lo hi hb q hq
      exact c1 lo hi (by simpa using hb) out (by simp) q hq

/-- **C311.**  With a window of one row nothing is ever replaced. -/
theorem C311_window_one (stat : List Cell → Cell) (hstat : Central stat) (nv : Cell) (rows : List (Fin c → Cell)) :
    cleaned stat nv 1 rows = rows := by
  rw [cleaned_eq _ _ _ (le_refl _)]
  generalize ([] : List (Fin c → Cell)) = hist
  induction rows generalizing hist with
  | nil => rfl
  | cons row rows ih =>
    simp only [cleanSpec, ih, List.cons.injEq, and_true]
    funext j
    by_cases hm : missing [] (row j) = true
    · rw [if_pos hm]
      rw [missing_nil] at hm
      have hr : row j = none := by simpa using hm
      have hl : lastN 1 (hist ++ [row]) = [row] := by unfold lastN; simp
      simp only [replacement, hl, List.map_cons, List.map_nil, hr]
      exact (hstat _).1 (by simp)
    · rw [if_neg hm]

/-- **C311.**  With strategy `mean` and the columns in other units and from other zeros, the cleaned rows are the old ones in those units. -/
theorem C311_units (nv : Cell) (n : Nat) (hn : 1 ≤ n) (a b : Fin c → ℚ) (rows : List (Fin c → Cell)) :
    cleaned nanmean nv n (rows.map (cellsIn a b)) = (cleaned nanmean nv n rows).map (cellsIn a b) := by
  rw [cleaned_eq _ _ _ hn, cleaned_eq _ _ _ hn]
  have key : ∀ hist : List (Fin c → Cell), cleanSpec (.windowed nanmean) [] nv n (hist.map (cellsIn a b)) (rows.map (cellsIn a b))
      = (cleanSpec (.windowed nanmean) [] nv n hist rows).map (cellsIn a b) := by
    induction rows with
    | nil => intro hist; rfl
    | cons row rows ih =>
      intro hist
      have hout : (fun j => if missing [] (cellsIn a b row j) then
            replacement (.windowed nanmean) nv n (hist.map (cellsIn a b)) (cellsIn a b row) j else cellsIn a b row j)
          = cellsIn a b (fun j => if missing [] (row j) then replacement (.windowed nanmean) nv n hist row j else row j) := by
        funext j
        have hw : (lastN n (hist.map (cellsIn a b) ++ [cellsIn a b row])).map (fun r => r j)
            = ((lastN n (hist ++ [row])).map fun r => r j).map fun x => x.map fun v => a j * v + b j := by
          have : hist.map (cellsIn a b) ++ [cellsIn a b row] = (hist ++ [row]).map (cellsIn a b) := by simp
          rw [this]
          unfold lastN
          rw [List.length_map, ← List.map_drop, List.map_map, List.map_map]
          rfl
        simp only [missing_nil, replacement, hw, nanmean_map]
        cases hr : row j with
        | none => simp [cellsIn, hr]
        | some v => simp [cellsIn, hr]
      simp only [List.map_cons, cleanSpec, hout]
      rw [← ih]
      simp
  exact key []

/-- **C311.**  It does not matter how the rows are divided over calls. -/
theorem C311_calls (stat : List Cell → Cell) (nv : Cell) (n : Nat) (Xs : List (List (Fin c → Cell))) :
    cleanCalls stat nv (FastBuffer.init n) Xs = cleaned stat nv n Xs.flatten := by
  unfold cleaned
  generalize FastBuffer.init n = w
  have happ : ∀ (a b : List (Fin c → Cell)) (w : FastBuffer (Fin c → Cell)), (clean (.windowed stat) [] nv w (a ++ b)).2
      = (clean (.windowed stat) [] nv w a).2 ++ (clean (.windowed stat) [] nv (clean (.windowed stat) [] nv w a).1 b).2 := by
    intro a
    induction a with
    | nil => intro b w; rfl
    | cons r a ih => intro b w; simp only [List.cons_append, clean, ih]
  induction Xs generalizing w with
  | nil => rfl
  | cons X Xs ih => simp only [cleanCalls, List.flatten_cons, happ, ih]

/-- Non-vacuity: NaN before the first number, and after the numbers 4 and 8 (window of two rows). -/
example : ((cleaned (c := 1) nanmean (some 1) 2 [fun _ => none, fun _ => some 4, fun _ => none, fun _ => some 8, fun _ => none]).map
    fun r => r 0) = [none, some 4, some 4, some 8, some 8] := by decide +kernel

end Verif.Transform
