import Verif.Buffers.Props
import Mathlib.Data.List.Induction
import Mathlib.Algebra.BigOperators.Group.Finset.Basic
import Mathlib.Algebra.BigOperators.Intervals

/-!
Model of `MOLConfusionMatrix` (`utils/data_structures.py`), of
`MultiTargetClassificationMeasurements` and `WindowMultiTargetClassificationMeasurements` and of
`hamming_score`, `j_index`, `exact_match` (`metrics/measure_collection.py`); C103, C104.

Simplifications: a result is a list of (true, predicted) pairs of integers (the two arrays
have the same length); the matrix is a function with its number of targets;
`FastComplexBuffer` is only given one row at a time, for which its code is that of
`FastBuffer`.
-/

namespace Verif.LegacyMulti

open Verif.Buffers

/-- `MOLConfusionMatrix`, data_structures.py 624-632. -/
structure MOL where
  n : Nat
  val : Nat → Int → Int → ℚ

/-- Constructor and `restart`. -/
def MOL.init (n : Nat) : MOL := ⟨n, fun _ _ _ => 0⟩

/-- `_update`, lines 642-644, weight 1. -/
def MOL.bump (c : MOL) (i : Nat) (t p : Int) : MOL :=
  { c with val := fun a b d => if a = i ∧ b = t ∧ d = p then c.val a b d + 1 else c.val a b d }

/-- `reshape(target, 2, 2)`, lines 727-737. -/
def MOL.reshape (c : MOL) (m : Nat) : MOL :=
  if c.n + 1 < m then c else ⟨m, fun a b d => if a < c.n then c.val a b d else 0⟩

/-- `update`, lines 646-689. -/
def MOL.update (c : MOL) (i : Nat) (t p : Int) : MOL :=
  if i < c.n ∧ t < 2 ∧ 0 ≤ t ∧ p < 2 ∧ 0 ≤ p then c.bump i t p
  else if t > 1 ∨ t < 0 ∨ p > 1 ∨ p < 0 then c
  else if c.n < i then c
  else (c.reshape (i + 1)).bump i t p

/-- `remove(target, true, pred)`, lines 691-725; a missing argument returns `False`. -/
def MOL.remove (c : MOL) (i : Int) (t : Int) (p : Option Int) : MOL :=
  match p with
  | none => c
  | some p =>
    if i ≤ c.n ∧ 0 ≤ i ∧ t ≤ 2 ∧ 0 ≤ t ∧ 0 ≤ p ∧ p ≤ 2 then
      { c with val := fun a b d => if (a : Int) = i ∧ b = t ∧ d = p then c.val a b d - 1 else c.val a b d }
    else c

/-- `get_sum_main_diagonal`, lines 812-828. -/
def MOL.diag (c : MOL) : ℚ := ∑ i ∈ Finset.range c.n, (c.val i 0 0 + c.val i 1 1)

/-- `get_total_sum`, lines 830-839. -/
def MOL.total (c : MOL) : ℚ :=
  ∑ i ∈ Finset.range c.n, (c.val i 0 0 + c.val i 0 1 + c.val i 1 0 + c.val i 1 1)

/-- The loop over the targets of one result, starting at target `k`. -/
def MOL.addRow (c : MOL) (k : Nat) : List (Int × Int) → MOL
  | [] => c
  | (t, p) :: row => (c.update k t p).addRow (k + 1) row

/-- Evaluator, measure_collection.py 741-755. -/
structure Eval where
  cm : MOL
  nT : Nat
  count : Nat
  exact : Nat
  jsum : ℚ

/-- Constructor and `reset`. -/
def Eval.init (n : Nat) : Eval := ⟨.init n, n, 0, 0, 0⟩

/-- The Jaccard increment, lines 805-810 and 1650-1655. -/
def jInc (row : List (Int × Int)) : ℚ :=
  let inter : ℚ := (row.countP fun q => q.1 * q.2 > 0 : Nat)
  let union : ℚ := (row.countP fun q => q.1 + q.2 > 0 : Nat)
  if union > 0 then inter / union else if (row.map Prod.fst).sum = 0 then 1 else 0

/-- `add_result`, lines 769-812. -/
def Eval.add (e : Eval) (row : List (Int × Int)) : Eval :=
  ⟨e.cm.addRow 0 row, row.length, e.count + 1,
    if row.all fun q => q.1 = q.2 then e.exact + 1 else e.exact, e.jsum + jInc row⟩

/-- `get_hamming_score`, lines 829-842 (0/0 is `nan`). -/
def Eval.hamming (e : Eval) : Option ℚ :=
  if e.count * e.nT = 0 then none else some (e.cm.diag / (e.count * e.nT : Nat))

/-- `get_exact_match`, line 857 (`ZeroDivisionError` without samples). -/
def Eval.exactMatch (e : Eval) : Except PyErr ℚ :=
  if e.count = 0 then .error .zeroDivision else .ok (e.exact / e.count)

/-- `get_j_index`, line 870. -/
def Eval.jIndex (e : Eval) : Except PyErr ℚ :=
  if e.count = 0 then .error .zeroDivision else .ok (e.jsum / e.count)

/-- Windowed evaluator, lines 924-941. -/
structure Win where
  cm : MOL
  nT : Nat
  trues : FastBuffer (List Int)
  preds : FastBuffer (List Int)

/-- Constructor. -/
def Win.init (n w : Nat) : Win := ⟨.init n, n, .init w, .init w⟩

/-- Lines 987-988: `remove(old_true[0][i], old_predict[0][i])` lacks an argument. -/
def removeRow (c : MOL) (oldT oldP : List Int) : MOL :=
  (oldT.zip oldP).foldl (fun c q => c.remove q.1 q.2 none) c

/-- `add_result`, lines 956-988. -/
def Win.add (e : Win) (row : List (Int × Int)) : Win :=
  let c := e.cm.addRow 0 row
  let (oldT, trues) := e.trues.addElement [row.map Prod.fst]
  let (oldP, preds) := e.preds.addElement [row.map Prod.snd]
  let c := match oldT, oldP with
    | some (some a :: _), some (some b :: _) => removeRow c a b
    | _, _ => c
  ⟨c, row.length, trues, preds⟩

/-- The two queues read side by side. -/
def rowsOf (e : Win) : List (List (Int × Int)) := (e.trues.getQueue.zip e.preds.getQueue).map fun q => q.1.zip q.2

/-- `hamming_score`, lines 1576-1610, on rows of width `m`. -/
def hammingScore (m : Nat) (rows : List (List (Int × Int))) : ℚ :=
  (rows.map fun row => ((row.countP fun q => q.1 = q.2 : Nat) : ℚ)).sum / rows.length / m

/-- `j_index`, lines 1613-1656. -/
def jScore (rows : List (List (Int × Int))) : ℚ := (rows.map jInc).sum / rows.length

/-- `exact_match`, lines 1659-1692. -/
def exactScore (m : Nat) (rows : List (List (Int × Int))) : ℚ :=
  ((rows.countP fun row => row.countP (fun q => q.1 = q.2) = m : Nat) : ℚ) / rows.length

/-! ### Specification -/

/-- Binary labels. -/
def Binary (row : List (Int × Int)) : Prop := ∀ q ∈ row, (q.1 = 0 ∨ q.1 = 1) ∧ (q.2 = 0 ∨ q.2 = 1)

/-- Number of targets predicted right. -/
def right (row : List (Int × Int)) : Nat := row.countP fun q => q.1 = q.2

/-- Jaccard index of the sets of targets with label 1: 1 when both are empty. -/
def jaccard (row : List (Int × Int)) : ℚ :=
  if (∀ q ∈ row, q.1 = 0 ∧ q.2 = 0) then 1
  else ((row.countP fun q => q.1 = 1 ∧ q.2 = 1 : Nat) : ℚ) / (row.countP fun q => q.1 = 1 ∨ q.2 = 1 : Nat)

theorem jInc_eq (row : List (Int × Int)) (hb : Binary row) : jInc row = jaccard row := by
  have e1 : row.countP (fun q => q.1 * q.2 > 0) = row.countP fun q => q.1 = 1 ∧ q.2 = 1 := by
    apply List.countP_congr
    intro q hq
    obtain ⟨h1 | h1, h2 | h2⟩ := hb q hq <;> simp [h1, h2]
  have e2 : row.countP (fun q => q.1 + q.2 > 0) = row.countP fun q => q.1 = 1 ∨ q.2 = 1 := by
    apply List.countP_congr
    intro q hq
    obtain ⟨h1 | h1, h2 | h2⟩ := hb q hq <;> simp [h1, h2]
  unfold jInc jaccard
  simp only [e1, e2]
  by_cases h0 : ∀ q ∈ row, q.1 = 0 ∧ q.2 = 0
  · have : row.countP (fun q => q.1 = 1 ∨ q.2 = 1) = 0 := by
      rw [List.countP_eq_zero]
      intro q hq
      obtain ⟨h1, h2⟩ := h0 q hq
      simp [h1, h2]
    have hs : (row.map Prod.fst).sum = 0 := by
      have : row.map Prod.fst = row.map fun _ => (0 : Int) := List.map_congr_left fun q hq => (h0 q hq).1
      rw [this]; simp
    rw [this, if_pos h0, if_neg (by simp), if_pos hs]
  · rw [if_neg h0, if_pos]
    have : 0 < row.countP (fun q => q.1 = 1 ∨ q.2 = 1) := by
      rw [List.countP_pos_iff]
      by_contra hc
      apply h0
      intro q hq
      have hn : ¬ (q.1 = 1 ∨ q.2 = 1) := fun h => hc ⟨q, hq, by simpa using h⟩
      obtain ⟨h1 | h1, h2 | h2⟩ := hb q hq
      · exact ⟨h1, h2⟩
      · exact absurd (.inr h2) hn
      · exact absurd (.inl h1) hn
      · exact absurd (.inl h1) hn
    exact_mod_cast this

/-- Nothing outside the matrix. -/
def Z (c : MOL) : Prop := ∀ i, c.n ≤ i → ∀ a b, c.val i a b = 0

theorem update_spec (c : MOL) (hz : Z c) (k : Nat) (hk : k ≤ c.n) (t p : Int) (ht : t = 0 ∨ t = 1) (hp : p = 0 ∨ p = 1) :
    (c.update k t p).n = max c.n (k + 1) ∧ Z (c.update k t p) ∧
    (∀ i a b, (c.update k t p).val i a b = c.val i a b + if i = k ∧ a = t ∧ b = p then 1 else 0) := by
  have hr : t < 2 ∧ 0 ≤ t ∧ p < 2 ∧ 0 ≤ p := by omega
  unfold MOL.update
  by_cases hlt : k < c.n
  · rw [if_pos ⟨hlt, hr⟩]
    refine ⟨by simp only [MOL.bump]; omega, ?_, ?_⟩
    · intro i hi a b
      have hi' : c.n ≤ i := hi
      show (if i = k ∧ a = t ∧ b = p then _ else c.val i a b) = 0
      rw [if_neg (by omega), hz i hi']
    · intro i a b
      show (if i = k ∧ a = t ∧ b = p then c.val i a b + 1 else c.val i a b) = _
      split_ifs <;> simp
  · have hkn : k = c.n := by omega
    rw [if_neg (by tauto), if_neg (by omega), if_neg (by omega), MOL.reshape, if_neg (by omega)]
    refine ⟨by simp only [MOL.bump]; omega, ?_, ?_⟩
    · intro i hi a b
      have hi' : k + 1 ≤ i := hi
      show (if i = k ∧ a = t ∧ b = p then _ else if i < c.n then c.val i a b else 0) = 0
      rw [if_neg (by omega), if_neg (by omega)]
    · intro i a b
      show (if i = k ∧ a = t ∧ b = p then (if i < c.n then c.val i a b else 0) + 1 else if i < c.n then c.val i a b else 0) = _
      have : (if i < c.n then c.val i a b else 0) = c.val i a b := by
        by_cases h : i < c.n
        · rw [if_pos h]
        · rw [if_neg h, hz i (by omega)]
      rw [this]
      split_ifs <;> simp

theorem addRow_spec (row : List (Int × Int)) (hb : Binary row) (c : MOL) (hz : Z c) (k : Nat) (hk : k ≤ c.n) :
    (c.addRow k row).n = max c.n (k + row.length) ∧ Z (c.addRow k row) ∧
    (∀ i a b, (c.addRow k row).val i a b = c.val i a b + if k ≤ i ∧ row[i - k]? = some (a, b) then 1 else 0) := by
  induction row generalizing c k with
  | nil => exact ⟨by simp [MOL.addRow, hk], hz, fun i a b => by simp [MOL.addRow]⟩
  | cons q row ih =>
    obtain ⟨t, p⟩ := q
    obtain ⟨ht, hp⟩ := hb (t, p) (by simp)
    obtain ⟨u1, u2, u3⟩ := update_spec c hz k hk t p ht hp
    obtain ⟨v1, v2, v3⟩ := ih (fun q hq => hb q (by simp [hq])) (c.update k t p) u2 (k + 1) (by omega)
    rw [MOL.addRow]
    refine ⟨by rw [v1, u1, List.length_cons]; omega, v2, ?_⟩
    intro i a b
    rw [v3, u3, add_assoc]
    congr 1
    rcases lt_trichotomy i k with h | h | h
    · rw [if_neg (by omega), if_neg (by omega), if_neg (by omega)]; simp
    · subst h
      rw [Nat.sub_self, List.getElem?_cons_zero]
      rw [if_neg (by omega : ¬ (i + 1 ≤ i ∧ _)), add_zero]
      by_cases e : a = t ∧ b = p
      · rw [if_pos ⟨rfl, e⟩, if_pos ⟨le_refl _, by rw [e.1, e.2]⟩]
      · rw [if_neg (by tauto), if_neg]
        rintro ⟨-, h'⟩
        simp only [Option.some.injEq, Prod.mk.injEq] at h'
        exact e ⟨h'.1.symm, h'.2.symm⟩
    · obtain ⟨d, rfl⟩ : ∃ d, i = k + 1 + d := ⟨i - (k + 1), by omega⟩
      rw [if_neg (by omega : ¬ (k + 1 + d = k ∧ _)), zero_add, show k + 1 + d - (k + 1) = d by omega,
        show k + 1 + d - k = d + 1 by omega, List.getElem?_cons_succ]
      by_cases e : row[d]? = some (a, b)
      · rw [if_pos ⟨by omega, e⟩, if_pos ⟨by omega, e⟩]
      · rw [if_neg (by tauto), if_neg (by tauto)]

/-- Sum over positions of a row. -/
theorem sum_positions (row : List (Int × Int)) (N : Nat) (hN : row.length ≤ N) (p : Int × Int → Bool) :
    ∑ i ∈ Finset.range N, ((match row[i]? with | some q => if p q then (1 : ℚ) else 0 | none => 0) : ℚ) = ((row.countP p : Nat) : ℚ) := by
  induction row generalizing N with
  | nil => simp
  | cons q row ih =>
    obtain ⟨M, rfl⟩ : ∃ M, N = M + 1 := ⟨N - 1, by simp at hN; omega⟩
    rw [Finset.sum_range_succ']
    simp only [List.getElem?_cons_succ, List.getElem?_cons_zero]
    rw [ih M (by simpa using hN), List.countP_cons]
    push_cast
    rfl

/-- What the sums gain. -/
theorem addRow_sums (row : List (Int × Int)) (hb : Binary row) (c : MOL) (hz : Z c) :
    (c.addRow 0 row).diag = c.diag + (right row : Nat) ∧ (c.addRow 0 row).total = c.total + (row.length : Nat) := by
  obtain ⟨v1, v2, v3⟩ := addRow_spec row hb c hz 0 (Nat.zero_le _)
  have hle : row.length ≤ (c.addRow 0 row).n := by rw [v1]; omega
  have old : ∀ f : (Int → Int → ℚ) → ℚ, f (fun _ _ => 0) = 0 →
      ∑ i ∈ Finset.range (c.addRow 0 row).n, f (c.val i) = ∑ i ∈ Finset.range c.n, f (c.val i) := by
    intro f hf
    rw [v1]
    symm
    apply Finset.sum_subset
    · intro i hi
      simp only [Finset.mem_range] at hi ⊢
      omega
    · intro i _ hi
      simp only [Finset.mem_range, not_lt] at hi
      have : c.val i = fun _ _ => 0 := by funext a b; exact hz i hi a b
      rw [this, hf]
  have hv : ∀ i a b, (c.addRow 0 row).val i a b = c.val i a b + if row[i]? = some (a, b) then 1 else 0 := by
    intro i a b
    rw [v3]
    simp
  constructor
  · unfold MOL.diag
    rw [← old (fun v => v 0 0 + v 1 1) (by simp), right, ← sum_positions row _ hle (fun q => q.1 = q.2), ← Finset.sum_add_distrib]
    apply Finset.sum_congr rfl
    intro i _
    rw [hv, hv]
    cases e : row[i]? with
    | none => simp
    | some q =>
      obtain ⟨t, p⟩ := q
      obtain ⟨h1, h2⟩ := hb (t, p) (List.mem_of_getElem? e)
      simp only at h1 h2
      rcases h1 with rfl | rfl <;> rcases h2 with rfl | rfl <;> simp <;> ring
  · unfold MOL.total
    have hlen : ((row.length : Nat) : ℚ) = ((row.countP fun _ => true : Nat) : ℚ) := by simp
    rw [← old (fun v => v 0 0 + v 0 1 + v 1 0 + v 1 1) (by simp), hlen, ← sum_positions row _ hle (fun _ => true), ← Finset.sum_add_distrib]
    apply Finset.sum_congr rfl
    intro i _
    rw [hv, hv, hv, hv]
    cases e : row[i]? with
    | none => simp
    | some q =>
      obtain ⟨t, p⟩ := q
      obtain ⟨h1, h2⟩ := hb (t, p) (List.mem_of_getElem? e)
      simp only at h1 h2
      rcases h1 with rfl | rfl <;> rcases h2 with rfl | rfl <;> simp <;> ring

/-- C103: after any non-empty sequence of binary results of `m` targets, whatever number of
targets was declared, the matrix counts for each target every pair of labels; the Hamming score
is the share of targets predicted right, the exact match the share of samples entirely right,
the Jaccard index the mean over samples of the overlap of the label sets (1 when both are
empty). -/
theorem C103_scores (n0 m : Nat) (hm : 1 ≤ m) (h : List (List (Int × Int))) (hh : h ≠ [])
    (hr : ∀ row ∈ h, Binary row ∧ row.length = m) :
    let e := h.foldl Eval.add (.init n0)
    (∀ i a b, e.cm.val i a b = (h.countP fun row => row[i]? = some (a, b) : Nat)) ∧
    e.cm.total = (h.length * m : Nat) ∧
    e.hamming = some ((((h.map right).sum : Nat) : ℚ) / ((h.length * m : Nat) : ℚ)) ∧
    e.exactMatch = .ok ((h.countP fun row => ∀ q ∈ row, q.1 = q.2 : Nat) / (h.length : ℚ)) ∧
    e.jIndex = .ok ((h.map jaccard).sum / (h.length : ℚ)) := by
  suffices H : Z (h.foldl Eval.add (.init n0)).cm ∧
      (∀ i a b, (h.foldl Eval.add (.init n0)).cm.val i a b = (h.countP fun row => row[i]? = some (a, b) : Nat)) ∧
      (h.foldl Eval.add (.init n0)).cm.diag = ((h.map right).sum : Nat) ∧
      (h.foldl Eval.add (.init n0)).cm.total = (h.length * m : Nat) ∧
      (h.foldl Eval.add (.init n0)).count = h.length ∧ (h ≠ [] → (h.foldl Eval.add (.init n0)).nT = m) ∧
      (h.foldl Eval.add (.init n0)).exact = (h.countP fun row => ∀ q ∈ row, q.1 = q.2) ∧
      (h.foldl Eval.add (.init n0)).jsum = (h.map jaccard).sum by
    obtain ⟨-, a1, a2, a3, a4, a5, a6, a7⟩ := H
    have hc : (h.foldl Eval.add (.init n0)).count ≠ 0 := by rw [a4]; simpa using hh
    refine ⟨a1, a3, ?_, ?_, ?_⟩
    · rw [Eval.hamming, a5 hh, if_neg, a2, a4]
      exact Nat.mul_ne_zero hc (by omega)
    · rw [Eval.exactMatch, if_neg hc, a6, a4]
    · rw [Eval.jIndex, if_neg hc, a7, a4]
  clear hh
  induction h using List.reverseRecOn with
  | nil => 
    refine ⟨fun i _ a b => rfl, fun i a b => by simp [Eval.init, MOL.init], ?_, ?_, rfl, fun h => absurd rfl h, rfl, rfl⟩
    · simp [Eval.init, MOL.init, MOL.diag]
    · simp [Eval.init, MOL.init, MOL.total]
  | append_singleton h row ih =>
    obtain ⟨z, a1, a2, a3, a4, -, a6, a7⟩ := ih fun r hr' => hr r (by simp [hr'])
    obtain ⟨hb, hl⟩ := hr row (by simp)
    rw [List.foldl_append, List.foldl_cons, List.foldl_nil]
    set e := h.foldl Eval.add (.init n0)
    obtain ⟨v1, v2, v3⟩ := addRow_spec row hb e.cm z 0 (Nat.zero_le _)
    obtain ⟨d1, d2⟩ := addRow_sums row hb e.cm z
    refine ⟨v2, ?_, ?_, ?_, ?_, fun _ => hl, ?_, ?_⟩
    · intro i a b
      show (e.cm.addRow 0 row).val i a b = _
      rw [v3, a1, List.countP_append, List.countP_singleton]
      by_cases h1 : row[i]? = some (a, b) <;> simp [h1]
    · show (e.cm.addRow 0 row).diag = _
      rw [d1, a2, List.map_append, List.sum_append]
      simp
    · show (e.cm.addRow 0 row).total = _
      rw [d2, a3, hl, List.length_append, List.length_singleton]
      push_cast; ring
    · show e.count + 1 = _
      rw [a4]; simp
    · show (if row.all (fun q => q.1 = q.2) then e.exact + 1 else e.exact) = _
      rw [a6, List.countP_append, List.countP_singleton]
      by_cases h1 : ∀ q ∈ row, q.1 = q.2
      · rw [if_pos (by simpa using h1), if_pos (by simpa using h1)]
      · rw [if_neg (by simpa using h1), if_neg (by simpa using h1), Nat.add_zero]
    · show e.jsum + jInc row = _
      rw [a7, jInc_eq row hb, List.map_append, List.sum_append]
      simp

/-- C104: the scores of the windowed evaluator are those of the last `window_size` results. -/
theorem C104_scores_partial (n0 w m : Nat) (hw : 1 ≤ w) (hm : 1 ≤ m) (h : List (List (Int × Int)))
    (hr : ∀ row ∈ h, Binary row ∧ row.length = m) :
    rowsOf (h.foldl Win.add (.init n0 w)) = lastN w h ∧
    hammingScore m (lastN w h) = (((lastN w h).map right).sum : Nat) / ((lastN w h).length * m : Nat) ∧
    exactScore m (lastN w h) = ((lastN w h).countP fun row => ∀ q ∈ row, q.1 = q.2 : Nat) / ((lastN w h).length : ℚ) ∧
    jScore (lastN w h) = ((lastN w h).map jaccard).sum / ((lastN w h).length : ℚ) := by
  have hr' : ∀ row ∈ lastN w h, Binary row ∧ row.length = m := fun row hrow => hr row ((lastN_suffix w h).subset hrow)
  refine ⟨?_, ?_, ?_, ?_⟩
  · have H : (h.foldl Win.add (.init n0 w)).trues = ⟨w, (lastN w (h.map (·.map Prod.fst))).length, lastN w (h.map (·.map Prod.fst))⟩ ∧
        (h.foldl Win.add (.init n0 w)).preds = ⟨w, (lastN w (h.map (·.map Prod.snd))).length, lastN w (h.map (·.map Prod.snd))⟩ := by
      clear hr hr'
      induction h using List.reverseRecOn with
      | nil => simp [Win.init, FastBuffer.init]
      | append_singleton h row ih =>
        rw [List.foldl_append, List.foldl_cons, List.foldl_nil]
        set e := h.foldl Win.add (.init n0 w)
        have e1 : (e.add row).trues = (e.trues.addElement [row.map Prod.fst]).2 := rfl
        have e2 : (e.add row).preds = (e.preds.addElement [row.map Prod.snd]).2 := rfl
        rw [e1, e2, ih.1, ih.2, addElement_single w hw, addElement_single w hw, List.map_append, List.map_append]
        exact ⟨rfl, rfl⟩
    rw [rowsOf, FastBuffer.getQueue, FastBuffer.getQueue, H.1, H.2]
    have : ∀ l : List (List (Int × Int)),
        ((l.map (·.map Prod.fst)).zip (l.map (·.map Prod.snd))).map (fun q => q.1.zip q.2) = l := by
      intro l
      induction l with
      | nil => rfl
      | cons r l ih =>
        simp only [List.map_cons, List.zip_cons_cons, ih]
        congr 1
        rw [List.zip_map', List.map_id'']
        intro q; rfl
    simp only [lastN, List.length_map, ← List.map_drop]
    exact this _
  · unfold hammingScore
    have : ((lastN w h).map fun row => ((row.countP fun q => q.1 = q.2 : Nat) : ℚ)).sum = (((lastN w h).map right).sum : Nat) := by
      generalize lastN w h = l
      induction l with
      | nil => simp
      | cons a l ih => rw [List.map_cons, List.sum_cons, ih, List.map_cons, List.sum_cons]; push_cast; rfl
    rw [this, div_div]
    push_cast
    rfl
  · unfold exactScore
    congr 2
    apply List.countP_congr
    intro row hrow
    obtain ⟨-, hl⟩ := hr' row hrow
    simp only [decide_eq_true_eq]
    rw [← hl, List.countP_eq_length]
    simp
  · unfold jScore
    congr 2
    exact List.map_congr_left fun row hrow => jInc_eq row (hr' row hrow).1

/-- C104: but its confusion matrix never forgets: `get_total_sum` grows with every result,
however small the window. -/
theorem C104_matrix_violated (n0 w m : Nat) (h : List (List (Int × Int)))
    (hr : ∀ row ∈ h, Binary row ∧ row.length = m) :
    (h.foldl Win.add (.init n0 w)).cm.total = (h.length * m : Nat) := by
  suffices H : Z (h.foldl Win.add (.init n0 w)).cm ∧ (h.foldl Win.add (.init n0 w)).cm.total = (h.length * m : Nat) from H.2
  induction h using List.reverseRecOn with
  | nil => exact ⟨fun i _ a b => rfl, by simp [Win.init, MOL.init, MOL.total]⟩
  | append_singleton h row ih =>
    obtain ⟨z, a⟩ := ih fun r hr' => hr r (by simp [hr'])
    obtain ⟨hb, hl⟩ := hr row (by simp)
    rw [List.foldl_append, List.foldl_cons, List.foldl_nil]
    set e := h.foldl Win.add (.init n0 w)
    have hc : (e.add row).cm = e.cm.addRow 0 row := by
      have hrem : ∀ (c : MOL) (a b : List Int), removeRow c a b = c := by
        intro c a b
        unfold removeRow
        generalize a.zip b = l
        induction l with
        | nil => rfl
        | cons q l ih => rw [List.foldl_cons]; exact ih
      unfold Win.add
      simp only [hrem]
      split <;> rfl
    obtain ⟨-, d2⟩ := addRow_sums row hb e.cm z
    rw [hc]
    refine ⟨(addRow_spec row hb e.cm z 0 (Nat.zero_le _)).2.1, ?_⟩
    rw [d2, a, hl, List.length_append, List.length_singleton]
    push_cast; ring

example : Binary [(0, 1), (1, 1)] ∧ jaccard [(0, 1), (1, 1)] = 1 / 2 ∧ right [(0, 1), (1, 1)] = 1 := by
  refine ⟨?_, by decide +kernel, by decide⟩
  intro q hq
  simp only [List.mem_cons, List.not_mem_nil, or_false] at hq
  rcases hq with rfl | rfl <;> simp

end Verif.LegacyMulti
