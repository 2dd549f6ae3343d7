import Verif.Common
import Mathlib.Data.List.Induction

/-!
Model of the output file buffering of `evaluation/base_evaluator.py`
(`_update_file` 606-649 from the finished line on, `_flush_file_buffer` 651-656), and C28.

Simplifications: text is a list of characters; `sys.getsizeof(line)` is any
positive function of the line; the `output_file is None` case (nothing is
written or buffered) is left out; writes succeed.
-/

namespace Verif.Evaluation.File

/-- The file and the buffer fields, lines 57-58. -/
structure FB where
  file : List Char
  buf : List Char
  size : Nat

/-- `_flush_file_buffer`, lines 651-656. -/
def flush (s : FB) : FB :=
  if s.size > 0 then ⟨s.file ++ s.buf, [], 0⟩ else s

/-- End of `_update_file`, lines 643-649; `limit` is `io.DEFAULT_BUFFER_SIZE`. -/
def update (getsizeof : List Char → Nat) (limit : Nat) (s : FB) (line : List Char) : FB :=
  let line := '\n' :: line
  let s := if getsizeof line + s.size > limit then flush s else s
  ⟨s.file, s.buf ++ line, s.size + getsizeof line⟩

/-- An evaluation: lines are reported one by one, then the buffer is flushed
(evaluate_prequential.py 384, evaluate_holdout.py 338, evaluate_prequential_delayed.py 486). -/
def report (getsizeof : List Char → Nat) (limit : Nat) (header : List Char) (lines : List (List Char)) :
    FB :=
  flush (lines.foldl (update getsizeof limit) ⟨header, [], 0⟩)

/-- Specification: every line on its own, in order. -/
def written (lines : List (List Char)) : List Char := lines.flatMap fun l => '\n' :: l

theorem update_inv (getsizeof : List Char → Nat) (hg : ∀ l, 0 < getsizeof l) (limit : Nat) (s : FB)
    (line : List Char) (h : s.buf ≠ [] → 0 < s.size) :
    (update getsizeof limit s line).file ++ (update getsizeof limit s line).buf =
      s.file ++ s.buf ++ '\n' :: line ∧ 0 < (update getsizeof limit s line).size := by
  unfold update flush
  have hl := hg ('\n' :: line)
  by_cases h1 : getsizeof ('\n' :: line) + s.size > limit
  · by_cases h2 : s.size > 0
    · simp only [h1, h2, if_true]
      exact ⟨by simp, by omega⟩
    · have hb : s.buf = [] := by
        by_contra hne; exact h2 (h hne)
      simp only [h1, h2, if_true, if_false, hb]
      exact ⟨by simp, by omega⟩
  · simp only [h1, if_false]
    exact ⟨by simp, by omega⟩

theorem fold_inv (getsizeof : List Char → Nat) (hg : ∀ l, 0 < getsizeof l) (limit : Nat)
    (lines : List (List Char)) (s : FB) (h : s.buf ≠ [] → 0 < s.size) :
    (lines.foldl (update getsizeof limit) s).file ++ (lines.foldl (update getsizeof limit) s).buf =
      s.file ++ s.buf ++ written lines ∧
    ((lines.foldl (update getsizeof limit) s).buf ≠ [] →
      0 < (lines.foldl (update getsizeof limit) s).size) := by
  induction lines generalizing s with
  | nil => simpa [written] using h
  | cons l lines ih =>
    rw [List.foldl_cons]
    have hu := update_inv getsizeof hg limit s l h
    obtain ⟨h1, h2⟩ := ih (update getsizeof limit s l) (fun _ => hu.2)
    refine ⟨?_, h2⟩
    rw [h1, hu.1]
    simp [written]

/-- C28: whatever the lines, their sizes and the buffer limit, the file ends up
being the header followed by every line exactly once, in order. -/
theorem C28_file_complete (getsizeof : List Char → Nat) (hg : ∀ l, 0 < getsizeof l) (limit : Nat)
    (header : List Char) (lines : List (List Char)) :
    (report getsizeof limit header lines).file = header ++ written lines := by
  obtain ⟨h1, h2⟩ := fold_inv getsizeof hg limit lines ⟨header, [], 0⟩ (by simp)
  unfold report flush
  split
  · simpa using h1
  · rename_i hs
    have hb : (lines.foldl (update getsizeof limit) ⟨header, [], 0⟩).buf = [] := by
      by_contra hne; exact hs (h2 hne)
    rw [hb] at h1
    simpa using h1

/-- C28: at every moment the file consists of the header and a whole number of
complete lines, in order. -/
theorem C28_file_always_whole_lines (getsizeof : List Char → Nat) (hg : ∀ l, 0 < getsizeof l)
    (limit : Nat) (header : List Char) (lines : List (List Char)) :
    ∃ k, (lines.foldl (update getsizeof limit) ⟨header, [], 0⟩).file = header ++ written (lines.take k) ∧
      (lines.foldl (update getsizeof limit) ⟨header, [], 0⟩).buf = written (lines.drop k) := by
  induction lines using List.reverseRecOn with
  | nil => exact ⟨0, by simp [written]⟩
  | append_singleton lines l ih =>
    obtain ⟨k, h1, h2⟩ := ih
    have hall := fold_inv getsizeof hg limit lines ⟨header, [], 0⟩ (by simp)
    rw [List.foldl_append, List.foldl_cons, List.foldl_nil]
    set s := lines.foldl (update getsizeof limit) ⟨header, [], 0⟩ with hs
    unfold update flush
    by_cases hc1 : getsizeof ('\n' :: l) + s.size > limit
    · simp only [hc1, if_true]
      by_cases hc2 : s.size > 0
      · simp only [hc2, if_true]
        refine ⟨lines.length, ?_, ?_⟩
        · rw [hall.1]; simp
        · simp [written]
      · simp only [hc2, if_false]
        have hb : s.buf = [] := by
          by_contra hne; exact hc2 (hall.2 hne)
        have h3 := hall.1
        rw [hb] at h3
        refine ⟨lines.length, ?_, ?_⟩
        · simpa using h3
        · simp [hb, written]
    · simp only [hc1, if_false]
      by_cases hk : k ≤ lines.length
      · refine ⟨k, ?_, ?_⟩
        · rw [h1, List.take_append_of_le_length hk]
        · rw [h2, List.drop_append_of_le_length hk]; simp [written]
      · refine ⟨lines.length, ?_, ?_⟩
        · rw [h1, List.take_of_length_le (by omega)]; simp
        · rw [h2, List.drop_of_length_le (by omega)]; simp [written]

/-- C28: the buffer never holds more than the limit, except for a single line that alone
exceeds it: the recorded size is the size of the waiting lines. -/
theorem C28_buffer_bounded (getsizeof : List Char → Nat) (hg : ∀ l, 0 < getsizeof l)
    (limit : Nat) (header : List Char) (lines : List (List Char)) :
    let s := lines.foldl (update getsizeof limit) ⟨header, [], 0⟩
    ∃ k ≤ lines.length, s.buf = written (lines.drop k) ∧
      s.size = ((lines.drop k).map fun l => getsizeof ('\n' :: l)).sum ∧
      (s.size ≤ limit ∨ k + 1 = lines.length) := by
  induction lines using List.reverseRecOn with
  | nil => exact ⟨0, by simp [written]⟩
  | append_singleton lines l ih =>
    obtain ⟨k, hk, h1, h2, h3⟩ := ih
    simp only [List.foldl_append, List.foldl_cons, List.foldl_nil]
    set s := lines.foldl (update getsizeof limit) ⟨header, [], 0⟩ with hs
    have fresh : ∀ t : FB, t.buf = [] → t.size = 0 → ∃ k ≤ (lines ++ [l]).length,
        t.buf ++ '\n' :: l = written ((lines ++ [l]).drop k) ∧
        t.size + getsizeof ('\n' :: l) = (((lines ++ [l]).drop k).map fun l => getsizeof ('\n' :: l)).sum ∧
        (t.size + getsizeof ('\n' :: l) ≤ limit ∨ k + 1 = (lines ++ [l]).length) := by
      intro t hb hz
      exact ⟨lines.length, by simp, by simp [hb, written], by simp [hz], .inr (by simp)⟩
    unfold update flush
    by_cases hc1 : getsizeof ('\n' :: l) + s.size > limit
    · simp only [hc1, if_true]
      by_cases hc2 : s.size > 0
      · simp only [hc2, if_true]
        exact fresh ⟨s.file ++ s.buf, [], 0⟩ rfl rfl
      · simp only [hc2, if_false]
        refine fresh s ?_ (by omega)
        cases hd : lines.drop k with
        | nil => rw [h1, hd]; rfl
        | cons a as =>
          rw [hd] at h2
          simp only [List.map_cons, List.sum_cons] at h2
          have := hg ('\n' :: a)
          omega
    · simp only [hc1, if_false]
      refine ⟨k, by simp; omega, ?_, ?_, .inl (by omega)⟩
      · rw [h1, List.drop_append_of_le_length hk]; simp [written]
      · rw [h2, List.drop_append_of_le_length hk]; simp

/-- Non-vacuity: a limit that is hit, and a line larger than the limit. -/
example : (report List.length 5 ['h'] [['a'], ['b', 'c'], "long line".toList, ['d']]).file =
    "h\na\nbc\nlong line\nd".toList := by decide

end Verif.Evaluation.File
