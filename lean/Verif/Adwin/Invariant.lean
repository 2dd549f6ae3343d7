import Verif.Adwin.Model
import Verif.Stats
import Mathlib.Data.List.Forall2

/-!
Specification of the ADWIN window and the invariant behind C12-C15.
-/

namespace Verif.Adwin

/-- Specification: all elements of a bucket structure, oldest first.  `ps` has
one list of runs per row, the row of the newest elements first; inside a row
the oldest run comes first. -/
def content : List (List (List ℚ)) → List ℚ
  | [] => []
  | p :: ps => content ps ++ p.flatten

/-- Specification: bucket `b` of row `i` summarises the run `r` of `2^i`
elements: it records their sum, and never more than their sum of squared
deviations. -/
structure BucketOK (i : Nat) (b : Bucket) (r : List ℚ) : Prop where
  total : b.total = r.sum
  len : r.length = 2 ^ i
  var : b.var ≤ sumSqDev r

/-- Specification: the rows, from row `i` on, summarise the runs `ps`. -/
inductive RunsOf : Nat → List (List Bucket) → List (List (List ℚ)) → Prop
  | nil (i) : RunsOf i [] []
  | cons {i row p rows ps} : List.Forall₂ (BucketOK i) row p → RunsOf (i + 1) rows ps →
      RunsOf i (row :: rows) (p :: ps)

/-- Shape of a non-empty window: rows before the last hold 4 or 5 buckets, the
last row holds 1 to 5. -/
def Shape : List (List Bucket) → Prop
  | [] => False
  | [r] => 1 ≤ r.length ∧ r.length ≤ 5
  | r :: r' :: rest => 4 ≤ r.length ∧ r.length ≤ 5 ∧ Shape (r' :: rest)

theorem sumSqDev_concat (a b : List ℚ) (ha : a ≠ []) (hb : b ≠ []) :
    sumSqDev (a ++ b) = sumSqDev a + sumSqDev b +
      (a.length : ℚ) * b.length * (mean a - mean b) ^ 2 / (a.length + b.length) := by
  have hA : (0 : ℚ) < a.length := by exact_mod_cast List.length_pos_iff.mpr ha
  have hB : (0 : ℚ) < b.length := by exact_mod_cast List.length_pos_iff.mpr hb
  rw [sumSqDev_eq, sumSqDev_eq, sumSqDev_eq]
  simp only [mean, List.map_append, List.sum_append, List.length_append, Nat.cast_add]
  field_simp
  ring

theorem mergeOK {i : Nat} {b0 b1 : Bucket} {r0 r1 : List ℚ} (h0 : BucketOK i b0 r0)
    (h1 : BucketOK i b1 r1) : BucketOK (i + 1) (merge i b0 b1) (r0 ++ r1) := by
  refine ⟨by simp [merge, h0.total, h1.total], by simp [h0.len, h1.len]; ring, ?_⟩
  have hp : 0 < 2 ^ i := Nat.pos_of_ne_zero (by positivity)
  have n0 : r0 ≠ [] := by intro h; have := h0.len; simp [h] at this; omega
  have n1 : r1 ≠ [] := by intro h; have := h1.len; simp [h] at this; omega
  rw [sumSqDev_concat _ _ n0 n1]
  have := sumSqDev_nonneg r0
  have e := h1.var
  simp only [merge, bucketSize, mean, h0.total, h1.total, h0.len, h1.len]
  push_cast
  rw [pow_two (r0.sum / 2 ^ i - r1.sum / 2 ^ i)]
  linarith

/-- Precondition of compression: like `Shape`, with up to six buckets in the first row. -/
def Pre : List (List Bucket) → Prop
  | [] => False
  | [r] => 1 ≤ r.length ∧ r.length ≤ 6
  | r :: r' :: rest => 4 ≤ r.length ∧ r.length ≤ 6 ∧ Shape (r' :: rest)

theorem insertBucket_ok {row : List Bucket} (b : Bucket) (h : row.length ≤ 5) :
    insertBucket row b = .ok (row ++ [b]) := by
  unfold insertBucket; rw [if_pos (by simp only [maxBuckets]; omega)]

theorem compress_ok (n : Nat) : ∀ (i : Nat) (rows : List (List Bucket)) (ps : List (List (List ℚ))),
    rows.length ≤ n → Pre rows → RunsOf i rows ps →
    ∃ rows' a m ps', compressFrom i rows = .ok (rows', a, m) ∧ RunsOf i rows' ps' ∧
      content ps' = content ps ∧ Shape rows' ∧ rows'.length = rows.length + a := by
  induction n with
  | zero =>
    intro i rows ps hl hp
    cases rows with
    | nil => simp [Pre] at hp
    | cons => simp at hl
  | succ n ih =>
    intro i rows ps hl hp hr
    rcases hr with _ | ⟨hrow, hrest⟩
    · simp [Pre] at hp
    rename_i row p rows ps
    by_cases h6 : row.length = 6
    · rcases hrow with _ | ⟨h0, hrow⟩
      · simp at h6
      rcases hrow with _ | ⟨h1, hrow⟩
      · simp at h6
      rename_i b0 r0 b1 r1 row' p'
      have hm := mergeOK h0 h1
      have hl' : row'.length = 4 := by simpa using h6
      rcases hrest with _ | ⟨hnext, hrest⟩
      · refine ⟨[row', [merge i b0 b1]], 1, 1, [p', [r0 ++ r1]], ?_, ?_, ?_, ?_, by simp⟩
        · rw [compressFrom]
          simp [maxBuckets, hl', insertBucket, bind, Except.bind, pure, Except.pure]
        · exact .cons hrow (.cons (.cons hm .nil) (.nil _))
        · simp [content]
        · simp [Shape, hl']
      · rename_i next q rest' ps'
        have hs : Shape (next :: rest') := hp.2.2
        have hn5 : 1 ≤ next.length ∧ next.length ≤ 5 ∧
            (rest' ≠ [] → 4 ≤ next.length ∧ Shape rest') := by
          cases rest' with
          | nil => simpa [Shape] using hs
          | cons a b => simp only [Shape] at hs; exact ⟨by omega, hs.2.1, fun _ => ⟨hs.1, hs.2.2⟩⟩
        have hins := insertBucket_ok (merge i b0 b1) hn5.2.1
        by_cases h5 : (next ++ [merge i b0 b1]).length ≤ 5
        · refine ⟨row' :: (next ++ [merge i b0 b1]) :: rest', 0, 1,
            p' :: (q ++ [r0 ++ r1]) :: ps', ?_, ?_, ?_, ?_, by simp⟩
          · rw [compressFrom]
            have h5' : next.length + 1 ≤ maxBuckets := by simpa [maxBuckets] using h5
            simp [maxBuckets, hl', hins, bind, Except.bind, pure, Except.pure]
            intro h; simp [maxBuckets] at h5'; omega
          · exact .cons hrow (.cons (List.rel_append hnext (.cons hm .nil)) hrest)
          · simp [content]
          · have h5' : next.length + 1 ≤ 5 := by simpa using h5
            refine ⟨by omega, by omega, ?_⟩
            cases rest' with
            | nil => simp [Shape]; omega
            | cons a b =>
              have := (hn5.2.2 (by simp))
              refine ⟨by simp; omega, by simpa using h5', this.2⟩
        · have h5' : next.length = 5 := by simp at h5; omega
          have hpre : Pre ((next ++ [merge i b0 b1]) :: rest') := by
            cases rest' with
            | nil => simp [Pre, h5']
            | cons a b => exact ⟨by simp [h5'], by simp [h5'], (hn5.2.2 (by simp)).2⟩
          obtain ⟨rs, a, m, ps'', he, hr', hc, hsh, hlen⟩ := ih (i + 1) _
            ((q ++ [r0 ++ r1]) :: ps') (by simp at hl ⊢; omega) hpre
            (.cons (List.rel_append hnext (.cons hm .nil)) hrest)
          refine ⟨row' :: rs, a, m + 1, p' :: ps'', ?_, .cons hrow hr', ?_, ?_, ?_⟩
          · rw [compressFrom]
            simp [maxBuckets, hl', hins, bind, Except.bind, pure, Except.pure, h5', he]
          · simp [content] at hc ⊢; simp [hc]
          · cases rs with
            | nil => simp [Shape] at hsh
            | cons x y => exact ⟨by omega, by omega, hsh⟩
          · simp at hlen ⊢; omega
    · refine ⟨row :: rows, 0, 0, p :: ps, ?_, .cons hrow hrest, rfl, ?_, by simp⟩
      · rw [compressFrom.eq_def]; simp [maxBuckets, h6]
      · cases rows with
        | nil => simp [Pre] at hp; simp [Shape]; omega
        | cons x y => simp only [Pre] at hp; exact ⟨hp.1, by omega, hp.2.2⟩

/-- The invariant: the state describes the window `w`. -/
structure Inv (s : State) (w : List ℚ) : Prop where
  runs : ∃ ps, RunsOf 0 s.rows ps ∧ content ps = w
  width : s.width = w.length
  total : s.total = w.sum
  var : sumSqDev w ≤ s.variance
  shape : s.rows = [[]] ∨ Shape s.rows
  last : s.lastBucketRow + 1 = s.rows.length

theorem inv_init : Inv init [] :=
  ⟨⟨[[]], .cons .nil (.nil _), rfl⟩, rfl, rfl, by simp [init, sumSqDev], .inl rfl, rfl⟩

theorem add_ok {s : State} {w : List ℚ} (h : Inv s w) (v : ℚ) :
    ∃ s', addElement s v = .ok s' ∧ Inv s' (w ++ [v]) ∧ s'.clock = s.clock ∧
      s'.nDetections = s.nDetections ∧
      s'.variance - sumSqDev (w ++ [v]) = s.variance - sumSqDev w := by
  obtain ⟨ps, hr, hc⟩ := h.runs
  have key : ∃ first rest, s.rows = first :: rest ∧ first.length ≤ 5 ∧
      (rest ≠ [] → 4 ≤ first.length ∧ Shape rest) := by
    rcases h.shape with e | e
    · exact ⟨[], [], e, by simp, by simp⟩
    · cases hs : s.rows with
      | nil => simp [hs, Shape] at e
      | cons f r =>
        refine ⟨f, r, rfl, ?_, ?_⟩ <;> rw [hs] at e <;> cases r with
        | nil => simp_all [Shape]
        | cons x y => simp only [Shape] at e; first | omega | exact fun _ => ⟨e.1, e.2.2⟩
  obtain ⟨first, rest, hs, hf5, hrest⟩ := key
  rw [hs] at hr
  rcases hr with _ | ⟨hrow, hrs⟩
  rename_i p ps'
  have hb : BucketOK 0 ⟨v, 0⟩ [v] := ⟨by simp, by simp, sumSqDev_nonneg _⟩
  obtain ⟨rows', a, m, ps'', he, hr', hc', hsh, hlen⟩ := compress_ok _ 0 ((first ++ [⟨v, 0⟩]) :: rest)
    ((p ++ [[v]]) :: ps') le_rfl
    (by
      cases rest with
      | nil => simp [Pre]; omega
      | cons x y => exact ⟨by simp; have := (hrest (by simp)).1; omega, by simp; omega,
          (hrest (by simp)).2⟩)
    (.cons (List.rel_append hrow (.cons hb .nil)) hrs)
  have hins := insertBucket_ok (⟨v, 0⟩ : Bucket) hf5
  have hadd : addElement s v = .ok { s with
      rows := rows'
      lastBucketRow := s.lastBucketRow + a
      total := s.total + v
      variance := s.variance + (if s.width + 1 > 1 then
        (((s.width + 1 : ℕ) : ℚ) - 1) * (v - s.total / (((s.width + 1 : ℕ) : ℚ) - 1)) *
          (v - s.total / (((s.width + 1 : ℕ) : ℚ) - 1)) / ((s.width + 1 : ℕ) : ℚ) else 0)
      width := s.width + 1
      bucketNumber := s.bucketNumber + 1 + m } := by
    unfold addElement
    rw [hs]
    simp only [hins, he, bind, Except.bind, pure, Except.pure]
  have hvar : (if s.width + 1 > 1 then
        (((s.width + 1 : ℕ) : ℚ) - 1) * (v - s.total / (((s.width + 1 : ℕ) : ℚ) - 1)) *
          (v - s.total / (((s.width + 1 : ℕ) : ℚ) - 1)) / ((s.width + 1 : ℕ) : ℚ) else 0)
      = sumSqDev (w ++ [v]) - sumSqDev w := by
    by_cases hw : w = []
    · subst hw; simp [h.width, sumSqDev, mean]
    · have hpos : 0 < w.length := List.length_pos_iff.mpr hw
      rw [sumSqDev_concat _ _ hw (by simp), h.width, h.total, if_pos (by omega)]
      have : (0 : ℚ) < w.length := by exact_mod_cast hpos
      have hv : sumSqDev [v] = 0 := by simp [sumSqDev, mean]
      rw [hv]
      simp only [mean, List.sum_cons, List.sum_nil, List.length_cons, List.length_nil]
      push_cast
      rw [add_sub_cancel_right]
      field_simp
      ring
  refine ⟨_, hadd, ?_, rfl, rfl, ?_⟩
  · refine ⟨⟨ps'', hr', ?_⟩, by simp [h.width], by simp [h.total], ?_, .inr hsh, ?_⟩
    · rw [hc', ← hc]; simp [content]
    · have := h.var; simp only [hvar]; linarith
    · have := h.last; simp only [hlen]; rw [hs] at this; simp at this ⊢; omega
  · simp only [hvar]; ring

end Verif.Adwin
