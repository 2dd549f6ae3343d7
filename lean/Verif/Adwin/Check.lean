import Verif.Adwin.Invariant

/-!
The change check of ADWIN: dropping a bucket and scanning for a cut.
-/

namespace Verif.Adwin

/-- The rows after dropping the oldest bucket. -/
def dropOldest (rows : List (List Bucket)) (row' : List Bucket) : List (List Bucket) :=
  if row'.length = 0 then rows.dropLast else rows.dropLast ++ [row']

theorem shape_cons {r : List Bucket} {rest : List (List Bucket)} (h : Shape (r :: rest)) :
    1 ≤ r.length ∧ r.length ≤ 5 ∧ (rest ≠ [] → 4 ≤ r.length ∧ Shape rest) := by
  cases rest with
  | nil => simpa [Shape] using h
  | cons a b => simp only [Shape] at h; exact ⟨by omega, h.2.1, fun _ => ⟨h.1, h.2.2⟩⟩

theorem delete_rows : ∀ (rows : List (List Bucket)) (i : Nat) (ps : List (List (List ℚ))),
    Shape rows → RunsOf i rows ps →
    ∃ b row' r ps', rows.getLast? = some (b :: row') ∧
      (∃ l, l + 1 = rows.length ∧ BucketOK (i + l) b r) ∧
      content ps = r ++ content ps' ∧ RunsOf i (dropOldest rows row') ps' ∧
      (rows = [[b]] ∧ row' = [] ∨ Shape (dropOldest rows row')) := by
  intro rows
  induction rows with
  | nil => intro i ps h; simp [Shape] at h
  | cons row rest ih =>
    intro i ps hs hr
    have hsc := shape_cons hs
    rcases hr with _ | ⟨hrow, hrest⟩
    rename_i p ps
    cases rest with
    | nil =>
      rcases hrest with _ | _
      rcases hrow with _ | ⟨hb, hrow⟩
      · simp at hsc
      rename_i b r row' p'
      refine ⟨b, row', r, if row'.length = 0 then [] else [p'], by simp, ⟨0, by simp, hb⟩, ?_, ?_, ?_⟩
      · cases row' with
        | nil => cases hrow; simp [content]
        | cons => simp [content]
      · cases row' with
        | nil => simp [dropOldest]; exact .nil _
        | cons => simp [dropOldest]; exact .cons hrow (.nil _)
      · cases row' with
        | nil => simp
        | cons => right; simp [dropOldest, Shape] at hsc ⊢; omega
    | cons r2 rest =>
      have h4 := hsc.2.2 (by simp)
      obtain ⟨b, row', r, ps', e1, ⟨l, hl, hb⟩, e3, e4, e5⟩ := ih (i + 1) ps h4.2 hrest
      have hd : dropOldest (row :: r2 :: rest) row' = row :: dropOldest (r2 :: rest) row' := by
        simp only [dropOldest]; split <;> simp
      refine ⟨b, row', r, p :: ps', by simpa using e1,
        ⟨l + 1, by simp at hl ⊢; omega, by rw [← Nat.add_assoc, Nat.add_right_comm]; exact hb⟩,
        by simp [content, e3], by rw [hd]; exact .cons hrow e4, ?_⟩
      right
      rw [hd]
      rcases e5 with ⟨e5, e6⟩ | e5
      · simp only [e5, e6, dropOldest]; simp [Shape]; omega
      · cases hd2 : dropOldest (r2 :: rest) row' with
        | nil => rw [hd2] at e5; simp [Shape] at e5
        | cons x y => rw [hd2] at e5; exact ⟨h4.1, hsc.2.1, e5⟩

theorem content_length : ∀ (i : Nat) (rows : List (List Bucket)) (ps : List (List (List ℚ))),
    RunsOf i rows ps → (content ps).length =
      match rows with
      | [] => 0
      | row :: _ => (content ps.tail).length + row.length * 2 ^ i := by
  intro i rows ps h
  cases h with
  | nil => simp [content]
  | cons hrow hrest =>
    simp only [content, List.length_append, List.tail_cons, Nat.add_left_cancel_iff]
    clear hrest
    induction hrow with
    | nil => simp
    | cons hb _ ih => simp only [List.flatten_cons, List.length_append, ih, hb.len,
        List.length_cons]; ring

/-- Number of elements in the visited buckets. -/
def vsize (l : List (Nat × ℚ)) : Nat := (l.map fun p => 2 ^ p.1).sum

theorem vsize_append (a b : List (Nat × ℚ)) : vsize (a ++ b) = vsize a + vsize b := by
  simp [vsize]

theorem vsize_row (i : Nat) (row : List Bucket) :
    vsize (row.dropLast.map fun b => (i, b.total)) = (row.length - 1) * 2 ^ i := by
  simp [vsize, Function.comp_def]

/-- What the scan visits, for a well-shaped window: fewer elements than the
window, and either the oldest bucket first, or never the oldest bucket. -/
theorem visited_spec : ∀ (rows : List (List Bucket)) (i : Nat) (ps : List (List (List ℚ))),
    Shape rows → RunsOf i rows ps →
    vsize (visited i rows) < (content ps).length ∧
    ∃ l, l + 1 = rows.length ∧
      (vsize (visited i rows) + 2 ^ (i + l) ≤ (content ps).length ∧
        ((∃ t rest, visited i rows = (i + l, t) :: rest) ∨
          ∀ q ∈ rows.getLast?, q.length = 1)) := by
  intro rows
  induction rows with
  | nil => intro i ps h; simp [Shape] at h
  | cons row rest ih =>
    intro i ps hs hr
    have hsc := shape_cons hs
    have hcl := content_length i _ ps hr
    simp only at hcl
    rcases hr with _ | ⟨hrow, hrest⟩
    rename_i p ps
    simp only [List.tail_cons] at hcl
    have hp : 0 < 2 ^ i := Nat.pos_of_ne_zero (by positivity)
    have hmul : row.length * 2 ^ i = (row.length - 1) * 2 ^ i + 2 ^ i := by
      conv_lhs => rw [show row.length = (row.length - 1) + 1 by omega]
      ring
    cases rest with
    | nil =>
      rcases hrest with _ | _
      simp only [content, List.length_nil, Nat.zero_add] at hcl
      simp only [visited, List.nil_append, vsize_row]
      have hcl' : (content [p]).length = row.length * 2 ^ i := by simpa [content] using hcl
      refine ⟨by omega, 0, rfl, by simp; omega, ?_⟩
      match row, hsc with
      | [b], _ => right; simp
      | b :: c :: row, _ => left; exact ⟨b.total, _, rfl⟩
    | cons r2 rest =>
      obtain ⟨i1, l, hl, i2, i3⟩ := ih (i + 1) ps (hsc.2.2 (by simp)).2 hrest
      have hv : visited i (row :: r2 :: rest) =
        visited (i + 1) (r2 :: rest) ++ row.dropLast.map (fun b => (i, b.total)) := rfl
      rw [hv, vsize_append, vsize_row]
      refine ⟨by omega, l + 1, by simp at hl ⊢; omega, ?_, ?_⟩
      · rw [show i + (l + 1) = i + 1 + l by omega]; omega
      · rcases i3 with ⟨t, rs, e⟩ | e
        · left; exact ⟨t, rs ++ row.dropLast.map (fun b => (i, b.total)), by
            rw [e]; simp; omega⟩
        · right; simpa using e

/-- The scan raises no error, finds a cut only between two parts of at least
five elements, and otherwise every admissible cut failed the test. -/
theorem scan_spec (cut : Cut) (W : Nat) (V : ℚ) : ∀ (l : List (Nat × ℚ)) (n0 n1 : Nat) (u0 u1 : ℚ),
    vsize l < n1 →
    (scan cut W V n0 n1 u0 u1 l = .ok false ∧
      ∀ pre post, l = pre ++ post → pre ≠ [] → 5 ≤ n0 + vsize pre → 5 ≤ n1 - vsize pre →
        cut W (n0 + vsize pre) (n1 - vsize pre) (u0 + (pre.map Prod.snd).sum)
          (u1 - (pre.map Prod.snd).sum) V = false) ∨
    (scan cut W V n0 n1 u0 u1 l = .ok true ∧ ∃ pre post, l = pre ++ post ∧ pre ≠ [] ∧
      5 ≤ n0 + vsize pre ∧ 5 ≤ n1 - vsize pre ∧
        cut W (n0 + vsize pre) (n1 - vsize pre) (u0 + (pre.map Prod.snd).sum)
          (u1 - (pre.map Prod.snd).sum) V = true) := by
  intro l
  induction l with
  | nil =>
    intro n0 n1 u0 u1 _
    left
    refine ⟨rfl, ?_⟩
    intro pre post h hne
    simp at h; exact absurd h.1 hne
  | cons x rest ih =>
    intro n0 n1 u0 u1 h
    obtain ⟨i, t⟩ := x
    have hv : ∀ q, vsize ((i, t) :: q) = 2 ^ i + vsize q := by intro q; simp [vsize]
    rw [hv] at h
    simp only [scan, bucketSize]
    rw [if_neg (by omega)]
    by_cases hc : n1 - 2 ^ i ≥ 5 ∧ n0 + 2 ^ i ≥ 5 ∧
        cut W (n0 + 2 ^ i) (n1 - 2 ^ i) (u0 + t) (u1 - t) V = true
    · right
      rw [if_pos hc]
      refine ⟨rfl, [(i, t)], rest, rfl, by simp, ?_, ?_, ?_⟩ <;> simp [vsize]
      · omega
      · omega
      · exact hc.2.2
    · rw [if_neg hc]
      rcases ih (n0 + 2 ^ i) (n1 - 2 ^ i) (u0 + t) (u1 - t) (by omega) with ⟨e, k⟩ | ⟨e, pre, post, k1, k2, k3, k4, k5⟩
      · left
        refine ⟨e, ?_⟩
        intro pre post hp hne h1 h2
        cases pre with
        | nil => exact absurd rfl hne
        | cons y pre =>
          simp only [List.cons_append, List.cons.injEq] at hp
          obtain ⟨hy, hp⟩ := hp
          subst hy
          rw [hv] at h1 h2
          simp only [hv, List.map_cons, List.sum_cons]
          by_cases hpn : pre = []
          · subst hpn
            simp only [vsize, List.map_nil, List.sum_nil, Nat.add_zero] at h1 h2
            simp only [vsize, List.map_nil, List.sum_nil, add_zero]
            by_contra hcc
            exact hc ⟨h2, h1, by simpa using hcc⟩
          · have := k pre post hp hpn (by omega) (by omega)
            rw [show n0 + (2 ^ i + vsize pre) = n0 + 2 ^ i + vsize pre by omega,
              show n1 - (2 ^ i + vsize pre) = n1 - 2 ^ i - vsize pre by omega, ← add_assoc,
              ← sub_sub]
            exact this
      · right
        refine ⟨e, (i, t) :: pre, post, by simp [k1], by simp, ?_, ?_, ?_⟩
        · rw [hv]; omega
        · rw [hv]; omega
        · simp only [hv, List.map_cons, List.sum_cons]
          rw [show n0 + (2 ^ i + vsize pre) = n0 + 2 ^ i + vsize pre by omega,
              show n1 - (2 ^ i + vsize pre) = n1 - 2 ^ i - vsize pre by omega, ← add_assoc,
              ← sub_sub]
          exact k5

/-- Dropping the oldest bucket when other elements remain. -/
theorem delete_ok {s : State} {w : List ℚ} (h : Inv s w) (hs : Shape s.rows)
    (hw : 2 ^ s.lastBucketRow < s.width) :
    ∃ s' r w', deleteElement s = .ok s' ∧ w = r ++ w' ∧ r.length = 2 ^ s.lastBucketRow ∧
      Inv s' w' ∧ s'.clock = s.clock ∧ s'.nDetections = s.nDetections ∧ s'.time = s.time ∧
      Shape s'.rows := by
  obtain ⟨ps, hr, hc⟩ := h.runs
  obtain ⟨b, row', r, ps', e1, ⟨l, hl, hb⟩, e3, e4, e5⟩ := delete_rows _ _ _ hs hr
  have hll : l = s.lastBucketRow := by have := h.last; omega
  rw [Nat.zero_add, hll] at hb
  have hwr : w = r ++ content ps' := by rw [← hc, e3]
  have hp : 0 < 2 ^ s.lastBucketRow := Nat.pos_of_ne_zero (by positivity)
  have hlen := h.width
  rw [hwr, List.length_append, hb.len] at hlen
  have hw'ne : content ps' ≠ [] := by intro hh; rw [hh] at hlen; simp at hlen; omega
  have hrne : r ≠ [] := by intro hh; have := hb.len; rw [hh] at this; simp at this; omega
  have hshape : Shape (dropOldest s.rows row') := by
    rcases e5 with ⟨e5, e6⟩ | e5
    · exfalso
      rw [e5, e6] at e4
      simp [dropOldest] at e4
      cases e4
      exact hw'ne rfl
    · exact e5
  refine ⟨({ s with
        width := s.width - bucketSize s.lastBucketRow
        total := s.total - b.total
        variance := s.variance - (b.var + bucketSize s.lastBucketRow *
          ((s.width : ℚ) - bucketSize s.lastBucketRow) *
          (b.total / bucketSize s.lastBucketRow - (s.total - b.total) /
            ((s.width : ℚ) - bucketSize s.lastBucketRow)) *
          (b.total / bucketSize s.lastBucketRow - (s.total - b.total) /
            ((s.width : ℚ) - bucketSize s.lastBucketRow)) / (bucketSize s.lastBucketRow +
            ((s.width : ℚ) - bucketSize s.lastBucketRow)))
        bucketNumber := s.bucketNumber - 1
        rows := dropOldest s.rows row'
        lastBucketRow := if row'.length = 0 then s.lastBucketRow - 1 else s.lastBucketRow } : State), r, content ps', ?_, hwr, hb.len, ?_⟩
  · unfold deleteElement
    simp only [e1]
    rw [if_neg (by simp only [bucketSize]; omega)]
    rfl
  · refine ⟨⟨⟨ps', e4, rfl⟩, ?_, ?_, ?_, .inr hshape, ?_⟩, rfl, rfl, rfl, hshape⟩
    · simp only [bucketSize]; omega
    · simp only [h.total, hwr, hb.total, List.sum_append]; ring
    · simp only
      have hv := h.var
      rw [hwr, sumSqDev_concat _ _ hrne hw'ne] at hv
      have hbv := hb.var
      have hW : (s.width : ℚ) - bucketSize s.lastBucketRow = (content ps').length := by
        simp only [bucketSize]; rw [hlen]; push_cast; ring
      have hT : s.total - b.total = (content ps').sum := by
        rw [h.total, hwr, hb.total, List.sum_append]; ring
      have hn : ((bucketSize s.lastBucketRow : ℕ) : ℚ) = r.length := by rw [hb.len]
      rw [hW, hT, hn, hb.total]
      simp only [mean, pow_two, ← mul_assoc] at hv
      linarith
    · simp only
      have hlast := h.last
      simp only [dropOldest]
      split
      · rename_i h0
        rw [List.length_dropLast]
        have : 2 ≤ s.rows.length := by
          by_contra hlt
          have h1 : s.rows.length = 1 := by omega
          have : (dropOldest s.rows row').length = 0 := by
            simp only [dropOldest]; rw [if_pos h0, List.length_dropLast]; omega
          rw [List.length_eq_zero_iff] at this
          rw [this] at hshape; simp [Shape] at hshape
        omega
      · rw [List.length_append, List.length_dropLast]; simp; omega

theorem not_shape_of_empty {s : State} {w : List ℚ} (h : Inv s w) (hw : 0 < s.width) :
    Shape s.rows := by
  rcases h.shape with e | e
  · exfalso
    obtain ⟨ps, hr, hc⟩ := h.runs
    have := content_length _ _ _ hr
    rw [e] at hr
    have hlen := content_length _ _ _ hr
    rcases hr with _ | ⟨_, hr⟩
    cases hr
    simp [content] at hlen
    have := h.width
    rw [← hc] at this
    simp [content, hlen] at this
    omega
  · exact e

/-- Elements visited before position `k` of the scan and so on: no admissible
cut of the window passes the test. -/
def NoCut (cut : Cut) (s : State) : Prop :=
  ∀ pre post, visited 0 s.rows = pre ++ post → pre ≠ [] → 5 ≤ vsize pre → 5 ≤ s.width - vsize pre →
    cut s.width (vsize pre) (s.width - vsize pre) ((pre.map Prod.snd).sum)
      (s.total - (pre.map Prod.snd).sum) (s.variance / s.width) = false

theorem reduce_ok (cut : Cut) : ∀ (fuel : Nat) (c : Bool) (s : State) (w : List ℚ),
    Inv s w → 0 < s.width → s.width < fuel →
    ∃ b s' w' r, reduce cut fuel c s = some (.ok (b, s')) ∧ w = r ++ w' ∧ Inv s' w' ∧
      s'.clock = s.clock ∧ s'.nDetections = s.nDetections ∧ s'.time = s.time ∧
      (b = true ↔ c = true ∨ r ≠ []) ∧ (r ≠ [] → 5 ≤ s'.width) ∧ (r = [] → s' = s) ∧
      NoCut cut s' := by
  intro fuel
  induction fuel with
  | zero => intro c s w _ _ h; omega
  | succ fuel ih =>
    intro c s w h hw hf
    have hs := not_shape_of_empty h hw
    obtain ⟨ps, hr, hc⟩ := h.runs
    obtain ⟨v1, l, hl, v2, v3⟩ := visited_spec _ _ _ hs hr
    rw [hc, ← h.width] at v1 v2
    have hll : l = s.lastBucketRow := by have := h.last; omega
    rw [Nat.zero_add, hll] at v2 v3
    rcases scan_spec cut s.width (s.variance / s.width) (visited 0 s.rows) 0 s.width 0 s.total v1 with
      ⟨e, k⟩ | ⟨e, pre, post, k1, k2, k3, k4, _⟩
    · refine ⟨c, s, w, [], ?_, by simp, h, rfl, rfl, rfl, by simp, by simp, by simp, ?_⟩
      · simp only [reduce, e]
      · intro pre post h1 h2 h3 h4
        have := k pre post h1 h2 (by omega) h4
        simpa using this
    · rw [Nat.zero_add] at k3
      have hvs : vsize pre ≤ vsize (visited 0 s.rows) := by rw [k1, vsize_append]; omega
      have h5 : 5 + 2 ^ s.lastBucketRow ≤ s.width := by
        rcases v3 with ⟨t, rest, e3⟩ | e3
        · have : 2 ^ s.lastBucketRow ≤ vsize pre := by
            cases pre with
            | nil => exact absurd rfl k2
            | cons x pre =>
              rw [e3] at k1
              simp only [List.cons_append, List.cons.injEq] at k1
              rw [← k1.1]; simp [vsize]
          omega
        · omega
      obtain ⟨s1, r1, w1, d1, d2, d3, d4, d5, d6, d7, d8⟩ := delete_ok h hs (by omega)
      have hw1 : s1.width + 2 ^ s.lastBucketRow = s.width := by
        rw [d4.width, h.width, d2, List.length_append, d3]; omega
      have hp : 0 < 2 ^ s.lastBucketRow := Nat.pos_of_ne_zero (by positivity)
      obtain ⟨b, s', w', r, q1, q2, q3, q4, q5, q6, q7, q8, q9, q10⟩ :=
        ih true s1 w1 d4 (by omega) (by omega)
      have hne : r1 ++ r ≠ [] := by
        intro hh; simp at hh; rw [hh.1] at d3; simp at d3; omega
      refine ⟨b, s', w', r1 ++ r, ?_, by simp [d2, q2], q3, by rw [q4, d5], by rw [q5, d6],
        by rw [q6, d7], ?_, ?_, fun hh => absurd hh hne, q10⟩
      · simp only [reduce, e, d1, q1]
      · rw [q7]; simp only [true_or, true_iff]; exact .inr hne
      · intro _
        by_cases hr0 : r = []
        · rw [q9 hr0]; omega
        · exact q8 hr0

/-- One `detected_change` call on a window `w`. -/
theorem check_ok (cut : Cut) {s : State} {w : List ℚ} (h : Inv s w) (hclk : 0 < s.clock)
    (fuel : Nat) (hf : s.width < fuel) :
    ∃ b s' w' r, detectedChange cut fuel s = some (.ok (b, s')) ∧ w = r ++ w' ∧ Inv s' w' ∧
      s'.clock = s.clock ∧ s'.nDetections = s.nDetections + (if b then 1 else 0) ∧
      s'.change = b ∧ (b = true ↔ r ≠ []) ∧ (b = true → 5 ≤ s'.width) ∧
      (r = [] → s'.variance = s.variance) ∧
      ((s.time + 1) % s.clock = 0 → 10 < s.width → NoCut cut s') := by
  have h1 : Inv { s with time := s.time + 1 } w := ⟨h.runs, h.width, h.total, h.var, h.shape, h.last⟩
  unfold detectedChange
  simp only
  rw [if_neg (by omega)]
  by_cases hc : (s.time + 1) % s.clock = 0 ∧ s.width > 10
  · rw [if_pos hc]
    obtain ⟨b, s', w', r, q1, q2, q3, q4, q5, q6, q7, q8, q9, q10⟩ :=
      reduce_ok cut fuel false { s with time := s.time + 1 } w h1
        (by have := hc.2; simp only; omega) hf
    rw [q1]
    have q7' : b = true ↔ r ≠ [] := by rw [q7]; simp
    refine ⟨b, _, w', r, rfl, q2, ⟨q3.runs, q3.width, q3.total, q3.var, q3.shape, q3.last⟩,
      q4, ?_, rfl, q7', fun hb => q8 (q7'.mp hb), fun hr => by simp only [q9 hr], fun _ _ => q10⟩
    simp only [q5]; cases b <;> rfl
  · rw [if_neg hc]
    refine ⟨false, _, w, [], rfl, by simp, ⟨h.runs, h.width, h.total, h.var, h.shape, h.last⟩,
      rfl, by simp, rfl, by simp, by simp, by simp, fun a b => absurd ⟨a, b⟩ hc⟩

end Verif.Adwin
