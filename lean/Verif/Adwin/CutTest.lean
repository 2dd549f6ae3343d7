import Verif.Adwin.Props
import Mathlib.Analysis.SpecialFunctions.Log.Basic
import Mathlib.Analysis.SpecialFunctions.Pow.Real
import Mathlib.Analysis.Complex.ExponentialBounds

/-!
The cut expression of `drift_detection/adwin.py` (lines 366-373) over the reals, and C280: what
an alarm of ADWIN says about its window.
-/

namespace Verif.Adwin

/-- `epsilon` of `__bln_cut_expression`, lines 367-372, for a window of `W` elements with
variance `V`, parts of `n0` and `n1` elements (`mint_min_window_length` is 5, line 83). -/
noncomputable def threshold (delta : ℝ) (W n0 n1 : Nat) (V : ℝ) : ℝ :=
  let dd := Real.log (2 * Real.log W / delta)
  let m := 1 / ((n0 : ℝ) - 5 + 1) + 1 / ((n1 : ℝ) - 5 + 1)
  Real.sqrt (2 * m * V * dd) + 1 * 2 / 3 * dd * m

open Classical in
/-- `__bln_cut_expression`, lines 366-373, with `abs_value` of line 335. -/
noncomputable def realCut (delta : ℝ) : Cut := fun W n0 n1 u0 u1 V =>
  decide (|((u0 : ℝ) / n0 - (u1 : ℝ) / n1)| > threshold delta W n0 n1 (V : ℝ))

/-! ### Specification -/

/-- The means of two parts of a window of variance `V` differ by more than the threshold, and
neither part has fewer than five elements. -/
def Differ (delta : ℝ) (V : ℝ) (a c : List ℚ) : Prop :=
  5 ≤ a.length ∧ 5 ≤ c.length ∧
    |((mean a : ℚ) : ℝ) - ((mean c : ℚ) : ℝ)| > threshold delta (a.length + c.length) a.length c.length V

/-- Feeding values one by one, with a change check after each but the last. -/
def watched : List ℚ → List Op
  | [] => []
  | [v] => [.add v]
  | v :: w :: vs => .add v :: .check :: watched (w :: vs)

/-- The sizes of the buckets, oldest first. -/
def sizes : Nat → List (List Bucket) → List Nat
  | _, [] => []
  | i, row :: rest => sizes (i + 1) rest ++ row.map fun _ => 2 ^ i

/-! ### What the scan looks at -/

theorem row_prefix {i : Nat} {row : List Bucket} {p : List (List ℚ)} (h : List.Forall₂ (BucketOK i) row p) (j : Nat) :
    ((row.take j).map Bucket.total).sum = (p.take j).flatten.sum ∧ (p.take j).flatten.length = (row.take j).length * 2 ^ i := by
  induction h generalizing j with
  | nil => simp
  | cons hb _ ih =>
    cases j with
    | zero => simp
    | succ j =>
      obtain ⟨i1, i2⟩ := ih j
      simp only [List.take_succ_cons, List.map_cons, List.sum_cons, List.flatten_cons, List.sum_append,
        List.length_append, List.length_cons]
      rw [i1, i2, hb.total, hb.len]
      exact ⟨rfl, by ring⟩

/-- What was scanned so far is part of the window, though not always its oldest part. -/
theorem scanned : ∀ (rows : List (List Bucket)) (i : Nat) (ps : List (List (List ℚ))), RunsOf i rows ps →
    ∀ pre post, visited i rows = pre ++ post →
    ∃ a c : List ℚ, (a ++ c).Perm (content ps) ∧ a.length = vsize pre ∧ a.sum = (pre.map Prod.snd).sum := by
  intro rows
  induction rows with
  | nil =>
    intro i ps hr pre post h
    cases hr
    simp only [visited] at h
    have := List.append_eq_nil_iff.mp h.symm
    rw [this.1]
    exact ⟨[], [], by simp [content], rfl, rfl⟩
  | cons row rest ih =>
    intro i ps hr pre post h
    cases hr with
    | cons hrow hrest =>
    rename_i p ps
    rw [visited] at h
    rcases List.append_eq_append_iff.mp h with ⟨t, h1, h2⟩ | ⟨t, h1, h2⟩
    · obtain ⟨a, c, k1, k2, k3⟩ := ih (i + 1) ps hrest (visited (i + 1) rest) [] (by simp)
      have ht : t = ((row.take t.length)).map fun b => (i, b.total) := by
        have e : t = (row.dropLast.map fun b => (i, b.total)).take t.length := by rw [h2]; simp
        have hl : t.length ≤ row.length - 1 := by
          have := congrArg List.length h2; simp at this; omega
        rw [← List.map_take, List.dropLast_eq_take, List.take_take, Nat.min_eq_left hl] at e
        exact e
      obtain ⟨q1, q2⟩ := row_prefix hrow t.length
      refine ⟨a ++ (p.take t.length).flatten, c ++ (p.drop t.length).flatten, ?_, ?_, ?_⟩
      · have e : p.flatten = (p.take t.length).flatten ++ (p.drop t.length).flatten := by
          rw [← List.flatten_append, List.take_append_drop]
        rw [content, e]
        refine List.Perm.trans ?_ (k1.append_right _)
        rw [List.append_assoc, List.append_assoc]
        refine List.Perm.append_left a ?_
        rw [← List.append_assoc, ← List.append_assoc]
        exact List.perm_append_comm.append_right _
      · rw [List.length_append, k2, q2, h1, vsize_append]
        conv_rhs => rw [ht]
        simp [vsize, Function.comp_def]
      · rw [List.sum_append, k3, ← q1, h1, List.map_append, List.sum_append]
        conv_rhs => rw [ht]
        simp [Function.comp_def]
    · obtain ⟨a, c, k1, k2, k3⟩ := ih (i + 1) ps hrest pre t h1
      refine ⟨a, c ++ p.flatten, ?_, k2, k3⟩
      rw [content, ← List.append_assoc]
      exact k1.append_right _

/-- The answer of a check that is due: some scanned part passes the test. -/
theorem answer_iff (cut : Cut) {s : State} {w : List ℚ} (h : Inv s w) (hclk : 0 < s.clock) :
    ∃ b s', detectedChange cut (s.width + 1) s = some (.ok (b, s')) ∧
      (b = true ↔ ((s.time + 1) % s.clock = 0 ∧ 10 < s.width) ∧ ∃ pre post, visited 0 s.rows = pre ++ post ∧ pre ≠ [] ∧
        5 ≤ vsize pre ∧ 5 ≤ s.width - vsize pre ∧ cut s.width (vsize pre) (s.width - vsize pre)
          ((pre.map Prod.snd).sum) (s.total - (pre.map Prod.snd).sum) (s.variance / s.width) = true) := by
  obtain ⟨b, s', w', r, q1, q2, q3, q4, q5, q6, q7, q8, q9, q10⟩ := check_ok cut h hclk (s.width + 1) (by omega)
  refine ⟨b, s', q1, ?_⟩
  unfold detectedChange at q1
  simp only at q1
  rw [if_neg (by omega)] at q1
  by_cases hc : (s.time + 1) % s.clock = 0 ∧ s.width > 10
  · rw [if_pos hc] at q1
    have h1 : Inv { s with time := s.time + 1 } w := ⟨h.runs, h.width, h.total, h.var, h.shape, h.last⟩
    have hpos : 0 < s.width := by have := hc.2; omega
    have hs := not_shape_of_empty h hpos
    obtain ⟨ps, hr, hcc⟩ := h.runs
    obtain ⟨v1, _⟩ := visited_spec _ _ _ hs hr
    rw [hcc, ← h.width] at v1
    have hsc := scan_spec cut s.width (s.variance / s.width) (visited 0 s.rows) 0 s.width 0 s.total v1
    rw [reduce] at q1
    rcases hsc with ⟨e, k⟩ | ⟨e, pre, post, k1, k2, k3, k4, k5⟩
    · rw [e] at q1
      simp only [Option.some.injEq, Except.ok.injEq, Prod.mk.injEq] at q1
      constructor
      · intro hb; rw [← q1.1] at hb; cases hb
      · rintro ⟨_, pre, post, k1, k2, k3, k4, k5⟩
        have := k pre post k1 k2 (by omega) k4
        rw [Nat.zero_add, zero_add, k5] at this
        cases this
    · have hdrop : b = true := by
        rw [e] at q1
        simp only at q1
        cases hd : deleteElement { s with time := s.time + 1 } with
        | error err => rw [hd] at q1; cases q1
        | ok s1 =>
          rw [hd] at q1
          simp only at q1
          cases hrd : reduce cut s.width true s1 with
          | none => rw [hrd] at q1; cases q1
          | some x =>
            rw [hrd] at q1
            cases x with
            | error err => cases q1
            | ok x =>
              simp only [Option.some.injEq, Except.ok.injEq, Prod.mk.injEq] at q1
              rw [← q1.1]
              exact reduce_true cut _ _ _ hrd
      refine ⟨fun _ => ⟨⟨hc.1, hc.2⟩, pre, post, k1, k2, by omega, k4, ?_⟩, fun _ => hdrop⟩
      rw [Nat.zero_add, zero_add] at k5
      exact k5
  · rw [if_neg hc] at q1
    simp only [Option.some.injEq, Except.ok.injEq, Prod.mk.injEq] at q1
    constructor
    · intro hb; rw [← q1.1] at hb; cases hb
    · rintro ⟨hh, _⟩; exact absurd ⟨hh.1, hh.2⟩ hc
where
  reduce_true (cut : Cut) : ∀ (fuel : Nat) (s : State) (x : Bool × State), reduce cut fuel true s = some (.ok x) → x.1 = true := by
    intro fuel
    induction fuel with
    | zero => intro s x h; cases h
    | succ fuel ih =>
      intro s x h
      rw [reduce] at h
      cases hs : scan cut s.width (s.variance / s.width) 0 s.width 0 s.total (visited 0 s.rows) with
      | error e => rw [hs] at h; cases h
      | ok b =>
        rw [hs] at h
        cases b with
        | false => simp only [Option.some.injEq, Except.ok.injEq] at h; rw [← h]
        | true =>
          simp only at h
          cases hd : deleteElement s with
          | error e => rw [hd] at h; cases h
          | ok s1 => rw [hd] at h; exact ih _ _ h

theorem mean_cast (a : List ℚ) : ((mean a : ℚ) : ℝ) = ((a.sum : ℚ) : ℝ) / a.length := by
  rw [mean]; push_cast; rfl

theorem cut_iff (delta : ℝ) (V : ℚ) (a c : List ℚ) :
    realCut delta (a.length + c.length) a.length c.length a.sum c.sum V = true ↔
      |((mean a : ℚ) : ℝ) - ((mean c : ℚ) : ℝ)| > threshold delta (a.length + c.length) a.length c.length V := by
  rw [realCut, decide_eq_true_eq, mean_cast, mean_cast]

/-- C280 (part): an alarm means that the elements of the window can be divided into two parts of at
least five elements each whose means differ by more than the threshold (at the variance ADWIN reports),
and that at least eleven elements were there at a check that was due. -/
theorem C280_alarm_partial (delta : ℝ) (ops : List Op) (hok : ClockOK ops) :
    ∃ s w, run (realCut delta) ops init = some (.ok s) ∧ w <:+ added ops [] ∧ Describes s w ∧
      ∃ b s', detectedChange (realCut delta) (s.width + 1) s = some (.ok (b, s')) ∧
        (b = true → 10 < w.length ∧ ∃ v, varianceProp s = some v ∧
          ∃ a c, (a ++ c).Perm w ∧ Differ delta (v : ℚ) a c) := by
  obtain ⟨s, w, e, h, hc, hx, _⟩ := reach (realCut delta) ops hok
  obtain ⟨b, s', q1, q2⟩ := answer_iff (realCut delta) h hc
  refine ⟨s, w, e, hx, describes_of_inv h, b, s', q1, fun hb => ?_⟩
  obtain ⟨⟨_, hw⟩, pre, post, k1, k2, k3, k4, k5⟩ := q2.mp hb
  obtain ⟨ps, hr, hcc⟩ := h.runs
  obtain ⟨a, c, p1, p2, p3⟩ := scanned _ _ _ hr pre post k1
  rw [hcc] at p1
  have hl := p1.length_eq
  have hsum := p1.sum_eq
  rw [List.length_append, ← h.width] at hl
  rw [List.sum_append, ← h.total] at hsum
  refine ⟨by rw [← h.width]; exact hw, s.variance / s.width, by rw [varianceProp, if_neg (by omega)], a, c, p1, by omega, by omega, ?_⟩
  rw [← cut_iff, hl, p2, show c.length = s.width - vsize pre by omega, p3,
    show c.sum = s.total - (pre.map Prod.snd).sum by rw [← p3, ← hsum]; ring]
  exact k5

theorem oldest : ∀ (rows : List (List Bucket)) (i : Nat) (ps : List (List (List ℚ))) (row : List Bucket), RunsOf i rows ps →
    rows.getLast? = some row → ∃ p rest rest', List.Forall₂ (BucketOK (i + (rows.length - 1))) row p ∧
      content ps = p.flatten ++ rest ∧ visited i rows = (row.dropLast.map fun b => (i + (rows.length - 1), b.total)) ++ rest' := by
  intro rows
  induction rows with
  | nil => intro i ps row _ h; cases h
  | cons r rest ih =>
    intro i ps row hr h
    cases hr with
    | cons hrow hrest =>
    rename_i p ps
    cases rest with
    | nil =>
      cases hrest
      simp only [List.getLast?_singleton, Option.some.injEq] at h
      subst h
      exact ⟨p, [], [], by simpa using hrow, by simp [content], by simp [visited]⟩
    | cons r2 rest =>
      obtain ⟨q, t, t', h1, h2, h3⟩ := ih (i + 1) ps row hrest (by simpa using h)
      simp only [List.length_cons, Nat.add_sub_cancel] at h1 h3 ⊢
      rw [show i + 1 + rest.length = i + (rest.length + 1) by omega] at h1 h3
      exact ⟨q, t ++ p.flatten, t' ++ r.dropLast.map (fun b => (i, b.total)), h1, by rw [content, h2]; simp,
        by rw [visited, h3]; simp⟩

/-- A check of a window `w` that is due notices a difference between some of the buckets of the oldest size and everything newer. -/
theorem oldest_answer (delta : ℝ) {s : State} {w : List ℚ} (h : Inv s w) (hc : 0 < s.clock) :
    ∃ b s', detectedChange (realCut delta) (s.width + 1) s = some (.ok (b, s')) ∧
      ∀ v row a c, varianceProp s = some v → s.rows.getLast? = some row → w = a ++ c →
        (∃ j, j < row.length ∧ a.length = j * 2 ^ (s.rows.length - 1)) →
        (s.time + 1) % s.clock = 0 → 10 < w.length → Differ delta (v : ℚ) a c → b = true := by
  obtain ⟨b, s', q1, q2⟩ := answer_iff (realCut delta) h hc
  refine ⟨b, s', q1, fun v row a c hv hrow hw hj hd hlen hdif => ?_⟩
  obtain ⟨j, hj, hja⟩ := hj
  obtain ⟨d1, d2, d3⟩ := hdif
  obtain ⟨ps, hr, hcc⟩ := h.runs
  obtain ⟨p, rest, rest', o1, o2, o3⟩ := oldest _ _ _ _ hr hrow
  rw [Nat.zero_add] at o1 o3
  obtain ⟨f1, f2⟩ := row_prefix o1 j
  have hpl : (row.take j).length = j := by rw [List.length_take]; omega
  rw [hpl, ← hja] at f2
  have hpa : a = (p.take j).flatten := by
    have e1 : a = w.take a.length := by rw [hw]; simp
    rw [e1, ← hcc, o2, show p.flatten = (p.take j).flatten ++ (p.drop j).flatten by
      rw [← List.flatten_append, List.take_append_drop], List.append_assoc, ← f2, List.take_left]
  have hvl : vsize ((row.dropLast.map fun b => (s.rows.length - 1, b.total)).take j) = a.length := by
    rw [hja, ← List.map_take, List.dropLast_eq_take, List.take_take, Nat.min_eq_left (by omega)]
    simp only [vsize, List.map_map, Function.comp_def, List.map_const', List.sum_replicate, hpl, smul_eq_mul]
  have hsum : (((row.dropLast.map fun b => (s.rows.length - 1, b.total)).take j).map Prod.snd).sum = a.sum := by
    rw [← List.map_take, List.dropLast_eq_take, List.take_take, Nat.min_eq_left (by omega), hpa, ← f1]
    simp [Function.comp_def]
  have hwl : s.width = a.length + c.length := by rw [h.width, hw, List.length_append]
  have htot : s.total = a.sum + c.sum := by rw [h.total, hw, List.sum_append]
  refine q2.mpr ⟨⟨hd, by rw [h.width]; exact hlen⟩, (row.dropLast.map fun b => (s.rows.length - 1, b.total)).take j,
    (row.dropLast.map fun b => (s.rows.length - 1, b.total)).drop j ++ rest', ?_, ?_, ?_, ?_, ?_⟩
  · rw [o3, ← List.append_assoc, List.take_append_drop]
  · intro hh; rw [hh] at hvl; simp [vsize] at hvl; omega
  · rw [hvl]; exact d1
  · rw [hvl]; omega
  · rw [hvl, hsum, hwl, show a.length + c.length - a.length = c.length by omega, htot,
      show a.sum + c.sum - a.sum = c.sum by ring, cut_iff]
    have hvv : v = s.variance / ((a.length + c.length : ℕ) : ℚ) := by
      rw [varianceProp, if_neg (by rw [hwl]; omega)] at hv
      rw [← hwl]; exact (Option.some.inj hv).symm
    rw [← hvv]; exact d3

/-- C280 (part): at a due check of more than ten elements, a difference between some of the buckets of
the oldest size (the oldest ones, not all of them) and everything newer is reported. -/
theorem C280_oldest_partial (delta : ℝ) (ops : List Op) (hok : ClockOK ops) :
    ∃ s w, run (realCut delta) ops init = some (.ok s) ∧ w <:+ added ops [] ∧ Describes s w ∧
      ∃ b s', detectedChange (realCut delta) (s.width + 1) s = some (.ok (b, s')) ∧
        ∀ v row a c, varianceProp s = some v → s.rows.getLast? = some row → w = a ++ c →
          (∃ j, j < row.length ∧ a.length = j * 2 ^ (s.rows.length - 1)) →
          (s.time + 1) % s.clock = 0 → 10 < w.length → Differ delta (v : ℚ) a c → b = true := by
  obtain ⟨s, w, e, h, hc, hx, _⟩ := reach (realCut delta) ops hok
  exact ⟨s, w, e, hx, describes_of_inv h, oldest_answer delta h hc⟩

theorem threshold_nonneg (delta : ℝ) (hd : 0 < delta) (hd1 : delta ≤ 1) (W n0 n1 : Nat) (hW : 10 < W) (h0 : 5 ≤ n0) (h1 : 5 ≤ n1)
    (V : ℝ) : 0 ≤ threshold delta W n0 n1 V := by
  have hlog : 1 ≤ Real.log W := by
    rw [← Real.log_exp 1]
    refine Real.log_le_log (Real.exp_pos 1) ?_
    have h11 : (11 : ℝ) ≤ W := by exact_mod_cast hW
    linarith [Real.exp_one_lt_d9]
  have hdd : 0 ≤ Real.log (2 * Real.log W / delta) := by
    refine Real.log_nonneg ?_
    rw [le_div_iff₀ hd]
    linarith
  have hm0 : (0 : ℝ) < (n0 : ℝ) - 5 + 1 := by
    have : (5 : ℝ) ≤ n0 := by exact_mod_cast h0
    linarith
  have hm1 : (0 : ℝ) < (n1 : ℝ) - 5 + 1 := by
    have : (5 : ℝ) ≤ n1 := by exact_mod_cast h1
    linarith
  unfold threshold
  simp only
  have := Real.sqrt_nonneg (2 * (1 / ((n0 : ℝ) - 5 + 1) + 1 / ((n1 : ℝ) - 5 + 1)) * V * Real.log (2 * Real.log W / delta))
  positivity

theorem mean_const (a : List ℚ) (v : ℚ) (h : ∀ x ∈ a, x = v) (hl : 0 < a.length) : mean a = v := by
  have e : a = List.replicate a.length v := List.eq_replicate_of_mem h
  have hne : (a.length : ℚ) ≠ 0 := by exact_mod_cast hl.ne'
  rw [mean, e, List.sum_replicate, List.length_replicate, nsmul_eq_mul]
  field_simp

theorem added_mem : ∀ (ops : List Op) (acc : List ℚ) (x : ℚ), x ∈ added ops acc → x ∈ acc ∨ Op.add x ∈ ops := by
  intro ops
  induction ops with
  | nil => intro acc x h; exact .inl h
  | cons o ops ih =>
    intro acc x h
    cases o with
    | add v =>
      rcases ih _ _ h with h1 | h1
      · rcases List.mem_append.mp h1 with h2 | h2
        · exact .inl h2
        · rw [List.mem_singleton] at h2; subst h2; exact .inr (by simp)
      · exact .inr (List.mem_cons_of_mem _ h1)
    | check => exact (ih _ _ h).imp_right (List.mem_cons_of_mem _)
    | setClock c => exact (ih _ _ h).imp_right (List.mem_cons_of_mem _)
    | reset =>
      rcases ih _ _ h with h1 | h1
      · cases h1
      · exact .inr (List.mem_cons_of_mem _ h1)

/-- C280: as long as only one value was fed, no check raises an alarm. -/
theorem C280_constant (delta : ℝ) (hd : 0 < delta) (hd1 : delta ≤ 1) (x : ℚ) (ops : List Op) (hok : ClockOK ops)
    (hx : ∀ v, Op.add v ∈ ops → v = x) :
    ∃ s, run (realCut delta) ops init = some (.ok s) ∧
      ∃ s', detectedChange (realCut delta) (s.width + 1) s = some (.ok (false, s')) := by
  obtain ⟨s, w, e, hw, _, b, s', q, h⟩ := C280_alarm_partial delta ops hok
  refine ⟨s, e, s', ?_⟩
  cases b with
  | false => exact q
  | true =>
    obtain ⟨hlen, v, _, a, c, hp, d1, d2, d3⟩ := h rfl
    have hall : ∀ y ∈ a ++ c, y = x := fun y hy => by
      rcases added_mem _ _ _ (hw.subset (hp.subset hy)) with h1 | h1
      · cases h1
      · exact hx _ h1
    have ha := mean_const a x (fun y hy => hall y (List.mem_append_left _ hy)) (by omega)
    have hc := mean_const c x (fun y hy => hall y (List.mem_append_right _ hy)) (by omega)
    rw [ha, hc, sub_self, abs_zero] at d3
    have hl := hp.length_eq
    rw [List.length_append] at hl
    have := threshold_nonneg delta hd hd1 (a.length + c.length) a.length c.length (by omega) d1 d2 (v : ℚ)
    linarith

/-! ### Deciding the test by rational bounds -/

/-- The test with the logarithm replaced by `D` and the root avoided. -/
def test (D : ℚ) (n0 n1 : Nat) (u0 u1 V : ℚ) : Bool :=
  let d := |u0 / n0 - u1 / n1|
  let m : ℚ := 1 / ((n0 : ℚ) - 5 + 1) + 1 / ((n1 : ℚ) - 5 + 1)
  decide (0 < d - 2 / 3 * D * m) && decide (2 * m * V * D < (d - 2 / 3 * D * m) ^ 2)

theorem dd_bounds (W : Nat) (h1 : 32 ≤ W) (h2 : W ≤ 256) :
    8 ≤ Real.log (2 * Real.log W / (1 / 500)) ∧ Real.log (2 * Real.log W / (1 / 500)) ≤ 9 := by
  have hl2 := Real.log_two_gt_d9
  have hl2' := Real.log_two_lt_d9
  have e32 : Real.log 32 = 5 * Real.log 2 := by
    rw [show (32 : ℝ) = 2 ^ (5 : ℕ) by norm_num, Real.log_pow]; norm_num
  have e256 : Real.log 256 = 8 * Real.log 2 := by
    rw [show (256 : ℝ) = 2 ^ (8 : ℕ) by norm_num, Real.log_pow]; norm_num
  have hW1 : (32 : ℝ) ≤ W := by exact_mod_cast h1
  have hW2 : (W : ℝ) ≤ 256 := by exact_mod_cast h2
  have a1 : Real.log 32 ≤ Real.log W := Real.log_le_log (by norm_num) hW1
  have a2 : Real.log W ≤ Real.log 256 := Real.log_le_log (by linarith) (by linarith)
  have g := Real.exp_one_gt_d9
  have l := Real.exp_one_lt_d9
  have hx : 3400 ≤ 2 * Real.log W / (1 / 500) := by rw [le_div_iff₀ (by norm_num)]; nlinarith
  have hy : 2 * Real.log W / (1 / 500) ≤ 5600 := by rw [div_le_iff₀ (by norm_num)]; nlinarith
  constructor
  · rw [Real.le_log_iff_exp_le (by linarith)]
    refine le_trans ?_ hx
    rw [show (8 : ℝ) = ((8 : ℕ) : ℝ) * 1 by norm_num, Real.exp_nat_mul]
    refine le_trans (pow_le_pow_left₀ (Real.exp_pos 1).le l.le 8) (by norm_num)
  · rw [Real.log_le_iff_le_exp (by linarith)]
    refine le_trans hy ?_
    rw [show (9 : ℝ) = ((9 : ℕ) : ℝ) * 1 by norm_num, Real.exp_nat_mul]
    refine le_trans ?_ (pow_le_pow_left₀ (by norm_num) g.le 9)
    norm_num

theorem m_pos (n0 n1 : Nat) (h0 : 5 ≤ n0) (h1 : 5 ≤ n1) : (0 : ℝ) < 1 / ((n0 : ℝ) - 5 + 1) + 1 / ((n1 : ℝ) - 5 + 1) := by
  have a : (5 : ℝ) ≤ n0 := by exact_mod_cast h0
  have b : (5 : ℝ) ≤ n1 := by exact_mod_cast h1
  have := one_div_pos.mpr (show (0 : ℝ) < (n0 : ℝ) - 5 + 1 by linarith)
  have := one_div_pos.mpr (show (0 : ℝ) < (n1 : ℝ) - 5 + 1 by linarith)
  linarith

theorem test_cast (D : ℚ) (n0 n1 : Nat) (u0 u1 V : ℚ) : test D n0 n1 u0 u1 V = true ↔
    0 < |((u0 : ℝ) / n0 - (u1 : ℝ) / n1)| - 2 / 3 * D * (1 / ((n0 : ℝ) - 5 + 1) + 1 / ((n1 : ℝ) - 5 + 1)) ∧
    2 * (1 / ((n0 : ℝ) - 5 + 1) + 1 / ((n1 : ℝ) - 5 + 1)) * V * D <
      (|((u0 : ℝ) / n0 - (u1 : ℝ) / n1)| - 2 / 3 * D * (1 / ((n0 : ℝ) - 5 + 1) + 1 / ((n1 : ℝ) - 5 + 1))) ^ 2 := by
  rw [test]
  simp only [Bool.and_eq_true, decide_eq_true_eq]
  constructor
  · rintro ⟨a, b⟩
    have a' : ((0 : ℚ) : ℝ) < _ := Rat.cast_lt.mpr a
    have b' := (Rat.cast_lt (K := ℝ)).mpr b
    push_cast at a' b'
    exact ⟨a', b'⟩
  · rintro ⟨a, b⟩
    constructor
    · rw [← Rat.cast_lt (K := ℝ)]; push_cast; exact a
    · rw [← Rat.cast_lt (K := ℝ)]; push_cast; exact b

theorem cut_of_test (W n0 n1 : Nat) (u0 u1 V : ℚ) (h1 : 32 ≤ W) (h2 : W ≤ 256) (h0 : 5 ≤ n0) (h5 : 5 ≤ n1) (hV : 0 ≤ V)
    (h : test 9 n0 n1 u0 u1 V = true) : |((u0 : ℝ) / n0 - (u1 : ℝ) / n1)| > threshold (1 / 500) W n0 n1 (V : ℝ) := by
  obtain ⟨a, b⟩ := (test_cast _ _ _ _ _ _).mp h
  obtain ⟨_, hd⟩ := dd_bounds W h1 h2
  have hm := m_pos n0 n1 h0 h5
  have hVr : (0 : ℝ) ≤ V := by exact_mod_cast hV
  unfold threshold
  simp only
  generalize Real.log (2 * Real.log W / (1 / 500)) = dd at *
  generalize 1 / ((n0 : ℝ) - 5 + 1) + 1 / ((n1 : ℝ) - 5 + 1) = m at *
  generalize |((u0 : ℝ) / n0 - (u1 : ℝ) / n1)| = d at *
  push_cast at a b
  have hs : Real.sqrt (2 * m * V * dd) < d - 2 / 3 * 9 * m := by
    rw [Real.sqrt_lt' a]
    refine lt_of_le_of_lt ?_ b
    exact mul_le_mul_of_nonneg_left hd (by positivity)
  have : 2 / 3 * dd * m ≤ 2 / 3 * 9 * m := by nlinarith
  linarith

theorem not_cut_of_test (W n0 n1 : Nat) (u0 u1 V : ℚ) (h1 : 32 ≤ W) (h2 : W ≤ 256) (h0 : 5 ≤ n0) (h5 : 5 ≤ n1) (hV : 0 ≤ V)
    (h : test 8 n0 n1 u0 u1 V = false) : ¬ |((u0 : ℝ) / n0 - (u1 : ℝ) / n1)| > threshold (1 / 500) W n0 n1 (V : ℝ) := by
  intro hc
  have hn : ¬ test 8 n0 n1 u0 u1 V = true := by rw [h]; simp
  apply hn
  rw [test_cast]
  obtain ⟨hd, _⟩ := dd_bounds W h1 h2
  have hm := m_pos n0 n1 h0 h5
  have hVr : (0 : ℝ) ≤ V := by exact_mod_cast hV
  unfold threshold at hc
  simp only at hc
  generalize Real.log (2 * Real.log W / (1 / 500)) = dd at *
  generalize 1 / ((n0 : ℝ) - 5 + 1) + 1 / ((n1 : ℝ) - 5 + 1) = m at *
  generalize |((u0 : ℝ) / n0 - (u1 : ℝ) / n1)| = d at *
  push_cast
  have hs0 := Real.sqrt_nonneg (2 * m * V * dd)
  have k : 2 / 3 * 8 * m ≤ 2 / 3 * dd * m := by nlinarith
  have hpos : 0 < d - 2 / 3 * 8 * m := by linarith
  refine ⟨hpos, ?_⟩
  have hlt : Real.sqrt (2 * m * V * dd) < d - 2 / 3 * 8 * m := by linarith
  rw [Real.sqrt_lt' hpos] at hlt
  refine lt_of_le_of_lt ?_ hlt
  exact mul_le_mul_of_nonneg_left hd (by positivity)

/-- A scan without a cut has none for any stricter test either. -/
theorem scan_mono (cut cut' : Cut) (W : Nat) (V : ℚ)
    (h : ∀ n0 n1 u0 u1, 5 ≤ n0 → 5 ≤ n1 → cut' W n0 n1 u0 u1 V = false → cut W n0 n1 u0 u1 V = false) :
    ∀ (l : List (Nat × ℚ)) (n0 n1 : Nat) (u0 u1 : ℚ), scan cut' W V n0 n1 u0 u1 l = .ok false →
      scan cut W V n0 n1 u0 u1 l = .ok false := by
  intro l
  induction l with
  | nil => intro n0 n1 u0 u1 _; rfl
  | cons q l ih =>
    intro n0 n1 u0 u1 hs
    obtain ⟨i, t⟩ := q
    rw [scan] at hs ⊢
    by_cases h1 : n1 ≤ bucketSize i
    · rw [if_pos h1] at hs; cases hs
    · rw [if_neg h1] at hs ⊢
      by_cases h2 : n1 - bucketSize i ≥ 5 ∧ n0 + bucketSize i ≥ 5 ∧ cut' W (n0 + bucketSize i) (n1 - bucketSize i) (u0 + t) (u1 - t) V = true
      · rw [if_pos h2] at hs; cases hs
      · rw [if_neg h2] at hs
        rw [if_neg]
        · exact ih _ _ _ _ hs
        · rintro ⟨a, b, c⟩
          have : cut' W (n0 + bucketSize i) (n1 - bucketSize i) (u0 + t) (u1 - t) V = false := by
            by_contra hh
            exact h2 ⟨a, b, by simpa using hh⟩
          rw [h _ _ _ _ b a this] at c
          cases c

/-- The rational test as a cut test. -/
def low : Cut := fun _ n0 n1 u0 u1 V => test 8 n0 n1 u0 u1 V

/-- Along these calls no due check finds a cut by the rational test (and all windows met are small). -/
def quiet : List Op → State → Bool
  | [], _ => true
  | .check :: ops, s =>
    (if (s.time + 1) % s.clock = 0 ∧ s.width > 10 then
      decide (32 ≤ s.width) && decide (s.width ≤ 256) && decide (0 ≤ s.variance) &&
        decide ((scan low s.width (s.variance / s.width) 0 s.width 0 s.total (visited 0 s.rows)).toOption = some false)
    else true) && quiet ops { s with time := s.time + 1, change := false }
  | .add v :: ops, s => match addElement s v with
    | .ok s' => quiet ops s'
    | .error _ => false
  | .setClock _ :: _, _ => false
  | .reset :: _, _ => false

/-- The cut test that never cuts. -/
def never : Cut := fun _ _ _ _ _ _ => false

theorem detect_of_scan (cut : Cut) (s : State) (hc : s.clock ≠ 0)
    (h : (s.time + 1) % s.clock = 0 ∧ s.width > 10 →
      scan cut s.width (s.variance / s.width) 0 s.width 0 s.total (visited 0 s.rows) = .ok false) :
    detectedChange cut (s.width + 1) s = some (.ok (false, { s with time := s.time + 1, change := false })) := by
  unfold detectedChange
  simp only
  rw [if_neg hc]
  by_cases hd : (s.time + 1) % s.clock = 0 ∧ s.width > 10
  · rw [if_pos hd, reduce, h hd]
    simp
  · rw [if_neg hd]

theorem quiet_scan (s : State) (h1 : 32 ≤ s.width) (h2 : s.width ≤ 256) (h3 : 0 ≤ s.variance)
    (h : scan low s.width (s.variance / s.width) 0 s.width 0 s.total (visited 0 s.rows) = .ok false) :
    scan (realCut (1 / 500)) s.width (s.variance / s.width) 0 s.width 0 s.total (visited 0 s.rows) = .ok false := by
  refine scan_mono _ low _ _ ?_ _ _ _ _ _ h
  intro n0 n1 u0 u1 a b hl
  rw [realCut, decide_eq_false_iff_not]
  exact not_cut_of_test _ _ _ _ _ _ h1 h2 a b (by positivity) hl

theorem toOption_ok {α : Type} (x : Except PyErr α) (a : α) (h : x.toOption = some a) : x = .ok a := by
  cases x with
  | error e => cases h
  | ok b => simp only [Except.toOption, Option.some.injEq] at h; rw [h]

theorem clock_add (s s' : State) (v : ℚ) (h : addElement s v = .ok s') : s'.clock = s.clock := by
  have := step_fields never s s' (.add v) false (by simp only [step, h, Except.map])
  exact this.2.1

/-- Along quiet calls ADWIN behaves as if its test never fired. -/
theorem quiet_run : ∀ (ops : List Op) (s : State), s.clock ≠ 0 → quiet ops s = true →
    run (realCut (1 / 500)) ops s = run never ops s := by
  intro ops
  induction ops with
  | nil => intro s _ _; rfl
  | cons o ops ih =>
    intro s hc h
    cases o with
    | add v =>
      rw [quiet] at h
      cases ha : addElement s v with
      | error e => rw [ha] at h; cases h
      | ok s' =>
        rw [ha] at h
        simp only [run, step, ha, Except.map]
        exact ih s' (by rw [clock_add _ _ _ ha]; exact hc) h
    | setClock c => cases h
    | reset => cases h
    | check =>
      rw [quiet, Bool.and_eq_true] at h
      have h2 : detectedChange never (s.width + 1) s = some (.ok (false, { s with time := s.time + 1, change := false })) := by
        refine detect_of_scan never s hc fun hd => ?_
        have h1 := h.1
        rw [if_pos hd] at h1
        simp only [Bool.and_eq_true, decide_eq_true_eq] at h1
        exact scan_mono never low _ _ (fun _ _ _ _ _ _ _ => rfl) _ _ _ _ _ (toOption_ok _ _ h1.2)
      have h3 : detectedChange (realCut (1 / 500)) (s.width + 1) s = some (.ok (false, { s with time := s.time + 1, change := false })) := by
        refine detect_of_scan _ s hc fun hd => ?_
        have h1 := h.1
        rw [if_pos hd] at h1
        simp only [Bool.and_eq_true, decide_eq_true_eq] at h1
        exact quiet_scan s h1.1.1.1 h1.1.1.2 h1.1.2 (toOption_ok _ _ h1.2)
      simp only [run, step, h2, h3]
      exact ih _ hc h.2

/-- A jump from 0 to 1: 34 zeros, then 62 ones. -/
def jump : List ℚ := List.replicate 34 0 ++ List.replicate 62 1

/-- Zeros and ones in runs. -/
def flicker : List ℚ := List.replicate 16 1 ++ List.replicate 16 0 ++ List.replicate 4 1 ++ List.replicate 4 0 ++
  List.replicate 16 1 ++ List.replicate 8 0 ++ List.replicate 16 1 ++ List.replicate 16 0

/-- The state after quiet calls, when the numbers of a computed state are as claimed. -/
theorem quiet_state (ops : List Op) (hok : ClockOK ops) (f : State → Bool)
    (h : quiet ops init = true ∧ chk (run never ops init) f = true) :
    ∃ s w, run (realCut (1 / 500)) ops init = some (.ok s) ∧ Inv s w ∧ 0 < s.clock ∧ w <:+ added ops [] ∧
      (w = added ops [] → s.variance = sumSqDev w) ∧ f s = true := by
  obtain ⟨s, w, e, hi, hc, hw, hv⟩ := reach (realCut (1 / 500)) ops hok
  refine ⟨s, w, e, hi, hc, hw, hv, ?_⟩
  rw [quiet_run ops init (by simp [init]) h.1] at e
  have := h.2
  rw [e] at this
  exact this

theorem watched_clock : ∀ xs : List ℚ, ClockOK (watched xs)
  | [] => by intro c h; simp [watched] at h
  | [v] => by intro c h; simp [watched] at h
  | v :: w :: vs => by
    intro c h
    simp only [watched, List.mem_cons, reduceCtorEq, false_or] at h
    exact watched_clock (w :: vs) c h

/-- What is needed of the window after `jump`. -/
def missed (s : State) : Bool :=
  decide (s.width = 96) && decide ((s.time + 1) % s.clock = 0) && decide (0 ≤ s.variance) &&
    decide ((sizes 0 s.rows).take 2 = [16, 16]) && decide (s.variance = sumSqDev jump) &&
    decide ((scan low s.width (s.variance / s.width) 0 s.width 0 s.total (visited 0 s.rows)).toOption = some false)

/-- C280 is violated: with the default `delta`, 34 zeros and then 62 ones are fed one at a time, each
followed by a check.  The 96th check is due; the two oldest buckets hold 16 elements each, and the
difference between the 32 elements in them and the 64 newer ones is beyond the threshold; the answer
is `False`.  (The scan leaves out the last bucket of every row, line 317.) -/
theorem C280_missed_change_violated :
    ∃ s s', run (realCut (1 / 500)) (watched jump) init = some (.ok s) ∧ Describes s jump ∧
      (s.time + 1) % s.clock = 0 ∧ (sizes 0 s.rows).take 2 = [16, 16] ∧
      varianceProp s = some (Verif.variance jump) ∧
      detectedChange (realCut (1 / 500)) (s.width + 1) s = some (.ok (false, s')) ∧
      Differ (1 / 500) (Verif.variance jump : ℚ) (jump.take 32) (jump.drop 32) := by
  obtain ⟨s, w, e, hi, hc, hw, hv, hf⟩ := quiet_state (watched jump) (watched_clock _) missed (by decide +kernel)
  simp only [missed, Bool.and_eq_true, decide_eq_true_eq] at hf
  obtain ⟨⟨⟨⟨⟨f1, f2⟩, f3⟩, f4⟩, f5⟩, f6⟩ := hf
  have hadd : added (watched jump) [] = jump := by decide +kernel
  have hlen : jump.length = 96 := by decide +kernel
  have hwj : w = jump := by
    rw [hadd] at hw
    exact hw.eq_of_length (by rw [← hi.width, f1, hlen])
  subst hwj
  refine ⟨s, _, e, describes_of_inv hi, f2, f4, ?_, detect_of_scan _ s (by omega) fun _ =>
    quiet_scan s (by omega) (by omega) f3 (toOption_ok _ _ f6), ?_⟩
  · rw [varianceProp, if_neg (by omega), f5, f1, Verif.variance, hlen]
  · have l1 : (jump.take 32).length = 32 := by decide +kernel
    have l2 : (jump.drop 32).length = 64 := by decide +kernel
    refine ⟨by omega, by omega, ?_⟩
    rw [mean_cast, mean_cast, l1, l2]
    exact cut_of_test 96 32 64 _ _ _ (by omega) (by omega) (by omega) (by omega) (by decide +kernel) (by decide +kernel)

/-- What is needed of the window after `flicker`. -/
def alarmed (s : State) : Bool :=
  decide (s.width = 96) && decide ((s.time + 1) % s.clock = 0) && decide (s.variance = sumSqDev flicker) &&
    decide (0 ≤ s.variance) &&
    (List.range (visited 0 s.rows).length).any fun k =>
      let pre := (visited 0 s.rows).take (k + 1)
      decide (5 ≤ vsize pre) && decide (5 ≤ s.width - vsize pre) &&
        test 9 (vsize pre) (s.width - vsize pre) ((pre.map Prod.snd).sum) (s.total - (pre.map Prod.snd).sum) (s.variance / s.width)

/-- No older part of `flicker` differs enough from the rest, decided by the rational test. -/
def calm : Bool := (List.range 97).all fun k =>
  decide (k < 5) || decide (91 < k) ||
    !test 8 k (96 - k) (flicker.take k).sum (flicker.drop k).sum (Verif.variance flicker)

/-- C280 is violated: with the default `delta`, the 96th check after the values of `flicker` answers
`True`, although no older part of the window differs by more than the threshold from the rest. -/
theorem C280_false_alarm_violated :
    ∃ s s', run (realCut (1 / 500)) (watched flicker) init = some (.ok s) ∧ Describes s flicker ∧
      varianceProp s = some (Verif.variance flicker) ∧
      detectedChange (realCut (1 / 500)) (s.width + 1) s = some (.ok (true, s')) ∧
      ∀ a c, flicker = a ++ c → ¬ Differ (1 / 500) (Verif.variance flicker : ℚ) a c := by
  obtain ⟨s, w, e, hi, hc, hw, hv, hf⟩ := quiet_state (watched flicker) (watched_clock _) alarmed (by decide +kernel)
  simp only [alarmed, Bool.and_eq_true, decide_eq_true_eq, List.any_eq_true] at hf
  obtain ⟨⟨⟨⟨f1, f2⟩, f3⟩, f4⟩, k, hk, ⟨f5, f6⟩, f7⟩ := hf
  have hadd : added (watched flicker) [] = flicker := by decide +kernel
  have hlen : flicker.length = 96 := by decide +kernel
  have hwj : w = flicker := by
    rw [hadd] at hw
    exact hw.eq_of_length (by rw [← hi.width, f1, hlen])
  subst hwj
  obtain ⟨b, s', q1, q2⟩ := answer_iff (realCut (1 / 500)) hi hc
  have hb : b = true := by
    refine q2.mpr ⟨⟨f2, by omega⟩, (visited 0 s.rows).take (k + 1), (visited 0 s.rows).drop (k + 1),
      (List.take_append_drop _ _).symm, ?_, f5, f6, ?_⟩
    · intro hh; rw [hh] at f5; simp [vsize] at f5
    · rw [realCut, decide_eq_true_eq]
      exact cut_of_test _ _ _ _ _ _ (by omega) (by omega) f5 f6 (by positivity) f7
  subst hb
  refine ⟨s, s', e, describes_of_inv hi, ?_, q1, ?_⟩
  · rw [varianceProp, if_neg (by omega), f3, f1, Verif.variance, hlen]
  · intro a c hac hd
    obtain ⟨d1, d2, d3⟩ := hd
    have hl : a.length + c.length = 96 := by rw [← List.length_append, ← hac, hlen]
    have hcalm : calm = true := by decide +kernel
    rw [calm, List.all_eq_true] at hcalm
    have := hcalm a.length (List.mem_range.mpr (by omega))
    simp only [Bool.or_eq_true, decide_eq_true_eq, Bool.not_eq_true'] at this
    have ht : test 8 a.length (96 - a.length) (flicker.take a.length).sum (flicker.drop a.length).sum (Verif.variance flicker) = false := by
      rcases this with (h | h) | h
      · omega
      · omega
      · exact h
    rw [show flicker.take a.length = a by rw [hac, List.take_left], show flicker.drop a.length = c by rw [hac, List.drop_left],
      show 96 - a.length = c.length by omega] at ht
    rw [mean_cast, mean_cast, hl] at d3
    exact not_cut_of_test 96 _ _ _ _ _ (by omega) (by omega) d1 d2 (by decide +kernel) ht d3

/-- Non-vacuity of the parts: after 96 ones and zeros there is a due check of a window of 96 elements. -/
example : (watched jump).length = 191 ∧ added (watched jump) [] = jump ∧ jump.length = 96 := by decide +kernel

/-- Non-vacuity of `C280_constant`. -/
example : ∀ v, Op.add v ∈ watched (List.replicate 40 (1 : ℚ)) → v = 1 := by
  intro v hv
  have h : (watched (List.replicate 40 (1 : ℚ))).all (fun o => match o with | .add v => decide (v = 1) | _ => true) = true := by
    decide +kernel
  have := List.all_eq_true.mp h _ hv
  simpa using this

end Verif.Adwin
