import Verif.Drift.Model
import Mathlib.Data.List.Induction
import Mathlib.Algebra.BigOperators.Group.List.Basic
import Mathlib.Algebra.Order.BigOperators.Group.List
import Mathlib.Algebra.BigOperators.Ring.List
import Mathlib.Tactic.Linarith
import Mathlib.Tactic.Ring
import Mathlib.Tactic.NormNum
import Mathlib.Tactic.Positivity

/-!
C108: what HDDM_W computes, for non-negative values and a decay rate in `[0, 1]`:
its estimate is the exponentially weighted average since the last reported change
and a change is reported exactly when the average after the best cut exceeds the
average before it by the Hoeffding bound.
-/

namespace Verif.Drift.HW

variable {F : Type} [Field F] [LinearOrder F] [IsStrictOrderedRing F]

/-! ### Specification -/

/-- The weight of observation `i` (from 0) among `m` observations: the first one
starts the average with weight 1, later ones enter with `lam`, and each newer
observation multiplies the weight by `1 - lam`. -/
def coef (lam : F) (m i : Nat) : F := (if i = 0 then 1 else lam) * (1 - lam) ^ (m - 1 - i)

/-- The exponentially weighted average. -/
def avg (lam : F) (l : List F) : F := (l.zipIdx.map fun p => coef lam l.length p.2 * p.1).sum

/-- The sum of the squared weights of `m` observations. -/
def sqw (lam : F) (m : Nat) : F := ((List.range m).map fun i => coef lam m i ^ 2).sum

/-- Upper confidence limit of the average of `l`. -/
def upper (c : HWPar F) (l : List F) : F := avg c.lam l + c.sqrt (sqw c.lam l.length * c.logD / 2)

/-- `n` is the first prefix length whose upper confidence limit is smallest. -/
structure BestCut (c : HWPar F) (l : List F) (n : Nat) : Prop where
  pos : 1 ≤ n
  le : n ≤ l.length
  least : ∀ k, 1 ≤ k → k ≤ l.length → upper c (l.take n) ≤ upper c (l.take k)
  first : ∀ k, 1 ≤ k → k < n → upper c (l.take n) < upper c (l.take k)

/-- After the cut, the average exceeds the one before the cut by the bound for `lg`. -/
def Exceeds (c : HWPar F) (lg : F) (l : List F) (n : Nat) : Prop :=
  n < l.length ∧
  c.sqrt ((sqw c.lam n + sqw c.lam (l.length - n)) * lg / 2) < avg c.lam (l.drop n) - avg c.lam (l.take n)

/-- `Trace c xs seg change warning`: after `xs`, `seg` are the values since the last
reported change, and the flags are as given. -/
inductive Trace (c : HWPar F) : List F → List F → Bool → Bool → Prop where
  | start : Trace c [] [] false false
  | change {xs seg ch w x n} : Trace c xs seg ch w → BestCut c (seg ++ [x]) n →
      Exceeds c c.logD (seg ++ [x]) n → Trace c (xs ++ [x]) [] true false
  | warn {xs seg ch w x n} : Trace c xs seg ch w → BestCut c (seg ++ [x]) n →
      ¬ Exceeds c c.logD (seg ++ [x]) n → Exceeds c c.logW (seg ++ [x]) n →
      Trace c (xs ++ [x]) (seg ++ [x]) false true
  | quiet {xs seg ch w x n} : Trace c xs seg ch w → BestCut c (seg ++ [x]) n →
      ¬ Exceeds c c.logD (seg ++ [x]) n → ¬ Exceeds c c.logW (seg ++ [x]) n →
      Trace c (xs ++ [x]) (seg ++ [x]) false false

/-! ### The weights -/

theorem coef_succ (lam : F) (m i : Nat) (h : i < m) :
    coef lam (m + 1) i = (1 - lam) * coef lam m i := by
  unfold coef
  rw [show m + 1 - 1 - i = (m - 1 - i) + 1 by omega, pow_succ]; ring

theorem avg_snoc (lam : F) (l : List F) (x : F) (h : l ≠ []) :
    avg lam (l ++ [x]) = lam * x + (1 - lam) * avg lam l := by
  have hl : l.length ≠ 0 := by simpa using h
  unfold avg
  rw [List.zipIdx_append, List.map_append, List.sum_append, List.length_append]
  have h1 : (l.zipIdx.map fun p => coef lam (l.length + [x].length) p.2 * p.1) =
      l.zipIdx.map fun p => (1 - lam) * (coef lam l.length p.2 * p.1) := by
    apply List.map_congr_left
    intro p hp
    obtain ⟨_, h2, _⟩ := List.mem_zipIdx hp
    rw [List.length_singleton, coef_succ lam _ _ (by simpa using h2)]; ring
  rw [h1, List.sum_map_mul_left]
  simp only [List.zipIdx_cons, List.zipIdx_nil, List.map_cons, List.map_nil, List.sum_cons,
    List.sum_nil, List.length_singleton]
  have : coef lam (l.length + 1) (0 + l.length) = lam := by
    unfold coef
    rw [if_neg (by omega), show l.length + 1 - 1 - (0 + l.length) = 0 by omega, pow_zero, mul_one]
  rw [this]; ring

theorem avg_single (lam x : F) : avg lam [x] = x := by simp [avg, coef]

theorem sqw_one (lam : F) : sqw lam 1 = 1 := by simp [sqw, coef]

theorem sqw_succ (lam : F) (m : Nat) (h : m ≠ 0) :
    sqw lam (m + 1) = lam * lam + (1 - lam) * (1 - lam) * sqw lam m := by
  unfold sqw
  rw [List.range_succ, List.map_append, List.sum_append]
  have h1 : ((List.range m).map fun i => coef lam (m + 1) i ^ 2) =
      (List.range m).map fun i => ((1 - lam) * (1 - lam)) * coef lam m i ^ 2 := by
    apply List.map_congr_left
    intro i hi
    rw [coef_succ lam _ _ (List.mem_range.mp hi)]; ring
  rw [h1, List.sum_map_mul_left]
  have : coef lam (m + 1) m = lam := by
    unfold coef; rw [if_neg h, show m + 1 - 1 - m = 0 by omega, pow_zero, mul_one]
  simp only [List.map_cons, List.map_nil, List.sum_cons, List.sum_nil, this]; ring

theorem sqw_nonneg (lam : F) (m : Nat) : 0 ≤ sqw lam m := by
  unfold sqw
  apply List.sum_nonneg
  intro x hx
  obtain ⟨i, _, rfl⟩ := List.mem_map.mp hx
  positivity

theorem avg_bounds (lam : F) (h0 : 0 ≤ lam) (h1 : lam ≤ 1) (lo hi : F) (l : List F) (hne : l ≠ [])
    (h : ∀ x ∈ l, lo ≤ x ∧ x ≤ hi) : lo ≤ avg lam l ∧ avg lam l ≤ hi := by
  induction l using List.reverseRecOn with
  | nil => exact absurd rfl hne
  | append_singleton l x ih =>
    have hx := h x (by simp)
    by_cases hl : l = []
    · subst hl; rw [List.nil_append, avg_single]; exact hx
    · obtain ⟨a, b⟩ := ih hl (fun y hy => h y (by simp [hy]))
      rw [avg_snoc lam l x hl]
      constructor
      · nlinarith [mul_nonneg h0 (sub_nonneg.mpr hx.1), mul_nonneg (sub_nonneg.mpr h1) (sub_nonneg.mpr a)]
      · nlinarith [mul_nonneg h0 (sub_nonneg.mpr hx.2), mul_nonneg (sub_nonneg.mpr h1) (sub_nonneg.mpr b)]

/-! ### Invariant -/

/-- What a sample record of the observations `l` holds. -/
def stats (lam : F) (l : List F) : F × F := (avg lam l, sqw lam l.length)

/-- The state describes the values since the last change. -/
structure Inv (c : HWPar F) (s : HW F) (seg : List F) : Prop where
  decr : s.decrCut = none ∧ s.s1decr = none
  width : s.width = seg.length
  empty : seg = [] → s.total = none ∧ s.s1incr = none ∧ s.s2incr = none ∧ s.incrCut = none ∧ s.delay = 0
  full : seg ≠ [] → s.total = some (stats c.lam seg) ∧ ∃ n, BestCut c seg n ∧
    s.s1incr = some (stats c.lam (seg.take n)) ∧
    s.s2incr = (if n = seg.length then none else some (stats c.lam (seg.drop n))) ∧
    s.incrCut = some (upper c (seg.take n)) ∧ s.delay = seg.length - n

theorem ewma_stats (lam : F) (h0 : 0 ≤ lam) (h1 : lam ≤ 1) (l : List F) (hl : ∀ x ∈ l, 0 ≤ x) (x : F) :
    ewma lam (if l = [] then none else some (stats lam l)) x = stats lam (l ++ [x]) := by
  by_cases h : l = []
  · subst h; simp [ewma, stats, avg_single, sqw_one]
  · have hlen : l.length ≠ 0 := by simpa using h
    have hn : ¬ avg lam l < 0 := not_lt.mpr
      (avg_bounds lam h0 h1 0 (l.foldr max 0) l h (fun y hy => ⟨hl y hy, by
        clear hlen h hl
        induction l with
        | nil => cases hy
        | cons a l ih =>
          rcases List.mem_cons.mp hy with rfl | hy
          · exact le_max_left _ _
          · exact le_trans (ih hy) (le_max_right _ _)⟩)).1
    rw [if_neg h]
    have hn' : ¬ (stats lam l).1 < 0 := hn
    simp only [ewma, if_neg hn']
    simp only [stats]
    rw [avg_snoc lam l x h, List.length_append, List.length_singleton, sqw_succ lam _ hlen]

theorem pySqrt_ok (f : F → F) (a : F) (h : 0 ≤ a) : pySqrt f a = .ok (f a) := by
  rw [pySqrt, if_neg (not_lt.mpr h)]

theorem updIncr_spec (c : HWPar F) (h0 : 0 ≤ c.lam) (h1 : c.lam ≤ 1) (hD : 0 ≤ c.logD) (s : HW F)
    (seg : List F) (x : F) (hs : ∀ y ∈ seg ++ [x], 0 ≤ y) (hi : Inv c s seg) :
    ∃ s' n, updIncr c { s with width := s.width + 1, total := some (stats c.lam (seg ++ [x])) }
        (stats c.lam (seg ++ [x])) x = .ok s' ∧
      BestCut c (seg ++ [x]) n ∧ s'.decrCut = none ∧ s'.s1decr = none ∧
      s'.total = some (stats c.lam (seg ++ [x])) ∧ s'.width = (seg ++ [x]).length ∧
      s'.s1incr = some (stats c.lam ((seg ++ [x]).take n)) ∧
      s'.s2incr = (if n = (seg ++ [x]).length then none else some (stats c.lam ((seg ++ [x]).drop n))) ∧
      s'.incrCut = some (upper c ((seg ++ [x]).take n)) ∧ s'.delay = (seg ++ [x]).length - n := by
  have hlen : (seg ++ [x]).length = seg.length + 1 := by simp
  have hnn : 0 ≤ (stats c.lam (seg ++ [x])).2 * c.logD / 2 :=
    div_nonneg (mul_nonneg (sqw_nonneg _ _) hD) (by norm_num)
  have hup : (stats c.lam (seg ++ [x])).1 + c.sqrt ((stats c.lam (seg ++ [x])).2 * c.logD / 2) =
    upper c (seg ++ [x]) := rfl
  have hfull : (seg ++ [x]).take (seg ++ [x]).length = seg ++ [x] := List.take_length
  have hw : s.width + 1 = (seg ++ [x]).length := by rw [hi.width, hlen]
  unfold updIncr
  simp only [pySqrt_ok _ _ hnn, bind, Except.bind, hup]
  by_cases hseg : seg = []
  · obtain ⟨e1, e2, e3, e4, e5⟩ := hi.empty hseg
    have hlt : ltCut (upper c (seg ++ [x]))
        s.incrCut = true := by rw [e4]; rfl
    rw [if_pos hlt]
    refine ⟨_, (seg ++ [x]).length, rfl, ⟨by omega, le_refl _, ?_, ?_⟩, hi.decr.1, hi.decr.2, rfl, hw, ?_, ?_, ?_, ?_⟩
    · intro k hk1 hk2
      have : k = (seg ++ [x]).length := by rw [hlen, hseg] at *; simp at *; omega
      rw [this]
    · intro k hk1 hk2; rw [hlen, hseg] at hk2; simp at hk2; omega
    · rw [hfull]
    · rw [if_pos rfl]
    · rw [hfull]
    · simp
  · obtain ⟨e1, n, hb, e2, e3, e4, e5⟩ := hi.full hseg
    have htake : ∀ k, k ≤ seg.length → (seg ++ [x]).take k = seg.take k := by
      intro k hk; rw [List.take_append_of_le_length hk]
    by_cases hlt : upper c (seg ++ [x]) < upper c (seg.take n)
    · have hlt' : ltCut (upper c (seg ++ [x]))
          s.incrCut = true := by rw [e4]; simpa [ltCut] using hlt
      rw [if_pos hlt']
      refine ⟨_, (seg ++ [x]).length, rfl, ⟨by omega, le_refl _, ?_, ?_⟩, hi.decr.1, hi.decr.2, rfl, hw, ?_, ?_, ?_, ?_⟩
      · intro k hk1 hk2
        rw [hfull]
        by_cases hk : k ≤ seg.length
        · rw [htake k hk]; exact le_trans (le_of_lt hlt) (hb.least k hk1 hk)
        · rw [show k = (seg ++ [x]).length by omega, hfull]
      · intro k hk1 hk2
        rw [hfull, htake k (by omega)]
        exact lt_of_lt_of_le hlt (hb.least k hk1 (by omega))
      · rw [hfull]
      · rw [if_pos rfl]
      · rw [hfull]
      · simp
    · have hlt' : ltCut (upper c (seg ++ [x]))
          s.incrCut = false := by rw [e4]; simpa [ltCut] using hlt
      rw [hlt', if_neg (by simp)]
      have hn := hb.le
      have hdrop : (seg ++ [x]).drop n = seg.drop n ++ [x] := List.drop_append_of_le_length hn
      refine ⟨_, n, rfl, ⟨hb.pos, by omega, ?_, ?_⟩, hi.decr.1, hi.decr.2, rfl, hw, ?_, ?_, ?_, ?_⟩
      · intro k hk1 hk2
        rw [htake n hn]
        by_cases hk : k ≤ seg.length
        · rw [htake k hk]; exact hb.least k hk1 hk
        · rw [show k = (seg ++ [x]).length by omega, hfull]; exact not_lt.mp hlt
      · intro k hk1 hk2
        rw [htake n hn, htake k (by omega)]; exact hb.first k hk1 hk2
      · rw [htake n hn]; exact e2
      · simp only
        rw [if_neg (by omega), hdrop, e3]
        have := ewma_stats c.lam h0 h1 (seg.drop n)
          (fun y hy => hs y (by simp [List.mem_of_mem_drop hy])) x
        rw [← this]
        have hiff : seg.drop n = [] ↔ n = seg.length := by rw [List.drop_eq_nil_iff]; omega
        by_cases hq : n = seg.length
        · rw [if_pos hq, if_pos (hiff.mpr hq)]
        · rw [if_neg hq, if_neg (fun h => hq (hiff.mp h))]
      · simp only; rw [htake n hn]; exact e4
      · simp only; rw [e5, hlen]; omega

theorem avg_nonneg (lam : F) (h0 : 0 ≤ lam) (h1 : lam ≤ 1) (l : List F) (hl : ∀ x ∈ l, 0 ≤ x) :
    0 ≤ avg lam l := by
  by_cases h : l = []
  · subst h; simp [avg]
  · have : ∀ l : List F, ∀ y ∈ l, y ≤ l.foldr max 0 := by
      intro l
      induction l with
      | nil => intro y hy; cases hy
      | cons a l ih =>
        intro y hy
        rcases List.mem_cons.mp hy with rfl | hy
        · exact le_max_left _ _
        · exact le_trans (ih y hy) (le_max_right _ _)
    exact (avg_bounds lam h0 h1 0 (l.foldr max 0) l h (fun y hy => ⟨hl y hy, this l y hy⟩)).1

theorem detect_spec (c : HWPar F) (h0 : 0 ≤ c.lam) (h1 : c.lam ≤ 1) (lg : F) (hlg : 0 ≤ lg)
    (l : List F) (hl : ∀ x ∈ l, 0 ≤ x) (n : Nat) (hn : n ≤ l.length) :
    ∃ b, detectIncr c.sqrt lg (some (stats c.lam (l.take n)))
        (if n = l.length then none else some (stats c.lam (l.drop n))) = .ok b ∧
      (b = true ↔ Exceeds c lg l n) := by
  by_cases h : n = l.length
  · refine ⟨false, by rw [if_pos h]; rfl, ?_⟩
    simp [Exceeds, h]
  · rw [if_neg h]
    have a1 := avg_nonneg c.lam h0 h1 (l.take n) (fun x hx => hl x (List.mem_of_mem_take hx))
    have a2 := avg_nonneg c.lam h0 h1 (l.drop n) (fun x hx => hl x (List.mem_of_mem_drop hx))
    have hnn : 0 ≤ ((stats c.lam (l.take n)).2 + (stats c.lam (l.drop n)).2) * lg / 2 :=
      div_nonneg (mul_nonneg (add_nonneg (sqw_nonneg _ _) (sqw_nonneg _ _)) hlg) (by norm_num)
    have hneg : ¬ ((stats c.lam (l.take n)).1 < 0 ∨ (stats c.lam (l.drop n)).1 < 0) := by
      rintro (h | h)
      · exact absurd h (not_lt.mpr a1)
      · exact absurd h (not_lt.mpr a2)
    simp only [detectIncr]
    rw [if_neg hneg, pySqrt_ok _ _ hnn]
    refine ⟨_, rfl, ?_⟩
    rw [decide_eq_true_eq]
    simp only [stats, List.length_take, List.length_drop, Nat.min_eq_left hn]
    unfold Exceeds
    constructor
    · intro h'; exact ⟨by omega, h'⟩
    · intro h'; exact h'.2

/-- The initial state, also after a change, describes no values. -/
theorem inv_reset (c : HWPar F) (ch w : Bool) : Inv c { init with change := ch, warning := w } [] :=
  ⟨⟨rfl, rfl⟩, rfl, fun _ => ⟨rfl, rfl, rfl, rfl, rfl⟩, fun h => absurd rfl h⟩

/-- C108: HDDM_W follows the specification. For every sequence of non-negative
values: no exception; the change and warning flags are those of the trace; the
width counts the values since the last change; the estimate is their
exponentially weighted average, and 0 when there are none. -/
theorem C108_follows_specification (c : HWPar F) (h0 : 0 ≤ c.lam) (h1 : c.lam ≤ 1) (hD : 0 ≤ c.logD)
    (hW : 0 ≤ c.logW) (xs : List F) (hx : ∀ x ∈ xs, 0 ≤ x) :
    ∃ s seg, run c xs = .ok s ∧ Trace c xs seg s.change s.warning ∧ seg <:+ xs ∧
      s.width = seg.length ∧ s.estimation = avg c.lam seg ∧
      (seg ≠ [] → ∃ n, BestCut c seg n ∧ s.delay = seg.length - n) := by
  suffices H : ∃ s seg, run c xs = .ok s ∧ Trace c xs seg s.change s.warning ∧ seg <:+ xs ∧
      s.estimation = avg c.lam seg ∧ Inv c s seg by
    obtain ⟨s, seg, a, b, d, e, f⟩ := H
    refine ⟨s, seg, a, b, d, f.width, e, fun h => ?_⟩
    obtain ⟨_, n, hb, _, _, _, hd⟩ := f.full h
    exact ⟨n, hb, hd⟩
  induction xs using List.reverseRecOn with
  | nil => exact ⟨init, [], rfl, .start, List.suffix_refl _, rfl, inv_reset c false false⟩
  | append_singleton xs x ih =>
    obtain ⟨s, seg, e, ht, hsuf, _, hi⟩ := ih (fun y hy => hx y (by simp [hy]))
    have hpos : ∀ y ∈ seg ++ [x], 0 ≤ y := by
      intro y hy
      rcases List.mem_append.mp hy with h | h
      · exact hx y (by simp [hsuf.subset h])
      · exact hx y (by simp [List.mem_singleton.mp h])
    have hrun : run c (xs ++ [x]) = addElement c s x := by
      unfold run at *
      rw [List.foldlM_append, e]
      simp [bind, Except.bind, List.foldlM_cons, List.foldlM_nil]
      cases addElement c s x <;> rfl
    have hewma : ewma c.lam s.total x = stats c.lam (seg ++ [x]) := by
      rw [← ewma_stats c.lam h0 h1 seg (fun y hy => hpos y (by simp [hy])) x]
      by_cases h : seg = []
      · rw [if_pos h, (hi.empty h).1]
      · rw [if_neg h, (hi.full h).1]
    obtain ⟨s1, n, u1, hb, u2, u3, u4, u5, u6, u7, u8, u9⟩ := updIncr_spec c h0 h1 hD s seg x hpos hi
    obtain ⟨b, d1, d2⟩ := detect_spec c h0 h1 c.logD hD (seg ++ [x]) hpos n hb.le
    obtain ⟨w, w1, w2⟩ := detect_spec c h0 h1 c.logW hW (seg ++ [x]) hpos n hb.le
    rw [← u6, ← u7] at d1 w1
    rw [hrun]
    unfold addElement
    simp only [hewma, u1, bind, Except.bind, d1, w1]
    have hne : seg ++ [x] ≠ [] := by simp
    have hsuf' : seg ++ [x] <:+ xs ++ [x] := by
      obtain ⟨p, hp⟩ := hsuf
      exact ⟨p, by rw [← List.append_assoc, hp]⟩
    cases b with
    | true =>
      refine ⟨_, [], rfl, .change ht hb (d2.mp rfl), List.nil_suffix, rfl, inv_reset c true false⟩
    | false =>
      have hnD : ¬ Exceeds c c.logD (seg ++ [x]) n := fun h => by simpa using d2.mpr h
      have hnn : 0 ≤ (stats c.lam (seg ++ [x])).2 * c.logD / 2 :=
        div_nonneg (mul_nonneg (sqw_nonneg _ _) hD) (by norm_num)
      have htr : Trace c (xs ++ [x]) (seg ++ [x]) false w := by
        cases w with
        | true => exact .warn ht hb hnD (w2.mp rfl)
        | false => exact .quiet ht hb hnD (fun h => by simpa using w2.mpr h)
      simp only [Bool.false_eq_true, if_false, updDecr, pySqrt_ok _ _ hnn, bind, Except.bind, u2,
        gtCut, pure, Except.pure]
      have hdet : ∀ q, detectIncr c.sqrt c.logD q s1.s1decr = .ok false := by
        intro q; rw [u3]; cases q <;> rfl
      have hinv : ∀ est sd, Inv c { s1 with
            change := false, warning := w, s2decr := sd, estimation := est, decrCut := none }
          (seg ++ [x]) := fun est sd =>
        ⟨⟨rfl, u3⟩, u5, fun h => absurd h hne, fun _ => ⟨u4, n, hb, u6, u7, u8, u9⟩⟩
      cases c.twoSide with
      | true =>
        simp only [if_true, hdet, Bool.false_eq_true, if_false]
        exact ⟨_, seg ++ [x], rfl, htr, hsuf', rfl, hinv _ _⟩
      | false =>
        simp only [Bool.false_eq_true, if_false]
        exact ⟨_, seg ++ [x], rfl, htr, hsuf', rfl, hinv _ _⟩

/-- C108: the estimate lies in the range of the values since the last change. -/
theorem C108_range (c : HWPar F) (h0 : 0 ≤ c.lam) (h1 : c.lam ≤ 1) (hD : 0 ≤ c.logD)
    (hW : 0 ≤ c.logW) (lo hi : F) (hlo : 0 ≤ lo) (xs : List F) (hx : ∀ x ∈ xs, lo ≤ x ∧ x ≤ hi) :
    ∃ s, run c xs = .ok s ∧ (0 < s.width → lo ≤ s.estimation ∧ s.estimation ≤ hi) := by
  obtain ⟨s, seg, a, _, hs, hw, he, _⟩ := C108_follows_specification c h0 h1 hD hW xs
    (fun x h => le_trans hlo (hx x h).1)
  refine ⟨s, a, fun h => ?_⟩
  rw [he]
  refine avg_bounds c.lam h0 h1 lo hi seg ?_ (fun x h => hx x (hs.subset h))
  rintro rfl; rw [hw] at h; simp at h

/-- C108: a sequence that never increases is never reported. -/
theorem C108_decrease_never_reported (c : HWPar F) (h0 : 0 ≤ c.lam) (h1 : c.lam ≤ 1) (hD : 0 ≤ c.logD)
    (hW : 0 ≤ c.logW) (hsq : ∀ q, 0 ≤ c.sqrt q) (xs : List F) (hx : ∀ x ∈ xs, 0 ≤ x)
    (hmono : xs.Pairwise (· ≥ ·)) :
    ∃ s, run c xs = .ok s ∧ s.change = false ∧ s.warning = false ∧ s.width = xs.length ∧
      s.estimation = avg c.lam xs := by
  obtain ⟨s, seg, a, ht, hs, hw, he, _⟩ := C108_follows_specification c h0 h1 hD hW xs hx
  have key : ∀ (l : List F), l.Pairwise (· ≥ ·) → ∀ n lg, 1 ≤ n → ¬ Exceeds c lg l n := by
    intro l hl n lg hn ⟨hlt, hgt⟩
    have hsplit := List.take_append_drop n l
    rw [← hsplit, List.pairwise_append] at hl
    obtain ⟨d, hd⟩ : ∃ d, d ∈ l.drop n := List.exists_mem_of_ne_nil _ (by
      rw [Ne, List.drop_eq_nil_iff]; omega)
    have hne1 : l.take n ≠ [] := by rw [Ne, List.take_eq_nil_iff]; rintro (h | h); omega; subst h; simp at hlt
    have hne2 : l.drop n ≠ [] := List.ne_nil_of_mem hd
    obtain ⟨m, hm, hmin⟩ : ∃ m ∈ l.take n, ∀ y ∈ l.take n, m ≤ y := by
      refine ⟨(l.take n).getLast hne1, List.getLast_mem hne1, ?_⟩
      intro y hy
      have := hl.1
      rw [← List.dropLast_append_getLast hne1, List.pairwise_append] at this
      rw [← List.dropLast_append_getLast hne1] at hy
      rcases List.mem_append.mp hy with h | h
      · exact this.2.2 y h _ (by simp)
      · rw [List.mem_singleton.mp h]
    have b1 : ∀ l : List F, ∀ y ∈ l, y ≤ l.foldr max m := by
      intro l
      induction l with
      | nil => intro y hy; cases hy
      | cons a l ih =>
        intro y hy
        rcases List.mem_cons.mp hy with rfl | hy
        · exact le_max_left _ _
        · exact le_trans (ih y hy) (le_max_right _ _)
    have b2 : ∀ l : List F, ∀ y ∈ l, l.foldr min m ≤ y := by
      intro l
      induction l with
      | nil => intro y hy; cases hy
      | cons a l ih =>
        intro y hy
        rcases List.mem_cons.mp hy with rfl | hy
        · exact min_le_left _ _
        · exact le_trans (min_le_right _ _) (ih y hy)
    have e1 := (avg_bounds c.lam h0 h1 m _ (l.take n) hne1 (fun y hy => ⟨hmin y hy, b1 _ y hy⟩)).1
    have e2 := (avg_bounds c.lam h0 h1 _ m (l.drop n) hne2 (fun y hy => ⟨b2 _ y hy, hl.2.2 m hm y hy⟩)).2
    have := hsq ((sqw c.lam n + sqw c.lam (l.length - n)) * lg / 2)
    linarith
  have main : ∀ xs seg ch w, Trace c xs seg ch w → xs.Pairwise (· ≥ ·) →
      ch = false ∧ w = false ∧ seg = xs := by
    intro xs seg ch w h
    induction h with
    | start => intro _; exact ⟨rfl, rfl, rfl⟩
    | change _ hb hE ih =>
      intro hp
      obtain ⟨_, _, e⟩ := ih (List.pairwise_append.mp hp).1
      rw [e] at hE hb
      exact absurd hE (key _ hp _ _ hb.pos)
    | warn _ hb _ hE ih =>
      intro hp
      obtain ⟨_, _, e⟩ := ih (List.pairwise_append.mp hp).1
      rw [e] at hE hb
      exact absurd hE (key _ hp _ _ hb.pos)
    | quiet _ hb _ _ ih =>
      intro hp
      obtain ⟨_, _, e⟩ := ih (List.pairwise_append.mp hp).1
      exact ⟨rfl, rfl, by rw [e]⟩
  obtain ⟨m1, m2, m3⟩ := main xs seg _ _ ht hmono
  exact ⟨s, a, m1, m2, by rw [hw, m3], by rw [he, m3]⟩

/-- Concrete parameters: a jump is reported, then the average starts afresh. -/
def demoW : HWPar := ⟨1 / 2, 1 / 4, 1 / 2, true, fun q => q⟩
example : (run demoW [0, 0, 0, 0]).toOption.map (fun s => (s.change, s.width)) = some (false, 4) ∧
    (run demoW [0, 0, 0, 0, 1]).toOption.map (fun s => (s.change, s.width)) = some (true, 0) ∧
    (run demoW [0, 0, 0, 0, 1, 1, 1 / 2]).toOption.map (fun s => (s.change, s.width, s.estimation)) =
      some (false, 2, 3 / 4) := by decide +kernel

end Verif.Drift.HW
