import Verif.Metrics.MultiLabel
import Mathlib.Algebra.Order.BigOperators.Group.List
import Mathlib.Algebra.BigOperators.Field

/-!
Properties C10 (multi-label scores) and C49 (windowed multi-label scores).
-/

namespace Verif.MultiLabel

/-! ### Specification -/

/-- One result: true label vector, predicted label vector, weight. -/
structure Res where
  yt : List Bool
  yp : List Bool
  w : ℚ

/-- Number of positions at which both vectors are set. -/
def inter (r : Res) : Nat := (r.yt.zip r.yp).countP fun q => q.1 && q.2
/-- Number of positions at which at least one vector is set. -/
def union (r : Res) : Nat := (r.yt.zip r.yp).countP fun q => q.1 || q.2
/-- Number of positions at which the vectors agree. -/
def agree (r : Res) : Nat := (r.yt.zip r.yp).countP fun q => q.1 == q.2

/-- Jaccard index of a result; 0 (documented) when the union is empty. -/
def jaccard (r : Res) : ℚ := if union r = 0 then 0 else (inter r : ℚ) / union r

/-- Well-formed results: equally long label vectors. -/
def Wf (h : List Res) : Prop := ∀ r ∈ h, r.yt.length = r.yp.length

/-- Fraction of labels predicted correctly, for `L` labels per result. -/
def hammingSpec (L : Nat) (h : List Res) : ℚ :=
  ((h.map fun r => (agree r : ℚ)).sum) / (h.length * L : Nat)

def run (h : List Res) : MLEval := h.foldl (fun e r => e.addResult r.yt r.yp r.w) MLEval.init
def wrun (w : Nat) (h : List Res) : WMLEval :=
  h.foldl (fun e r => e.addResult r.yt r.yp r.w) (WMLEval.init w)

/-! ### Lemmas -/

/-- Sum of the true-positive cells. -/
private def tp (m : MLCM) : ℚ := ∑ l ∈ Finset.range m.nLabels, m.data l true true

private def Supp (m : MLCM) : Prop := ∀ l, m.nLabels ≤ l → m.data l true true = 0

private theorem tp_of_le (m : MLCM) (hm : Supp m) (k : Nat) (hk : m.nLabels ≤ k) :
    ∑ l ∈ Finset.range k, m.data l true true = tp m := by
  unfold tp
  symm
  apply Finset.sum_subset
  · intro l hl; simp at *; omega
  · intro l _ hl; simp at hl; exact hm l hl

private theorem setItem_tp (m : MLCM) (hm : Supp m) (l : Nat) (t p : Bool) (w : ℚ) :
    Supp (m.setItem l t p w) ∧ tp (m.setItem l t p w) = tp m + if t && p then w else 0 := by
  constructor
  · intro i hi
    simp only [MLCM.setItem] at hi ⊢
    have : i ≠ l := by omega
    simp [this, hm i (by omega)]
  · have h1 : tp (m.setItem l t p w) = ∑ i ∈ Finset.range (max m.nLabels (l + 1)),
        (m.data i true true + if i = l then (if t && p then w else 0) else 0) := by
      unfold tp
      refine Finset.sum_congr rfl fun i _ => ?_
      simp only [MLCM.setItem]
      by_cases hi : i = l
      · cases t <;> cases p <;> simp [hi]
      · simp [hi]
    rw [h1, Finset.sum_add_distrib, tp_of_le m hm _ (le_max_left _ _), Finset.sum_ite_eq']
    simp

private theorem setRow_tp (w : ℚ) (y : List (Bool × Bool)) :
    ∀ (m : MLCM) (i : Nat), Supp m →
      Supp (MLCM.setRow w m i y) ∧
      tp (MLCM.setRow w m i y) = tp m + w * (y.countP fun q => q.1 && q.2) ∧
      (MLCM.setRow w m i y).nLabels =
        max m.nLabels (if y.length = 0 then 0 else i + y.length) := by
  induction y with
  | nil => intro m i hm; exact ⟨hm, by simp [MLCM.setRow], by simp [MLCM.setRow]⟩
  | cons q y ih =>
    intro m i hm
    obtain ⟨t, p⟩ := q
    obtain ⟨h1, h2⟩ := setItem_tp m hm i t p w
    obtain ⟨g1, g2, g3⟩ := ih (m.setItem i t p w) (i + 1) h1
    simp only [MLCM.setRow]
    refine ⟨g1, ?_, ?_⟩
    · rw [g2, h2, List.countP_cons]
      by_cases hc : t && p
      · simp only [hc, if_true]; push_cast; ring
      · simp [hc]
    · rw [g3, if_neg (show ¬ ((t, p) :: y).length = 0 by simp)]
      simp only [MLCM.setItem, List.length_cons]
      by_cases hy : y.length = 0
      · rw [if_pos hy]; omega
      · rw [if_neg hy]; omega

private theorem isEqual_spec (r : Res) (h : r.yt.length = r.yp.length) :
    isEqual (r.yt.zip r.yp) = if r.yt = r.yp then 1 else 0 := by
  have : ∀ (a b : List Bool), a.length = b.length →
      ((a.zip b).all (fun q => q.1 == q.2) = true ↔ a = b) := by
    intro a
    induction a with
    | nil => intro b hb; cases b <;> simp at *
    | cons x a ih =>
      intro b hb
      cases b with
      | nil => simp at hb
      | cons z b =>
        simp only [List.length_cons, Nat.add_right_cancel_iff] at hb
        simp only [List.zip_cons_cons, List.all_cons, Bool.and_eq_true, ih b hb, List.cons.injEq,
          beq_iff_eq]
  unfold isEqual
  by_cases hc : r.yt = r.yp
  · rw [if_pos hc, if_pos ((this _ _ h).2 hc)]
  · rw [if_neg hc, if_neg (fun hh => hc ((this _ _ h).1 hh))]

private theorem jaccardInc_spec (r : Res) : jaccardInc (r.yt.zip r.yp) = jaccard r := by
  unfold jaccardInc jaccard
  simp only
  by_cases hu : union r = 0
  · have : ((r.yt.zip r.yp).countP fun q => q.1 || q.2) = 0 := hu
    simp [hu, this]
  · have h1 : (0 : ℚ) < ((r.yt.zip r.yp).countP fun q => q.1 || q.2 : Nat) := by
      exact_mod_cast Nat.pos_of_ne_zero hu
    rw [if_neg hu, if_pos h1]; rfl

/-- Statistics of the evaluator in terms of the results. -/
private def Inv (g : List Res) (e : MLEval) : Prop :=
  Supp e.cm ∧ tp e.cm = (g.map fun r => r.w * inter r).sum ∧ e.nSamples = g.length ∧
  e.exactMatch = (g.map fun r => if r.yt = r.yp then (1 : Int) else 0).sum ∧
  e.jaccardSum = (g.map jaccard).sum

private theorem run_append (h : List Res) (r : Res) :
    run (h ++ [r]) = (run h).addResult r.yt r.yp r.w := by simp [run]

private theorem inv_add (g : List Res) (e : MLEval) (hi : Inv g e) (r : Res)
    (hr : r.yt.length = r.yp.length) : Inv (g ++ [r]) (e.addResult r.yt r.yp r.w) := by
  obtain ⟨i1, i2, i3, i4, i5⟩ := hi
  obtain ⟨s1, s2, _⟩ := setRow_tp r.w (r.yt.zip r.yp) e.cm 0 i1
  simp only [MLEval.addResult, hr, ne_eq, not_true_eq_false, if_false]
  refine ⟨s1, ?_, by simp [i3], ?_, ?_⟩
  · rw [s2, i2]; simp [inter]
  · simp only [i4, isEqual_spec r hr]; simp
  · simp only [i5, jaccardInc_spec]; simp

private theorem inv_run (h : List Res) (hw : Wf h) : Inv h (run h) := by
  induction h using List.reverseRecOn with
  | nil => exact ⟨fun _ _ => rfl, by simp [tp, run, MLEval.init, MLCM.init], rfl, rfl, rfl⟩
  | append_singleton h r ih =>
    rw [run_append]
    exact inv_add h _ (ih fun q hq => hw q (by simp [hq])) r (hw r (by simp))

private theorem nLabels_run (L : Nat) (h : List Res)
    (hL : ∀ r ∈ h, r.yt.length = L ∧ r.yp.length = L) :
    (run h).cm.nLabels = max 2 (if h.length = 0 then 0 else L) := by
  induction h using List.reverseRecOn with
  | nil => rfl
  | append_singleton h r ih =>
    have ih := ih fun q hq => hL q (by simp [hq])
    obtain ⟨l1, l2⟩ := hL r (by simp)
    have hS := (inv_run h (fun q hq => by
      obtain ⟨a, b⟩ := hL q (by simp [hq]); omega)).1
    rw [run_append]
    simp only [MLEval.addResult, l1, l2, ne_eq, not_true_eq_false, if_false]
    rw [(setRow_tp r.w (r.yt.zip r.yp) (run h).cm 0 hS).2.2, ih]
    have hz : (r.yt.zip r.yp).length = L := by simp [l1, l2]
    rw [hz, if_neg (show ¬ (h ++ [r]).length = 0 by simp)]
    by_cases h1 : h.length = 0 <;> by_cases h2 : L = 0
    · rw [if_pos h1, if_pos h2]; omega
    · rw [if_pos h1, if_neg h2]; omega
    · rw [if_neg h1, if_pos h2]; omega
    · rw [if_neg h1, if_neg h2]; omega

/-! ### Theorems -/

/-- **C10.** The exact-match score is the fraction of results whose label
vectors are identical. -/
theorem C10_exact_match (h : List Res) (hw : Wf h) (hne : h ≠ []) :
    (run h).exactMatchScore = (h.countP fun r => r.yt = r.yp : Nat) / (h.length : ℚ) := by
  obtain ⟨_, _, i3, i4, _⟩ := inv_run h hw
  have hlen : h.length ≠ 0 := by simpa using hne
  unfold MLEval.exactMatchScore
  rw [i3, if_neg hlen, i4]
  congr 1
  have key : ∀ l : List Res, (l.map fun r => if r.yt = r.yp then (1 : Int) else 0).sum =
      ((l.countP fun r => r.yt = r.yp : Nat) : Int) := by
    intro l
    induction l with
    | nil => simp
    | cons r l ih =>
      rw [List.map_cons, List.sum_cons, List.countP_cons, ih]
      push_cast
      by_cases hc : r.yt = r.yp <;> simp [hc, add_comm]
  rw [key]
  push_cast
  rfl

/-- **C10.** The Jaccard score is the mean Jaccard index of the results. -/
theorem C10_jaccard (h : List Res) (hw : Wf h) (hne : h ≠ []) :
    (run h).jaccardScore = (h.map jaccard).sum / (h.length : ℚ) ∧
    ∀ r, 0 ≤ jaccard r ∧ jaccard r ≤ 1 := by
  obtain ⟨_, _, i3, _, i5⟩ := inv_run h hw
  have hlen : h.length ≠ 0 := by simpa using hne
  refine ⟨?_, fun r => ?_⟩
  · unfold MLEval.jaccardScore
    rw [i3, if_neg hlen, i5]
  · unfold jaccard
    split_ifs with hu
    · norm_num
    · have hle : inter r ≤ union r := by
        unfold inter union
        exact List.countP_mono_left (by intro x _; simp; tauto)
      have hpos : (0 : ℚ) < union r := by exact_mod_cast Nat.pos_of_ne_zero hu
      exact ⟨by positivity, (div_le_one hpos).2 (by exact_mod_cast hle)⟩

/-- **C10.** What `hamming_score()` computes for results with `L ≥ 2` labels and
unit weights: only labels that are set in both vectors are counted.  (Partial:
the documented score also counts labels that are correctly predicted to be
unset.) -/
theorem C10_hamming_partial (L : Nat) (hL2 : 2 ≤ L) (h : List Res)
    (hL : ∀ r ∈ h, r.yt.length = L ∧ r.yp.length = L ∧ r.w = 1) (hne : h ≠ []) :
    (run h).hammingScore =
      some ((h.map fun r => (inter r : ℚ)).sum / (h.length * L : Nat)) := by
  obtain ⟨_, i2, i3, _, _⟩ := inv_run h (fun r hr => by obtain ⟨a, b, _⟩ := hL r hr; omega)
  have hn := nLabels_run L h (fun r hr => ⟨(hL r hr).1, (hL r hr).2.1⟩)
  have hlen : h.length ≠ 0 := by simpa using hne
  rw [if_neg hlen, max_eq_right hL2] at hn
  unfold MLEval.hammingScore
  have hpos : (run h).nSamples * (run h).cm.nLabels ≠ 0 := by
    rw [i3, hn]; exact Nat.mul_ne_zero hlen (by omega)
  rw [if_neg hpos]
  have : (∑ l ∈ Finset.range (run h).cm.nLabels, (run h).cm.data l true true)
      = (h.map fun r => (inter r : ℚ)).sum := by
    rw [show (∑ l ∈ Finset.range (run h).cm.nLabels, (run h).cm.data l true true)
      = tp (run h).cm from rfl, i2]
    congr 1
    apply List.map_congr_left
    intro r hr
    rw [(hL r hr).2.2, one_mul]
  rw [this, i3, hn]

/-- **C10 violated**: a perfect prediction of two unset labels has Hamming score
0 where the definition gives 1. -/
theorem C10_hamming_violated :
    let h := [Res.mk [false, false] [false, false] 1]
    (run h).hammingScore = some 0 ∧ hammingSpec 2 h = 1 := by
  intro h
  constructor
  · rw [C10_hamming_partial 2 (le_refl 2) h (by simp [h]) (by simp [h])]
    norm_num [h, inter]
  · norm_num [hammingSpec, h, agree]

/-- Violation for single-label problems: the matrix always has at least two
labels, so a fully correct prediction of one set label scores 1/2. -/
theorem C10_hamming_one_label :
    (run [Res.mk [true] [true] 1]).hammingScore = some (1 / 2) := by
  decide +kernel

/-- C10: with no results both scores are 0. -/
theorem C10_empty : (run []).exactMatchScore = 0 ∧ (run []).jaccardScore = 0 := by
  constructor <;> decide +kernel

example : ∀ r ∈ [Res.mk [true, false] [true, true] 1, ⟨[false, true], [false, true], 1⟩],
    r.yt.length = 2 ∧ r.yp.length = 2 ∧ r.w = 1 := by simp

/-! ### C49: windowed evaluator -/

private def entryOf (r : Res) : MLEntry :=
  ⟨r.yt.zip r.yp, r.w, isEqual (r.yt.zip r.yp), jaccardInc (r.yt.zip r.yp)⟩

private def WInv (w : Nat) (g : List Res) (s : WMLEval) : Prop :=
  s.windowSize = w ∧ s.queue = g.map entryOf ∧ Inv g s.base

private theorem winv_run (w : Nat) (hw1 : 1 ≤ w) (h : List Res) (hw : Wf h) :
    WInv w (lastN w h) (wrun w h) := by
  induction h using List.reverseRecOn with
  | nil =>
    rw [lastN_nil]
    exact ⟨rfl, rfl, inv_run [] (by simp [Wf])⟩
  | append_singleton h r ih =>
    obtain ⟨i1, i2, i3⟩ := ih fun q hq => hw q (by simp [hq])
    have hr : r.yt.length = r.yp.length := hw r (by simp)
    have hrun : wrun w (h ++ [r]) = (wrun w h).addResult r.yt r.yp r.w := by simp [wrun]
    rw [hrun]
    generalize wrun w h = s at *
    -- state after the removal
    have hrem : ∃ g, WInv w g s.removeOldest ∧ lastN w (h ++ [r]) = g ++ [r] := by
      by_cases hfull : s.queue.length = w
      · have hlen : (lastN w h).length = w := by rw [i2] at hfull; simpa using hfull
        cases hg : lastN w h with
        | nil => rw [hg] at hlen; simp at hlen; omega
        | cons q rest =>
          rw [hg] at i2 i3
          refine ⟨rest, ?_, ?_⟩
          · have hq : s.queue = entryOf q :: rest.map entryOf := i2
            unfold WMLEval.removeOldest
            rw [if_pos (by rw [hfull, i1]), hq]
            refine ⟨i1, rfl, ?_⟩
            obtain ⟨j1, j2, j3, j4, j5⟩ := i3
            have hql : q.yt.length = q.yp.length := by
              apply hw q
              have : q ∈ h := (lastN_suffix w h).subset (by rw [hg]; simp)
              simp [this]
            obtain ⟨s1, s2, _⟩ := setRow_tp (-q.w) (q.yt.zip q.yp) s.base.cm 0 j1
            refine ⟨s1, ?_, ?_, ?_, ?_⟩
            · simp only [entryOf]; rw [s2, j2]; simp [inter]
            · simp [j3]
            · simp only [entryOf, j4, isEqual_spec q hql]; simp
            · simp only [entryOf, j5, jaccardInc_spec]; simp
          · rw [← lastN_lastN_append, hg]
            have : w = (q :: rest).length := by rw [← hg, hlen]
            conv_lhs => rw [this]
            rw [lastN_append_singleton_full _ _ (by simp)]
            rfl
      · refine ⟨lastN w h, ?_, ?_⟩
        · unfold WMLEval.removeOldest
          rw [if_neg (by rw [i1]; exact hfull)]
          exact ⟨i1, i2, i3⟩
        · have h1 : (lastN w h).length ≤ w := by simp
          have h2 : (lastN w h).length ≠ w := by rw [i2] at hfull; simpa using hfull
          have h3 : h.length < w := by rw [length_lastN] at h1 h2; omega
          rw [lastN_of_le h3.le, lastN_of_le (by simp; omega)]
    obtain ⟨g, ⟨k1, k2, k3⟩, hg⟩ := hrem
    rw [hg]
    have hadd := inv_add g s.removeOldest.base k3 r hr
    simp only [MLEval.addResult, hr, ne_eq, not_true_eq_false, if_false] at hadd
    simp only [WMLEval.addResult, hr, ne_eq, not_true_eq_false, if_false]
    exact ⟨k1, by simp [k2, entryOf], hadd⟩

/-- **C49.** The windowed multi-label evaluator reports the exact-match and
Jaccard scores (and the sample count) of a fresh evaluator fed with the last
`window_size` results. -/
theorem C49_window_scores (w : Nat) (hw1 : 1 ≤ w) (h : List Res) (hw : Wf h) :
    (wrun w h).base.exactMatchScore = (run (lastN w h)).exactMatchScore ∧
    (wrun w h).base.jaccardScore = (run (lastN w h)).jaccardScore ∧
    (wrun w h).base.nSamples = (run (lastN w h)).nSamples ∧
    (∑ l ∈ Finset.range (wrun w h).base.cm.nLabels, (wrun w h).base.cm.data l true true) =
      (∑ l ∈ Finset.range (run (lastN w h)).cm.nLabels, (run (lastN w h)).cm.data l true true) := by
  obtain ⟨_, _, i1, i2, i3, i4, i5⟩ := winv_run w hw1 h hw
  obtain ⟨_, j2, j3, j4, j5⟩ := inv_run (lastN w h)
    (fun r hr => hw r ((lastN_suffix w h).subset hr))
  refine ⟨?_, ?_, ?_, ?_⟩
  · unfold MLEval.exactMatchScore; rw [i3, i4, j3, j4]
  · unfold MLEval.jaccardScore; rw [i3, i5, j3, j5]
  · rw [i3, j3]
  · exact i2.trans j2.symm

example : Wf [⟨[true], [false], 1⟩, ⟨[true, true], [false, true], 2⟩] := by simp [Wf]

end Verif.MultiLabel
