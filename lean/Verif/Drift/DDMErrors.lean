import Verif.Drift.Model
import Verif.Drift.Segments
import Mathlib.Data.Real.Sqrt
import Mathlib.Tactic.Linarith
import Mathlib.Tactic.Ring
import Mathlib.Tactic.FieldSimp

/-!
Property C299: what a change reported by DDM says about the predictions, with
real numbers and the real square root.
-/

namespace Verif.Drift.DDM

/-! ### Specification -/

/-- What is handed to `add_element`: 1 for a wrong prediction, 0 for a right one. -/
noncomputable def told (wrong : Bool) : ℝ := if wrong then 1 else 0

/-- Whether the last of these predictions was reported as a change. -/
noncomputable def reports (c : DDMPar ℝ) (es : List Bool) : Bool := (run c (es.map told)).change

/-- The predictions since the last reported change. -/
noncomputable def since (c : DDMPar ℝ) (es : List Bool) : List Bool := sinceChange (reports c) es

/-- The share of wrong predictions. -/
noncomputable def wrongRate (es : List Bool) : ℝ := (es.count true : ℝ) / es.length

/-! ### Arithmetic -/

private noncomputable def dv (k n : ℝ) : ℝ := Real.sqrt (k / n * (1 - k / n) / n)

private theorem sqrt_le_add {A B d : ℝ} (hd : 0 ≤ d) (hB : 0 ≤ B)
    (h : A ≤ B + 2 * d * Real.sqrt B + d * d) : Real.sqrt A ≤ Real.sqrt B + d := by
  have h0 := Real.sqrt_nonneg B
  apply Real.sqrt_le_iff.2
  refine ⟨by linarith, ?_⟩
  have := Real.mul_self_sqrt hB
  nlinarith

private theorem arg_nonneg {k n : ℝ} (hk : 0 ≤ k) (hkn : k ≤ n) (hn : 0 < n) :
    0 ≤ k / n * (1 - k / n) / n := by
  have h1 : k / n ≤ 1 := (div_le_one hn).2 hkn
  have h2 : 0 ≤ k / n := div_nonneg hk hn.le
  exact div_nonneg (mul_nonneg h2 (by linarith)) hn.le

/-- A right prediction does not raise rate + deviation. -/
private theorem right_lowers {k n : ℝ} (hk : 0 ≤ k) (hkn : k ≤ n) (hn : 0 < n) :
    k / (n + 1) + dv k (n + 1) ≤ k / n + dv k n := by
  have hd : 0 ≤ k / n - k / (n + 1) := by
    rw [sub_nonneg]; exact div_le_div_of_nonneg_left hk hn (by linarith)
  have hB := arg_nonneg hk hkn hn
  have hle : dv k (n + 1) ≤ dv k n + (k / n - k / (n + 1)) := by
    apply sqrt_le_add hd hB
    have hmid : 0 ≤ 2 * (k / n - k / (n + 1)) * Real.sqrt (k / n * (1 - k / n) / n) :=
      mul_nonneg (by linarith) (Real.sqrt_nonneg _)
    have key : 0 ≤ k / n * (1 - k / n) / n + (k / n - k / (n + 1)) * (k / n - k / (n + 1))
        - k / (n + 1) * (1 - k / (n + 1)) / (n + 1) := by
      have e : k / n * (1 - k / n) / n + (k / n - k / (n + 1)) * (k / n - k / (n + 1))
        - k / (n + 1) * (1 - k / (n + 1)) / (n + 1)
          = k * ((n - k) * (3 * n ^ 2 + 3 * n + 1) + k * n * (n + 1) - n ^ 3) / (n ^ 3 * (n + 1) ^ 3) := by
        field_simp
        ring
      rw [e]
      apply div_nonneg
      · apply mul_nonneg hk
        have h1 : 0 ≤ (n - k) * (2 * n ^ 2 + 3 * n + 1) := mul_nonneg (by linarith) (by positivity)
        have h2 : 0 ≤ k * n := mul_nonneg hk hn.le
        nlinarith
      · positivity
    linarith
  linarith

/-- When the rate of wrong predictions has not risen, rate + deviation has not. -/
private theorem not_risen {j m k n : Nat} (hm : 1 ≤ m) (hmn : m ≤ n) (hj : j ≤ m) (hk : k ≤ n)
    (h : (k : ℝ) / n ≤ (j : ℝ) / m) :
    (k : ℝ) / n + dv k n ≤ (j : ℝ) / m + dv j m := by
  have hm0 : (0 : ℝ) < m := by exact_mod_cast hm
  have hn0 : (0 : ℝ) < n := by exact_mod_cast (by omega : 0 < n)
  have hmn' : (m : ℝ) ≤ n := by exact_mod_cast hmn
  have hj' : (j : ℝ) ≤ m := by exact_mod_cast hj
  have hj0 : (0 : ℝ) ≤ j := by positivity
  have hB := arg_nonneg hj0 hj' hm0
  set P : ℝ := (j : ℝ) / m with hP
  set d : ℝ := P - (k : ℝ) / n with hd
  have hd0 : 0 ≤ d := by rw [hd]; linarith
  have hP1 : P ≤ 1 := (div_le_one hm0).2 hj'
  have hP0 : 0 ≤ P := div_nonneg hj0 hm0.le
  have hp : (k : ℝ) / n = P - d := by rw [hd]; ring
  have hle : dv k n ≤ dv j m + d := by
    unfold dv
    rw [← hP, hp]
    apply sqrt_le_add hd0 hB
    have hBn : P * (1 - P) / n ≤ P * (1 - P) / m :=
      div_le_div_of_nonneg_left (mul_nonneg hP0 (by linarith)) hm0 hmn'
    have hmain : d * (2 * P - 1) / n ≤ d * d + 2 * d * Real.sqrt (P * (1 - P) / m) := by
      rcases hd0.eq_or_lt with h0 | hpos
      · rw [← h0]; simp
      · have hs0 := Real.sqrt_nonneg (P * (1 - P) / m)
        have hsuff : (2 * P - 1) / n ≤ d + 2 * Real.sqrt (P * (1 - P) / m) := by
          have h1n : (2 * P - 1) / n ≤ 1 / n := by
            apply div_le_div_of_nonneg_right _ hn0.le; linarith
          by_cases hjm : j = m
          · have hPe : P = 1 := by rw [hP, hjm]; exact div_self hm0.ne'
            have hkn : k < n := by
              by_contra hc
              have : k = n := by omega
              rw [this, div_self hn0.ne'] at hp
              linarith
            have hd1 : 1 / (n : ℝ) ≤ d := by
              rw [hd, hPe, le_sub_iff_add_le, ← add_div, div_le_one hn0]
              have : 1 + k ≤ n := by omega
              exact_mod_cast this
            linarith
          · by_cases hj0' : j = 0
            · have hPe : P = 0 := by rw [hP, hj0']; simp
              have : (2 * P - 1) / n ≤ 0 := by
                apply div_nonpos_of_nonpos_of_nonneg _ hn0.le
                rw [hPe]; norm_num
              linarith
            · have hj1 : (1 : ℝ) ≤ j := by exact_mod_cast (by omega : 1 ≤ j)
              have hjm1 : (j : ℝ) + 1 ≤ m := by exact_mod_cast (by omega : j + 1 ≤ m)
              have hhalf : 1 / (2 * (n : ℝ)) ≤ Real.sqrt (P * (1 - P) / m) := by
                apply Real.le_sqrt_of_sq_le
                have e1 : (1 / (2 * (n : ℝ))) ^ 2 ≤ (1 / (2 * (m : ℝ))) ^ 2 := by
                  apply pow_le_pow_left₀ (by positivity)
                  apply one_div_le_one_div_of_le (by linarith) (by linarith)
                have e2 : P * (1 - P) / m - (1 / (2 * (m : ℝ))) ^ 2
                    = (4 * j * (m - j) - m) / (4 * (m : ℝ) ^ 3) := by
                  rw [hP]; field_simp; ring
                have e3 : 0 ≤ (4 * j * (m - j) - m) / (4 * (m : ℝ) ^ 3) := by
                  apply div_nonneg _ (by positivity)
                  nlinarith [mul_nonneg (sub_nonneg.2 hj1) (by linarith : (0 : ℝ) ≤ m - j - 1)]
                linarith
              have : 1 / (n : ℝ) = 2 * (1 / (2 * (n : ℝ))) := by field_simp
              linarith
        calc d * (2 * P - 1) / n = d * ((2 * P - 1) / n) := by ring
          _ ≤ d * (d + 2 * Real.sqrt (P * (1 - P) / m)) := mul_le_mul_of_nonneg_left hsuff hd0
          _ = _ := by ring
    have e : (P - d) * (1 - (P - d)) / n = P * (1 - P) / n + d * (2 * P - 1) / n - d * d / n := by
      ring
    have hdd : 0 ≤ d * d / n := div_nonneg (mul_nonneg hd0 hd0) hn0.le
    rw [e]
    linarith
  linarith

/-! ### The detector -/

private theorem reset_step (c : DDMPar ℝ) (s : DDM ℝ) (x : ℝ) (h : s.change = true) :
    addElement c s x = addElement c init x := by
  unfold addElement
  rw [h]
  rfl

private noncomputable def dev (l : List Bool) : ℝ := dv (l.count true) l.length

private def Rec (c : DDMPar ℝ) (seg : List Bool) (t : ℝ × ℝ × ℝ) : Prop :=
  ∃ m, 1 ≤ m ∧ m ≤ seg.length ∧ c.minInstances ≤ m + 1 ∧ t.1 = wrongRate (seg.take m) ∧
    t.2.1 = dev (seg.take m) ∧ t.2.2 = t.1 + t.2.1

private def Inv (c : DDMPar ℝ) (seg : List Bool) (s : DDM ℝ) : Prop :=
  s.sampleCount = seg.length + 1 ∧ (seg ≠ [] → s.missProb = wrongRate seg) ∧
  (∀ t, s.mins = some t → Rec c seg t ∧
    (s.change = false → wrongRate seg + dev seg ≤ t.1 + c.outControlLevel * t.2.1)) ∧
  (s.change = true → seg.getLast? = some true ∧
    ∃ m, 1 ≤ m ∧ m < seg.length ∧ c.minInstances ≤ m + 1 ∧ wrongRate (seg.take m) < wrongRate seg)

private theorem dev_nonneg (l : List Bool) : 0 ≤ dev l := Real.sqrt_nonneg _

private theorem rate_snoc (seg : List Bool) (x : Bool) (p : ℝ) (h : seg ≠ [] → p = wrongRate seg) :
    p + (told x - p) / ((seg.length + 1 : Nat) : ℝ) = wrongRate (seg ++ [x]) := by
  have hc : ((seg ++ [x]).count true : ℝ) = (seg.count true : ℝ) + told x := by
    cases x <;> simp [told]
  unfold wrongRate
  rw [hc]
  by_cases hs : seg = []
  · subst hs; simp
  · rw [h hs]
    have hl : (0 : ℝ) < seg.length := by exact_mod_cast List.length_pos_iff.2 hs
    unfold wrongRate
    push_cast [List.length_append, List.length_singleton]
    field_simp
    ring

private theorem rec_snoc {c : DDMPar ℝ} {seg : List Bool} {t} (x : Bool) (h : Rec c seg t) :
    Rec c (seg ++ [x]) t := by
  obtain ⟨m, h1, h2, h3, h4, h5, h6⟩ := h
  refine ⟨m, h1, by simp; omega, h3, ?_, ?_, h6⟩
  · rw [List.take_append_of_le_length h2]; exact h4
  · rw [List.take_append_of_le_length h2]; exact h5

private theorem inv_step (c : DDMPar ℝ) (hc : c.sqrt = Real.sqrt) (ho : 1 ≤ c.outControlLevel)
    (seg : List Bool) (s : DDM ℝ) (x : Bool) (hch : s.change = false) (hi : Inv c seg s) :
    Inv c (seg ++ [x]) (addElement c s (told x)) := by
  obtain ⟨h1, h2, h3, _⟩ := hi
  have hlen : (seg ++ [x]).length = seg.length + 1 := by simp
  have hp : s.missProb + (told x - s.missProb) / ((seg.length + 1 : Nat) : ℝ) = wrongRate (seg ++ [x]) :=
    rate_snoc seg x _ h2
  have hsd : Real.sqrt (wrongRate (seg ++ [x]) * (1 - wrongRate (seg ++ [x]))
      / ((seg.length + 1 : Nat) : ℝ)) = dev (seg ++ [x]) := by
    unfold dev dv; rw [hlen]; unfold wrongRate; rw [hlen]
  unfold addElement
  rw [hch]
  simp only [Bool.false_eq_true, if_false, h1, hc]
  rw [hp, hsd]
  by_cases hlt : seg.length + 1 + 1 < c.minInstances
  · rw [if_pos hlt]
    refine ⟨by simp, fun _ => rfl, ?_, by simp⟩
    intro t ht
    obtain ⟨⟨m, _, a, b, _⟩, _⟩ := h3 t ht
    omega
  · rw [if_neg hlt]
    have hnew : Rec c (seg ++ [x]) (wrongRate (seg ++ [x]), dev (seg ++ [x]),
        wrongRate (seg ++ [x]) + dev (seg ++ [x])) := by
      refine ⟨(seg ++ [x]).length, by simp, le_refl _, by rw [hlen]; omega, ?_, ?_, rfl⟩ <;>
        rw [List.take_of_length_le (le_refl _)]
    have hself : wrongRate (seg ++ [x]) + dev (seg ++ [x])
        ≤ wrongRate (seg ++ [x]) + c.outControlLevel * dev (seg ++ [x]) := by
      have := dev_nonneg (seg ++ [x])
      nlinarith
    have hrec : Rec c (seg ++ [x]) (updMins (wrongRate (seg ++ [x])) (dev (seg ++ [x])) s.mins) ∧
        (x = false → wrongRate (seg ++ [x]) + dev (seg ++ [x]) ≤
          (updMins (wrongRate (seg ++ [x])) (dev (seg ++ [x])) s.mins).1 + c.outControlLevel *
            (updMins (wrongRate (seg ++ [x])) (dev (seg ++ [x])) s.mins).2.1) := by
      cases hm : s.mins with
      | none => exact ⟨hnew, fun _ => hself⟩
      | some t =>
        obtain ⟨hr, hb⟩ := h3 t hm
        obtain ⟨a, b, l⟩ := t
        simp only [updMins]
        split
        · exact ⟨hnew, fun _ => hself⟩
        · refine ⟨rec_snoc x hr, ?_⟩
          rintro rfl
          refine le_trans ?_ (hb hch)
          obtain ⟨m, m1, m2, _⟩ := hr
          have hl : (0 : ℝ) < seg.length := by exact_mod_cast (by omega : 0 < seg.length)
          have := right_lowers (k := seg.count true) (n := seg.length) (by positivity)
            (by exact_mod_cast List.count_le_length) hl
          unfold wrongRate dev
          rw [hlen]
          push_cast
          have e : (seg ++ [false]).count true = seg.count true := by simp
          rw [e]
          exact this
    generalize updMins (wrongRate (seg ++ [x])) (dev (seg ++ [x])) s.mins = M at hrec
    obtain ⟨hR, hF⟩ := hrec
    by_cases hgt : wrongRate (seg ++ [x]) + dev (seg ++ [x]) > M.1 + c.outControlLevel * M.2.1
    · rw [if_pos hgt]
      refine ⟨by simp, fun _ => rfl, ?_, fun _ => ⟨?_, ?_⟩⟩
      · intro t ht
        cases ht
        exact ⟨hR, by simp⟩
      · cases x with
        | true => simp
        | false => exact absurd (hF rfl) (not_le.2 hgt)
      · obtain ⟨m, m1, m2, m3, m4, m5, _⟩ := hR
        have hlt' : wrongRate ((seg ++ [x]).take m) < wrongRate (seg ++ [x]) := by
          by_contra hno
          have hml : ((seg ++ [x]).take m).length = m := by simp at m2 ⊢; omega
          have := not_risen (j := ((seg ++ [x]).take m).count true) (m := m)
            (k := (seg ++ [x]).count true) (n := (seg ++ [x]).length) m1 m2
            (List.count_le_length.trans (by rw [hml])) List.count_le_length
            (by
              have := not_lt.1 hno
              unfold wrongRate at this
              rw [hml] at this
              exact this)
          have e1 : wrongRate (seg ++ [x]) + dev (seg ++ [x]) ≤
              wrongRate ((seg ++ [x]).take m) + dev ((seg ++ [x]).take m) := by
            unfold wrongRate dev
            rw [hml]
            exact this
          rw [m4, m5] at hgt
          have := dev_nonneg ((seg ++ [x]).take m)
          nlinarith
        refine ⟨m, m1, ?_, m3, hlt'⟩
        rcases lt_or_eq_of_le m2 with h | h
        · exact h
        · rw [h, List.take_of_length_le (le_refl _)] at hlt'
          exact absurd hlt' (lt_irrefl _)
    · rw [if_neg hgt]
      have hok : ∀ t, some M = some t → Rec c (seg ++ [x]) t ∧
          (false = false → wrongRate (seg ++ [x]) + dev (seg ++ [x]) ≤
            t.1 + c.outControlLevel * t.2.1) := by
        intro t ht
        cases ht
        exact ⟨hR, fun _ => not_lt.1 hgt⟩
      split
      · exact ⟨by simp, fun _ => rfl, hok, by simp⟩
      · exact ⟨by simp, fun _ => rfl, hok, by simp⟩

private theorem foldl_told (c : DDMPar ℝ) (es : List Bool) :
    run c (es.map told) = es.foldl (fun s e => addElement c s (told e)) init := by
  unfold run; rw [List.foldl_map]

private theorem inv_run (c : DDMPar ℝ) (hc : c.sqrt = Real.sqrt) (ho : 1 ≤ c.outControlLevel)
    (es : List Bool) : Inv c (since c es) (run c (es.map told)) := by
  have h := segment_inv (fun s e => addElement c s (told e)) init (fun s : DDM ℝ => s.change)
    (fun s x h => reset_step c s (told x) h) rfl (Inv c)
    ⟨rfl, by simp, by simp [init], by simp [init]⟩
    (fun seg s x h hi => inv_step c hc ho seg s x h hi) es
  rw [foldl_told]
  have e : reports c = fun h => (h.foldl (fun s e => addElement c s (told e)) init).change := by
    funext h; unfold reports; rw [foldl_told]
  unfold since
  rw [e]
  exact h

/-! ### The property -/

/-- **C299, only on errors.**  A right prediction is never reported as a change. -/
theorem C299_right_partial (c : DDMPar ℝ) (hc : c.sqrt = Real.sqrt) (ho : 1 ≤ c.outControlLevel)
    (es : List Bool) : reports c (es ++ [false]) = false := by
  have h := (inv_run c hc ho (es ++ [false])).2.2.2
  cases hr : reports c (es ++ [false]) with
  | false => rfl
  | true =>
    have := (h hr).1
    unfold since at this
    rw [sinceChange_append] at this
    split at this <;> simp at this

/-- **C299, rise.**  A reported change means that the share of wrong predictions
since the last change is larger than it was at an earlier moment since then, at
least `min_num_instances - 1` predictions after that change. -/
theorem C299_rise_partial (c : DDMPar ℝ) (hc : c.sqrt = Real.sqrt) (ho : 1 ≤ c.outControlLevel)
    (es : List Bool) (h : reports c es = true) :
    ∃ m, 1 ≤ m ∧ m < (since c es).length ∧ c.minInstances ≤ m + 1 ∧
      wrongRate ((since c es).take m) < wrongRate (since c es) :=
  ((inv_run c hc ho es).2.2.2 h).2

private theorem zeros (c : DDMPar ℝ) (hc : c.sqrt = Real.sqrt) (n : Nat) :
    (run c ((List.replicate n false).map told)).change = false ∧
    (run c ((List.replicate n false).map told)).sampleCount = n + 1 ∧
    (1 ≤ n → (run c ((List.replicate n false).map told)).missProb = 0) ∧
    ((run c ((List.replicate n false).map told)).mins = some (0, 0, 0) ∧ c.minInstances ≤ n + 1 ∨
      (run c ((List.replicate n false).map told)).mins = none ∧ (n = 0 ∨ n + 1 < c.minInstances)) := by
  induction n with
  | zero => exact ⟨rfl, rfl, by omega, Or.inr ⟨rfl, Or.inl rfl⟩⟩
  | succ n ih =>
    obtain ⟨h1, h2, h3, h4⟩ := ih
    have hrun : run c ((List.replicate (n + 1) false).map told)
        = addElement c (run c ((List.replicate n false).map told)) 0 := by
      rw [List.replicate_succ', List.map_append]
      unfold run
      rw [List.foldl_append]
      simp [told]
    rw [hrun]
    generalize run c ((List.replicate n false).map told) = s at h1 h2 h3 h4
    have hp : s.missProb + (0 - s.missProb) / (((n + 1 : Nat)) : ℝ) = 0 := by
      cases n with
      | zero => simp
      | succ n => rw [h3 (by omega)]; simp
    have hu : updMins (0 : ℝ) 0 s.mins = (0, 0, 0) := by
      rcases h4 with ⟨h, _⟩ | ⟨h, _⟩ <;> rw [h] <;> simp [updMins]
    unfold addElement
    rw [h1]
    simp only [Bool.false_eq_true, if_false, h2, hc, hp]
    simp only [zero_mul, zero_div, Real.sqrt_zero, hu]
    split
    · rename_i hlt
      refine ⟨rfl, rfl, fun _ => rfl, Or.inr ⟨?_, Or.inr hlt⟩⟩
      rcases h4 with ⟨_, h⟩ | ⟨h, _⟩
      · omega
      · exact h
    · rename_i hlt
      simp only [mul_zero, add_zero, gt_iff_lt, lt_self_iff_false, if_false]
      exact ⟨trivial, trivial, fun _ => trivial, Or.inl ⟨trivial, by omega⟩⟩

private theorem first_error (c : DDMPar ℝ) (hc : c.sqrt = Real.sqrt) (m : Nat) (hm : 1 ≤ m)
    (hmin : c.minInstances ≤ m + 1) : reports c (List.replicate m false ++ [true]) = true := by
  obtain ⟨h1, h2, h3, h4⟩ := zeros c hc m
  have h4' := h4.resolve_right (by rintro ⟨_, h⟩; omega)
  have hrun : run c ((List.replicate m false ++ [true]).map told)
      = addElement c (run c ((List.replicate m false).map told)) 1 := by
    rw [List.map_append]
    unfold run
    rw [List.foldl_append]
    simp [told]
  unfold reports
  rw [hrun]
  generalize run c ((List.replicate m false).map told) = s at *
  unfold addElement
  rw [h1]
  simp only [Bool.false_eq_true, if_false, h2, hc, h3 hm, h4'.1, sub_zero, zero_add]
  have hp : (0 : ℝ) < 1 / ((m + 1 : Nat) : ℝ) := by positivity
  have hs := Real.sqrt_nonneg (1 / ((m + 1 : Nat) : ℝ) * (1 - 1 / ((m + 1 : Nat) : ℝ)) / ((m + 1 : Nat) : ℝ))
  have hno : ¬ (1 / ((m + 1 : Nat) : ℝ) + Real.sqrt (1 / ((m + 1 : Nat) : ℝ) *
      (1 - 1 / ((m + 1 : Nat) : ℝ)) / ((m + 1 : Nat) : ℝ)) ≤ 0) := by linarith
  rw [if_neg (by omega)]
  simp only [updMins, if_neg hno, mul_zero, add_zero]
  rw [if_pos (not_le.1 hno)]

/-- **C299, violation.**  When at least `min_num_instances - 1` right predictions
follow a new start (or a reported change), the first wrong one is reported as a
change, whatever the levels. -/
theorem C299_first_error_violated (c : DDMPar ℝ) (hc : c.sqrt = Real.sqrt) (es : List Bool)
    (hes : es = [] ∨ reports c es = true) (m : Nat) (hm : 1 ≤ m) (hmin : c.minInstances ≤ m + 1) :
    reports c (es ++ (List.replicate m false ++ [true])) = true := by
  rcases hes with rfl | h
  · exact first_error c hc m hm hmin
  · obtain ⟨k, rfl⟩ : ∃ k, m = k + 1 := ⟨m - 1, by omega⟩
    have := first_error c hc (k + 1) hm hmin
    unfold reports at *
    rw [List.replicate_succ] at *
    simp only [List.cons_append, List.map_append, List.map_cons] at *
    unfold run at *
    rw [List.foldl_append, List.foldl_cons, reset_step c _ _ h]
    rw [List.foldl_cons] at this
    exact this

/-- **C299, violation.**  A learner that errs exactly once in every `m + 1`
predictions, at a rate that never changes, is reported as having changed at every
one of its errors (with the default of 30 instances: for `m = 29`, say). -/
theorem C299_steady_violated (c : DDMPar ℝ) (hc : c.sqrt = Real.sqrt) (m : Nat) (hm : 1 ≤ m)
    (hmin : c.minInstances ≤ m + 1) (r : Nat) :
    reports c (List.replicate (r + 1) (List.replicate m false ++ [true])).flatten = true := by
  induction r with
  | zero =>
    have := C299_first_error_violated c hc [] (Or.inl rfl) m hm hmin
    simpa using this
  | succ r ih =>
    rw [List.replicate_succ', List.flatten_append]
    have := C299_first_error_violated c hc _ (Or.inr ih) m hm hmin
    simpa using this

/-! ### Examples -/

/-- The default detector of `ddm.py:80`. -/
noncomputable def standard : DDMPar ℝ := ⟨30, 2, 3, Real.sqrt⟩

example : reports standard (List.replicate 29 false ++ [true]) = true :=
  C299_first_error_violated standard rfl [] (Or.inl rfl) 29 (by norm_num) (by decide)

example : ∃ m, 1 ≤ m ∧ m < (since standard (List.replicate 29 false ++ [true])).length ∧ 30 ≤ m + 1 ∧
    wrongRate ((since standard (List.replicate 29 false ++ [true])).take m)
      < wrongRate (since standard (List.replicate 29 false ++ [true])) :=
  C299_rise_partial standard rfl (by norm_num [standard]) _
    (C299_first_error_violated standard rfl [] (Or.inl rfl) 29 (by norm_num) (by decide))

end Verif.Drift.DDM
