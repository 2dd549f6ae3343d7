import Verif.Drift.DDMErrors
import Mathlib.Tactic.Positivity

/-!
Property C307: which rises of the error rate DDM is certain to report, with real
numbers and the real square root.
-/

namespace Verif.Drift.DDM

/-! ### Specification -/

/-- The deviation of the share of wrong predictions. -/
noncomputable def rateDev (es : List Bool) : ℝ := Real.sqrt (wrongRate es * (1 - wrongRate es) / es.length)

/-- A share of wrong predictions that cannot be exceeded unnoticed when share plus deviation once were `T`. -/
noncomputable def limit (c : DDMPar ℝ) (T : ℝ) : ℝ :=
  T + (c.outControlLevel - 1) * Real.sqrt (T / (max 1 (c.minInstances - 1) : Nat))

/-! ### The detector -/

/-- A recorded minimum. -/
private def Fair (c : DDMPar ℝ) (t : ℝ × ℝ × ℝ) : Prop :=
  0 ≤ t.1 ∧ 0 ≤ t.2.1 ∧ t.2.2 = t.1 + t.2.1 ∧ t.2.1 ≤ Real.sqrt (t.1 / (max 1 (c.minInstances - 1) : Nat))

private def LInv (c : DDMPar ℝ) (seg : List Bool) (s : DDM ℝ) : Prop :=
  s.sampleCount = seg.length + 1 ∧ (seg ≠ [] → s.missProb = wrongRate seg) ∧
  (∀ t, s.mins = some t → c.minInstances ≤ seg.length + 1 ∧ Fair c t ∧
    (s.change = false → wrongRate seg + rateDev seg ≤ t.1 + c.outControlLevel * t.2.1)) ∧
  (∀ k, 1 ≤ k → k ≤ seg.length → c.minInstances ≤ k + 1 →
    ∃ t, s.mins = some t ∧ t.2.2 ≤ wrongRate (seg.take k) + rateDev (seg.take k))

theorem wrongRate_bounds (es : List Bool) : 0 ≤ wrongRate es ∧ wrongRate es ≤ 1 := by
  unfold wrongRate
  refine ⟨by positivity, ?_⟩
  by_cases h : es = []
  · subst h; simp
  · have hl : (0 : ℝ) < es.length := by exact_mod_cast List.length_pos_iff.2 h
    rw [div_le_one hl]
    exact_mod_cast List.count_le_length

private theorem wrongRate_snoc (seg : List Bool) (x : Bool) (p : ℝ) (h : seg ≠ [] → p = wrongRate seg) :
    p + (told x - p) / ((seg.length + 1 : Nat) : ℝ) = wrongRate (seg ++ [x]) := by
  have hc : ((seg ++ [x]).count true : ℝ) = (seg.count true : ℝ) + told x := by
    cases x <;> simp [told]
  unfold wrongRate
  rw [hc]
  by_cases hs : seg = []
  · subst hs; simp
  · rw [h hs]
    have hl : (0 : ℝ) < seg.length := by exact_mod_cast List.length_pos_iff.2 hs
    unfold wrongRate
    push_cast [List.length_append, List.length_singleton]
    field_simp
    ring

private theorem fair_new (c : DDMPar ℝ) (l : List Bool) (hl : 1 ≤ l.length) (hm : c.minInstances ≤ l.length + 1) :
    Fair c (wrongRate l, rateDev l, wrongRate l + rateDev l) := by
  obtain ⟨w0, w1⟩ := wrongRate_bounds l
  refine ⟨w0, Real.sqrt_nonneg _, rfl, Real.sqrt_le_sqrt ?_⟩
  have h1 : (0 : ℝ) < (max 1 (c.minInstances - 1) : Nat) := by
    have : 0 < max 1 (c.minInstances - 1) := by omega
    exact_mod_cast this
  have h2 : ((max 1 (c.minInstances - 1) : Nat) : ℝ) ≤ l.length := by
    have : max 1 (c.minInstances - 1) ≤ l.length := by omega
    exact_mod_cast this
  refine le_trans (div_le_div_of_nonneg_left (mul_nonneg w0 (by linarith)) h1 h2) ?_
  refine div_le_div_of_nonneg_right ?_ h1.le
  nlinarith

private theorem linv_step (c : DDMPar ℝ) (hc : c.sqrt = Real.sqrt) (seg : List Bool) (s : DDM ℝ) (x : Bool)
    (hch : s.change = false) (hi : LInv c seg s) : LInv c (seg ++ [x]) (addElement c s (told x)) := by
  obtain ⟨h1, h2, h3, h4⟩ := hi
  have hlen : (seg ++ [x]).length = seg.length + 1 := by simp
  have hp := wrongRate_snoc seg x s.missProb h2
  have hsd : Real.sqrt (wrongRate (seg ++ [x]) * (1 - wrongRate (seg ++ [x]))
      / ((seg.length + 1 : Nat) : ℝ)) = rateDev (seg ++ [x]) := by
    unfold rateDev; rw [hlen]
  unfold addElement
  rw [hch]
  simp only [Bool.false_eq_true, if_false, h1, hc]
  rw [hp, hsd]
  by_cases hlt : seg.length + 1 + 1 < c.minInstances
  · rw [if_pos hlt]
    refine ⟨by simp, fun _ => rfl, ?_, ?_⟩
    · intro t ht
      have := (h3 t ht).1
      omega
    · intro k _ hk hm
      rw [hlen] at hk
      omega
  · rw [if_neg hlt]
    have hnew := fair_new c (seg ++ [x]) (by omega) (by omega)
    have hM : Fair c (updMins (wrongRate (seg ++ [x])) (rateDev (seg ++ [x])) s.mins) ∧
        (updMins (wrongRate (seg ++ [x])) (rateDev (seg ++ [x])) s.mins).2.2 ≤ wrongRate (seg ++ [x]) + rateDev (seg ++ [x]) ∧
        ∀ t, s.mins = some t → (updMins (wrongRate (seg ++ [x])) (rateDev (seg ++ [x])) s.mins).2.2 ≤ t.2.2 := by
      cases hm : s.mins with
      | none => exact ⟨hnew, le_refl _, by simp⟩
      | some t =>
        obtain ⟨a, b, l⟩ := t
        simp only [updMins]
        split
        · rename_i hle
          refine ⟨hnew, le_refl _, ?_⟩
          intro t ht
          cases ht
          exact hle
        · rename_i hle
          refine ⟨(h3 _ hm).2.1, (not_le.1 hle).le, ?_⟩
          intro t ht
          cases ht
          exact le_refl _
    generalize updMins (wrongRate (seg ++ [x])) (rateDev (seg ++ [x])) s.mins = M at hM
    obtain ⟨m1, m2, m3⟩ := hM
    have hall : ∀ k, 1 ≤ k → k ≤ (seg ++ [x]).length → c.minInstances ≤ k + 1 →
        ∃ t, some M = some t ∧ t.2.2 ≤ wrongRate ((seg ++ [x]).take k) + rateDev ((seg ++ [x]).take k) := by
      intro k hk1 hk2 hk3
      refine ⟨M, rfl, ?_⟩
      rcases lt_or_eq_of_le hk2 with h | h
      · rw [hlen] at h
        rw [List.take_append_of_le_length (by omega)]
        obtain ⟨t, t1, t2⟩ := h4 k hk1 (by omega) hk3
        exact le_trans (m3 t t1) t2
      · rw [h, List.take_of_length_le (le_refl _)]
        exact m2
    by_cases hgt : wrongRate (seg ++ [x]) + rateDev (seg ++ [x]) > M.1 + c.outControlLevel * M.2.1
    · rw [if_pos hgt]
      refine ⟨by simp, fun _ => rfl, ?_, hall⟩
      intro t ht
      cases ht
      exact ⟨by omega, m1, by simp⟩
    · rw [if_neg hgt]
      have hok : ∀ t, some M = some t → c.minInstances ≤ (seg ++ [x]).length + 1 ∧ Fair c t ∧
          (false = false → wrongRate (seg ++ [x]) + rateDev (seg ++ [x]) ≤ t.1 + c.outControlLevel * t.2.1) := by
        intro t ht
        cases ht
        exact ⟨by omega, m1, fun _ => not_lt.1 hgt⟩
      split
      · exact ⟨by simp, fun _ => rfl, hok, hall⟩
      · exact ⟨by simp, fun _ => rfl, hok, hall⟩

private theorem linv_run (c : DDMPar ℝ) (hc : c.sqrt = Real.sqrt) (es : List Bool) :
    LInv c (since c es) (run c (es.map told)) := by
  have ft : ∀ es : List Bool, run c (es.map told) = es.foldl (fun s e => addElement c s (told e)) init := by
    intro es; unfold run; rw [List.foldl_map]
  have hreset : ∀ (s : DDM ℝ) (x : Bool), s.change = true → addElement c s (told x) = addElement c init (told x) := by
    intro s x h
    unfold addElement
    rw [h]
    rfl
  have h := segment_inv (fun s e => addElement c s (told e)) init (fun s : DDM ℝ => s.change) hreset rfl (LInv c)
    ⟨rfl, by simp, by simp [init], by intro k h1 h2; simp at h2; omega⟩
    (fun seg s x h hi => linv_step c hc seg s x h hi) es
  rw [ft]
  have e : reports c = fun h => (h.foldl (fun s e => addElement c s (told e)) init).change := by
    funext h; unfold reports; rw [ft]
  unfold since
  rw [e]
  exact h

theorem missProb_rate (c : DDMPar ℝ) (hc : c.sqrt = Real.sqrt) (es : List Bool) :
    (run c (es.map told)).sampleCount = (since c es).length + 1 ∧
      (since c es ≠ [] → (run c (es.map told)).missProb = wrongRate (since c es)) :=
  ⟨(linv_run c hc es).1, (linv_run c hc es).2.1⟩

private theorem since_unreported (c : DDMPar ℝ) (es : List Bool) (h0 : reports c es = false) : ∀ post : List Bool,
    (∀ k, 0 < k → k ≤ post.length → reports c (es ++ post.take k) = false) → since c (es ++ post) = since c es ++ post := by
  intro post
  induction post using List.reverseRecOn with
  | nil => simp
  | append_singleton l x ih =>
    intro h
    have hl : ∀ k, 0 < k → k ≤ l.length → reports c (es ++ l.take k) = false := by
      intro k hk1 hk2
      have := h k hk1 (by simp; omega)
      rwa [List.take_append_of_le_length hk2] at this
    have hlast : reports c (es ++ l) = false := by
      by_cases hn : l = []
      · subst hn; simpa using h0
      · have := hl l.length (List.length_pos_iff.2 hn) (le_refl _)
        rwa [List.take_of_length_le (le_refl _)] at this
    have ih' := ih hl
    unfold since at *
    rw [← List.append_assoc, sinceChange_append, if_neg (by rw [hlast]; simp), ih', List.append_assoc]

/-! ### The property -/

/-- **C307, bound.**  As long as no change is reported, the share of wrong predictions since the last change and its deviation
together stay below a limit that each earlier moment since then sets (at least `min_num_instances - 1` predictions after that
change): with share plus deviation `T` at that moment, the limit is `T + (out_control_level - 1) * sqrt (T / (min_num_instances - 1))`. -/
theorem C307_bounded (c : DDMPar ℝ) (hc : c.sqrt = Real.sqrt) (ho : 1 ≤ c.outControlLevel) (es : List Bool)
    (hno : reports c es = false) (k : Nat) (h1 : 1 ≤ k) (h2 : k ≤ (since c es).length) (h3 : c.minInstances ≤ k + 1) :
    wrongRate (since c es) + rateDev (since c es) ≤
      limit c (wrongRate ((since c es).take k) + rateDev ((since c es).take k)) := by
  obtain ⟨_, _, i3, i4⟩ := linv_run c hc es
  obtain ⟨t, t1, t2⟩ := i4 k h1 h2 h3
  obtain ⟨_, ⟨f1, f2, f3, f4⟩, f5⟩ := i3 t t1
  refine le_trans (f5 hno) ?_
  unfold limit
  generalize wrongRate ((since c es).take k) + rateDev ((since c es).take k) = T at *
  have hs : t.2.1 ≤ Real.sqrt (T / (max 1 (c.minInstances - 1) : Nat)) := by
    refine le_trans f4 (Real.sqrt_le_sqrt ?_)
    exact div_le_div_of_nonneg_right (by linarith) (by positivity)
  nlinarith

/-- **C307, found.**  Let no change be reported now, at least `min_num_instances - 1` predictions after the last one.  If the next
predictions contain more wrong ones than the limit allows for all predictions since the last change, a change is reported on one of them. -/
theorem C307_found (c : DDMPar ℝ) (hc : c.sqrt = Real.sqrt) (ho : 1 ≤ c.outControlLevel) (es post : List Bool)
    (hno : reports c es = false) (h1 : 1 ≤ (since c es).length) (h3 : c.minInstances ≤ (since c es).length + 1)
    (hw : limit c (wrongRate (since c es) + rateDev (since c es)) * ((since c es).length + post.length) < post.count true) :
    ∃ k, 0 < k ∧ k ≤ post.length ∧ reports c (es ++ post.take k) = true := by
  by_contra hcon
  have hall : ∀ k, 0 < k → k ≤ post.length → reports c (es ++ post.take k) = false := by
    intro k hk1 hk2
    cases hr : reports c (es ++ post.take k) with
    | false => rfl
    | true => exact absurd ⟨k, hk1, hk2, hr⟩ hcon
  have hs := since_unreported c es hno post hall
  have hlast : reports c (es ++ post) = false := by
    by_cases hn : post = []
    · subst hn; simpa using hno
    · have := hall post.length (List.length_pos_iff.2 hn) (le_refl _)
      rwa [List.take_of_length_le (le_refl _)] at this
  have hb := C307_bounded c hc ho (es ++ post) hlast (since c es).length h1 (by rw [hs]; simp) h3
  rw [hs, List.take_left] at hb
  generalize limit c (wrongRate (since c es) + rateDev (since c es)) = L at *
  have hd : 0 ≤ rateDev (since c es ++ post) := Real.sqrt_nonneg _
  have hr : wrongRate (since c es ++ post) ≤ L := by linarith
  have hl : (0 : ℝ) < (since c es).length := by exact_mod_cast h1
  unfold wrongRate at hr
  rw [List.count_append, List.length_append, div_le_iff₀ (by push_cast; positivity)] at hr
  push_cast at hr
  have : (0 : ℝ) ≤ (since c es).count true := by positivity
  linarith

/-- **C307, lasting.**  A lasting rise is found: if at least the share `b` of the next predictions is wrong and `b` exceeds the limit,
a change is reported before their number reaches `n L / (b - L)`, where `n` counts the predictions since the last change and `L` is the limit. -/
theorem C307_lasting (c : DDMPar ℝ) (hc : c.sqrt = Real.sqrt) (ho : 1 ≤ c.outControlLevel) (es post : List Bool) (b L : ℝ)
    (hno : reports c es = false) (h1 : 1 ≤ (since c es).length) (h3 : c.minInstances ≤ (since c es).length + 1)
    (hL : L = limit c (wrongRate (since c es) + rateDev (since c es))) (hb : L < b) (hp : b ≤ wrongRate post)
    (hlong : (since c es).length * L / (b - L) < post.length) :
    ∃ k, 0 < k ∧ k ≤ post.length ∧ reports c (es ++ post.take k) = true := by
  refine C307_found c hc ho es post hno h1 h3 ?_
  rw [← hL]
  rw [div_lt_iff₀ (by linarith)] at hlong
  have hpos : post ≠ [] := by
    rintro rfl
    obtain ⟨w0, _⟩ := wrongRate_bounds (since c es)
    have hd : 0 ≤ rateDev (since c es) := Real.sqrt_nonneg _
    have hs := Real.sqrt_nonneg ((wrongRate (since c es) + rateDev (since c es)) / (max 1 (c.minInstances - 1) : Nat))
    have hL0 : 0 ≤ L := by
      rw [hL]; unfold limit
      have := mul_nonneg (sub_nonneg.2 ho) hs
      linarith
    have : wrongRate [] = 0 := by simp [wrongRate]
    linarith
  have hl : (0 : ℝ) < post.length := by exact_mod_cast List.length_pos_iff.2 hpos
  unfold wrongRate at hp
  rw [le_div_iff₀ hl] at hp
  linarith

/-! ### Examples -/

private theorem quiet (n : Nat) : reports standard (List.replicate n false) = false := by
  cases n with
  | zero => rfl
  | succ n =>
    rw [List.replicate_succ']
    exact C299_right_partial standard rfl (by norm_num [standard]) _

/-- After 100 right predictions of the default detector the limit is 0, and `C307_found` applies to every later list with
a wrong prediction. -/
example (post : List Bool) (h : true ∈ post) :
    ∃ k, 0 < k ∧ k ≤ post.length ∧ reports standard (List.replicate 100 false ++ post.take k) = true := by
  have hs : since standard (List.replicate 100 false) = List.replicate 100 false := by
    have := since_unreported standard [] rfl (List.replicate 100 false) (fun k _ _ => by
      rw [List.nil_append, List.take_replicate]
      exact quiet _)
    simpa [since] using this
  have hr : wrongRate (List.replicate 100 false) = 0 := by
    unfold wrongRate; rw [List.count_replicate]; simp
  refine C307_found standard rfl (by norm_num [standard]) _ post (quiet 100) (by rw [hs]; simp) (by rw [hs]; simp [standard]) ?_
  rw [hs]
  have hd : rateDev (List.replicate 100 false) = 0 := by unfold rateDev; rw [hr]; simp
  rw [hr, hd]
  have : 0 < post.count true := List.count_pos_iff.2 h
  simpa [limit] using this

/-- With share plus deviation 0.04 the default limit is below 0.12. -/
example : limit standard 0.04 < 0.12 := by
  have h : Real.sqrt (0.04 / 29) < 0.04 := by
    rw [Real.sqrt_lt' (by norm_num)]; norm_num
  have e : limit standard 0.04 = 0.04 + (3 - 1) * Real.sqrt (0.04 / 29) := by
    unfold limit standard; norm_num
  rw [e]
  linarith

end Verif.Drift.DDM
