import Verif.Common
import Mathlib.Order.Defs.LinearOrder
import Mathlib.Data.List.Induction

/-!
Shared pieces of the Learn++ models: a sample buffer emptied every `w` samples, and the
position of the first maximum of a row over any linear order.
-/

namespace Verif.Meta.Windows

variable {A S ε : Type}

/-- Specification: the full consecutive windows of `w` samples of a stream, oldest first. -/
def windows (w : Nat) (l : List A) : List (List A) :=
  (List.range (l.length / w)).map fun k => (l.drop (k * w)).take w

/-- Specification: the samples after the last full window. -/
def rest (w : Nat) (l : List A) : List A := l.drop (l.length / w * w)

/-- The loop of `partial_fit` in `meta/learn_pp.py` 182-189 and `meta/learn_nse.py` 163-263:
samples are buffered, and a buffer of exactly `w` samples is handed to `proc` and emptied.
When `proc` raises, the loop stops and the buffer keeps its samples. -/
def feed (w : Nat) (proc : S → List A → Except ε S) : S × List A → List A → (S × List A) × Option ε
  | st, [] => (st, none)
  | (s, b), a :: l =>
    if (b ++ [a]).length = w then
      match proc s (b ++ [a]) with
      | Except.ok s' => feed w proc (s', []) l
      | Except.error e => ((s, b ++ [a]), some e)
    else feed w proc (s, b ++ [a]) l

theorem feed_append (w : Nat) (proc : S → List A → Except ε S) (l₁ l₂ : List A) (st : S × List A) :
    feed w proc st (l₁ ++ l₂) =
      match feed w proc st l₁ with
      | (st', none) => feed w proc st' l₂
      | (st', some e) => (st', some e) := by
  induction l₁ generalizing st with
  | nil => simp [feed]
  | cons a l ih =>
    obtain ⟨s, b⟩ := st
    rw [List.cons_append, feed, feed]
    by_cases h : (b ++ [a]).length = w
    · rw [if_pos h, if_pos h]
      cases hp : proc s (b ++ [a]) with
      | ok s' => exact ih _
      | error e => rfl
    · rw [if_neg h, if_neg h]; exact ih _

theorem windows_snoc_no (w : Nat) (hw : 0 < w) (l : List A) (a : A) (h : (l.length + 1) % w ≠ 0) :
    windows w (l ++ [a]) = windows w l ∧ rest w (l ++ [a]) = rest w l ++ [a] := by
  have hd : (l.length + 1) / w = l.length / w := by
    rw [Nat.succ_div, if_neg (fun hd => h (Nat.mod_eq_zero_of_dvd hd)), Nat.add_zero]
  have hle : l.length / w * w ≤ l.length := Nat.div_mul_le_self _ _
  constructor
  · rw [windows, windows, List.length_append, List.length_singleton, hd]
    apply List.map_congr_left
    intro k hk
    have hk := List.mem_range.mp hk
    have h1 : (k + 1) * w ≤ l.length / w * w := Nat.mul_le_mul_right _ hk
    have h2 : (k + 1) * w = k * w + w := by rw [Nat.add_mul, Nat.one_mul]
    rw [List.drop_append_of_le_length (by omega), List.take_append_of_le_length]
    rw [List.length_drop]; omega
  · rw [rest, rest, List.length_append, List.length_singleton, hd, List.drop_append_of_le_length hle]

theorem windows_snoc_yes (w : Nat) (hw : 0 < w) (l : List A) (a : A) (h : (l.length + 1) % w = 0) :
    windows w (l ++ [a]) = windows w l ++ [rest w l ++ [a]] ∧ rest w (l ++ [a]) = [] := by
  have hd : (l.length + 1) / w = l.length / w + 1 := by
    rw [Nat.succ_div, if_pos (Nat.dvd_of_mod_eq_zero h)]
  have hle : l.length / w * w ≤ l.length := Nat.div_mul_le_self _ _
  have hmul : (l.length / w + 1) * w = l.length + 1 := by
    rw [← hd]; exact Nat.div_mul_cancel (Nat.dvd_of_mod_eq_zero h)
  have hmul' : l.length / w * w + w = l.length + 1 := by
    rw [← hmul, Nat.add_mul, Nat.one_mul]
  constructor
  · rw [windows, windows, List.length_append, List.length_singleton, hd, List.range_succ, List.map_append]
    congr 1
    · apply List.map_congr_left
      intro k hk
      have hk := List.mem_range.mp hk
      have h1 : (k + 1) * w ≤ l.length / w * w := Nat.mul_le_mul_right _ hk
      have h2 : (k + 1) * w = k * w + w := by rw [Nat.add_mul, Nat.one_mul]
      rw [List.drop_append_of_le_length (by omega), List.take_append_of_le_length]
      rw [List.length_drop]; omega
    · rw [List.map_singleton, List.drop_append_of_le_length hle, rest, List.take_of_length_le]
      rw [List.length_append, List.length_drop, List.length_singleton]; omega
  · rw [rest, List.length_append, List.length_singleton, hd, hmul]
    simp

theorem length_rest (w : Nat) (l : List A) : (rest w l).length = l.length % w := by
  rw [rest, List.length_drop, Nat.mod_eq_sub_div_mul]

theorem length_windows (w : Nat) (l : List A) : (windows w l).length = l.length / w := by
  simp [windows]

theorem mem_windows (w : Nat) (l b : List A) (h : b ∈ windows w l) : b.length = w := by
  obtain ⟨k, hk, rfl⟩ := List.mem_map.mp h
  have hk := List.mem_range.mp hk
  have h1 : (k + 1) * w ≤ l.length / w * w := Nat.mul_le_mul_right _ hk
  have h2 : (k + 1) * w = k * w + w := by rw [Nat.add_mul, Nat.one_mul]
  have hle : l.length / w * w ≤ l.length := Nat.div_mul_le_self _ _
  rw [List.length_take, List.length_drop]; omega

/-- Sanity of the specification: the windows and the rest are the stream. -/
theorem windows_cover (w : Nat) (hw : 0 < w) (l : List A) : (windows w l).flatten ++ rest w l = l := by
  induction l using List.reverseRecOn with
  | nil => simp [windows, rest]
  | append_singleton l a ih =>
    by_cases h : (l.length + 1) % w = 0
    · obtain ⟨h1, h2⟩ := windows_snoc_yes w hw l a h
      rw [h1, h2, List.flatten_append, List.flatten_singleton, List.append_nil, ← List.append_assoc, ih]
    · obtain ⟨h1, h2⟩ := windows_snoc_no w hw l a h
      rw [h1, h2, ← List.append_assoc, ih]

/-- A stream that is consumed without error runs `proc` on its full windows, in order, and
leaves the rest in the buffer. -/
theorem feed_ok (w : Nat) (hw : 0 < w) (proc : S → List A → Except ε S) (s : S) (l : List A) (st : S × List A)
    (h : feed w proc (s, []) l = (st, none)) :
    (windows w l).foldlM proc s = Except.ok st.1 ∧ st.2 = rest w l := by
  induction l using List.reverseRecOn generalizing st with
  | nil =>
    rw [feed] at h
    cases h
    simp [windows, rest, pure, Except.pure]
  | append_singleton l a ih =>
    rw [feed_append] at h
    obtain ⟨⟨s', b⟩, o, hs⟩ : ∃ q o, feed w proc (s, []) l = (q, o) := ⟨_, _, rfl⟩
    rw [hs] at h
    cases o with
    | some e => cases h
    | none =>
      obtain ⟨h1, h2⟩ := ih (s', b) hs
      simp only at h h1 h2
      rw [feed] at h
      have hl := length_rest w l
      have hlt : l.length % w < w := Nat.mod_lt _ hw
      have hm : (l.length + 1) % w = (l.length % w + 1) % w := by rw [Nat.add_mod]; simp
      subst h2
      by_cases hlen : (rest w l ++ [a]).length = w
      · rw [if_pos hlen] at h
        rw [List.length_append, List.length_singleton, hl] at hlen
        obtain ⟨e1, e2⟩ := windows_snoc_yes w hw l a (by rw [hm, hlen, Nat.mod_self])
        cases hp : proc s' (rest w l ++ [a]) with
        | error e => rw [hp] at h; cases h
        | ok s'' =>
          rw [hp] at h
          simp only [feed] at h
          cases h
          refine ⟨?_, by rw [e2]⟩
          rw [e1, List.foldlM_append, h1]
          simp [bind, Except.bind, hp, pure, Except.pure]
      · rw [if_neg hlen] at h
        rw [List.length_append, List.length_singleton, hl] at hlen
        obtain ⟨e1, e2⟩ := windows_snoc_no w hw l a (by rw [hm, Nat.mod_eq_of_lt (by omega)]; omega)
        simp only [feed] at h
        cases h
        refine ⟨by rw [e1]; exact h1, by rw [e2]⟩

/-- A buffer that already holds `w` samples is never handed over. -/
theorem feed_stuck (w : Nat) (proc : S → List A → Except ε S) (l : List A) (s : S) (b : List A) (h : w ≤ b.length) :
    feed w proc (s, b) l = ((s, b ++ l), none) := by
  induction l generalizing b with
  | nil => simp [feed]
  | cons a l ih =>
    rw [feed, if_neg (by rw [List.length_append, List.length_singleton]; omega),
      ih _ (by rw [List.length_append]; omega), List.append_assoc, List.singleton_append]

/-- An error leaves a full buffer behind. -/
theorem feed_error (w : Nat) (proc : S → List A → Except ε S) (l : List A) (s : S) (b : List A) (st : S × List A)
    (e : ε) (h : feed w proc (s, b) l = (st, some e)) : st.2.length = w ∧ proc st.1 st.2 = Except.error e := by
  induction l generalizing s b with
  | nil => cases h
  | cons a l ih =>
    rw [feed] at h
    by_cases hl : (b ++ [a]).length = w
    · rw [if_pos hl] at h
      cases hp : proc s (b ++ [a]) with
      | ok s' => rw [hp] at h; exact ih _ _ h
      | error e' => rw [hp] at h; cases h; exact ⟨hl, hp⟩
    · rw [if_neg hl] at h; exact ih _ _ h

/-! ### First maximum -/

variable {F : Type} [LinearOrder F]

/-- Position of the first maximum of `a :: l`. -/
def amaxFrom : F → List F → Nat
  | _, [] => 0
  | a, b :: l => if b ≤ a then (if amaxFrom a l = 0 then 0 else amaxFrom a l + 1) else amaxFrom b l + 1

/-- `np.argmax` of a row: position of the first maximum (0 for the empty row, which numpy
rejects). -/
def amax : List F → Nat
  | [] => 0
  | a :: l => amaxFrom a l

theorem amaxFrom_spec (l : List F) (a : F) :
    ∃ v, (a :: l)[amaxFrom a l]? = some v ∧ (∀ w ∈ a :: l, w ≤ v) ∧
      ∀ i w, i < amaxFrom a l → (a :: l)[i]? = some w → w < v := by
  induction l generalizing a with
  | nil => exact ⟨a, by simp [amaxFrom], by simp, by simp [amaxFrom]⟩
  | cons b l ih =>
    by_cases hba : b ≤ a
    · obtain ⟨v, h1, h2, h3⟩ := ih a
      rw [amaxFrom, if_pos hba]
      by_cases hm : amaxFrom a l = 0
      · rw [if_pos hm]
        rw [hm] at h1
        simp at h1
        subst h1
        refine ⟨a, by simp, ?_, by simp⟩
        intro w hw
        simp only [List.mem_cons] at hw h2
        rcases hw with rfl | rfl | hw
        · exact le_refl _
        · exact hba
        · exact h2 w (.inr hw)
      · rw [if_neg hm]
        obtain ⟨i, hi⟩ : ∃ i, amaxFrom a l = i + 1 := ⟨_, (Nat.succ_pred_eq_of_ne_zero hm).symm⟩
        rw [hi] at h1 h3 ⊢
        refine ⟨v, by simpa using h1, ?_, ?_⟩
        · intro w hw
          simp only [List.mem_cons] at hw h2
          rcases hw with rfl | rfl | hw
          · exact h2 w (.inl rfl)
          · exact le_trans hba (h2 a (.inl rfl))
          · exact h2 w (.inr hw)
        · intro j w hj hw
          rcases j with _ | _ | j
          · simp at hw; subst hw; exact h3 0 a (by omega) (by simp)
          · simp at hw; subst hw; exact lt_of_le_of_lt hba (h3 0 a (by omega) (by simp))
          · simp at hw; exact h3 (j + 1) w (by omega) (by simpa using hw)
    · obtain ⟨v, h1, h2, h3⟩ := ih b
      have hab := not_le.mp hba
      rw [amaxFrom, if_neg hba]
      refine ⟨v, by simpa using h1, ?_, ?_⟩
      · intro w hw
        rcases List.mem_cons.mp hw with rfl | hw
        · exact le_of_lt (lt_of_lt_of_le hab (h2 b (by simp)))
        · exact h2 w hw
      · intro j w hj hw
        rcases j with _ | j
        · simp at hw; subst hw; exact lt_of_lt_of_le hab (h2 b (by simp))
        · simp at hw; exact h3 j w (by omega) (by simpa using hw)

theorem amax_spec (l : List F) (h : l ≠ []) :
    ∃ v, l[amax l]? = some v ∧ (∀ w ∈ l, w ≤ v) ∧ ∀ i w, i < amax l → l[i]? = some w → w < v := by
  cases l with
  | nil => exact absurd rfl h
  | cons a l => exact amaxFrom_spec l a

theorem amax_lt (l : List F) (h : l ≠ []) : amax l < l.length := by
  obtain ⟨v, h1, _⟩ := amax_spec l h
  exact (List.getElem?_eq_some_iff.mp h1).1

end Verif.Meta.Windows
