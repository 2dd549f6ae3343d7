import Verif.Common
import Mathlib.Algebra.Order.Field.Basic
import Mathlib.Data.List.Basic
import Mathlib.Data.List.Nodup

/-!
A Python dictionary that is re-sorted by key after every insertion
(`dict(sorted(d.items()))`), as an association list with increasing keys.
-/

namespace Verif

/-- Dictionary kept in key order. -/
abbrev SDict (K V : Type) := List (K × V)

namespace SDict

variable {K V : Type} [LinearOrder K]

/-- Replace the value at key `k` (`f (some old)`), or insert `f none` in key order. -/
def alter (f : Option V → V) : SDict K V → K → SDict K V
  | [], k => [(k, f none)]
  | (k', v) :: rest, k =>
    if k = k' then (k', f (some v)) :: rest
    else if k < k' then (k, f none) :: (k', v) :: rest
    else (k', v) :: alter f rest k

/-- `d.get(k)`. -/
def get? : SDict K V → K → Option V
  | [], _ => none
  | (k', v) :: rest, k => if k = k' then some v else get? rest k

/-- Keys are strictly increasing. -/
def Sorted (d : SDict K V) : Prop := d.Pairwise fun a b => a.1 < b.1

theorem alter_mem (f : Option V → V) (d : SDict K V) (k : K) :
    ∀ p ∈ alter f d k, p ∈ d ∨ (p.1 = k ∧ ∃ o, p.2 = f o ∧ ∀ v, o = some v → (k, v) ∈ d) := by
  induction d with
  | nil =>
    intro p hp; simp only [alter, List.mem_singleton] at hp; subst hp
    exact .inr ⟨rfl, none, rfl, by simp⟩
  | cons a d ih =>
    obtain ⟨k', v⟩ := a
    intro p hp
    rw [alter] at hp
    split_ifs at hp with h1 h2
    · rcases List.mem_cons.mp hp with rfl | hp
      · refine .inr ⟨h1.symm, some v, rfl, ?_⟩
        intro v' e; simp only [Option.some.injEq] at e; subst e; simp [h1]
      · exact .inl (by simp [hp])
    · rcases List.mem_cons.mp hp with rfl | hp
      · exact .inr ⟨rfl, none, rfl, by simp⟩
      · exact .inl hp
    · rcases List.mem_cons.mp hp with rfl | hp
      · exact .inl (by simp)
      · rcases ih p hp with h | ⟨e, o, ho, h⟩
        · exact .inl (by simp [h])
        · exact .inr ⟨e, o, ho, fun v' hv' => by simp [h v' hv']⟩

theorem alter_keys (f : Option V → V) (d : SDict K V) (k x : K) :
    (∃ p ∈ alter f d k, p.1 = x) ↔ x = k ∨ ∃ p ∈ d, p.1 = x := by
  induction d with
  | nil => simp [alter, eq_comm]
  | cons a d ih =>
    obtain ⟨k', v⟩ := a
    rw [alter]
    split_ifs with h1 h2
    · subst h1
      simp only [List.mem_cons, exists_eq_or_imp]
      constructor
      · intro h; exact .inr h
      · rintro (h | h)
        · exact .inl h.symm
        · exact h
    · simp only [List.mem_cons, exists_eq_or_imp]
      constructor
      · rintro (h | h)
        · exact .inl h.symm
        · exact .inr h
      · rintro (h | h)
        · exact .inl h.symm
        · exact .inr h
    · simp only [List.mem_cons, exists_eq_or_imp, ih]
      tauto

theorem alter_sorted (f : Option V → V) (d : SDict K V) (k : K) (h : Sorted d) : Sorted (alter f d k) := by
  induction d with
  | nil => simp [alter, Sorted]
  | cons a d ih =>
    obtain ⟨k', v⟩ := a
    obtain ⟨h1, h2⟩ := List.pairwise_cons.mp h
    rw [alter]
    split_ifs with e1 e2
    · exact List.pairwise_cons.mpr ⟨h1, h2⟩
    · refine List.pairwise_cons.mpr ⟨?_, h⟩
      intro q hq
      rcases List.mem_cons.mp hq with rfl | hq
      · exact e2
      · exact lt_trans e2 (h1 q hq)
    · refine List.pairwise_cons.mpr ⟨?_, ih h2⟩
      intro q hq
      have hlt : k' < k := lt_of_le_of_ne (not_lt.mp e2) (fun e => e1 e.symm)
      rcases (alter_keys f d k q.1).mp ⟨q, hq, rfl⟩ with e | ⟨q', hq', e⟩
      · show k' < q.1; rw [e]; exact hlt
      · show k' < q.1; rw [← e]; exact h1 q' hq'

/-- Keys after `alter` do not depend on the values. -/
theorem keys_alter {V' : Type} (f : Option V → V) (g : Option V' → V') (d : SDict K V) (e : SDict K V') (k : K)
    (h : d.map Prod.fst = e.map Prod.fst) :
    (alter f d k).map Prod.fst = (alter g e k).map Prod.fst := by
  induction d generalizing e with
  | nil =>
    cases e with
    | nil => rfl
    | cons a e => simp at h
  | cons a d ih =>
    cases e with
    | nil => simp at h
    | cons b e =>
      obtain ⟨k1, v1⟩ := a
      obtain ⟨k2, v2⟩ := b
      simp only [List.map_cons, List.cons.injEq] at h
      obtain ⟨hk, ht⟩ := h
      subst hk
      rw [alter, alter]
      split_ifs
      · simp [ht]
      · simp [ht]
      · simp [ih e ht]

theorem get?_none_of_lt (d : SDict K V) (k : K) (h : ∀ p ∈ d, k < p.1) : get? d k = none := by
  induction d with
  | nil => rfl
  | cons a d ih =>
    obtain ⟨k', v⟩ := a
    have := h (k', v) (by simp)
    rw [get?, if_neg (ne_of_lt this)]
    exact ih fun p hp => h p (by simp [hp])

theorem get?_mem (d : SDict K V) (hs : Sorted d) (k : K) (v : V) : get? d k = some v ↔ (k, v) ∈ d := by
  induction d with
  | nil => simp [get?]
  | cons a d ih =>
    obtain ⟨k', v'⟩ := a
    obtain ⟨h1, h2⟩ := List.pairwise_cons.mp hs
    rw [get?]
    split_ifs with e
    · subst e
      simp only [Option.some.injEq, List.mem_cons, Prod.mk.injEq, true_and]
      constructor
      · intro e; exact .inl e.symm
      · rintro (e | hm)
        · exact e.symm
        · exact absurd (h1 _ hm) (lt_irrefl _)
    · rw [ih h2]
      simp only [List.mem_cons, Prod.mk.injEq, e, false_and, false_or]

theorem get?_alter (f : Option V → V) (d : SDict K V) (hs : Sorted d) (k x : K) :
    get? (alter f d k) x = if x = k then some (f (get? d k)) else get? d x := by
  induction d with
  | nil =>
    simp only [alter, get?]
  | cons a d ih =>
    obtain ⟨k', v⟩ := a
    obtain ⟨h1, h2⟩ := List.pairwise_cons.mp hs
    rw [alter]
    by_cases e1 : k = k'
    · subst e1
      simp only [if_true, get?]
      by_cases e2 : x = k
      · simp [e2]
      · simp [e2]
    · by_cases e2 : k < k'
      · simp only [e1, e2, if_true, if_false]
        rw [get?]
        by_cases e3 : x = k
        · subst e3
          have hn : get? d x = none := get?_none_of_lt d x (fun p hp => lt_trans e2 (h1 p hp))
          simp [get?, e1, hn]
        · simp [e3]
      · simp only [e1, e2, if_false, get?]
        rw [ih h2]
        by_cases e3 : x = k'
        · subst e3
          have : ¬ x = k := fun e => e1 e.symm
          simp [this]
        · simp [e3]

/-- Sum of a function over the entries. -/
def dsum (g : K → V → ℚ) (d : SDict K V) : ℚ := (d.map fun p => g p.1 p.2).sum

theorem dsum_alter (g : K → V → ℚ) (f : Option V → V) (k : K) (δ : ℚ)
    (h : ∀ o : Option V, g k (f o) = (match o with
      | none => 0
      | some v => g k v) + δ) (d : SDict K V) :
    dsum g (alter f d k) = dsum g d + δ := by
  induction d with
  | nil => have := h none; simp only [zero_add] at this; simp [alter, dsum, this]
  | cons a d ih =>
    obtain ⟨k', v⟩ := a
    rw [alter]
    split_ifs with e1 e2
    · subst e1
      simp only [dsum, List.map_cons, List.sum_cons, h (some v)]
      ring
    · have := h none
      simp only [zero_add] at this
      simp only [dsum, List.map_cons, List.sum_cons, this]
      ring
    · simp only [dsum, List.map_cons, List.sum_cons] at ih ⊢
      rw [ih]; ring

theorem dsum_get? (d : SDict K V) (hs : Sorted d) (g : K → V → ℚ) (k : K)
    (hg : ∀ k' v, k' ≠ k → g k' v = 0) :
    dsum g d = match get? d k with
      | none => 0
      | some v => g k v := by
  induction d with
  | nil => rfl
  | cons a d ih =>
    obtain ⟨k', v⟩ := a
    obtain ⟨h1, h2⟩ := List.pairwise_cons.mp hs
    have ih' := ih h2
    rw [get?]
    simp only [dsum, List.map_cons, List.sum_cons] at ih' ⊢
    rw [ih']
    split_ifs with e
    · subst e
      have hn : get? d k = none := get?_none_of_lt d k (fun p hp => h1 p hp)
      simp [hn]
    · rw [hg k' v (fun e' => e e'.symm)]; ring

end SDict
end Verif
