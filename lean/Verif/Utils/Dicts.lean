import Verif.Common
import Mathlib.Algebra.Order.Field.Rat
import Mathlib.Algebra.BigOperators.Ring.List
import Mathlib.Data.List.Nodup
import Mathlib.Tactic.Linarith
import Mathlib.Tactic.FieldSimp
import Mathlib.Tactic.NormNum

/-!
# The dictionary helpers (C226, C227)

Model of `normalize_values_in_dict`, `get_max_value_key` and `add_dict_values`,
`src/skmultiflow/utils/utils.py` 39-83 and 184-215.  A dictionary is the list of its
items in insertion order, the keys pairwise different; values are rationals (rounding is
not modelled) and a factor may be `nan` (`none`).  Dictionaries live in a store, so
that what `inplace` does to the caller's dictionary can be said.
-/

namespace Verif.Utils.Dicts

open Verif

variable {K : Type} [DecidableEq K]

/-- Items in insertion order. -/
abbrev Dict (K : Type) := List (K × ℚ)

/-- `d.get(k)`. -/
def get : Dict K → K → Option ℚ
  | [], _ => none
  | (k', v) :: d, k => if k' = k then some v else get d k

/-- `d[k] = v`: a present key keeps its place, a new one goes to the end. -/
def put : Dict K → K → ℚ → Dict K
  | [], k, v => [(k, v)]
  | (k', v') :: d, k, v => if k' = k then (k', v) :: d else (k', v') :: put d k v

/-- The caller's dictionaries; the last one is the newest. -/
abbrev Store (K : Type) := List (Dict K)

/-- The dictionary at a reference. -/
def Store.at (s : Store K) (r : Nat) : Dict K := s.getD r []

/-- The argument `factor`: absent, `nan` or a number. -/
inductive Factor
  | absent | nan | num (q : ℚ)

/-- The loop of utils.py 61-62 over the items taken when it starts; the keys do not
change, so iterating the live dictionary gives the same items. -/
def divide (f : ℚ) : Dict K → List (K × ℚ) → Dict K
  | d, [] => d
  | d, (k, v) :: l => divide f (put d k (v / f)) l

/-- `normalize_values_in_dict(dictionary, factor, inplace)`, utils.py 53-64: the store
afterwards and the reference returned. -/
def normalize (s : Store K) (r : Nat) (factor : Factor) (inplace : Bool) :
    Except PyErr (Store K × Nat) :=
  let f : Option ℚ := match factor with
    | .absent => some ((s.at r).map (·.2)).sum
    | .nan => none
    | .num q => some q
  match f with
  | none => .error .valueError
  | some f =>
    if f = 0 then .error .valueError
    else if inplace then .ok (s.set r (divide f (s.at r) (s.at r)), r)
    else .ok (s ++ [divide f (s.at r) (s.at r)], s.length)

/-- `max(d, key=d.get)` for a dictionary that is not empty: the first key of a largest
value. -/
def maxKey : K × ℚ → Dict K → K
  | best, [] => best.1
  | best, (k, v) :: d => if best.2 < v then maxKey (k, v) d else maxKey best d

/-- `get_max_value_key(d)`, utils.py 80-83; `zero` is the `0` answered for the empty
dictionary. -/
def getMaxValueKey (zero : K) : Dict K → K
  | [] => zero
  | p :: d => maxKey p d

/-- The loop of utils.py 210-214. -/
def addInto : Dict K → Dict K → Dict K
  | d, [] => d
  | d, (k, v) :: l =>
    match get d k with
    | some v' => addInto (put d k (v' + v)) l
    | none => addInto (put d k v) l

/-- `add_dict_values(dict_a, dict_b, inplace)`, utils.py 205-215.  `dict_b` may be
`dict_a` itself: no key is added then, so the loop runs over the items it had. -/
def addDictValues (s : Store K) (a b : Nat) (inplace : Bool) : Store K × Nat :=
  let res := addInto (s.at a) (s.at b)
  if inplace then (s.set a res, a) else (s ++ [res], s.length)

/-! ## Specification -/

/-- Keys are pairwise different. -/
def Keys (d : Dict K) : Prop := (d.map (·.1)).Nodup

/-! ## Lemmas -/

theorem get_put (d : Dict K) (k x : K) (v : ℚ) :
    get (put d k v) x = if k = x then some v else get d x := by
  induction d with
  | nil => simp [put, get]
  | cons p d ih =>
    obtain ⟨k', v'⟩ := p
    simp only [put]
    by_cases h : k' = k
    · subst h
      rw [if_pos rfl]; simp only [get]
      by_cases hx : k' = x
      · rw [if_pos hx, if_pos hx]
      · rw [if_neg hx, if_neg hx, if_neg hx]
    · rw [if_neg h]; simp only [get, ih]
      by_cases hx : k' = x
      · subst hx; rw [if_pos rfl, if_pos rfl, if_neg (fun e => h e.symm)]
      · rw [if_neg hx, if_neg hx]

theorem get_eq_none {d : Dict K} {k : K} : get d k = none ↔ k ∉ d.map (·.1) := by
  induction d with
  | nil => simp [get]
  | cons p d ih =>
    obtain ⟨k', v'⟩ := p
    simp only [get, List.map_cons, List.mem_cons, not_or]
    by_cases h : k' = k
    · simp [h]
    · rw [if_neg h, ih]; exact ⟨fun hh => ⟨fun e => h e.symm, hh⟩, fun hh => hh.2⟩

theorem get_mem {d : Dict K} (hd : Keys d) {k : K} {v : ℚ} :
    get d k = some v ↔ (k, v) ∈ d := by
  induction d with
  | nil => simp [get]
  | cons p d ih =>
    obtain ⟨k', v'⟩ := p
    unfold Keys at hd
    rw [List.map_cons, List.nodup_cons] at hd
    simp only [get, List.mem_cons, Prod.mk.injEq]
    by_cases h : k' = k
    · subst h
      rw [if_pos rfl]
      constructor
      · intro e; cases e; exact .inl ⟨rfl, rfl⟩
      · rintro (⟨_, rfl⟩ | hm)
        · rfl
        · exact absurd (List.mem_map.mpr ⟨_, hm, rfl⟩) hd.1
    · rw [if_neg h, ih hd.2]
      constructor
      · exact .inr
      · rintro (⟨e, _⟩ | hm)
        · exact absurd e.symm h
        · exact hm

theorem put_keys_mem (d : Dict K) (k : K) (v : ℚ) (hk : k ∈ d.map (·.1)) :
    (put d k v).map (·.1) = d.map (·.1) := by
  induction d with
  | nil => simp at hk
  | cons p d ih =>
    obtain ⟨k', v'⟩ := p
    simp only [put]
    by_cases h : k' = k
    · rw [if_pos h]; rfl
    · rw [if_neg h]
      simp only [List.map_cons]
      rw [ih]
      rcases List.mem_cons.mp hk with e | e
      · exact absurd e.symm h
      · exact e

theorem put_keys_new (d : Dict K) (k : K) (v : ℚ) (hk : k ∉ d.map (·.1)) :
    (put d k v).map (·.1) = d.map (·.1) ++ [k] := by
  induction d with
  | nil => rfl
  | cons p d ih =>
    obtain ⟨k', v'⟩ := p
    rw [List.map_cons, List.mem_cons, not_or] at hk
    simp only [put]
    rw [if_neg (fun e => hk.1 e.symm)]
    simp only [List.map_cons, List.cons_append]
    rw [ih hk.2]

theorem divide_append (f : ℚ) (l : List (K × ℚ)) : ∀ pre : Dict K,
    Keys (pre ++ l) → divide f (pre ++ l) l = pre ++ l.map fun p => (p.1, p.2 / f) := by
  induction l with
  | nil => intro pre _; simp [divide]
  | cons p l ih =>
    obtain ⟨k, v⟩ := p
    intro pre hk
    rw [divide]
    have hput : ∀ pre' : Dict K, k ∉ pre'.map (·.1) →
        put (pre' ++ (k, v) :: l) k (v / f) = pre' ++ (k, v / f) :: l := by
      intro pre'
      induction pre' with
      | nil => intro _; simp [put]
      | cons q pre' ih' =>
        obtain ⟨k', v'⟩ := q
        intro hn
        rw [List.map_cons, List.mem_cons, not_or] at hn
        rw [List.cons_append, put, if_neg (fun e => hn.1 e.symm), ih' hn.2]
        rfl
    have hnk : k ∉ pre.map (·.1) := by
      unfold Keys at hk
      rw [List.map_append, List.map_cons] at hk
      intro hm
      exact (List.nodup_append.mp hk).2.2 k hm k (by simp) rfl
    rw [hput pre hnk]
    have := ih (pre ++ [(k, v / f)]) (by
      unfold Keys at hk ⊢
      simpa using hk)
    simp only [List.append_assoc, List.singleton_append] at this
    rw [this]
    simp

theorem divide_self (f : ℚ) (d : Dict K) (hd : Keys d) :
    divide f d d = d.map fun p => (p.1, p.2 / f) := by
  simpa using divide_append f d [] (by simpa using hd)

theorem sum_div (f : ℚ) (d : Dict K) :
    ((d.map fun p => ((p.1, p.2 / f) : K × ℚ)).map (·.2)).sum = (d.map (·.2)).sum / f := by
  induction d with
  | nil => simp
  | cons p d ih => simp only [List.map_cons, List.sum_cons, ih]; ring

/-- **C226**: `normalize_values_in_dict` divides every value by the factor, by default
the sum of the values, and keeps the keys in their order; with the default factor the
values of the result add up to one.  With `inplace` the caller's dictionary is the one
returned, without it a new one is returned and no dictionary of the caller changes.  A
factor that is zero or `nan` raises `ValueError` (and nothing has changed). -/
theorem C226_normalize (s : Store K) (r : Nat) (hr : r < s.length) (hd : Keys (s.at r))
    (factor : Factor) (inplace : Bool) :
    let total := ((s.at r).map (·.2)).sum
    let bad : Prop := match factor with
      | .absent => total = 0
      | .nan => True
      | .num q => q = 0
    let f := match factor with
      | .num q => q
      | _ => total
    (bad → normalize s r factor inplace = .error .valueError) ∧
    (¬ bad → ∃ s' r', normalize s r factor inplace = .ok (s', r') ∧
      s'.at r' = (s.at r).map (fun p => (p.1, p.2 / f)) ∧
      (f = total → ((s'.at r').map (·.2)).sum = 1) ∧
      (inplace = true → r' = r ∧ ∀ i, i ≠ r → s'.at i = s.at i) ∧
      (inplace = false → s.length ≤ r' ∧ ∀ i, i < s.length → s'.at i = s.at i)) := by
  intro total bad f
  have hmain : ∀ g : ℚ, g ≠ 0 →
      ∃ s' r', (if inplace then (.ok (s.set r (divide g (s.at r) (s.at r)), r) :
          Except PyErr (Store K × Nat)) else
          .ok (s ++ [divide g (s.at r) (s.at r)], s.length)) = .ok (s', r') ∧
        s'.at r' = (s.at r).map (fun p => (p.1, p.2 / g)) ∧
        (g = total → ((s'.at r').map (·.2)).sum = 1) ∧
        (inplace = true → r' = r ∧ ∀ i, i ≠ r → s'.at i = s.at i) ∧
        (inplace = false → s.length ≤ r' ∧ ∀ i, i < s.length → s'.at i = s.at i) := by
    intro g hg
    have hsum : g = total →
        (((s.at r).map fun p => ((p.1, p.2 / g) : K × ℚ)).map (·.2)).sum = 1 := by
      intro e; rw [sum_div]; show total / g = 1; rw [← e]; exact div_self hg
    cases inplace with
    | true =>
      have hat : Store.at (s.set r (divide g (s.at r) (s.at r))) r =
          (s.at r).map fun p => (p.1, p.2 / g) := by
        rw [← divide_self g _ hd]
        simp [Store.at, List.getD_eq_getElem?_getD, List.getElem?_set, hr]
      refine ⟨_, _, rfl, hat, fun e => by rw [hat]; exact hsum e, fun _ => ⟨rfl, ?_⟩, by simp⟩
      intro i hi
      simp [Store.at, List.getD_eq_getElem?_getD, List.getElem?_set, Ne.symm hi]
    | false =>
      have hat : Store.at (s ++ [divide g (s.at r) (s.at r)]) s.length =
          (s.at r).map fun p => (p.1, p.2 / g) := by
        rw [← divide_self g _ hd]
        simp [Store.at, List.getD_eq_getElem?_getD]
      refine ⟨_, _, rfl, hat, fun e => by rw [hat]; exact hsum e, by simp,
        fun _ => ⟨le_refl _, ?_⟩⟩
      intro i hi
      simp [Store.at, List.getD_eq_getElem?_getD, List.getElem?_append_left hi]
  cases factor with
  | absent =>
    refine ⟨fun hb => ?_, fun hb => ?_⟩
    · unfold normalize; simp only; rw [if_pos hb]
    · unfold normalize; simp only; rw [if_neg hb]; exact hmain total hb
  | nan => exact ⟨fun _ => rfl, fun hb => absurd trivial hb⟩
  | num q =>
    refine ⟨fun hb => ?_, fun hb => ?_⟩
    · unfold normalize; simp only; rw [if_pos hb]
    · unfold normalize; simp only; rw [if_neg hb]; exact hmain q hb

set_option synthInstance.maxSize 5000 in
set_option synthInstance.maxHeartbeats 200000 in
example : (normalize [[((7 : Nat), 1), (3, 4)], [(1, 2)]] 0 .absent false).toOption =
    some ([[(7, 1), (3, 4)], [(1, 2)], [(7, 1/5), (3, 4/5)]], 2) ∧
    (normalize [[((7 : Nat), 1), (3, 4)], [(1, 2)]] 0 (.num 2) true).toOption =
    some ([[(7, 1/2), (3, 2)], [(1, 2)]], 0) ∧
    (normalize [[((7 : Nat), 1), (3, -1)]] 0 .absent true).toOption = none := by
  decide +kernel

theorem maxKey_spec (d : Dict K) : ∀ best : K × ℚ,
    ∃ pre v post, best :: d = pre ++ (maxKey best d, v) :: post ∧
      (∀ p ∈ pre, p.2 < v) ∧ ∀ p ∈ post, p.2 ≤ v := by
  induction d with
  | nil => intro best; exact ⟨[], best.2, [], rfl, by simp, by simp⟩
  | cons p d ih =>
    obtain ⟨k, w⟩ := p
    intro best
    simp only [maxKey]
    by_cases h : best.2 < w
    · rw [if_pos h]
      obtain ⟨pre, v, post, e, h1, h2⟩ := ih (k, w)
      refine ⟨best :: pre, v, post, by rw [e]; rfl, ?_, h2⟩
      intro q hq
      rcases List.mem_cons.mp hq with rfl | hq
      · have hm : (k, w) ∈ pre ++ (maxKey (k, w) d, v) :: post := by rw [← e]; simp
        rcases List.mem_append.mp hm with hm | hm
        · exact lt_trans h (h1 _ hm)
        · rcases List.mem_cons.mp hm with hm | hm
          · have := (Prod.mk.injEq _ _ _ _ ▸ hm).2; rw [← this]; exact h
          · exact lt_of_lt_of_le h (h2 _ hm)
      · exact h1 q hq
    · rw [if_neg h]
      obtain ⟨pre, v, post, e, h1, h2⟩ := ih best
      cases pre with
      | nil =>
        rw [List.nil_append] at e
        obtain ⟨e1, e2⟩ := List.cons.inj e
        refine ⟨[], v, (k, w) :: post, ?_, by simp, ?_⟩
        · rw [List.nil_append, ← e1, e2]
        · intro q hq
          rcases List.mem_cons.mp hq with rfl | hq
          · have : best.2 = v := by rw [e1]
            rw [← this]; exact not_lt.mp h
          · exact h2 q hq
      | cons q pre =>
        rw [List.cons_append] at e
        obtain ⟨e1, e2⟩ := List.cons.inj e
        refine ⟨q :: (k, w) :: pre, v, post, ?_, ?_, h2⟩
        · rw [List.cons_append, List.cons_append, ← e2, ← e1]
        · intro x hx
          have hq : q.2 < v := h1 q (by simp)
          rcases List.mem_cons.mp hx with rfl | hx
          · exact hq
          rcases List.mem_cons.mp hx with rfl | hx
          · rw [← e1] at hq; exact lt_of_le_of_lt (not_lt.mp h) hq
          · exact h1 x (by simp [hx])

theorem addInto_get (l : Dict K) : ∀ d : Dict K, Keys d → Keys l →
    (∀ k, get (addInto d l) k =
      match get d k, get l k with
      | some x, some y => some (x + y)
      | some x, none => some x
      | none, o => o) ∧
    (addInto d l).map (·.1) =
      d.map (·.1) ++ (l.map (·.1)).filter (fun k => decide (k ∉ d.map (·.1))) := by
  induction l with
  | nil =>
    intro d _ _
    refine ⟨fun k => ?_, by simp [addInto]⟩
    simp only [addInto, get]
    cases get d k <;> rfl
  | cons p l ih =>
    obtain ⟨k0, v0⟩ := p
    intro d hd hl
    unfold Keys at hl
    rw [List.map_cons, List.nodup_cons] at hl
    have hl0 : get l k0 = none := get_eq_none.mpr hl.1
    cases hg : get d k0 with
    | some x =>
      simp only [addInto, hg]
      have hk0 : k0 ∈ d.map (·.1) := by
        by_contra hn; rw [get_eq_none.mpr hn] at hg; cases hg
      have hkeys : (put d k0 (x + v0)).map (·.1) = d.map (·.1) := put_keys_mem _ _ _ hk0
      obtain ⟨i1, i2⟩ := ih (put d k0 (x + v0)) (by unfold Keys; rw [hkeys]; exact hd) hl.2
      refine ⟨fun k => ?_, ?_⟩
      · rw [i1 k, get_put]
        by_cases hk : k0 = k
        · subst hk; simp only [get, hg, hl0, if_pos]
        · simp only [get, if_neg hk]
      · rw [i2, hkeys]
        simp only [List.map_cons, List.filter_cons]
        rw [if_neg (by simpa using List.mem_map.mp hk0)]
    | none =>
      simp only [addInto, hg]
      have hk0 : k0 ∉ d.map (·.1) := get_eq_none.mp hg
      have hkeys : (put d k0 v0).map (·.1) = d.map (·.1) ++ [k0] := put_keys_new _ _ _ hk0
      obtain ⟨i1, i2⟩ := ih (put d k0 v0) (by
        unfold Keys; rw [hkeys, List.nodup_append]
        refine ⟨hd, by simp, ?_⟩
        intro a ha b hb
        rw [List.mem_singleton] at hb; subst hb
        intro e; subst e; exact hk0 ha) hl.2
      refine ⟨fun k => ?_, ?_⟩
      · rw [i1 k, get_put]
        by_cases hk : k0 = k
        · subst hk; simp only [get, hg, hl0, if_pos]
        · simp only [get, if_neg hk]
      · rw [i2, hkeys]
        simp only [List.map_cons, List.filter_cons]
        rw [if_pos (by simpa using fun x h => hk0 (List.mem_map.mpr ⟨_, h, rfl⟩))]
        rw [List.append_assoc]
        congr 1
        simp only [List.singleton_append, List.cons.injEq, true_and]
        apply List.filter_congr
        intro a ha
        have : a ≠ k0 := fun e => hl.1 (e ▸ ha)
        simp [this]

/-- **C227**: `add_dict_values` adds the values key by key: the result has the keys of
the first dictionary followed by the new keys of the second, in their orders; a key of
both has the sum of its values, any other key its value.  With `inplace` the result is
the first dictionary itself, without it a new one and no dictionary of the caller
changes.  Adding a dictionary to itself doubles it.  `get_max_value_key` answers the
first of the keys of largest value, and `0` for an empty dictionary. -/
theorem C227_add_and_max (s : Store K) (a b : Nat) (ha : a < s.length)
    (hka : Keys (s.at a)) (hkb : Keys (s.at b)) (inplace : Bool) :
    let out := addDictValues s a b inplace
    let res := out.1.at out.2
    (∀ k, get res k =
      match get (s.at a) k, get (s.at b) k with
      | some x, some y => some (x + y)
      | some x, none => some x
      | none, o => o) ∧
    res.map (·.1) = (s.at a).map (·.1) ++
      ((s.at b).map (·.1)).filter (fun k => decide (k ∉ (s.at a).map (·.1))) ∧
    (inplace = true → out.2 = a ∧ ∀ i, i ≠ a → out.1.at i = s.at i) ∧
    (inplace = false → out.2 = s.length ∧ ∀ i, i < s.length → out.1.at i = s.at i) ∧
    (∀ zero : K, getMaxValueKey zero [] = zero ∧
      (res ≠ [] → ∃ pre v post, res = pre ++ (getMaxValueKey zero res, v) :: post ∧
        (∀ p ∈ pre, p.2 < v) ∧ ∀ p ∈ post, p.2 ≤ v)) := by
  intro out res
  have hres : res = addInto (s.at a) (s.at b) := by
    show Store.at (addDictValues s a b inplace).1 (addDictValues s a b inplace).2 = _
    unfold addDictValues
    cases inplace with
    | true => simp [Store.at, List.getD_eq_getElem?_getD, ha]
    | false => simp [Store.at, List.getD_eq_getElem?_getD]
  obtain ⟨i1, i2⟩ := addInto_get (s.at b) (s.at a) hka hkb
  refine ⟨by rw [hres]; exact i1, by rw [hres]; exact i2, ?_, ?_, ?_⟩
  · intro hin; subst hin
    refine ⟨rfl, fun i hi => ?_⟩
    simp [out, addDictValues, Store.at, List.getD_eq_getElem?_getD, List.getElem?_set,
      Ne.symm hi]
  · intro hin; subst hin
    refine ⟨rfl, fun i hi => ?_⟩
    simp [out, addDictValues, Store.at, List.getD_eq_getElem?_getD,
      List.getElem?_append_left hi]
  · intro zero
    refine ⟨rfl, fun hne => ?_⟩
    cases hr : res with
    | nil => exact absurd hr hne
    | cons p d => exact maxKey_spec d p

example : addDictValues [[((7 : Nat), 1), (3, 4)], [(5, 2), (7, 10), (1, 4)]] 0 1 true =
    ([[(7, 11), (3, 4), (5, 2), (1, 4)], [(5, 2), (7, 10), (1, 4)]], 0) ∧
    addDictValues [[(7, 1), (3, 4)]] 0 0 true = ([[(7, 2), (3, 8)]], 0) ∧
    getMaxValueKey 0 [(7, 1), (3, 4), (5, 2), (1, 4)] = 3 := by
  decide +kernel

end Verif.Utils.Dicts
