import Verif.Dict
import Verif.Trees.EBST
import Mathlib.Algebra.BigOperators.Group.List.Basic
import Mathlib.Algebra.Order.BigOperators.Group.List

/-!
Model of `trees/_attribute_observer/nominal_attribute_class_observer.py` and
`nominal_attribute_regression_observer.py`; C34, C64.

Attribute values are rationals, classes natural numbers, arithmetic is exact.
Every dictionary in these files is either re-sorted by key after each insertion or
sorted before it is returned, so all are modelled as key-ordered (`SDict`).
The split criterion is an arbitrary function.
-/

namespace Verif.Trees

open SDict

/-- `_att_val_dist_per_class`. -/
abbrev NomObs := SDict Nat (SDict ℚ ℚ)

/-- `d[k] += v` on a dictionary of numbers, with a missing key counting as 0. -/
def bump {K : Type} [LinearOrder K] (d : SDict K ℚ) (k : K) (v : ℚ) : SDict K ℚ :=
  alter (fun o => o.getD 0 + v) d k

/-- `d[i][j] += v` on a dictionary of dictionaries. -/
def bump2 {I J : Type} [LinearOrder I] [LinearOrder J] (d : SDict I (SDict J ℚ)) (i : I) (j : J) (v : ℚ) :
    SDict I (SDict J ℚ) :=
  alter (fun o => bump (o.getD []) j v) d i

/-- `update`, nominal_attribute_class_observer.py 20-37 (class distributions only). -/
def nomUpdate (d : NomObs) (att : Option ℚ) (cls : Nat) (w : ℚ) : NomObs :=
  match att with
  | none => d
  | some a => bump2 d cls a w

/-- `probability_of_attribute_value_given_class`, lines 39-44 (Laplace smoothing). -/
def nomProb (d : NomObs) (att : ℚ) (cls : Nat) : ℚ :=
  match get? d cls with
  | none => 0
  | some obs => ((get? obs att).getD 0 + 1) / ((obs.map Prod.snd).sum + obs.length)

/-- `get_class_dist_from_multiway_split`, lines 71-85. -/
def nomMultiway (d : NomObs) : List (SDict Nat ℚ) :=
  (d.foldl (fun res p => p.2.foldl (fun res q => bump2 res q.1 p.1 q.2) res)
    ([] : SDict ℚ (SDict Nat ℚ))).map Prod.snd

/-- `get_class_dist_from_binary_split`, lines 87-100. -/
def nomBinary (d : NomObs) (val : ℚ) : SDict Nat ℚ × SDict Nat ℚ :=
  d.foldl (fun res p => p.2.foldl (fun res q =>
    if q.1 = val then (bump res.1 p.1 q.2, res.2) else (res.1, bump res.2 p.1 q.2)) res) ([], [])

/-- `att_values`, lines 48-51: the sorted set of attribute values. -/
def attValues (d : NomObs) : List ℚ :=
  (d.foldl (fun res p => p.2.foldl (fun res q => alter (fun _ => ()) res q.1) res)
    ([] : SDict ℚ Unit)).map Prod.fst

/-- A split suggestion of the nominal observer. -/
inductive NomSugg where
  | multiway (values : List ℚ) (dists : List (SDict Nat ℚ))
  | binary (value : ℚ) (dists : SDict Nat ℚ × SDict Nat ℚ)

/-- `best is None or merit > best.merit` over a list of candidates. -/
def keepBest {α : Type} (merit : α → ℚ) (best : Option α) (c : α) : Option α :=
  match best with
  | none => some c
  | some b => if merit c > merit b then some c else some b

/-- The candidates of `get_best_evaluated_split_suggestion`, lines 46-69, in order. -/
def nomCandidates (d : NomObs) (binaryOnly : Bool) : List NomSugg :=
  (if binaryOnly then [] else [.multiway (attValues d) (nomMultiway d)]) ++
    (attValues d).map fun a => .binary a (nomBinary d a)

/-- `get_best_evaluated_split_suggestion`, lines 46-69. -/
def nomBest (merit : NomSugg → ℚ) (d : NomObs) (binaryOnly : Bool) : Option NomSugg :=
  (nomCandidates d binaryOnly).foldl (keepBest merit) none

/-! ### Specification -/

/-- One observation: attribute value (possibly missing), class, weight. -/
structure NObs where
  att : Option ℚ
  cls : Nat
  w : ℚ

/-- The observer after a history. -/
def nomRun (h : List NObs) : NomObs := h.foldl (fun d o => nomUpdate d o.att o.cls o.w) []

/-- Total weight of the observations satisfying a condition. -/
def weightWhere (h : List NObs) (P : NObs → Bool) : ℚ := ((h.filter P).map NObs.w).sum

/-- `vs` lists the observed attribute values in increasing order. -/
def ObservedValues (h : List NObs) (vs : List ℚ) : Prop :=
  vs.Pairwise (· < ·) ∧ ∀ a, a ∈ vs ↔ ∃ o ∈ h, o.att = some a

/-! ### Proofs -/

section two
variable {I J : Type} [LinearOrder I] [LinearOrder J]

/-- Sum of all entries (i, j) with `P i j`. -/
def sum2 (P : I → J → Bool) (d : SDict I (SDict J ℚ)) : ℚ :=
  dsum (fun i e => dsum (fun j v => if P i j then v else 0) e) d

theorem dsum_bump {K : Type} [LinearOrder K] (P : K → Bool) (d : SDict K ℚ) (k : K) (v : ℚ) :
    dsum (fun k v => if P k then v else 0) (bump d k v) =
      dsum (fun k v => if P k then v else 0) d + if P k then v else 0 := by
  apply dsum_alter
  intro o
  cases o <;> by_cases h : P k <;> simp [h]

theorem sum2_bump2 (P : I → J → Bool) (d : SDict I (SDict J ℚ)) (i : I) (j : J) (v : ℚ) :
    sum2 P (bump2 d i j v) = sum2 P d + if P i j then v else 0 := by
  apply dsum_alter
  intro o
  rw [dsum_bump (P i)]
  cases o with
  | none => simp [dsum]
  | some e => simp

/-- Both levels are in key order. -/
def Sorted2 (d : SDict I (SDict J ℚ)) : Prop := SDict.Sorted d ∧ ∀ p ∈ d, SDict.Sorted p.2

theorem bump2_sorted (d : SDict I (SDict J ℚ)) (i : I) (j : J) (v : ℚ) (h : Sorted2 d) :
    Sorted2 (bump2 d i j v) := by
  refine ⟨alter_sorted _ _ _ h.1, ?_⟩
  intro p hp
  rcases alter_mem _ _ _ p hp with hp | ⟨_, o, e, ho⟩
  · exact h.2 p hp
  · rw [e]
    apply alter_sorted
    cases o with
    | none => simp [SDict.Sorted]
    | some e' => exact h.2 _ (ho e' rfl)

/-- Entry `d[i][j]`, 0 if absent. -/
def entry (d : SDict I (SDict J ℚ)) (i : I) (j : J) : ℚ := (get? ((get? d i).getD []) j).getD 0

theorem dsum_single {K : Type} [LinearOrder K] (d : SDict K ℚ) (hs : SDict.Sorted d) (k : K) :
    dsum (fun k' v => if decide (k' = k) then v else 0) d = (get? d k).getD 0 := by
  rw [dsum_get? d hs _ k (by intro k' v h; simp [h])]
  cases get? d k <;> simp

theorem entry_eq (d : SDict I (SDict J ℚ)) (h : Sorted2 d) (i : I) (j : J) :
    entry d i j = sum2 (fun i' j' => decide (i' = i) && decide (j' = j)) d := by
  unfold sum2 entry
  rw [dsum_get? d h.1 _ i (by
    intro i' e hne
    simp only [hne, decide_false, Bool.false_and, Bool.false_eq_true, if_false]
    simp [dsum])]
  cases hg : get? d i with
  | none => simp [get?]
  | some e =>
    simp only [Option.getD_some, decide_true, Bool.true_and]
    rw [dsum_single e (h.2 (i, e) ((get?_mem d h.1 i e).mp hg))]

/-- The pair (i, j) has an entry. -/
def Has (d : SDict I (SDict J ℚ)) (i : I) (j : J) : Prop := ∃ p ∈ d, p.1 = i ∧ ∃ q ∈ p.2, q.1 = j

theorem has_bump2 (d : SDict I (SDict J ℚ)) (hs : Sorted2 d) (i : I) (j : J) (v : ℚ) (a : I) (b : J) :
    Has (bump2 d i j v) a b ↔ (a = i ∧ b = j) ∨ Has d a b := by
  have conv : ∀ d : SDict I (SDict J ℚ), Sorted2 d →
      ∀ a b, (Has d a b ↔ ∃ e, get? d a = some e ∧ ∃ q ∈ e, q.1 = b) := by
    intro d hs a b
    constructor
    · rintro ⟨p, hp, rfl, hq⟩
      exact ⟨p.2, (get?_mem d hs.1 _ _).mpr hp, hq⟩
    · rintro ⟨e, he, hq⟩
      exact ⟨(a, e), (get?_mem d hs.1 _ _).mp he, rfl, hq⟩
  rw [conv _ (bump2_sorted d i j v hs), conv d hs, bump2, get?_alter _ _ hs.1]
  by_cases h : a = i
  · subst h
    simp only [if_true, Option.some.injEq, exists_eq_left', true_and]
    rw [bump, alter_keys]
    cases hg : get? d a with
    | none => simp
    | some e => simp
  · simp [h]

end two

/-- All entries of a two-level dictionary as triples, in iteration order. -/
def triples {I J : Type} (d : SDict I (SDict J ℚ)) : List (I × J × ℚ) :=
  d.flatMap fun p => p.2.map fun q => (p.1, q.1, q.2)

theorem foldl_triples {I J S : Type} (f : S → I → J → ℚ → S) (d : SDict I (SDict J ℚ)) (s : S) :
    d.foldl (fun res p => p.2.foldl (fun res q => f res p.1 q.1 q.2) res) s =
      (triples d).foldl (fun res t => f res t.1 t.2.1 t.2.2) s := by
  induction d generalizing s with
  | nil => rfl
  | cons p d ih =>
    unfold triples at ih ⊢
    rw [List.foldl_cons, ih, List.flatMap_cons, List.foldl_append, List.foldl_map]

theorem triples_sum {I J : Type} [LinearOrder I] [LinearOrder J] (P : I → J → Bool) (d : SDict I (SDict J ℚ)) :
    ((triples d).map fun t => if P t.1 t.2.1 then t.2.2 else 0).sum = sum2 P d := by
  induction d with
  | nil => rfl
  | cons p d ih =>
    rw [triples, List.flatMap_cons, List.map_append, List.sum_append]
    unfold triples at ih
    rw [ih]
    simp only [sum2, dsum, List.map_cons, List.sum_cons, List.map_map]
    congr 1

theorem triples_has {I J : Type} [LinearOrder I] [LinearOrder J] (d : SDict I (SDict J ℚ)) (i : I) (j : J) :
    (∃ t ∈ triples d, t.1 = i ∧ t.2.1 = j) ↔ Has d i j := by
  unfold triples Has
  constructor
  · rintro ⟨t, ht, rfl, rfl⟩
    obtain ⟨p, hp, ht'⟩ := List.mem_flatMap.mp ht
    obtain ⟨q, hq, rfl⟩ := List.mem_map.mp ht'
    exact ⟨p, hp, rfl, q, hq, rfl⟩
  · rintro ⟨p, hp, rfl, q, hq, rfl⟩
    exact ⟨(p.1, q.1, q.2), List.mem_flatMap.mpr ⟨p, hp, List.mem_map.mpr ⟨q, hq, rfl⟩⟩, rfl, rfl⟩

theorem nomRun_spec (h : List NObs) :
    Sorted2 (nomRun h) ∧
    (∀ P : Nat → ℚ → Bool, sum2 P (nomRun h) = weightWhere h fun o => match o.att with
      | none => false
      | some a => P o.cls a) ∧
    (∀ c a, Has (nomRun h) c a ↔ ∃ o ∈ h, o.cls = c ∧ o.att = some a) := by
  induction h using List.reverseRecOn with
  | nil => simp [nomRun, Sorted2, SDict.Sorted, sum2, dsum, weightWhere, Has]
  | append_singleton h o ih =>
    obtain ⟨i1, i2, i3⟩ := ih
    have hrun : nomRun (h ++ [o]) = nomUpdate (nomRun h) o.att o.cls o.w := by simp [nomRun]
    rw [hrun]
    cases ha : o.att with
    | none =>
      simp only [nomUpdate]
      refine ⟨i1, ?_, ?_⟩
      · intro P; rw [i2]; simp [weightWhere, ha]
      · intro c a; rw [i3]
        constructor
        · rintro ⟨x, hx, hh⟩; exact ⟨x, by simp [hx], hh⟩
        · rintro ⟨x, hx, hh1, hh2⟩
          rcases List.mem_append.mp hx with hx | hx
          · exact ⟨x, hx, hh1, hh2⟩
          · simp only [List.mem_singleton] at hx; subst hx; rw [ha] at hh2; cases hh2
    | some a0 =>
      simp only [nomUpdate]
      refine ⟨bump2_sorted _ _ _ _ i1, ?_, ?_⟩
      · intro P
        rw [sum2_bump2, i2]
        simp only [weightWhere, List.filter_append, List.map_append, List.sum_append]
        congr 1
        by_cases hP : P o.cls a0 <;> simp [hP, ha]
      · intro c a
        rw [has_bump2 _ i1, i3]
        constructor
        · rintro (⟨e1, e2⟩ | ⟨x, hx, hh⟩)
          · exact ⟨o, by simp, e1.symm, by rw [ha, e2]⟩
          · exact ⟨x, by simp [hx], hh⟩
        · rintro ⟨x, hx, hh1, hh2⟩
          rcases List.mem_append.mp hx with hx | hx
          · exact .inr ⟨x, hx, hh1, hh2⟩
          · simp only [List.mem_singleton] at hx; subst hx
            rw [ha] at hh2
            simp only [Option.some.injEq] at hh2
            exact .inl ⟨hh1.symm, hh2.symm⟩

theorem fold_bump2 (l : List (Nat × ℚ × ℚ)) (r : SDict ℚ (SDict Nat ℚ)) (hs : Sorted2 r)
    (e : SDict ℚ Unit) (hk : r.map Prod.fst = e.map Prod.fst) :
    Sorted2 (l.foldl (fun res t => bump2 res t.2.1 t.1 t.2.2) r) ∧
    (∀ P : ℚ → Nat → Bool, sum2 P (l.foldl (fun res t => bump2 res t.2.1 t.1 t.2.2) r) =
      sum2 P r + (l.map fun t => if P t.2.1 t.1 then t.2.2 else 0).sum) ∧
    (l.foldl (fun res t => bump2 res t.2.1 t.1 t.2.2) r).map Prod.fst =
      (l.foldl (fun res t => alter (fun _ => ()) res t.2.1) e).map Prod.fst ∧
    (∀ a, (∃ p ∈ l.foldl (fun res t => bump2 res t.2.1 t.1 t.2.2) r, p.1 = a) ↔
      (∃ t ∈ l, t.2.1 = a) ∨ ∃ p ∈ r, p.1 = a) := by
  induction l generalizing r e with
  | nil => simp [hs, hk]
  | cons t l ih =>
    have hk' : (bump2 r t.2.1 t.1 t.2.2).map Prod.fst = (alter (fun _ => ()) e t.2.1).map Prod.fst :=
      keys_alter _ _ _ _ _ hk
    obtain ⟨i1, i2, i3, i4⟩ := ih _ (bump2_sorted r t.2.1 t.1 t.2.2 hs) _ hk'
    refine ⟨i1, ?_, i3, ?_⟩
    · intro P
      rw [List.foldl_cons, i2, sum2_bump2, List.map_cons, List.sum_cons]; ring
    · intro a
      rw [List.foldl_cons, i4]
      rw [bump2, alter_keys]
      simp only [List.mem_cons, exists_eq_or_imp]
      constructor
      · rintro (h | h | h)
        · exact .inl (.inr h)
        · exact .inl (.inl h.symm)
        · exact .inr h
      · rintro ((h | h) | h)
        · exact .inr (.inl h.symm)
        · exact .inl h
        · exact .inr (.inr h)

theorem sorted_lt_ext (l m : List ℚ) (hl : l.Pairwise (· < ·)) (hm : m.Pairwise (· < ·))
    (h : ∀ a, a ∈ l ↔ a ∈ m) : l = m := by
  induction l generalizing m with
  | nil =>
    cases m with
    | nil => rfl
    | cons b m => exact absurd ((h b).mpr (by simp)) (by simp)
  | cons a l ih =>
    cases m with
    | nil => exact absurd ((h a).mp (by simp)) (by simp)
    | cons b m =>
      obtain ⟨l1, l2⟩ := List.pairwise_cons.mp hl
      obtain ⟨m1, m2⟩ := List.pairwise_cons.mp hm
      have hab : a = b := by
        rcases List.mem_cons.mp ((h a).mp (by simp)) with e | hin
        · exact e
        · rcases List.mem_cons.mp ((h b).mpr (by simp)) with e | hin'
          · exact e.symm
          · exact absurd (lt_trans (m1 a hin) (l1 b hin')) (lt_irrefl _)
      subst hab
      rw [ih m l2 m2]
      intro x
      constructor
      · intro hx
        rcases List.mem_cons.mp ((h x).mp (by simp [hx])) with e | hin
        · subst e; exact absurd (l1 x hx) (lt_irrefl _)
        · exact hin
      · intro hx
        rcases List.mem_cons.mp ((h x).mpr (by simp [hx])) with e | hin
        · subst e; exact absurd (m1 x hx) (lt_irrefl _)
        · exact hin

/-- Key facts about the multiway result. -/
theorem multiway_facts (h : List NObs) (vs : List ℚ) (hvs : ObservedValues h vs) :
    attValues (nomRun h) = vs ∧ ∃ r : SDict ℚ (SDict Nat ℚ), nomMultiway (nomRun h) = r.map Prod.snd ∧
      r.map Prod.fst = vs ∧ Sorted2 r ∧
      ∀ P : ℚ → Nat → Bool, sum2 P r = weightWhere h fun o => match o.att with
        | none => false
        | some a => P a o.cls := by
  obtain ⟨s1, s2, s3⟩ := nomRun_spec h
  have f1 := foldl_triples (fun (res : SDict ℚ (SDict Nat ℚ)) i j v => bump2 res j i v) (nomRun h) []
  have f2 := foldl_triples (fun (res : SDict ℚ Unit) _ j _ => alter (fun _ => ()) res j) (nomRun h) []
  obtain ⟨i1, i2, i3, i4⟩ := fold_bump2 (triples (nomRun h)) [] (by simp [Sorted2, SDict.Sorted]) [] rfl
  have hkeys : ((triples (nomRun h)).foldl (fun res t => bump2 res t.2.1 t.1 t.2.2) []).map Prod.fst = vs := by
    apply sorted_lt_ext _ _ _ hvs.1
    · intro a
      rw [hvs.2 a]
      constructor
      · intro ha
        obtain ⟨p, hp, e⟩ := List.mem_map.mp ha
        rcases (i4 a).mp ⟨p, hp, e⟩ with ⟨t, ht, e'⟩ | ⟨p, hp, _⟩
        · obtain ⟨o, ho, _, e2⟩ := (s3 t.1 a).mp ((triples_has _ _ _).mp ⟨t, ht, rfl, e'⟩)
          exact ⟨o, ho, e2⟩
        · cases hp
      · rintro ⟨o, ho, e⟩
        obtain ⟨t, ht, e1, e2⟩ := (triples_has _ _ _).mpr ((s3 o.cls a).mpr ⟨o, ho, rfl, e⟩)
        obtain ⟨p, hp, e3⟩ := (i4 a).mpr (.inl ⟨t, ht, e2⟩)
        exact List.mem_map.mpr ⟨p, hp, e3⟩
    · have := i1.1
      unfold SDict.Sorted at this
      rw [List.pairwise_map]
      exact this
  refine ⟨?_, _, ?_, hkeys, i1, ?_⟩
  · unfold attValues
    rw [f2, ← i3, hkeys]
  · unfold nomMultiway; rw [f1]
  · intro P
    rw [i2]
    have h0 : sum2 P ([] : SDict ℚ (SDict Nat ℚ)) = 0 := rfl
    rw [h0, zero_add, triples_sum (fun i j => P j i), s2]

/-- C34: the multiway split has one branch per observed attribute value, in
increasing order, and branch `b` holds for each class exactly the weight observed
with the `b`-th value (this is the order of the branches of the multiway test). -/
theorem C34_multiway (h : List NObs) (vs : List ℚ) (hvs : ObservedValues h vs) :
    attValues (nomRun h) = vs ∧ (nomMultiway (nomRun h)).length = vs.length ∧
    ∀ (b : Nat) (a : ℚ), vs[b]? = some a → ∃ dist, (nomMultiway (nomRun h))[b]? = some dist ∧
      ∀ c, (get? dist c).getD 0 = weightWhere h fun o => decide (o.att = some a ∧ o.cls = c) := by
  obtain ⟨h1, r, e1, e2, e3, e4⟩ := multiway_facts h vs hvs
  refine ⟨h1, by rw [e1, ← e2]; simp, ?_⟩
  intro b a hb
  rw [← e2, List.getElem?_map] at hb
  cases hr : r[b]? with
  | none => rw [hr] at hb; cases hb
  | some p =>
    rw [hr] at hb
    simp only [Option.map_some, Option.some.injEq] at hb
    refine ⟨p.2, by rw [e1, List.getElem?_map, hr]; rfl, ?_⟩
    intro c
    have hg : get? r a = some p.2 := (get?_mem r e3.1 a p.2).mpr (by
      rw [← hb]; exact List.mem_of_getElem? hr)
    have := entry_eq r e3 a c
    rw [entry, hg] at this
    simp only [Option.getD_some] at this
    rw [this, e4]
    unfold weightWhere
    congr 2
    apply List.filter_congr
    intro o _
    cases ho : o.att with
    | none => simp
    | some x => simp

/-- C34: branch weights add up, class by class, to the class weight. -/
theorem C34_multiway_conserves (h : List NObs) (c : Nat) :
    ((nomMultiway (nomRun h)).map fun dist => (get? dist c).getD 0).sum =
      weightWhere h fun o => decide (o.att ≠ none ∧ o.cls = c) := by
  obtain ⟨s1, s2, s3⟩ := nomRun_spec h
  have f1 := foldl_triples (fun (res : SDict ℚ (SDict Nat ℚ)) i j v => bump2 res j i v) (nomRun h) []
  obtain ⟨i1, i2, -, -⟩ := fold_bump2 (triples (nomRun h)) [] (by simp [Sorted2, SDict.Sorted]) [] rfl
  unfold nomMultiway
  rw [f1]
  set r := (triples (nomRun h)).foldl (fun res t => bump2 res t.2.1 t.1 t.2.2) [] with hr
  have : ((r.map Prod.snd).map fun dist => (get? dist c).getD 0).sum =
      sum2 (fun _ c' => decide (c' = c)) r := by
    rw [List.map_map]
    unfold sum2 dsum
    congr 1
    apply List.map_congr_left
    intro p hp
    exact (dsum_single p.2 (i1.2 p hp) c).symm
  rw [this, i2]
  have h0 : sum2 (fun _ c' => decide (c' = c)) ([] : SDict ℚ (SDict Nat ℚ)) = 0 := rfl
  rw [h0, zero_add, triples_sum (fun i j => decide (i = c)), s2]
  unfold weightWhere
  congr 2
  apply List.filter_congr
  intro o _
  cases ho : o.att with
  | none => simp
  | some x => simp

theorem fold_binary (l : List (Nat × ℚ × ℚ)) (val : ℚ) (r : SDict Nat ℚ × SDict Nat ℚ)
    (h1 : SDict.Sorted r.1) (h2 : SDict.Sorted r.2) :
    let res := l.foldl (fun res t => if t.2.1 = val then (bump res.1 t.1 t.2.2, res.2)
      else (res.1, bump res.2 t.1 t.2.2)) r
    SDict.Sorted res.1 ∧ SDict.Sorted res.2 ∧ ∀ c,
      dsum (fun k v => if decide (k = c) then v else 0) res.1 =
        dsum (fun k v => if decide (k = c) then v else 0) r.1 +
          (l.map fun t => if decide (t.1 = c) && decide (t.2.1 = val) then t.2.2 else 0).sum ∧
      dsum (fun k v => if decide (k = c) then v else 0) res.2 =
        dsum (fun k v => if decide (k = c) then v else 0) r.2 +
          (l.map fun t => if decide (t.1 = c) && decide (t.2.1 ≠ val) then t.2.2 else 0).sum := by
  induction l generalizing r with
  | nil => simp [h1, h2]
  | cons t l ih =>
    intro res
    by_cases ht : t.2.1 = val
    · have hres : res = l.foldl (fun res t => if t.2.1 = val then (bump res.1 t.1 t.2.2, res.2)
          else (res.1, bump res.2 t.1 t.2.2)) (bump r.1 t.1 t.2.2, r.2) := by
        simp only [res, List.foldl_cons, ht, if_true]
      have := ih (bump r.1 t.1 t.2.2, r.2) (alter_sorted _ _ _ h1) h2
      simp only [← hres] at this
      obtain ⟨a1, a2, a3⟩ := this
      refine ⟨a1, a2, fun c => ?_⟩
      obtain ⟨b1, b2⟩ := a3 c
      rw [b1, b2, dsum_bump (fun k => decide (k = c))]
      simp only [List.map_cons, List.sum_cons, ht, decide_true, Bool.and_true, ne_eq, not_true_eq_false,
        decide_false, Bool.and_false, Bool.false_eq_true, if_false]
      constructor <;> ring
    · have hres : res = l.foldl (fun res t => if t.2.1 = val then (bump res.1 t.1 t.2.2, res.2)
          else (res.1, bump res.2 t.1 t.2.2)) (r.1, bump r.2 t.1 t.2.2) := by
        simp only [res, List.foldl_cons, ht, if_false]
      have := ih (r.1, bump r.2 t.1 t.2.2) h1 (alter_sorted _ _ _ h2)
      simp only [← hres] at this
      obtain ⟨a1, a2, a3⟩ := this
      refine ⟨a1, a2, fun c => ?_⟩
      obtain ⟨b1, b2⟩ := a3 c
      rw [b1, b2, dsum_bump (fun k => decide (k = c))]
      simp only [List.map_cons, List.sum_cons, ht, decide_false, Bool.and_false, ne_eq, not_false_eq_true,
        decide_true, Bool.and_true, Bool.false_eq_true, if_false]
      constructor <;> ring

/-- C34: the binary split on value `a` holds, for each class, the weight observed
with `a` on the left and with any other present value on the right. -/
theorem C34_binary (h : List NObs) (a : ℚ) (c : Nat) :
    (get? (nomBinary (nomRun h) a).1 c).getD 0 =
      (weightWhere h fun o => decide (o.att = some a ∧ o.cls = c)) ∧
    (get? (nomBinary (nomRun h) a).2 c).getD 0 =
      (weightWhere h fun o => decide (o.att ≠ none ∧ o.att ≠ some a ∧ o.cls = c)) := by
  obtain ⟨s1, s2, s3⟩ := nomRun_spec h
  have f1 := foldl_triples (fun (res : SDict Nat ℚ × SDict Nat ℚ) i j v =>
    if j = a then (bump res.1 i v, res.2) else (res.1, bump res.2 i v)) (nomRun h) ([], [])
  have key := fold_binary (triples (nomRun h)) a ([], []) (by simp [SDict.Sorted]) (by simp [SDict.Sorted])
  simp only at key
  have hb : nomBinary (nomRun h) a = (triples (nomRun h)).foldl (fun res t =>
      if t.2.1 = a then (bump res.1 t.1 t.2.2, res.2) else (res.1, bump res.2 t.1 t.2.2)) ([], []) := f1
  rw [← hb] at key
  obtain ⟨k1, k2, k3⟩ := key
  obtain ⟨k4, k5⟩ := k3 c
  rw [dsum_single _ k1, triples_sum (fun i j => decide (i = c) && decide (j = a)), s2] at k4
  rw [dsum_single _ k2, triples_sum (fun i j => decide (i = c) && decide (j ≠ a)), s2] at k5
  rw [k4, k5]
  simp only [dsum, List.map_nil, List.sum_nil, zero_add]
  constructor
  · unfold weightWhere
    congr 2
    apply List.filter_congr
    intro o _
    cases ho : o.att with
    | none => simp
    | some x => simp [Bool.and_comm]
  · unfold weightWhere
    congr 2
    apply List.filter_congr
    intro o _
    cases ho : o.att with
    | none => simp
    | some x => simp [Bool.and_comm]

theorem sum_map_getD (obs : SDict ℚ ℚ) (hs : SDict.Sorted obs) :
    (obs.map fun q => (get? obs q.1).getD 0) = obs.map Prod.snd := by
  apply List.map_congr_left
  intro q hq
  rw [(get?_mem obs hs q.1 q.2).mpr hq]
  rfl

/-- C34: for a class with at least one observation with a present value, the smoothed
probabilities of the values observed with the class are the Laplace estimates
(weight of the value + 1) / (class weight + number of values), and they sum to 1. -/
theorem C34_laplace (h : List NObs) (hw : ∀ o ∈ h, 0 ≤ o.w) (c : Nat) (vs : List ℚ) (hn : vs.Nodup)
    (hne : vs ≠ []) (hvs : ∀ a, a ∈ vs ↔ ∃ o ∈ h, o.cls = c ∧ o.att = some a) :
    (∀ a, nomProb (nomRun h) a c =
      ((weightWhere h fun o => decide (o.att = some a ∧ o.cls = c)) + 1) /
      ((weightWhere h fun o => decide (o.att ≠ none ∧ o.cls = c)) + vs.length)) ∧
    (vs.map fun a => nomProb (nomRun h) a c).sum = 1 := by
  obtain ⟨s1, s2, s3⟩ := nomRun_spec h
  obtain ⟨a0, ha0⟩ := List.exists_mem_of_ne_nil vs hne
  obtain ⟨p, hp, e0, -⟩ := (s3 c a0).mpr ((hvs a0).mp ha0)
  have hg : get? (nomRun h) c = some p.2 := (get?_mem _ s1.1 c p.2).mpr (by rw [← e0]; exact hp)
  have hso := s1.2 p hp
  have hkeys : (p.2.map Prod.fst).Perm vs := by
    apply (List.perm_ext_iff_of_nodup ?_ hn).mpr
    · intro a
      rw [hvs, ← s3]
      constructor
      · intro ha
        obtain ⟨q, hq, e⟩ := List.mem_map.mp ha
        exact ⟨p, hp, e0, q, hq, e⟩
      · rintro ⟨p', hp', e1, q, hq, e2⟩
        have : some p.2 = some p'.2 := by
          rw [← hg, (get?_mem _ s1.1 c p'.2).mpr (by rw [← e1]; exact hp')]
        rw [Option.some.inj this]
        exact List.mem_map.mpr ⟨q, hq, e2⟩
    · have hlt : (p.2.map Prod.fst).Pairwise (· < ·) := by rw [List.pairwise_map]; exact hso
      exact hlt.imp (fun h => ne_of_lt h)
  have hlen : p.2.length = vs.length := by have := hkeys.length_eq; simpa using this
  have hval : ∀ a, (get? p.2 a).getD 0 = weightWhere h fun o => decide (o.att = some a ∧ o.cls = c) := by
    intro a
    have := entry_eq _ s1 c a
    rw [entry, hg] at this
    simp only [Option.getD_some] at this
    rw [this, s2]
    unfold weightWhere
    congr 2
    apply List.filter_congr
    intro o _
    cases ho : o.att with
    | none => simp
    | some x => simp [Bool.and_comm]
  have hsum : (p.2.map Prod.snd).sum = weightWhere h fun o => decide (o.att ≠ none ∧ o.cls = c) := by
    have e1 : (p.2.map Prod.snd).sum = sum2 (fun i _ => decide (i = c)) (nomRun h) := by
      unfold sum2
      rw [dsum_get? _ s1.1 _ c (by intro i e hne; simp [hne, dsum]), hg]
      simp [dsum]
    rw [e1, s2]
    unfold weightWhere
    congr 2
    apply List.filter_congr
    intro o _
    cases ho : o.att with
    | none => simp
    | some x => simp
  have hprob : ∀ a, nomProb (nomRun h) a c =
      ((weightWhere h fun o => decide (o.att = some a ∧ o.cls = c)) + 1) /
      ((weightWhere h fun o => decide (o.att ≠ none ∧ o.cls = c)) + vs.length) := by
    intro a
    simp only [nomProb, hg]
    rw [hval a, hsum, hlen]
  refine ⟨hprob, ?_⟩
  have hW : 0 ≤ weightWhere h fun o => decide (o.att ≠ none ∧ o.cls = c) := by
    apply List.sum_nonneg
    intro x hx
    obtain ⟨o, ho, rfl⟩ := List.mem_map.mp hx
    exact hw o (List.mem_filter.mp ho).1
  have hpos : (0 : ℚ) < vs.length := by
    have := List.length_pos_iff.mpr hne; exact_mod_cast this
  rw [← (hkeys.map fun a => nomProb (nomRun h) a c).sum_eq, List.map_map]
  have e2 : (p.2.map ((fun a => nomProb (nomRun h) a c) ∘ Prod.fst)) =
      p.2.map fun q => (q.2 + 1) / ((p.2.map Prod.snd).sum + p.2.length) := by
    apply List.map_congr_left
    intro q hq
    simp only [Function.comp, nomProb, hg]
    rw [(get?_mem _ hso q.1 q.2).mpr hq]
    rfl
  rw [e2]
  have e3 : ∀ (l : SDict ℚ ℚ) (D : ℚ), (l.map fun q => (q.2 + 1) / D).sum =
      ((l.map Prod.snd).sum + l.length) / D := by
    intro l D
    induction l with
    | nil => simp
    | cons a l ih =>
      simp only [List.map_cons, List.sum_cons, ih, List.length_cons]
      push_cast
      ring
  rw [e3]
  apply div_self
  rw [hsum, hlen]
  linarith

theorem bump2_nonempty {I J : Type} [LinearOrder I] [LinearOrder J] (d : SDict I (SDict J ℚ)) (i : I)
    (j : J) (v : ℚ) (h : ∀ p ∈ d, p.2 ≠ []) : ∀ p ∈ bump2 d i j v, p.2 ≠ [] := by
  have hb : ∀ e : SDict J ℚ, bump e j v ≠ [] := by
    intro e
    cases e with
    | nil => simp [bump, alter]
    | cons a e => simp only [bump, alter]; split_ifs <;> simp
  induction d with
  | nil => intro p hp; simp only [bump2, alter, List.mem_singleton] at hp; rw [hp]; exact hb _
  | cons a d ih =>
    intro p hp
    have ih' := ih (fun q hq => h q (by simp [hq]))
    simp only [bump2, alter] at hp
    split_ifs at hp
    · rcases List.mem_cons.mp hp with e | e
      · rw [e]; exact hb _
      · exact h p (by simp [e])
    · rcases List.mem_cons.mp hp with e | e
      · rw [e]; exact hb _
      · exact h p (by simpa using e)
    · rcases List.mem_cons.mp hp with e | e
      · rw [e]; exact h a (by simp)
      · exact ih' p e

theorem nomRun_nonempty (h : List NObs) : ∀ p ∈ nomRun h, p.2 ≠ [] := by
  have key : ∀ (l : List NObs) (d : NomObs), (∀ p ∈ d, p.2 ≠ []) →
      ∀ p ∈ l.foldl (fun d o => nomUpdate d o.att o.cls o.w) d, p.2 ≠ [] := by
    intro l
    induction l with
    | nil => intro d hd; exact hd
    | cons o l ih =>
      intro d hd
      refine ih _ ?_
      show ∀ p ∈ nomUpdate d o.att o.cls o.w, p.2 ≠ []
      cases o.att with
      | none => exact hd
      | some a => exact bump2_nonempty d _ _ _ hd
  exact key h [] (by simp)

/-- C34: a class never observed with a known value gives every value probability 0. -/
theorem C34_unseen_class (h : List NObs) (c : Nat) (hc : ∀ o ∈ h, o.cls = c → o.att = none) (a : ℚ) :
    nomProb (nomRun h) a c = 0 := by
  obtain ⟨s1, s2, s3⟩ := nomRun_spec h
  unfold nomProb
  cases hg : get? (nomRun h) c with
  | none => rfl
  | some obs =>
    exfalso
    have hm := (get?_mem _ s1.1 c obs).mp hg
    cases obs with
    | nil => exact nomRun_nonempty h _ hm rfl
    | cons q t =>
      obtain ⟨o, ho, h1, h2⟩ := (s3 c q.1).mp ⟨_, hm, rfl, q, by simp, rfl⟩
      rw [hc o ho h1] at h2
      cases h2

theorem keepBest_fold {α : Type} (merit : α → ℚ) (l : List α) (hne : l ≠ []) :
    ∃ l1 c l2, l = l1 ++ c :: l2 ∧ l.foldl (keepBest merit) none = some c ∧
      (∀ x ∈ l1, merit x < merit c) ∧ ∀ x ∈ l2, merit x ≤ merit c := by
  induction l using List.reverseRecOn with
  | nil => simp at hne
  | append_singleton l x ih =>
    rw [List.foldl_append]
    simp only [List.foldl_cons, List.foldl_nil]
    by_cases hl : l = []
    · subst hl; exact ⟨[], x, [], by simp, rfl, by simp, by simp⟩
    · obtain ⟨l1, c, l2, e1, e2, e3, e4⟩ := ih hl
      rw [e2, keepBest]
      split_ifs with hgt
      · refine ⟨l, x, [], by simp, rfl, ?_, by simp⟩
        intro y hy
        rw [e1] at hy
        rcases List.mem_append.mp hy with hy | hy
        · exact lt_trans (e3 y hy) hgt
        · rcases List.mem_cons.mp hy with rfl | hy
          · exact hgt
          · exact lt_of_le_of_lt (e4 y hy) hgt
      · refine ⟨l1, c, l2 ++ [x], by simp [e1], rfl, e3, ?_⟩
        intro y hy
        rcases List.mem_append.mp hy with hy | hy
        · exact e4 y hy
        · simp only [List.mem_singleton] at hy; subst hy; exact not_lt.mp hgt

/-- C34: the suggestion returned has the largest merit among the multiway split
(unless `binary_only`) and the binary splits on all observed values. -/
theorem C34_best (merit : NomSugg → ℚ) (h : List NObs) (binaryOnly : Bool) (vs : List ℚ)
    (hvs : ObservedValues h vs) (hne : vs ≠ []) :
    ∃ s, nomBest merit (nomRun h) binaryOnly = some s ∧
      (s = .multiway vs (nomMultiway (nomRun h)) ∧ binaryOnly = false ∨
        ∃ a ∈ vs, s = .binary a (nomBinary (nomRun h) a)) ∧
      (∀ a ∈ vs, merit (.binary a (nomBinary (nomRun h) a)) ≤ merit s) ∧
      (binaryOnly = false → merit (.multiway vs (nomMultiway (nomRun h))) ≤ merit s) := by
  have hv := (multiway_facts h vs hvs).1
  have hc : nomCandidates (nomRun h) binaryOnly ≠ [] := by
    unfold nomCandidates
    rw [hv]
    simp [hne]
  obtain ⟨l1, s, l2, e1, e2, e3, e4⟩ := keepBest_fold merit _ hc
  have hall : ∀ x ∈ nomCandidates (nomRun h) binaryOnly, merit x ≤ merit s := by
    intro x hx
    rw [e1] at hx
    rcases List.mem_append.mp hx with hx | hx
    · exact le_of_lt (e3 x hx)
    · rcases List.mem_cons.mp hx with rfl | hx
      · exact le_refl _
      · exact e4 x hx
  have hs : s ∈ nomCandidates (nomRun h) binaryOnly := by rw [e1]; simp
  refine ⟨s, e2, ?_, ?_, ?_⟩
  · unfold nomCandidates at hs
    rw [hv] at hs
    rcases List.mem_append.mp hs with hs | hs
    · cases binaryOnly with
      | true => simp at hs
      | false => simp at hs; exact .inl ⟨hs, rfl⟩
    · obtain ⟨a, ha, e⟩ := List.mem_map.mp hs
      exact .inr ⟨a, ha, e.symm⟩
  · intro a ha
    apply hall
    unfold nomCandidates
    rw [hv]
    exact List.mem_append_right _ (List.mem_map.mpr ⟨a, ha, rfl⟩)
  · intro hb
    apply hall
    unfold nomCandidates
    rw [hv, hb]
    simp

/-- Non-vacuity of C34. -/
example :
    let h : List NObs := [⟨some 2, 1, 1⟩, ⟨some 1, 0, 2⟩, ⟨none, 1, 7⟩, ⟨some 2, 0, 3⟩, ⟨some 2, 1, 1⟩]
    nomMultiway (nomRun h) = [[(0, 2)], [(0, 3), (1, 2)]] ∧
    nomBinary (nomRun h) 1 = ([(0, 2)], [(0, 3), (1, 2)]) ∧
    nomProb (nomRun h) 1 0 = 3/7 ∧ nomProb (nomRun h) 2 0 = 4/7 := by
  decide +kernel

/-! ### Nominal regression observer -/

open EBST in
/-- `update`, nominal_attribute_regression_observer.py 16-32. -/
def nomRegUpdate (d : SDict ℚ Stat) (att : Option ℚ) (target weight : ℚ) : SDict ℚ Stat :=
  match att with
  | none => d
  | some a => alter (fun o => match o with
      | some s => s + obsStat target weight
      | none => obsStat target weight) d a

open EBST in
/-- The candidate distributions of `get_best_evaluated_split_suggestion`, lines 37-72:
the multiway split in key order, and for each value itself against the remainder. -/
def nomRegMultiway (d : SDict ℚ Stat) : List Stat := d.map Prod.snd

open EBST in
/-- Binary candidates, lines 53-60. -/
def nomRegBinary (d : SDict ℚ Stat) (pre : Stat) : List (ℚ × Stat × Stat) :=
  d.map fun p => (p.1, p.2, pre - p.2)

open EBST in
/-- Statistics of the observations with attribute value exactly `a`. -/
def eqStat (h : List Obs) (a : ℚ) : Stat :=
  let l := h.filter fun o => decide (o.att = some a)
  ⟨(l.map fun o => o.weight).sum, (l.map fun o => o.weight * o.target).sum,
   (l.map fun o => o.weight * o.target ^ 2).sum⟩

open EBST in
/-- Observer after a history. -/
def nomRegRun (h : List Obs) : SDict ℚ Stat :=
  h.foldl (fun d o => nomRegUpdate d o.att o.target o.weight) []

open EBST in
theorem nomRegRun_spec (h : List Obs) :
    SDict.Sorted (nomRegRun h) ∧
    ∀ a, get? (nomRegRun h) a = if (∃ o ∈ h, o.att = some a) then some (eqStat h a) else none := by
  classical
  induction h using List.reverseRecOn with
  | nil => simp [nomRegRun, SDict.Sorted, get?]
  | append_singleton h o ih =>
    obtain ⟨i1, i2⟩ := ih
    have hrun : nomRegRun (h ++ [o]) = nomRegUpdate (nomRegRun h) o.att o.target o.weight := by
      simp [nomRegRun]
    rw [hrun]
    cases ha : o.att with
    | none =>
      simp only [nomRegUpdate]
      refine ⟨i1, fun a => ?_⟩
      rw [i2]
      have : (∃ o' ∈ h ++ [o], o'.att = some a) ↔ ∃ o' ∈ h, o'.att = some a := by
        simp [or_and_right, exists_or, ha]
      simp only [this]
      simp [eqStat, ha]
    | some a0 =>
      simp only [nomRegUpdate]
      refine ⟨alter_sorted _ _ _ i1, fun a => ?_⟩
      rw [get?_alter _ _ i1]
      by_cases hc : a = a0
      · subst hc
        have hex : ∃ o' ∈ h ++ [o], o'.att = some a := ⟨o, by simp, ha⟩
        rw [if_pos rfl, if_pos hex, i2]
        congr 1
        by_cases hh : ∃ o' ∈ h, o'.att = some a
        · rw [if_pos hh]
          ext <;> simp only [eqStat, List.filter_append, ha, List.map_append, List.sum_append, add_n, add_s,
            add_q, obsStat] <;> simp [ha]
          ring
        · rw [if_neg hh]
          have hz : h.filter (fun o => decide (o.att = some a)) = [] := by
            apply List.filter_eq_nil_iff.mpr
            intro o' ho'
            simp only [decide_eq_true_eq]
            intro e; exact hh ⟨o', ho', e⟩
          ext <;> simp only [eqStat, List.filter_append, hz, obsStat] <;> simp [ha]
          ring
      · rw [if_neg hc, i2]
        have hne : ¬ a0 = a := fun e => hc e.symm
        have : (∃ o' ∈ h ++ [o], o'.att = some a) ↔ ∃ o' ∈ h, o'.att = some a := by
          simp [or_and_right, exists_or, ha, hne]
        simp only [this]
        simp [eqStat, ha, hne]

open EBST in
/-- C64: the nominal regression observer's multiway split has one branch per
observed value, in increasing order, holding the exact statistics of the
observations with that value; the binary candidates are each observed value
against the exact remainder. -/
theorem C64_nominal_regression (h : List Obs) (pre : Stat) (vs : List ℚ) (hs : vs.Pairwise (· < ·))
    (hvs : ∀ a, a ∈ vs ↔ ∃ o ∈ h, o.att = some a) :
    (nomRegRun h).map Prod.fst = vs ∧
    nomRegMultiway (nomRegRun h) = vs.map (eqStat h) ∧
    nomRegBinary (nomRegRun h) pre = vs.map fun a => (a, eqStat h a, pre - eqStat h a) := by
  classical
  obtain ⟨s1, s2⟩ := nomRegRun_spec h
  have hkeys : (nomRegRun h).map Prod.fst = vs := by
    apply sorted_lt_ext _ _ _ hs
    · intro a
      rw [hvs]
      constructor
      · intro ha
        obtain ⟨p, hp, rfl⟩ := List.mem_map.mp ha
        have := (get?_mem _ s1 p.1 p.2).mpr hp
        rw [s2] at this
        split_ifs at this with hh
        exact hh
      · intro hh
        have := s2 a
        rw [if_pos hh] at this
        exact List.mem_map.mpr ⟨_, (get?_mem _ s1 a _).mp this, rfl⟩
    · rw [List.pairwise_map]; exact s1
  have hval : ∀ p ∈ nomRegRun h, p.2 = eqStat h p.1 := by
    intro p hp
    have := (get?_mem _ s1 p.1 p.2).mpr hp
    rw [s2] at this
    split_ifs at this with hh
    exact (Option.some.inj this).symm
  refine ⟨hkeys, ?_, ?_⟩
  · rw [← hkeys, List.map_map]
    exact List.map_congr_left hval
  · rw [← hkeys, List.map_map]
    apply List.map_congr_left
    intro p hp
    simp only [Function.comp]
    rw [hval p hp]

open EBST in
/-- Non-vacuity of C64. -/
example : nomRegMultiway (nomRegRun [⟨some 2, 3, 1⟩, ⟨some 1, 5, 1⟩, ⟨none, 1, 1⟩, ⟨some 2, 4, 2⟩]) =
    [⟨1, 5, 25⟩, ⟨3, 11, 41⟩] := by decide +kernel

end Verif.Trees
