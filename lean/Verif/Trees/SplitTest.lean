import Verif.Common
import Mathlib.Data.List.Nodup
import Mathlib.Data.List.Induction

/-!
Model of `trees/_attribute_test/numeric_attribute_binary_test.py`,
`nominal_attribute_binary_test.py`, `nominal_attribute_multiway_test.py`, and
`rules/base_predicate.py`; C36.

Attribute values are rationals.  The dictionaries of the multiway test are
association lists in insertion order.
-/

namespace Verif.Trees

/-- Comparison operators of `Predicate`. -/
inductive Op where
  | gt | lt | ge | le | eq | ne
  deriving DecidableEq

/-- `Predicate`, base_predicate.py 30-34. -/
structure Predicate where
  att : Int
  op : Op
  value : ℚ
  deriving DecidableEq

/-- Python indexing `X[i]` for `i >= 0` (tests store attribute positions). -/
def xget (X : List ℚ) (i : Int) : Except PyErr ℚ :=
  if i < 0 then
    (if X.length < i.natAbs then .error .indexError
     else match X[X.length - i.natAbs]? with
      | some v => .ok v
      | none => .error .indexError)
  else match X[i.toNat]? with
    | some v => .ok v
    | none => .error .indexError

/-- `covers_instance`, base_predicate.py 60-88. -/
def Predicate.covers (p : Predicate) (X : List ℚ) : Except PyErr Bool :=
  (xget X p.att).map fun v =>
    match p.op with
    | .gt => decide (v > p.value)
    | .lt => decide (v < p.value)
    | .ge => decide (v ≥ p.value)
    | .le => decide (v ≤ p.value)
    | .eq => decide (v = p.value)
    | .ne => decide (v ≠ p.value)

/-- `NumericAttributeBinaryTest`. -/
structure NumTest where
  att : Int
  value : ℚ
  eqPasses : Bool

/-- `branch_for_instance`, numeric_attribute_binary_test.py 12-18. -/
def NumTest.branch (t : NumTest) (X : List ℚ) : Except PyErr Int :=
  if t.att > X.length ∨ t.att < 0 then .ok (-1)
  else (xget X t.att).map fun v =>
    if v = t.value then (if t.eqPasses then 0 else 1)
    else if v < t.value then 0 else 1

/-- `branch_rule`, lines 33-37. -/
def NumTest.rule (t : NumTest) (b : Int) : Predicate :=
  let eqBranch : Int := if t.eqPasses then 0 else 1
  ⟨t.att, if b = 0 then (if b = eqBranch then .le else .lt) else (if b = eqBranch then .ge else .gt), t.value⟩

/-- `NominalAttributeBinaryTest`. -/
structure NomTest where
  att : Int
  value : ℚ

/-- `branch_for_instance`, nominal_attribute_binary_test.py 23-27. -/
def NomTest.branch (t : NomTest) (X : List ℚ) : Except PyErr Int :=
  if t.att > X.length ∨ t.att < 0 then .ok (-1)
  else (xget X t.att).map fun v => if v = t.value then 0 else 1

/-- `branch_rule`, lines 39-41. -/
def NomTest.rule (t : NomTest) (b : Int) : Predicate := ⟨t.att, if b = 0 then .eq else .ne, t.value⟩

/-- `NominalAttributeMultiwayTest`: the value-to-branch dictionary and its reverse. -/
structure MultiTest where
  att : Int
  map : List (ℚ × Nat)
  rev : List (Nat × ℚ)

/-- Constructor, nominal_attribute_multiway_test.py 19-25, called with
`{value: position}` of the sorted observed values. -/
def MultiTest.create (att : Int) (vals : List ℚ) : MultiTest :=
  ⟨att, vals.zipIdx, vals.zipIdx.map fun p => (p.2, p.1)⟩

/-- Dictionary assignment `d[k] = v`: overwrite or append. -/
def dset {K V : Type} [DecidableEq K] : List (K × V) → K → V → List (K × V)
  | [], k, v => [(k, v)]
  | (k', v') :: rest, k, v => if k = k' then (k', v) :: rest else (k', v') :: dset rest k v

/-- `branch_for_instance`, lines 27-33. -/
def MultiTest.branch (t : MultiTest) (X : List ℚ) : Except PyErr Int :=
  if t.att > X.length ∨ t.att < 0 then .ok (-1)
  else (xget X t.att).map fun v =>
    match t.map.lookup v with
    | some b => (b : Int)
    | none => -1

/-- `branch_rule`, lines 44-47; a branch without an entry is a `KeyError`. -/
def MultiTest.rule (t : MultiTest) (b : Int) : Except PyErr Predicate :=
  if b < 0 then .error .keyError
  else match t.rev.lookup b.toNat with
    | some v => .ok ⟨t.att, .eq, v⟩
    | none => .error .keyError

/-- `add_new_branch`, lines 52-69; `max` of no values raises `ValueError`. -/
def MultiTest.addBranch (t : MultiTest) (v : ℚ) : Except PyErr (Nat × MultiTest) :=
  match t.map with
  | [] => .error .valueError
  | (k, b) :: rest =>
    let id : Nat := (rest.map Prod.snd).foldl max b + 1
    .ok (id, ⟨t.att, dset ((k, b) :: rest) v id, dset t.rev id v⟩)

/-- How the trees use it (hoeffding_tree.py 340-346): a value without a branch gets one. -/
def MultiTest.see (t : MultiTest) (v : ℚ) : Except PyErr MultiTest :=
  match t.map.lookup v with
  | some _ => .ok t
  | none => (t.addBranch v).map Prod.snd

/-! ### Proofs -/

theorem xget_of_lt (X : List ℚ) (i : Int) (h0 : 0 ≤ i) (v : ℚ) (h : X[i.toNat]? = some v) :
    xget X i = .ok v := by
  rw [xget, if_neg (by omega), h]

/-- C36: for an attribute present in the instance, the numeric test returns 0 or 1,
and it returns `b` exactly when the rule of branch `b` covers the instance. -/
theorem C36_numeric (t : NumTest) (X : List ℚ) (h0 : 0 ≤ t.att) (hlt : t.att < X.length) :
    (∃ b, t.branch X = .ok b ∧ (b = 0 ∨ b = 1)) ∧
    ∀ b : Int, b = 0 ∨ b = 1 → (t.branch X = .ok b ↔ (t.rule b).covers X = .ok true) := by
  have hl : t.att.toNat < X.length := by omega
  obtain ⟨v, hv⟩ : ∃ v, X[t.att.toNat]? = some v := ⟨_, List.getElem?_eq_getElem hl⟩
  have hx := xget_of_lt X t.att h0 v hv
  have hbr : t.branch X = .ok (if v = t.value then (if t.eqPasses then 0 else 1)
      else if v < t.value then 0 else 1) := by
    rw [NumTest.branch, if_neg (by omega), hx]; rfl
  have hcov : ∀ b, (t.rule b).covers X = .ok (match (t.rule b).op with
      | .gt => decide (v > t.value)
      | .lt => decide (v < t.value)
      | .ge => decide (v ≥ t.value)
      | .le => decide (v ≤ t.value)
      | .eq => decide (v = t.value)
      | .ne => decide (v ≠ t.value)) := by
    intro b
    have : xget X (t.rule b).att = .ok v := hx
    rw [Predicate.covers, this]; rfl
  constructor
  · refine ⟨_, hbr, ?_⟩
    split_ifs <;> simp
  · intro b hb
    rw [hbr, hcov]
    rcases lt_trichotomy v t.value with h | h | h
    · have h1 : ¬ v = t.value := ne_of_lt h
      have h2 : ¬ v > t.value := not_lt.mpr (le_of_lt h)
      have h3 : v ≤ t.value := le_of_lt h
      have h4 : ¬ t.value ≤ v := not_le.mpr h
      rcases hb with rfl | rfl <;> cases hE : t.eqPasses <;> simp [NumTest.rule, h, h1, h2, h3, h4, hE]
    · rcases hb with rfl | rfl <;> cases hE : t.eqPasses <;> simp [NumTest.rule, h, hE]
    · have h1 : ¬ v = t.value := ne_of_gt h
      have h2 : ¬ v < t.value := not_lt.mpr (le_of_lt h)
      have h3 : t.value ≤ v := le_of_lt h
      have h4 : ¬ v ≤ t.value := not_le.mpr h
      rcases hb with rfl | rfl <;> cases hE : t.eqPasses <;> simp [NumTest.rule, h, h1, h2, h3, h4, hE]

/-- C36: same for the binary nominal test. -/
theorem C36_nominal_binary (t : NomTest) (X : List ℚ) (h0 : 0 ≤ t.att) (hlt : t.att < X.length) :
    (∃ b, t.branch X = .ok b ∧ (b = 0 ∨ b = 1)) ∧
    ∀ b : Int, b = 0 ∨ b = 1 → (t.branch X = .ok b ↔ (t.rule b).covers X = .ok true) := by
  have hl : t.att.toNat < X.length := by omega
  obtain ⟨v, hv⟩ : ∃ v, X[t.att.toNat]? = some v := ⟨_, List.getElem?_eq_getElem hl⟩
  have hx := xget_of_lt X t.att h0 v hv
  have hbr : t.branch X = .ok (if v = t.value then 0 else 1) := by
    rw [NomTest.branch, if_neg (by omega), hx]; rfl
  constructor
  · refine ⟨_, hbr, ?_⟩
    split_ifs <;> simp
  · intro b hb
    have : ∀ b, xget X (t.rule b).att = .ok v := fun _ => hx
    rw [hbr, Predicate.covers, this]
    by_cases h : v = t.value <;> rcases hb with rfl | rfl <;> simp [NomTest.rule, h, Except.map]

theorem lookup_zipIdx (vals : List ℚ) (hn : vals.Nodup) (v : ℚ) (b n : Nat) :
    (vals.zipIdx n).lookup v = some b ↔ n ≤ b ∧ vals[b - n]? = some v := by
  induction vals generalizing n with
  | nil => simp
  | cons a vals ih =>
    rw [List.nodup_cons] at hn
    rw [List.zipIdx_cons, List.lookup_cons]
    by_cases h : v = a
    · subst h
      simp only [beq_self_eq_true, Option.some.injEq]
      constructor
      · rintro rfl; simp
      · rintro ⟨h1, h2⟩
        by_contra hne
        obtain ⟨m, hm⟩ : ∃ m, b - n = m + 1 := ⟨b - n - 1, by omega⟩
        rw [hm, List.getElem?_cons_succ] at h2
        exact hn.1 (List.mem_of_getElem? h2)
    · have hb : (v == a) = false := by simpa using h
      simp only [hb]
      rw [ih hn.2]
      constructor
      · rintro ⟨h1, h2⟩
        refine ⟨by omega, ?_⟩
        obtain ⟨m, hm⟩ : ∃ m, b - n = m + 1 := ⟨b - n - 1, by omega⟩
        rw [hm, List.getElem?_cons_succ]
        rw [show b - (n + 1) = m from by omega] at h2
        exact h2
      · rintro ⟨h1, h2⟩
        by_cases hbn : b = n
        · subst hbn; simp at h2; exact absurd h2.symm h
        · refine ⟨by omega, ?_⟩
          obtain ⟨m, hm⟩ : ∃ m, b - n = m + 1 := ⟨b - n - 1, by omega⟩
          rw [hm, List.getElem?_cons_succ] at h2
          rw [show b - (n + 1) = m from by omega]
          exact h2

theorem lookup_zipIdx_none (vals : List ℚ) (v : ℚ) (n : Nat) :
    (vals.zipIdx n).lookup v = none ↔ v ∉ vals := by
  induction vals generalizing n with
  | nil => simp
  | cons a vals ih =>
    rw [List.zipIdx_cons, List.lookup_cons]
    by_cases h : v = a
    · subst h; simp
    · have hb : (v == a) = false := by simpa using h
      simp only [hb]
      rw [ih]
      simp [h]

theorem lookup_rev (vals : List ℚ) (b n : Nat) :
    ((vals.zipIdx n).map fun p => (p.2, p.1)).lookup b = if n ≤ b then vals[b - n]? else none := by
  induction vals generalizing n with
  | nil => simp
  | cons a vals ih =>
    rw [List.zipIdx_cons, List.map_cons, List.lookup_cons]
    by_cases h : b = n
    · subst h; simp
    · have hb : (b == n) = false := by simpa using h
      simp only [hb]
      rw [ih]
      by_cases h1 : n ≤ b
      · rw [if_pos h1, if_pos (by omega)]
        obtain ⟨m, hm⟩ : ∃ m, b - n = m + 1 := ⟨b - n - 1, by omega⟩
        rw [hm, List.getElem?_cons_succ, show b - (n + 1) = m from by omega]
      · rw [if_neg h1, if_neg (by omega)]

theorem dset_append {K V : Type} [DecidableEq K] (l : List (K × V)) (k : K) (v : V)
    (h : ∀ p ∈ l, p.1 ≠ k) : dset l k v = l ++ [(k, v)] := by
  induction l with
  | nil => rfl
  | cons a l ih =>
    obtain ⟨k', v'⟩ := a
    have := h (k', v') (by simp)
    rw [dset, if_neg (fun e => this e.symm), ih (fun p hp => h p (by simp [hp]))]
    rfl

theorem foldl_max_zipIdx (vals : List ℚ) (n b : Nat) (h : b ≤ n) :
    ((vals.zipIdx n).map Prod.snd).foldl max b = if vals = [] then b else n + vals.length - 1 := by
  induction vals generalizing n b with
  | nil => simp
  | cons a vals ih =>
    rw [List.zipIdx_cons, List.map_cons, List.foldl_cons, ih (n + 1) (max b n) (by omega)]
    simp only [List.length_cons, reduceCtorEq, if_false]
    split_ifs with h1
    · subst h1; simp; omega
    · omega

/-- The abstract multiway test: branch `b` is the `b`-th value. -/
def MultiTest.Is (t : MultiTest) (vals : List ℚ) : Prop :=
  t = MultiTest.create t.att vals ∧ vals.Nodup ∧ vals ≠ []

theorem MultiTest.Is.see {t : MultiTest} {vals : List ℚ} (h : t.Is vals) (v : ℚ) :
    ∃ t', t.see v = .ok t' ∧ t'.att = t.att ∧ t'.Is (if v ∈ vals then vals else vals ++ [v]) := by
  obtain ⟨h1, h2, h3⟩ := h
  by_cases hv : v ∈ vals
  · obtain ⟨i, hi, e⟩ := List.getElem_of_mem hv
    have hl : t.map.lookup v = some i := by
      rw [h1]; exact (lookup_zipIdx vals h2 v i 0).mpr ⟨by omega, by simp [List.getElem?_eq_getElem hi, e]⟩
    exact ⟨t, by simp [MultiTest.see, hl], rfl, by rw [if_pos hv]; exact ⟨h1, h2, h3⟩⟩
  · have hl : t.map.lookup v = none := by
      rw [h1]; exact (lookup_zipIdx_none vals v 0).mpr hv
    rw [if_neg hv]
    have hmap : t.map = vals.zipIdx := by rw [h1]; rfl
    have hrev : t.rev = vals.zipIdx.map fun p => (p.2, p.1) := by rw [h1]; rfl
    have hadd : t.addBranch v = .ok (vals.length, MultiTest.create t.att (vals ++ [v])) := by
      cases vals with
      | nil => exact absurd rfl h3
      | cons a vals =>
        rw [List.zipIdx_cons] at hmap
        rw [MultiTest.addBranch, hmap]
        simp only [Nat.zero_add]
        have hid : ((vals.zipIdx 1).map Prod.snd).foldl max 0 + 1 = (a :: vals).length := by
          rw [foldl_max_zipIdx vals 1 0 (by omega)]
          split_ifs with h
          · subst h; rfl
          · simp only [List.length_cons]
            have := List.length_pos_iff.mpr h
            omega
        rw [hid]
        have e1 : dset ((a, 0) :: vals.zipIdx 1) v (a :: vals).length = (a :: vals ++ [v]).zipIdx := by
          have : (a, 0) :: vals.zipIdx 1 = (a :: vals).zipIdx := by simp [List.zipIdx_cons]
          rw [this, dset_append]
          · rw [List.zipIdx_append]; simp
          · intro p hp e
            have : p.1 ∈ a :: vals := by
              have := List.mem_map_of_mem (f := Prod.fst) hp
              rwa [List.zipIdx_map_fst] at this
            rw [e] at this
            exact hv this
        have e2 : dset t.rev (a :: vals).length v =
            (a :: vals ++ [v]).zipIdx.map fun p => (p.2, p.1) := by
          rw [hrev, dset_append]
          · rw [List.zipIdx_append]; simp
          · intro p hp e
            obtain ⟨q, hq, rfl⟩ := List.mem_map.mp hp
            obtain ⟨-, hlt, -⟩ := List.mem_zipIdx hq
            simp only at e
            omega
        rw [e1, e2]
        rfl
    refine ⟨MultiTest.create t.att (vals ++ [v]), by simp [MultiTest.see, hl, hadd, Except.map], rfl, rfl, ?_, by simp⟩
    rw [List.nodup_append]
    refine ⟨h2, by simp, ?_⟩
    intro a ha b hb
    simp only [List.mem_singleton] at hb
    subst hb
    intro e; subst e; exact hv ha

/-- A test after a history of seen values. -/
def MultiTest.run (t : MultiTest) (hist : List ℚ) : Except PyErr MultiTest := hist.foldlM MultiTest.see t

theorem MultiTest.Is.run {t : MultiTest} {vals : List ℚ} (h : t.Is vals) (hist : List ℚ) :
    ∃ t' extra, t.run hist = .ok t' ∧ t'.att = t.att ∧ t'.Is (vals ++ extra) := by
  induction hist generalizing t vals with
  | nil => exact ⟨t, [], rfl, rfl, by simpa using h⟩
  | cons v hist ih =>
    obtain ⟨t1, e1, a1, i1⟩ := h.see v
    obtain ⟨t2, extra, e2, a2, i2⟩ := ih i1
    have hrun : t.run (v :: hist) = .ok t2 := by
      simp only [MultiTest.run, List.foldlM_cons, e1] at e2 ⊢
      exact e2
    by_cases hv : v ∈ vals
    · rw [if_pos hv] at i2
      exact ⟨t2, extra, hrun, by rw [a2, a1], i2⟩
    · rw [if_neg hv, List.append_assoc] at i2
      exact ⟨t2, _, hrun, by rw [a2, a1], i2⟩

theorem MultiTest.Is.branch_iff {t : MultiTest} {vals : List ℚ} (h : t.Is vals) (X : List ℚ)
    (h0 : 0 ≤ t.att) (v : ℚ) (hv : X[t.att.toNat]? = some v) (b : Nat) :
    t.branch X = .ok (b : Int) ↔ vals[b]? = some v := by
  have hl : t.att.toNat < X.length := by
    by_contra hlt; rw [List.getElem?_eq_none (by omega)] at hv; cases hv
  rw [MultiTest.branch, if_neg (by omega), xget_of_lt X t.att h0 v hv]
  have hmap : t.map = vals.zipIdx := by rw [h.1]; rfl
  have := lookup_zipIdx vals h.2.1 v b 0
  simp only [Nat.zero_le, true_and, Nat.sub_zero] at this
  rw [← this, hmap]
  simp only [Except.map, Except.ok.injEq]
  cases hk : vals.zipIdx.lookup v with
  | none => simp
  | some c => simp

/-- C36: a multiway test created for distinct values and after any history of seen
values sends an instance to branch `b` exactly when `b` has a rule and the rule
covers the instance. -/
theorem C36_multiway_rule (att : Int) (vals : List ℚ) (hn : vals.Nodup) (hne : vals ≠ [])
    (hist : List ℚ) (X : List ℚ) (h0 : 0 ≤ att) (hlt : att < X.length) :
    ∃ t, (MultiTest.create att vals).run hist = .ok t ∧
      ∀ b : Nat, t.branch X = .ok (b : Int) ↔ ∃ p, t.rule b = .ok p ∧ p.covers X = .ok true := by
  obtain ⟨t, extra, e, a, i⟩ := MultiTest.Is.run (t := MultiTest.create att vals) ⟨rfl, hn, hne⟩ hist
  have ha : t.att = att := a
  have hl : t.att.toNat < X.length := by omega
  obtain ⟨v, hv⟩ : ∃ v, X[t.att.toNat]? = some v := ⟨_, List.getElem?_eq_getElem hl⟩
  refine ⟨t, e, fun b => ?_⟩
  rw [i.branch_iff X (by omega) v hv]
  have hrev : t.rev.lookup b = (vals ++ extra)[b]? := by
    rw [show t.rev = ((vals ++ extra).zipIdx 0).map fun p => (p.2, p.1) from by rw [i.1]; rfl,
      lookup_rev]
    simp
  simp only [MultiTest.rule, Int.toNat_natCast, hrev]
  rw [if_neg (by omega)]
  have hx := xget_of_lt X t.att (by omega) v hv
  cases hk : (vals ++ extra)[b]? with
  | none => simp
  | some u =>
    simp only [Option.some.injEq, Except.ok.injEq, exists_eq_left', Predicate.covers, hx, Except.map,
      decide_eq_true_eq]
    exact eq_comm

/-- C36: old branches are never remapped by later values, a value that has been
seen has a branch, and a value without a branch gets the next unused number. -/
theorem C36_multiway_stable (att : Int) (vals : List ℚ) (hn : vals.Nodup) (hne : vals ≠ [])
    (hist later : List ℚ) (h0 : 0 ≤ att) :
    ∃ t t', (MultiTest.create att vals).run hist = .ok t ∧ t.run later = .ok t' ∧
      (∀ X (b : Nat), t.branch X = .ok (b : Int) → t'.branch X = .ok (b : Int)) ∧
      (∀ X v, X[att.toNat]? = some v → v ∈ later → ∃ b : Nat, t'.branch X = .ok (b : Int)) ∧
      (∀ X v, X[att.toNat]? = some v → t.branch X = .ok (-1) → ∃ t1, t.see v = .ok t1 ∧
        ∃ b : Nat, t1.branch X = .ok (b : Int) ∧ ∀ Y, t.branch Y ≠ .ok (b : Int)) := by
  obtain ⟨t, extra, e, a, i⟩ := MultiTest.Is.run (t := MultiTest.create att vals) ⟨rfl, hn, hne⟩ hist
  obtain ⟨t', extra', e', a', i'⟩ := i.run later
  have ha : t.att = att := a
  have present : ∀ (s : MultiTest) (vs : List ℚ), s.Is vs → s.att = att → ∀ X (b : Nat),
      s.branch X = .ok (b : Int) → ∃ v, X[att.toNat]? = some v := by
    intro s vs hs hsa X b hb
    rw [MultiTest.branch] at hb
    split_ifs at hb with hc
    · simp only [Except.ok.injEq] at hb; omega
    · rw [hsa] at hb hc
      rw [xget, if_neg (by omega)] at hb
      cases hX : X[att.toNat]? with
      | none => rw [hX] at hb; cases hb
      | some v => exact ⟨v, rfl⟩
  refine ⟨t, t', e, e', ?_, ?_, ?_⟩
  · intro X b hb
    obtain ⟨v, hv⟩ := present t _ i ha X b hb
    rw [i.branch_iff X (by omega) v (by rw [ha]; exact hv)] at hb
    rw [i'.branch_iff X (by omega) v (by rw [a', ha]; exact hv)]
    rw [List.getElem?_append_left]
    · exact hb
    · by_contra hlt; rw [List.getElem?_eq_none (by omega)] at hb; cases hb
  · intro X v hv hmem
    have hvin : ∀ (later : List ℚ) (s : MultiTest) (vs : List ℚ), s.Is vs → ∀ s' ex, s.run later = .ok s' →
        s'.Is (vs ++ ex) → (v ∈ later ∨ v ∈ vs) → v ∈ vs ++ ex := by
      intro later
      induction later with
      | nil =>
        intro s vs hs s' ex hr hs' hm
        simp at hm
        simp [hm]
      | cons u later ih =>
        intro s vs hs s' ex hr hs' hm
        obtain ⟨s1, f1, g1, j1⟩ := hs.see u
        obtain ⟨s2, ex2, f2, g2, j2⟩ := j1.run later
        have : s.run (u :: later) = .ok s2 := by
          simp only [MultiTest.run, List.foldlM_cons, f1] at f2 ⊢; exact f2
        rw [this] at hr
        simp only [Except.ok.injEq] at hr
        subst hr
        have hcmp : vs ++ ex = (if u ∈ vs then vs else vs ++ [u]) ++ ex2 := by
          have m1 : s2.map = (vs ++ ex).zipIdx := by rw [hs'.1]; rfl
          have m2 : s2.map = ((if u ∈ vs then vs else vs ++ [u]) ++ ex2).zipIdx := by rw [j2.1]; rfl
          have := congrArg (List.map Prod.fst) (m1.symm.trans m2)
          simpa only [List.zipIdx_map_fst] using this
        rw [hcmp]
        apply ih s1 _ j1 s2 ex2 f2 j2
        rcases hm with hm | hm
        · rcases List.mem_cons.mp hm with rfl | hm
          · right; split_ifs with hh
            · exact hh
            · simp
          · exact .inl hm
        · right; split_ifs <;> simp [hm]
    have hin := hvin later t _ i t' extra' e' i' (.inl hmem)
    obtain ⟨b, hb, e''⟩ := List.getElem_of_mem hin
    refine ⟨b, ?_⟩
    rw [i'.branch_iff X (by omega) v (by rw [a', ha]; exact hv), List.getElem?_eq_getElem hb, e'']
  · intro X v hv hb
    obtain ⟨t1, f1, g1, j1⟩ := i.see v
    have hnot : v ∉ vals ++ extra := by
      intro hin
      obtain ⟨k, hk, ek⟩ := List.getElem_of_mem hin
      have := (i.branch_iff X (by omega) v (by rw [ha]; exact hv) k).mpr (by
        rw [List.getElem?_eq_getElem hk, ek])
      rw [this] at hb
      simp only [Except.ok.injEq] at hb
      omega
    rw [if_neg hnot] at j1
    refine ⟨t1, f1, (vals ++ extra).length, ?_, ?_⟩
    · rw [j1.branch_iff X (by omega) v (by rw [g1, ha]; exact hv)]
      simp
    · intro Y hY
      obtain ⟨u, hu⟩ := present t _ i ha Y _ hY
      rw [i.branch_iff Y (by omega) u (by rw [ha]; exact hu)] at hY
      rw [List.getElem?_eq_none (le_refl _)] at hY
      cases hY

/-- C36, boundary: the bounds check lets the first position past the end through,
which raises `IndexError`; larger positions give -1. -/
theorem C36_index_boundary (t : NumTest) (X : List ℚ) :
    (t.att = X.length → t.branch X = .error .indexError) ∧
    (t.att > X.length → t.branch X = .ok (-1)) := by
  constructor
  · intro h
    have hx : xget X t.att = .error .indexError := by
      rw [xget, if_neg (by omega), List.getElem?_eq_none (by omega)]
    rw [NumTest.branch, if_neg (by omega), hx]
    rfl
  · intro h
    rw [NumTest.branch, if_pos (.inl h)]

/-- C36, boundary: the same for the two nominal tests; a negative position gives -1. -/
theorem C36_index_boundary_nominal (t : NomTest) (m : MultiTest) (X : List ℚ) :
    (t.att = X.length → t.branch X = .error .indexError) ∧
    (t.att > X.length ∨ t.att < 0 → t.branch X = .ok (-1)) ∧
    (m.att = X.length → m.branch X = .error .indexError) ∧
    (m.att > X.length ∨ m.att < 0 → m.branch X = .ok (-1)) := by
  refine ⟨?_, fun h => by rw [NomTest.branch, if_pos h], ?_, fun h => by rw [MultiTest.branch, if_pos h]⟩
  · intro h
    have hx : xget X t.att = .error .indexError := by
      rw [xget, if_neg (by omega), List.getElem?_eq_none (by omega)]
    rw [NomTest.branch, if_neg (by omega), hx]
    rfl
  · intro h
    have hx : xget X m.att = .error .indexError := by
      rw [xget, if_neg (by omega), List.getElem?_eq_none (by omega)]
    rw [MultiTest.branch, if_neg (by omega), hx]
    rfl

/-- C36: a multiway test answers -1 exactly for a value that is neither one of
the initial values nor one seen since. -/
theorem C36_multiway_unknown (att : Int) (vals : List ℚ) (hn : vals.Nodup) (hne : vals ≠ [])
    (X : List ℚ) (h0 : 0 ≤ att) (v : ℚ) (hv : X[att.toNat]? = some v) :
    (MultiTest.create att vals).branch X = .ok (-1) ↔ v ∉ vals := by
  have hl : att.toNat < X.length := by
    by_contra hlt; rw [List.getElem?_eq_none (by omega)] at hv; cases hv
  have hb : (MultiTest.create att vals).branch X = .ok (match vals.zipIdx.lookup v with
      | some b => (b : Int)
      | none => -1) := by
    rw [MultiTest.branch, if_neg (by simp only [MultiTest.create]; omega)]
    have : xget X (MultiTest.create att vals).att = .ok v := xget_of_lt X att h0 v hv
    rw [this]; rfl
  rw [hb]
  have hz := lookup_zipIdx_none vals v 0
  cases hk : vals.zipIdx.lookup v with
  | none => rw [hk] at hz; simpa using hz
  | some c =>
    rw [hk] at hz
    constructor
    · intro h; simp only [Except.ok.injEq] at h; omega
    · intro h; exact absurd (hz.mpr h) (by simp)

/-- Non-vacuity of C36: values 5 and 7 known, 9 seen later gets branch 2. -/
example : ((MultiTest.create 1 [5, 7]).run [7, 9, 5]).toOption.map (fun t =>
    ((t.branch [0, 9]).toOption, (t.branch [0, 5]).toOption, (t.branch [0, 6]).toOption)) =
    some (some 2, some 0, some (-1)) := by decide +kernel
example : (NumTest.mk 0 3 true).branch [3] = .ok 0 ∧ (NumTest.mk 0 3 false).branch [3] = .ok 1 := by
  constructor <;> rfl

end Verif.Trees
