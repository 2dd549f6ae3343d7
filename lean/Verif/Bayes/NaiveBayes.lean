import Verif.Lazy.KNN
import Mathlib.Data.List.Induction
import Mathlib.Data.List.GetD
import Mathlib.Data.List.Dedup
import Mathlib.Algebra.Order.BigOperators.Group.List

/-!
Model of `bayes/naive_bayes.py` and `bayes/utils.py`; C97, C98.

Simplifications: labels are natural numbers, probabilities rational numbers (no NaN); an
attribute observer is an arbitrary state with `update` and a likelihood (the nominal one is
the subject of C34, the Gaussian one of C33).
-/

namespace Verif.Bayes

open Verif.Lazy (argmax argmax_spec)

variable {V O : Type}

/-- Attribute observers: state when created (depends on whether the attribute is nominal),
`update(att_val, class_val, weight)`, `probability_of_attribute_value_given_class`. -/
structure Obs (V O : Type) where
  fresh : Nat → O
  update : O → V → Nat → ℚ → O
  prob : O → V → Nat → ℚ

/-- A `classes` argument: Python list or numpy array. -/
inductive Classes where
  | list (l : List Nat)
  | array (l : List Nat)

/-- The labels. -/
def Classes.labels : Classes → List Nat
  | .list l => l
  | .array l => l

/-- `not x` for such an argument: arrays of several elements have no truth value. -/
def Classes.falsy : Classes → Except PyErr Bool
  | .list l => .ok l.isEmpty
  | .array [] => .ok true
  | .array [a] => .ok (a = 0)
  | .array _ => .error .valueError

/-- Learner state, naive_bayes.py 63-72. -/
structure NB (O : Type) where
  dist : List (Nat × ℚ)
  obs : Nat → Option O
  classes : Option Classes

/-- `__init__`. -/
def NB.init : NB O := ⟨[], fun _ => none, none⟩

/-- `d[k] += v`, or a new entry at the end, lines 115-118. -/
def bump (d : List (Nat × ℚ)) (k : Nat) (v : ℚ) : List (Nat × ℚ) :=
  match d with
  | [] => [(k, v)]
  | (k', v') :: d => if k' = k then (k', v' + v) :: d else (k', v') :: bump d k v

/-- A training row. -/
structure Sample (V : Type) where
  x : List V
  y : Nat
  w : ℚ

/-- `_partial_fit`, lines 114-128. -/
def NB.learn (B : Obs V O) (s : NB O) (a : Sample V) : NB O :=
  { s with
    dist := bump s.dist a.y a.w
    obs := fun i => match a.x[i]? with
      | some v => some (B.update ((s.obs i).getD (B.fresh i)) v a.y a.w)
      | none => s.obs i }

/-- `partial_fit`, lines 98-112 (weights given, one per row). -/
def NB.partialFit (B : Obs V O) (s : NB O) (batch : List (Sample V)) (classes : Option Classes) :
    Except PyErr (NB O) := do
  let falsy ← match s.classes with
    | none => .ok true
    | some c => c.falsy
  let s := match falsy, classes with
    | true, some c => { s with classes := some c }
    | _, _ => s
  .ok (batch.foldl (fun s a => if a.w ≠ 0 then s.learn B a else s) s)

/-- One factor of the product, utils.py 36-41: attributes without observer are skipped. -/
def factor (B : Obs V O) (obs : Nat → Option O) (c : Nat) (iv : Nat × V) (v : ℚ) : ℚ :=
  match obs iv.1 with
  | some o => v * B.prob o iv.2 c
  | none => v

/-- `do_naive_bayes_prediction`, utils.py 28-42. -/
def votes (B : Obs V O) (s : NB O) (x : List V) : List (Nat × ℚ) :=
  let total := (s.dist.map Prod.snd).sum
  if s.dist = [] ∨ total = 0 then [(0, 0)]
  else s.dist.map fun kv =>
    (kv.1, ((List.range x.length).zip x).foldl (fun v iv => factor B s.obs kv.1 iv v) (kv.2 / total))

/-- Lines 181-182: assignments into the zero vector. -/
def fill (total : ℚ) : List (Nat × ℚ) → List ℚ → Except PyErr (List ℚ)
  | [], row => .ok row
  | (k, v) :: vs, row =>
    if k < row.length then fill total vs (row.set k (if total ≠ 0 then v / total else 0))
    else .error .indexError

/-- Lines 174-182 for one row; the maximum of an empty sequence is a `ValueError`. -/
def NB.probaRow (B : Obs V O) (s : NB O) (x : List V) : Except PyErr (List ℚ) :=
  let vs := votes B s x
  let labels := match s.classes with
    | some c => c.labels
    | none => vs.map Prod.fst
  if labels = [] then .error .valueError
  else fill (vs.map Prod.snd).sum vs (List.replicate (labels.foldl max 0 + 1) 0)

/-- `predict_proba`, lines 151-184. -/
def NB.proba (B : Obs V O) (s : NB O) (rows : List (List V)) : Except PyErr (List (List ℚ)) :=
  if s.dist = [] then .ok (rows.map fun _ => [0])
  else rows.mapM (s.probaRow B)

/-- `predict`, lines 130-149. -/
def NB.predict (B : Obs V O) (s : NB O) (rows : List (List V)) : Except PyErr (List Nat) :=
  (s.proba B rows).map fun p => p.map argmax

/-! ### Specification -/

/-- Weight of the rows with label `c`. -/
def classWeight (h : List (Sample V)) (c : Nat) : ℚ := ((h.filter fun a => a.y = c).map Sample.w).sum

/-- Total weight. -/
def totalWeight (h : List (Sample V)) : ℚ := (h.map Sample.w).sum

/-- The observer of attribute `i` fed with the column `i` of the rows that have it, in
order. -/
def column (B : Obs V O) (i : Nat) (h : List (Sample V)) : Option O :=
  let cells := h.filterMap fun a => (a.x[i]?).map fun v => (v, a.y, a.w)
  if cells = [] then none
  else some (cells.foldl (fun o c => B.update o c.1 c.2.1 c.2.2) (B.fresh i))

/-- Bayes' numerator: frequency of the class times the likelihood of every attribute. -/
def joint (B : Obs V O) (h : List (Sample V)) (x : List V) (c : Nat) : ℚ :=
  classWeight h c / totalWeight h *
    (((List.range x.length).zip x).map fun iv =>
      match column B iv.1 h with
      | some o => B.prob o iv.2 c
      | none => 1).prod

/-- The rows with non-zero weight. -/
def effective (h : List (Sample V)) : List (Sample V) := h.filter fun a => a.w ≠ 0

/-! ### Training -/

/-- The entry of a label. -/
def get (d : List (Nat × ℚ)) (c : Nat) : ℚ := (d.lookup c).getD 0

theorem bump_keys (d : List (Nat × ℚ)) (k : Nat) (v : ℚ) :
    (bump d k v).map Prod.fst = if k ∈ d.map Prod.fst then d.map Prod.fst else d.map Prod.fst ++ [k] := by
  induction d with
  | nil => simp [bump]
  | cons a d ih =>
    obtain ⟨k', v'⟩ := a
    rw [bump]
    by_cases h : k' = k
    · simp [h]
    · rw [if_neg h]
      simp only [List.map_cons, ih, List.mem_cons]
      by_cases hm : k ∈ d.map Prod.fst
      · rw [if_pos hm, if_pos (.inr hm)]
      · rw [if_neg hm, if_neg (by rintro (h' | h'); exacts [h h'.symm, hm h'])]
        rfl

theorem bump_get (d : List (Nat × ℚ)) (k : Nat) (v : ℚ) (c : Nat) :
    get (bump d k v) c = get d c + if k = c then v else 0 := by
  induction d with
  | nil =>
    simp only [bump, get, List.lookup_cons, List.lookup_nil]
    by_cases h : k = c
    · subst h; simp
    · have : (c == k) = false := by simpa using fun e : c = k => h e.symm
      simp [this, h]
  | cons a d ih =>
    obtain ⟨k', v'⟩ := a
    simp only [get] at ih
    rw [bump]
    by_cases h : k' = k
    · rw [if_pos h]
      subst h
      simp only [get, List.lookup_cons]
      by_cases hc : k' = c
      · subst hc; simp
      · have : (c == k') = false := by simpa using fun e : c = k' => hc e.symm
        simp [this, hc]
    · rw [if_neg h]
      simp only [get, List.lookup_cons]
      by_cases hc : c = k'
      · subst hc; rw [if_neg fun e : k = c => h e.symm]; simp
      · have : (c == k') = false := by simpa using hc
        simp only [this]
        exact ih

/-- What training keeps. -/
structure Facts (B : Obs V O) (h : List (Sample V)) (s : NB O) : Prop where
  nodup : (s.dist.map Prod.fst).Nodup
  keys : ∀ c, c ∈ s.dist.map Prod.fst ↔ ∃ a ∈ h, a.y = c
  weights : ∀ c, get s.dist c = classWeight h c
  columns : ∀ i, s.obs i = column B i h

theorem facts_learn (B : Obs V O) (h : List (Sample V)) (s : NB O) (hf : Facts B h s) (a : Sample V) :
    Facts B (h ++ [a]) (s.learn B a) := by
  obtain ⟨f1, f2, f3, f4⟩ := hf
  refine ⟨?_, ?_, ?_, ?_⟩
  · show ((bump s.dist a.y a.w).map Prod.fst).Nodup
    rw [bump_keys]
    split_ifs with hm
    · exact f1
    · rw [List.nodup_append]
      refine ⟨f1, by simp, ?_⟩
      intro x hx y hy e
      rw [List.mem_singleton] at hy
      rw [e, hy] at hx
      exact hm hx
  · intro c
    show c ∈ (bump s.dist a.y a.w).map Prod.fst ↔ _
    rw [bump_keys]
    have : (∃ b ∈ h ++ [a], b.y = c) ↔ (∃ b ∈ h, b.y = c) ∨ a.y = c := by
      constructor
      · rintro ⟨b, hb, e⟩
        rcases List.mem_append.mp hb with hb | hb
        · exact .inl ⟨b, hb, e⟩
        · rw [List.mem_singleton.mp hb] at e; exact .inr e
      · rintro (⟨b, hb, e⟩ | e)
        · exact ⟨b, by simp [hb], e⟩
        · exact ⟨a, by simp, e⟩
    rw [this, ← f2 c]
    split_ifs with hm
    · constructor
      · exact .inl
      · rintro (h' | rfl)
        · exact h'
        · exact hm
    · simp only [List.mem_append, List.mem_singleton]
      constructor <;> rintro (h' | h')
      · exact .inl h'
      · exact .inr h'.symm
      · exact .inl h'
      · exact .inr h'.symm
  · intro c
    show get (bump s.dist a.y a.w) c = _
    rw [bump_get, f3, classWeight, classWeight, List.filter_append, List.map_append, List.sum_append]
    congr 1
    by_cases e : a.y = c
    · simp [e]
    · simp [e]
  · intro i
    show (match a.x[i]? with
      | some v => some (B.update ((s.obs i).getD (B.fresh i)) v a.y a.w)
      | none => s.obs i) = _
    simp only [column, List.filterMap_append, f4 i]
    cases hv : a.x[i]? with
    | none => simp [hv]
    | some v =>
      have e2 : List.filterMap (fun a : Sample V => Option.map (fun v => (v, a.y, a.w)) a.x[i]?) [a] = [(v, a.y, a.w)] := by
        simp [hv]
      rw [e2]
      generalize List.filterMap (fun a : Sample V => Option.map (fun v => (v, a.y, a.w)) a.x[i]?) h = cells
      have hne : cells ++ [(v, a.y, a.w)] ≠ [] := by simp
      rw [if_neg hne, List.foldl_append, List.foldl_cons, List.foldl_nil]
      by_cases hc : cells = []
      · rw [if_pos hc, hc]; rfl
      · rw [if_neg hc]; rfl

/-- Training state after one or several calls of `partial_fit`. -/
theorem facts_fold (B : Obs V O) (batch h : List (Sample V)) (s : NB O) (hf : Facts B (effective h) s) :
    Facts B (effective (h ++ batch)) (batch.foldl (fun s a => if a.w ≠ 0 then s.learn B a else s) s) ∧
    (batch.foldl (fun s a => if a.w ≠ 0 then s.learn B a else s) s).classes = s.classes := by
  induction batch using List.reverseRecOn with
  | nil => simpa using hf
  | append_singleton l a ih =>
    rw [List.foldl_append, List.foldl_cons, List.foldl_nil, ← List.append_assoc]
    by_cases hw : a.w ≠ 0
    · rw [if_pos hw]
      have : effective (h ++ l ++ [a]) = effective (h ++ l) ++ [a] := by
        simp [effective, List.filter_append, hw]
      rw [this]
      exact ⟨facts_learn B _ _ ih.1 a, ih.2⟩
    · rw [if_neg hw]
      have : effective (h ++ l ++ [a]) = effective (h ++ l) := by
        have hw' : a.w = 0 := not_not.mp hw
        simp [effective, List.filter_append, hw']
      rw [this]
      exact ih

theorem facts_init (B : Obs V O) : Facts B [] (NB.init : NB O) := by
  refine ⟨by simp [NB.init], by simp [NB.init], ?_, ?_⟩
  · intro c; simp [NB.init, get, classWeight]
  · intro i; simp [NB.init, column]

/-- `partial_fit` over several calls. -/
def fitAll (B : Obs V O) (s : NB O) (calls : List (List (Sample V) × Option Classes)) : Except PyErr (NB O) :=
  calls.foldlM (fun s c => s.partialFit B c.1 c.2) s

/-- C97: however the rows are spread over calls (with `classes` given as lists, or not at
all), the class distribution and the observers are those of the rows with non-zero weight,
each counted once, in order. -/
theorem C97_training (B : Obs V O) (calls : List (List (Sample V) × Option Classes))
    (hc : ∀ c ∈ calls, ∀ l, c.2 ≠ some (.array l)) :
    ∃ s, fitAll B NB.init calls = .ok s ∧ Facts B (effective (calls.flatMap Prod.fst)) s := by
  have gen : ∀ (calls : List (List (Sample V) × Option Classes)) (h : List (Sample V)) (s : NB O),
      (∀ c ∈ calls, ∀ l, c.2 ≠ some (.array l)) → (∀ l, s.classes ≠ some (.array l)) →
      Facts B (effective h) s → ∃ s', fitAll B s calls = .ok s' ∧ Facts B (effective (h ++ calls.flatMap Prod.fst)) s' := by
    intro calls
    induction calls with
    | nil => intro h s _ _ hf; exact ⟨s, rfl, by simpa using hf⟩
    | cons c calls ih =>
      intro h s hcs hs hf
      obtain ⟨b, cl⟩ := c
      have hcl : ∀ l, cl ≠ some (.array l) := hcs (b, cl) (by simp)
      -- the state after setting the classes
      have hset : ∃ s1 : NB O, s.partialFit B b cl = .ok (b.foldl (fun s a => if a.w ≠ 0 then s.learn B a else s) s1) ∧
          s1.dist = s.dist ∧ s1.obs = s.obs ∧ ∀ l, s1.classes ≠ some (.array l) := by
        obtain ⟨d, o, k⟩ := s
        rcases k with _ | (l | l)
        · rcases cl with _ | c
          · exact ⟨⟨d, o, none⟩, rfl, rfl, rfl, by simp⟩
          · exact ⟨⟨d, o, some c⟩, rfl, rfl, rfl, hcl⟩
        · rcases l with _ | ⟨x, l⟩
          · rcases cl with _ | c
            · exact ⟨⟨d, o, some (.list [])⟩, rfl, rfl, rfl, hs⟩
            · exact ⟨⟨d, o, some c⟩, rfl, rfl, rfl, hcl⟩
          · exact ⟨⟨d, o, some (.list (x :: l))⟩, rfl, rfl, rfl, hs⟩
        · exact absurd rfl (hs l)
      obtain ⟨s1, e1, e2, e3, e4⟩ := hset
      have hf1 : Facts B (effective h) s1 :=
        ⟨by rw [e2]; exact hf.nodup, by rw [e2]; exact hf.keys, by rw [e2]; exact hf.weights, by rw [e3]; exact hf.columns⟩
      obtain ⟨g1, g2⟩ := facts_fold B b h s1 hf1
      obtain ⟨s', h1, h2⟩ := ih (h ++ b) _ (fun c hc => hcs c (by simp [hc])) (by rw [g2]; exact e4) g1
      refine ⟨s', ?_, by simpa using h2⟩
      simp only [fitAll, List.foldlM_cons, e1]
      exact h1
  have := gen calls [] NB.init hc (by simp [NB.init]) (facts_init B)
  simpa using this

/-! ### Prediction -/

/-- The evidence: the sum of Bayes' numerators over the labels seen. -/
def evidence (B : Obs V O) (h : List (Sample V)) (x : List V) : ℚ :=
  ((h.map Sample.y).dedup.map (joint B h x)).sum

theorem sum_set_zero (l : List ℚ) (k : Nat) (v : ℚ) (hk : k < l.length) (h0 : l.getD k 0 = 0) :
    (l.set k v).sum = l.sum + v := by
  induction l generalizing k with
  | nil => simp at hk
  | cons a l ih =>
    cases k with
    | zero =>
      have : a = 0 := by simpa using h0
      simp [this]; ring
    | succ k =>
      rw [List.set_cons_succ, List.sum_cons, List.sum_cons, ih k (by simpa using hk) (by simpa using h0)]
      ring

theorem getD_zeros (n k : Nat) : (List.replicate n (0 : ℚ)).getD k 0 = 0 := by
  rw [List.getD_eq_getElem?_getD, List.getElem?_replicate]
  split_ifs <;> rfl

theorem getD_set_q (l : List ℚ) (k j : Nat) (v : ℚ) (hk : k < l.length) :
    (l.set k v).getD j 0 = if k = j then v else l.getD j 0 := by
  simp only [List.getD_eq_getElem?_getD, List.getElem?_set]
  by_cases e : k = j
  · subst e; simp [hk]
  · simp [e]

/-- The row written by the assignments. -/
theorem fill_spec (total : ℚ) (vs : List (Nat × ℚ)) (row : List ℚ) (hn : (vs.map Prod.fst).Nodup)
    (hl : ∀ kv ∈ vs, kv.1 < row.length) (h0 : ∀ kv ∈ vs, row.getD kv.1 0 = 0) (ht : total ≠ 0) :
    ∃ r, fill total vs row = .ok r ∧ r.length = row.length ∧
      (∀ kv ∈ vs, r.getD kv.1 0 = kv.2 / total) ∧
      (∀ k, k ∉ vs.map Prod.fst → r.getD k 0 = row.getD k 0) ∧
      r.sum = row.sum + (vs.map fun kv => kv.2 / total).sum := by
  induction vs generalizing row with
  | nil => exact ⟨row, rfl, rfl, by simp, by simp, by simp⟩
  | cons a vs ih =>
    obtain ⟨k, v⟩ := a
    rw [List.map_cons, List.nodup_cons] at hn
    have hk : k < row.length := hl (k, v) (by simp)
    have hk0 : row.getD k 0 = 0 := h0 (k, v) (by simp)
    obtain ⟨r, e, el, e1, e2, e3⟩ := ih (row.set k (v / total)) hn.2
      (fun kv hkv => by rw [List.length_set]; exact hl kv (by simp [hkv]))
      (fun kv hkv => by
        rw [getD_set_q _ _ _ _ hk, if_neg]
        · exact h0 kv (by simp [hkv])
        · intro e; subst e; exact hn.1 (List.mem_map.mpr ⟨kv, hkv, rfl⟩))
    refine ⟨r, ?_, by rw [el, List.length_set], ?_, ?_, ?_⟩
    · rw [fill, if_pos hk, if_pos ht]; exact e
    · intro kv hkv
      rcases List.mem_cons.mp hkv with h | h
      · subst h
        rw [e2 k hn.1, getD_set_q _ _ _ _ hk, if_pos rfl]
      · exact e1 kv h
    · intro j hj
      simp only [List.map_cons, List.mem_cons, not_or] at hj
      rw [e2 j hj.2, getD_set_q _ _ _ _ hk, if_neg (fun e => hj.1 e.symm)]
    · rw [e3, sum_set_zero _ _ _ hk hk0, List.map_cons, List.sum_cons]
      ring

/-- The row when the votes add up to zero. -/
theorem fill_zero (vs : List (Nat × ℚ)) (n : Nat) (hl : ∀ kv ∈ vs, kv.1 < n) :
    fill 0 vs (List.replicate n 0) = .ok (List.replicate n 0) := by
  induction vs with
  | nil => rfl
  | cons a vs ih =>
    obtain ⟨k, v⟩ := a
    rw [fill, if_pos (by simpa using hl (k, v) (by simp))]
    have : (List.replicate n (0 : ℚ)).set k (if (0 : ℚ) ≠ 0 then v / 0 else 0) = List.replicate n 0 := by
      simp
    rw [this]
    exact ih fun kv hkv => hl kv (by simp [hkv])

/-- The product loop. -/
theorem factor_fold (B : Obs V O) (obs : Nat → Option O) (c : Nat) (l : List (Nat × V)) (v : ℚ) :
    l.foldl (fun v iv => factor B obs c iv v) v =
      v * (l.map fun iv => match obs iv.1 with
        | some o => B.prob o iv.2 c
        | none => 1).prod := by
  induction l generalizing v with
  | nil => simp
  | cons a l ih =>
    rw [List.foldl_cons, ih, List.map_cons, List.prod_cons]
    unfold factor
    cases obs a.1 <;> simp [mul_assoc]

theorem mem_get (d : List (Nat × ℚ)) (hn : (d.map Prod.fst).Nodup) (kv : Nat × ℚ) (h : kv ∈ d) :
    get d kv.1 = kv.2 := by
  induction d with
  | nil => simp at h
  | cons a d ih =>
    obtain ⟨k, v⟩ := a
    rw [List.map_cons, List.nodup_cons] at hn
    rcases List.mem_cons.mp h with h | h
    · subst h; simp [get]
    · have : (kv.1 == k) = false := by
        have : kv.1 ≠ k := fun e => hn.1 (List.mem_map.mpr ⟨kv, h, e⟩)
        simpa using this
      have h2 := ih hn.2 h
      simp only [get, List.lookup_cons, this] at h2 ⊢
      exact h2

/-- Total of the class distribution. -/
theorem dist_total (B : Obs V O) (h : List (Sample V)) (s : NB O) (hf : Facts B h s) :
    (s.dist.map Prod.snd).sum = totalWeight h := by
  have hd : s.dist.map Prod.snd = (s.dist.map Prod.fst).map (classWeight h) := by
    rw [List.map_map]
    apply List.map_congr_left
    intro kv hkv
    rw [Function.comp_apply, ← hf.weights, mem_get _ hf.nodup kv hkv]
  rw [hd]
  have gen : ∀ (h : List (Sample V)) (ks : List Nat), ks.Nodup → (∀ a ∈ h, a.y ∈ ks) →
      (ks.map (classWeight h)).sum = totalWeight h := by
    intro h ks hn
    induction h with
    | nil =>
      intro _
      have : ks.map (classWeight ([] : List (Sample V))) = ks.map fun _ => (0 : ℚ) :=
        List.map_congr_left fun c _ => by simp [classWeight]
      rw [this]; simp [totalWeight]
    | cons a h ih =>
      intro hm
      have e1 : ∀ c, classWeight (a :: h) c = (if a.y = c then a.w else 0) + classWeight h c := by
        intro c
        by_cases e : a.y = c <;> simp [classWeight, e]
      have e2 : (ks.map (classWeight (a :: h))).sum =
          (ks.map fun c => if a.y = c then a.w else 0).sum + (ks.map (classWeight h)).sum := by
        rw [← List.sum_map_add]
        congr 1
        exact List.map_congr_left fun c _ => e1 c
      have e3 : ∀ ks : List Nat, ks.Nodup → a.y ∈ ks → (ks.map fun c => if a.y = c then a.w else 0).sum = a.w := by
        intro ks
        induction ks with
        | nil => intro _ h; simp at h
        | cons k ks ihk =>
          intro hn hm
          rw [List.nodup_cons] at hn
          rw [List.map_cons, List.sum_cons]
          by_cases e : a.y = k
          · rw [if_pos e]
            have : (ks.map fun c => if a.y = c then a.w else 0) = ks.map fun _ => (0 : ℚ) :=
              List.map_congr_left fun c hc => if_neg fun (e' : a.y = c) => hn.1 (by rw [← e, e']; exact hc)
            rw [this]; simp
          · rw [if_neg e, ihk hn.2 ((List.mem_cons.mp hm).resolve_left e), zero_add]
      rw [e2, e3 ks hn (hm a (by simp)), ih fun b hb => hm b (by simp [hb])]
      simp [totalWeight]
  exact gen h _ hf.nodup fun a ha => (hf.keys a.y).mpr ⟨a, ha, rfl⟩

theorem votes_eq (B : Obs V O) (h : List (Sample V)) (s : NB O) (hf : Facts B h s) (hh : h ≠ [])
    (ht : totalWeight h ≠ 0) (x : List V) :
    votes B s x = (s.dist.map Prod.fst).map fun c => (c, joint B h x c) := by
  have hd : s.dist ≠ [] := by
    obtain ⟨a, h', rfl⟩ := List.exists_cons_of_ne_nil hh
    intro e
    have := (hf.keys a.y).mpr ⟨a, by simp, rfl⟩
    simp [e] at this
  have ht' : (s.dist.map Prod.snd).sum ≠ 0 := by rw [dist_total B h s hf]; exact ht
  unfold votes
  rw [if_neg (by rintro (e | e); exacts [hd e, ht' e]), List.map_map]
  apply List.map_congr_left
  intro kv hkv
  rw [factor_fold, Function.comp_apply, joint, dist_total B h s hf, ← hf.weights, mem_get _ hf.nodup kv hkv]
  simp only [hf.columns]

theorem foldl_max_ge (l : List Nat) (m : Nat) : m ≤ l.foldl max m ∧ ∀ a ∈ l, a ≤ l.foldl max m := by
  induction l generalizing m with
  | nil => simp
  | cons b l ih =>
    rw [List.foldl_cons]
    refine ⟨le_trans (le_max_left _ _) (ih _).1, ?_⟩
    intro a ha
    rcases List.mem_cons.mp ha with rfl | ha
    · exact le_trans (le_max_right _ _) (ih _).1
    · exact (ih _).2 a ha

/-- The declared labels cover those seen: none were declared, or the largest declared one is
at least every label seen. -/
def Covers (k : Option Classes) (h : List (Sample V)) : Prop :=
  match k with
  | none => True
  | some c => ∀ a ∈ h, ∃ l ∈ c.labels, a.y ≤ l

/-- C97: a trained model answers Bayes' rule: entry `c` is the frequency of class `c` times
the likelihoods of the attribute values, divided by the sum of these over the labels seen; the
row is a probability vector; it is all zeros when every numerator cancels. -/
theorem C97_posterior (B : Obs V O) (h : List (Sample V)) (s : NB O) (hf : Facts B h s) (hh : h ≠ [])
    (ht : totalWeight h ≠ 0) (hk : Covers s.classes h) (x : List V) :
    ∃ r, s.proba B [x] = .ok [r] ∧ (∀ a ∈ h, a.y < r.length) ∧
      (∀ c, r.getD c 0 = if evidence B h x = 0 then 0 else joint B h x c / evidence B h x) ∧
      (evidence B h x ≠ 0 → r.sum = 1) := by
  obtain ⟨a0, h', e0⟩ := List.exists_cons_of_ne_nil hh
  have ha0 : a0 ∈ h := by simp [e0]
  have hd : s.dist ≠ [] := by
    intro e
    have := (hf.keys a0.y).mpr ⟨a0, ha0, rfl⟩
    simp [e] at this
  have hv := votes_eq B h s hf hh ht x
  have hev : ((votes B s x).map Prod.snd).sum = evidence B h x := by
    rw [hv, List.map_map, evidence]
    apply List.Perm.sum_eq
    apply List.Perm.map
    rw [List.perm_ext_iff_of_nodup hf.nodup (List.nodup_dedup _)]
    intro c
    rw [hf.keys, List.mem_dedup, List.mem_map]
  have hfst : (votes B s x).map Prod.fst = s.dist.map Prod.fst := by
    rw [hv, List.map_map]; exact List.map_id'' (fun _ => rfl) _
  obtain ⟨labels, hlab, hne, hcov⟩ : ∃ labels : List Nat,
      s.probaRow B x = (if labels = [] then .error .valueError
        else fill (evidence B h x) (votes B s x) (List.replicate (labels.foldl max 0 + 1) 0)) ∧ labels ≠ [] ∧
      ∀ a ∈ h, a.y < labels.foldl max 0 + 1 := by
    unfold NB.probaRow
    simp only [hev]
    cases hc : s.classes with
    | none =>
      refine ⟨_, rfl, ?_, ?_⟩
      · simp only [hfst]; simpa using hd
      · intro a ha
        have : a.y ∈ (votes B s x).map Prod.fst := by rw [hfst]; exact (hf.keys _).mpr ⟨a, ha, rfl⟩
        exact Nat.lt_succ_of_le ((foldl_max_ge _ 0).2 _ this)
    | some c =>
      rw [hc] at hk
      refine ⟨_, rfl, ?_, ?_⟩
      · obtain ⟨l, hl, _⟩ := hk a0 ha0
        exact List.ne_nil_of_mem hl
      · intro a ha
        obtain ⟨l, hl, hle⟩ := hk a ha
        exact Nat.lt_succ_of_le (le_trans hle ((foldl_max_ge _ 0).2 _ hl))
  rw [if_neg hne] at hlab
  have hlt : ∀ kv ∈ votes B s x, kv.1 < labels.foldl max 0 + 1 := by
    intro kv hkv
    have : kv.1 ∈ s.dist.map Prod.fst := hfst ▸ List.mem_map_of_mem hkv
    obtain ⟨a, ha, e⟩ := (hf.keys _).mp this
    exact e ▸ hcov a ha
  have hproba : ∀ r, s.probaRow B x = .ok r → s.proba B [x] = .ok [r] := by
    intro r hr
    unfold NB.proba
    rw [if_neg hd]
    simp only [List.mapM_cons, List.mapM_nil, hr]
    rfl
  by_cases he : evidence B h x = 0
  · rw [he, fill_zero _ _ hlt] at hlab
    refine ⟨_, hproba _ hlab, ?_, ?_, fun h => absurd he h⟩
    · simpa using hcov
    · intro c
      rw [if_pos he, getD_zeros]
  · obtain ⟨r, e, el, e1, e2, e3⟩ := fill_spec (evidence B h x) (votes B s x)
      (List.replicate (labels.foldl max 0 + 1) 0) (by rw [hfst]; exact hf.nodup) (by simpa using hlt)
      (by intro kv _; rw [getD_zeros]) he
    refine ⟨r, hproba _ (hlab.trans e), ?_, ?_, ?_⟩
    · intro a ha; rw [el]; simpa using hcov a ha
    · intro c
      rw [if_neg he]
      by_cases hc : c ∈ s.dist.map Prod.fst
      · exact e1 (c, joint B h x c) (by rw [hv]; exact List.mem_map_of_mem hc)
      · rw [e2 c (by rw [hfst]; exact hc), getD_zeros]
        have : classWeight h c = 0 := by
          have : h.filter (fun a => a.y = c) = [] := by
            rw [List.filter_eq_nil_iff]
            intro a ha
            simpa using fun e => hc ((hf.keys c).mpr ⟨a, ha, e⟩)
          simp [classWeight, this]
        simp [joint, this]
    · intro _
      rw [e3]
      have : (votes B s x).map (fun kv => kv.2 / evidence B h x) = ((votes B s x).map Prod.snd).map (· / evidence B h x) := by
        rw [List.map_map]; rfl
      rw [this]
      have hdiv : ∀ (l : List ℚ) (d : ℚ), (l.map (· / d)).sum = l.sum / d := by
        intro l d
        induction l with
        | nil => simp
        | cons a l ih => rw [List.map_cons, List.sum_cons, List.sum_cons, ih, add_div]
      rw [hdiv, hev, div_self he]
      simp

/-- C97: the predicted label is the smallest one whose posterior numerator is largest, among
all labels up to the largest reported. -/
theorem C97_prediction (B : Obs V O) (h : List (Sample V)) (s : NB O) (hf : Facts B h s) (hh : h ≠ [])
    (ht : totalWeight h ≠ 0) (hk : Covers s.classes h) (x : List V) (he : 0 < evidence B h x) :
    ∃ c, s.predict B [x] = .ok [c] ∧ (∀ a ∈ h, joint B h x a.y ≤ joint B h x c) ∧
      ∀ c' < c, joint B h x c' < joint B h x c := by
  obtain ⟨r, e1, e2, e3, -⟩ := C97_posterior B h s hf hh ht hk x
  have hr : r ≠ [] := by
    obtain ⟨a0, h', e0⟩ := List.exists_cons_of_ne_nil hh
    have := e2 a0 (by simp [e0])
    exact List.ne_nil_of_length_pos (by omega)
  obtain ⟨v, g1, g2, g3⟩ := argmax_spec r hr
  refine ⟨argmax r, ?_, ?_, ?_⟩
  · unfold NB.predict; rw [e1]; rfl
  all_goals
    have hc : v = joint B h x (argmax r) / evidence B h x := by
      have := e3 (argmax r)
      rwa [if_neg he.ne', List.getD_eq_getElem?_getD, g1] at this
    have hmax := (List.getElem?_eq_some_iff.mp g1).1
  · intro a ha
    have h1 := e3 a.y
    rw [if_neg he.ne', List.getD_eq_getElem _ _ (e2 a ha)] at h1
    have h2 := g2 _ (List.getElem_mem (e2 a ha))
    rw [h1, hc, div_le_div_iff_of_pos_right he] at h2
    exact h2
  · intro c' hc'
    have hl : c' < r.length := lt_trans hc' hmax
    have h1 := e3 c'
    rw [if_neg he.ne', List.getD_eq_getElem _ _ hl] at h1
    have h2 := g3 c' _ hc' (List.getElem?_eq_getElem hl)
    rw [h1, hc, div_lt_div_iff_of_pos_right he] at h2
    exact h2

/-- C97: an untrained model answers a single zero per row, hence label 0. -/
theorem C97_untrained (B : Obs V O) (k : Option Classes) (rows : List (List V)) :
    (⟨[], fun _ => none, k⟩ : NB O).proba B rows = .ok (rows.map fun _ => [0]) ∧
    (⟨[], fun _ => none, k⟩ : NB O).predict B rows = .ok (rows.map fun _ => 0) := by
  refine ⟨by simp [NB.proba], ?_⟩
  unfold NB.predict NB.proba
  rw [if_pos rfl]
  show Except.ok (List.map argmax (rows.map fun _ => [0])) = _
  rw [List.map_map]
  rfl

/-- C97: a label beyond the declared classes is accepted by training and makes every later
prediction fail with an `IndexError`. -/
theorem C97_label_beyond_classes_violated (B : Obs V O) (h : List (Sample V)) (s : NB O) (hf : Facts B h s)
    (ht : totalWeight h ≠ 0) (c : Classes) (hc : s.classes = some c) (hne : c.labels ≠ [])
    (a : Sample V) (ha : a ∈ h) (hbig : ∀ l ∈ c.labels, l < a.y) (x : List V) :
    s.proba B [x] = .error .indexError := by
  have hh : h ≠ [] := List.ne_nil_of_mem ha
  have hmem := (hf.keys a.y).mpr ⟨a, ha, rfl⟩
  have hd : s.dist ≠ [] := by
    intro e; simp [e] at hmem
  have hv := votes_eq B h s hf hh ht x
  have hlt : ∀ (l : List Nat) (m : Nat), m < a.y → (∀ b ∈ l, b < a.y) → l.foldl max m < a.y := by
    intro l
    induction l with
    | nil => intro m hm _; exact hm
    | cons b l ih =>
      intro m hm hb
      exact ih _ (max_lt hm (hb b (by simp))) fun b' hb' => hb b' (by simp [hb'])
  have hpos : 0 < a.y := by
    obtain ⟨l, ls, e⟩ := List.exists_cons_of_ne_nil hne
    exact lt_of_le_of_lt (Nat.zero_le _) (hbig l (by simp [e]))
  have hN := hlt c.labels 0 hpos hbig
  have hfill : ∀ (t : ℚ) (vs : List (Nat × ℚ)) (row : List ℚ), (∃ kv ∈ vs, row.length ≤ kv.1) →
      fill t vs row = .error .indexError := by
    intro t vs
    induction vs with
    | nil => rintro row ⟨_, h, _⟩; simp at h
    | cons b vs ih =>
      obtain ⟨k, v⟩ := b
      rintro row ⟨kv, hkv, hle⟩
      rw [fill]
      by_cases hk : k < row.length
      · rw [if_pos hk]
        apply ih
        rcases List.mem_cons.mp hkv with e | e
        · subst e; omega
        · exact ⟨kv, e, by rw [List.length_set]; exact hle⟩
      · rw [if_neg hk]
  have : s.probaRow B x = .error .indexError := by
    unfold NB.probaRow
    simp only [hc]
    rw [if_neg hne]
    apply hfill
    refine ⟨(a.y, joint B h x a.y), by rw [hv]; exact List.mem_map_of_mem hmem, ?_⟩
    simp only [List.length_replicate]
    omega
  unfold NB.proba
  rw [if_neg hd]
  simp only [List.mapM_cons, this]
  rfl

/-! ### The `classes` argument -/

/-- C98: with `classes` given as a list the argument is remembered once and every later call
succeeds. -/
theorem C98_list_partial (B : Obs V O) (s : NB O) (b b' : List (Sample V)) (l : List Nat) (hl : l ≠ [])
    (hs : s.classes = none) (c' : Option Classes) :
    ∃ s1 s2, s.partialFit B b (some (.list l)) = .ok s1 ∧ s1.classes = some (.list l) ∧
      s1.partialFit B b' c' = .ok s2 ∧ s2.classes = some (.list l) := by
  have hcl : ∀ (b : List (Sample V)) (s : NB O),
      (b.foldl (fun s a => if a.w ≠ 0 then s.learn B a else s) s).classes = s.classes := by
    intro b
    induction b with
    | nil => intro s; rfl
    | cons a b ih =>
      intro s
      rw [List.foldl_cons, ih]
      by_cases hw : a.w ≠ 0
      · rw [if_pos hw]; rfl
      · rw [if_neg hw]
  obtain ⟨d, o, k⟩ := s
  have hs' : k = none := hs
  subst hs'
  refine ⟨_, b'.foldl (fun s a => if a.w ≠ 0 then s.learn B a else s)
      (b.foldl (fun s a => if a.w ≠ 0 then s.learn B a else s) ⟨d, o, some (.list l)⟩),
    rfl, hcl _ _, ?_, ?_⟩
  · unfold NB.partialFit
    simp only [hcl]
    obtain ⟨y, l', rfl⟩ := List.exists_cons_of_ne_nil hl
    rfl
  · rw [hcl, hcl]

/-- C98: when the first call passes `classes` as a numpy array of two or more labels, every
later call fails with a `ValueError` and learns nothing, with or without the argument. -/
theorem C98_array_violated (B : Obs V O) (s : NB O) (b b' : List (Sample V)) (l : List Nat) (hl : 2 ≤ l.length)
    (hs : s.classes = none) (c' : Option Classes) :
    ∃ s1, s.partialFit B b (some (.array l)) = .ok s1 ∧ s1.partialFit B b' c' = .error .valueError := by
  have hcl : ∀ (b : List (Sample V)) (s : NB O),
      (b.foldl (fun s a => if a.w ≠ 0 then s.learn B a else s) s).classes = s.classes := by
    intro b
    induction b with
    | nil => intro s; rfl
    | cons a b ih =>
      intro s
      rw [List.foldl_cons, ih]
      by_cases hw : a.w ≠ 0
      · rw [if_pos hw]; rfl
      · rw [if_neg hw]
  obtain ⟨d, o, k⟩ := s
  have hs' : k = none := hs
  subst hs'
  refine ⟨_, rfl, ?_⟩
  unfold NB.partialFit
  simp only [hcl]
  rcases l with _ | ⟨x, _ | ⟨y, l⟩⟩
  · simp at hl
  · simp at hl
  · rfl

/-- A simple observer for the examples: counts of (value, class) with Laplace-like
likelihood. -/
def demo : Obs Nat (List (Nat × Nat)) :=
  ⟨fun _ => [], fun o v y _ => (v, y) :: o,
   fun o v y => ((o.count (v, y) : ℚ) + 1) / ((o.filter fun p => p.2 = y).length + 2)⟩

/-- Three rows of two classes. -/
def demoRows : List (Sample Nat) := [⟨[0], 0, 1⟩, ⟨[1], 2, 1⟩, ⟨[5], 1, 0⟩, ⟨[1], 2, 2⟩]

example : ∃ s, fitAll demo NB.init [(demoRows.take 1, none), (demoRows.drop 1, none)] = .ok s ∧
    Facts demo (effective demoRows) s ∧ effective demoRows ≠ [] ∧ totalWeight (effective demoRows) ≠ 0 := by
  obtain ⟨s, h1, h2⟩ := C97_training demo [(demoRows.take 1, none), (demoRows.drop 1, none)] (by simp)
  exact ⟨s, h1, h2, by decide +kernel, by decide +kernel⟩

example : joint demo (effective demoRows) [1] 0 = 1 / 12 ∧ joint demo (effective demoRows) [1] 2 = 9 / 16 ∧
    0 < evidence demo (effective demoRows) [1] := by
  decide +kernel

end Verif.Bayes
