import Verif.Rules.Votes
import Verif.Rules.Props
import Verif.Trees.Nominal

/-!
C272: what the class weights of a rule of VFDR count.

The observers of nominal attributes, `rules/nominal_attribute_class_observer.py`, keep
and split the same dictionaries as those of the trees (`Verif/Trees/Nominal.lean`); they
differ in the suggestion they make. This file plugs them into the classifier of
`Verif/Rules/Model.lean`. The criterion is arbitrary, and so is the order in which the
set of values is enumerated. Every attribute is nominal and none is missing.
-/

namespace Verif.Rules

open SDict Verif.Trees

variable {D K : Type}

/-! ### Model -/

/-- One value of the loop of `get_best_evaluated_split_suggestion`
(rules/nominal_attribute_class_observer.py 46-56). -/
def tryValue (merit : K → Option Nat → SDict Nat ℚ → SDict Nat ℚ × SDict Nat ℚ → WithBot ℚ × K) (side : K → Nat)
    (d : NomObs) (pre : SDict Nat ℚ) (i : Nat) (cls : Option Nat) (bk : Option Sugg × K) (a : ℚ) : Option Sugg × K :=
  let post := nomBinary d a
  let mk := merit bk.2 cls pre post
  let s : Sugg := ⟨i, a, if side mk.2 = 0 then .eq else .ne, post.1, post.2, mk.1⟩
  (match bk.1 with
    | none => some s
    | some b => if mk.1 > b.merit then some s else some b, mk.2)

/-- `get_best_evaluated_split_suggestion` (rules/nominal_attribute_class_observer.py 43-57)
and that of the observer that has been switched off (`none`), which suggests nothing
(trees/_attribute_observer/attribute_observer_null.py). -/
def nomSuggest (order : List ℚ → List ℚ)
    (merit : K → Option Nat → SDict Nat ℚ → SDict Nat ℚ × SDict Nat ℚ → WithBot ℚ × K) (side : K → Nat)
    (k : K) (o : Option NomObs) (pre : SDict Nat ℚ) (i : Nat) (cls : Option Nat) : Option Sugg × K :=
  match o with
  | none => (none, k)
  | some d => (order (attValues d)).foldl (tryValue merit side d pre i cls) (none, k)

/-- The classifier `E` with nominal observers
(rules/very_fast_decision_rules.py 222-231, rules/nominal_attribute_class_observer.py). -/
def nominal (E : Env (Option NomObs) D K) (order : List ℚ → List ℚ)
    (merit : K → Option Nat → SDict Nat ℚ → SDict Nat ℚ × SDict Nat ℚ → WithBot ℚ × K) (side : K → Nat) :
    Env (Option NomObs) D K :=
  { E with
    freshObs := fun _ => some []
    update := fun o v y w => o.map fun d => nomUpdate d (some v) y w
    nullObs := none
    suggest := nomSuggest order merit side }

/-! ### Specification -/

/-- The weight of the instances of class `c`. -/
def seenOf (c : Nat) (h : List Inst) : ℚ := ((h.filter fun t => t.y = c).map Inst.w).sum

/-- The class weights `d` are those of the instances `h`: every class has the weight of
its instances, and the classes are those of the instances. -/
def Counts (d : SDict Nat ℚ) (h : List Inst) : Prop :=
  ∀ c, vote d c = seenOf c h ∧ ((∃ p ∈ d, p.1 = c) ↔ ∃ t ∈ h, t.y = c)

/-- Whether a condition holds can be computed. -/
instance (p : Pred) (x : Nat → ℚ) : Decidable (Holds p x) := by
  unfold Holds
  cases p.op <;> infer_instance

/-- The instances for which the condition holds, and the others. -/
def having (p : Pred) (l : List Inst) : List Inst := l.filter fun t => decide (Holds p t.x)
def lacking (p : Pred) (l : List Inst) : List Inst := l.filter fun t => decide (¬ Holds p t.x)

/-! ### Observers -/

/-- What the observer of attribute `i` has been shown. -/
def col (i : Nat) (h : List Inst) : List NObs := h.map fun t => ⟨some (t.x i), t.y, t.w⟩

/-- The observers have been shown the instances `h`, except those switched off. -/
def Tracks (n : Nat) (obs : List (Nat × Option NomObs)) (h : List Inst) : Prop :=
  (obs.map Prod.fst = List.range n ∧ ∀ p ∈ obs, p.2 = none ∨ p.2 = some (nomRun (col p.1 h))) ∨ (obs = [] ∧ h = [])

theorem updObs_all (E : Env (Option NomObs) D K) (x : Nat → ℚ) (y : Nat) (w : ℚ) (l : List Nat) (hn : l.Nodup)
    (obs : List (Nat × Option NomObs)) (hs : ∀ i ∈ l, i ∈ obs.map Prod.fst) :
    l.foldl (fun obs i => updObs E obs i (x i) y w) obs =
      obs.map fun p => if p.1 ∈ l then (p.1, E.update p.2 (x p.1) y w) else p := by
  induction l generalizing obs with
  | nil => simp
  | cons i l ih =>
    have hi : obs.any (fun p => p.1 = i) = true := by
      obtain ⟨p, hp, e⟩ := List.mem_map.mp (hs i (by simp))
      exact List.any_eq_true.mpr ⟨p, hp, by simp [e]⟩
    obtain ⟨n1, n2⟩ := List.nodup_cons.mp hn
    rw [List.foldl_cons]
    have e : updObs E obs i (x i) y w = obs.map fun p => if p.1 = i then (i, E.update p.2 (x i) y w) else p := by
      simp only [updObs]; rw [if_pos hi]
    rw [e, ih n2]
    · rw [List.map_map]
      apply List.map_congr_left
      intro p _
      by_cases hp : p.1 = i
      · simp [hp, n1]
      · simp [hp]
    · intro j hj
      obtain ⟨p, hp, e⟩ := List.mem_map.mp (hs j (by simp [hj]))
      refine List.mem_map.mpr ⟨_, List.mem_map.mpr ⟨p, hp, rfl⟩, ?_⟩
      split
      · rename_i h; simp [← e, h]
      · exact e

theorem updObs_new (E : Env (Option NomObs) D K) (x : Nat → ℚ) (y : Nat) (w : ℚ) (l : List Nat) (hn : l.Nodup)
    (obs : List (Nat × Option NomObs)) (hs : ∀ i ∈ l, i ∉ obs.map Prod.fst) :
    l.foldl (fun obs i => updObs E obs i (x i) y w) obs =
      obs ++ l.map fun i => (i, E.update (E.freshObs i) (x i) y w) := by
  induction l generalizing obs with
  | nil => simp
  | cons i l ih =>
    have hi : obs.any (fun p => p.1 = i) = false := by
      rw [List.any_eq_false]
      intro p hp
      have := hs i (by simp)
      simp only [decide_eq_true_eq]
      intro e
      exact this (List.mem_map.mpr ⟨p, hp, e⟩)
    obtain ⟨n1, n2⟩ := List.nodup_cons.mp hn
    rw [List.foldl_cons]
    have e : updObs E obs i (x i) y w = obs ++ [(i, E.update (E.freshObs i) (x i) y w)] := by
      simp [updObs, hi]
    rw [e, ih n2]
    · simp
    · intro j hj hmem
      rw [List.map_append, List.mem_append] at hmem
      rcases hmem with hmem | hmem
      · exact hs j (by simp [hj]) hmem
      · simp only [List.map_cons, List.map_nil, List.mem_singleton] at hmem
        subst hmem
        exact n1 hj

theorem nomRun_snoc (i : Nat) (h : List Inst) (t : Inst) :
    nomRun (col i (h ++ [t])) = nomUpdate (nomRun (col i h)) (some (t.x i)) t.y t.w := by
  simp [nomRun, col]

variable (E : Env (Option NomObs) D K) (order : List ℚ → List ℚ)
  (merit : K → Option Nat → SDict Nat ℚ → SDict Nat ℚ × SDict Nat ℚ → WithBot ℚ × K) (side : K → Nat)

theorem learn_tracks (r : Rule (Option NomObs) D) (h : List Inst) (t : Inst) (ht : Tracks E.nAtt r.obs h) :
    Tracks E.nAtt (r.learn (nominal E order merit side) t.x t.y t.w).obs (h ++ [t]) := by
  have hl : (r.learn (nominal E order merit side) t.x t.y t.w).obs =
    (List.range E.nAtt).foldl (fun obs i => updObs (nominal E order merit side) obs i (t.x i) t.y t.w) r.obs := rfl
  left
  rcases ht with ⟨hk, ho⟩ | ⟨he, rfl⟩
  · rw [hl, updObs_all _ _ _ _ _ List.nodup_range _ (by intro i hi; rw [hk]; exact hi)]
    constructor
    · rw [List.map_map, ← hk]
      apply List.map_congr_left
      intro p _
      simp only [Function.comp]
      split <;> rfl
    · intro p hp
      obtain ⟨q, hq, rfl⟩ := List.mem_map.mp hp
      have hm : q.1 ∈ List.range E.nAtt := by rw [← hk]; exact List.mem_map.mpr ⟨q, hq, rfl⟩
      simp only [hm, if_true]
      rcases ho q hq with e | e
      · left; simp [nominal, e]
      · right
        rw [nomRun_snoc]
        simp [nominal, e]
  · rw [hl, he, updObs_new _ _ _ _ _ List.nodup_range _ (by simp)]
    constructor
    · simp [Function.comp_def]
    · intro p hp
      simp only [List.nil_append, List.mem_map] at hp
      obtain ⟨i, _, rfl⟩ := hp
      right
      simp [nominal, nomRun, col]

/-! ### Suggestions -/

theorem seenOf_append (c : Nat) (h h' : List Inst) : seenOf c (h ++ h') = seenOf c h + seenOf c h' := by
  simp [seenOf]

theorem binary_sorted (d : NomObs) (a : ℚ) : (nomBinary d a).1.Sorted ∧ (nomBinary d a).2.Sorted := by
  have f1 := foldl_triples (fun (res : SDict Nat ℚ × SDict Nat ℚ) i j v =>
    if j = a then (bump res.1 i v, res.2) else (res.1, bump res.2 i v)) d ([], [])
  have key := fold_binary (triples d) a ([], []) (by simp [SDict.Sorted]) (by simp [SDict.Sorted])
  have hb : nomBinary d a = (triples d).foldl (fun res t =>
      if t.2.1 = a then (bump res.1 t.1 t.2.2, res.2) else (res.1, bump res.2 t.1 t.2.2)) ([], []) := f1
  simp only at key
  rw [← hb] at key
  exact ⟨key.1, key.2.1⟩

theorem fold_binary_keys (l : List (Nat × ℚ × ℚ)) (a : ℚ) (r : SDict Nat ℚ × SDict Nat ℚ) (c : Nat) :
    let res := l.foldl (fun res t => if t.2.1 = a then (bump res.1 t.1 t.2.2, res.2)
      else (res.1, bump res.2 t.1 t.2.2)) r
    ((∃ p ∈ res.1, p.1 = c) ↔ (∃ p ∈ r.1, p.1 = c) ∨ ∃ t ∈ l, t.1 = c ∧ t.2.1 = a) ∧
    ((∃ p ∈ res.2, p.1 = c) ↔ (∃ p ∈ r.2, p.1 = c) ∨ ∃ t ∈ l, t.1 = c ∧ t.2.1 ≠ a) := by
  induction l generalizing r with
  | nil => simp
  | cons t l ih =>
    simp only [List.foldl_cons]
    by_cases ht : t.2.1 = a
    · simp only [ht, if_true]
      have := ih (bump r.1 t.1 t.2.2, r.2)
      simp only at this
      rw [this.1, this.2]
      simp only [bump, alter_keys, List.mem_cons, exists_eq_or_imp, ht, ne_eq, not_true_eq_false, and_false, false_or,
        and_true]
      constructor
      · rintro ((h | h) | h)
        · exact .inr (.inl h.symm)
        · exact .inl h
        · exact .inr (.inr h)
      · rintro (h | h | h)
        · exact .inl (.inr h)
        · exact .inl (.inl h.symm)
        · exact .inr h
    · simp only [ht, if_false]
      have := ih (r.1, bump r.2 t.1 t.2.2)
      simp only at this
      rw [this.1, this.2]
      simp only [bump, alter_keys, List.mem_cons, exists_eq_or_imp, ht, ne_eq, not_false_eq_true, and_false, false_or,
        and_true, true_and]
      constructor
      · rintro ((h | h) | h)
        · exact .inr (.inl h.symm)
        · exact .inl h
        · exact .inr (.inr h)
      · rintro (h | h | h)
        · exact .inl (.inr h)
        · exact .inl (.inl h.symm)
        · exact .inr h

theorem binary_keys (d : NomObs) (a : ℚ) (c : Nat) :
    ((∃ p ∈ (nomBinary d a).1, p.1 = c) ↔ Has d c a) ∧
    ((∃ p ∈ (nomBinary d a).2, p.1 = c) ↔ ∃ b, b ≠ a ∧ Has d c b) := by
  have f1 := foldl_triples (fun (res : SDict Nat ℚ × SDict Nat ℚ) i j v =>
    if j = a then (bump res.1 i v, res.2) else (res.1, bump res.2 i v)) d ([], [])
  have hb : nomBinary d a = (triples d).foldl (fun res t =>
      if t.2.1 = a then (bump res.1 t.1 t.2.2, res.2) else (res.1, bump res.2 t.1 t.2.2)) ([], []) := f1
  have key := fold_binary_keys (triples d) a ([], []) c
  simp only at key
  rw [← hb] at key
  rw [key.1, key.2]
  constructor
  · rw [← triples_has]; simp
  · simp only [← triples_has]
    constructor
    · rintro (⟨_, h, _⟩ | ⟨t, ht, e, hne⟩)
      · cases h
      · exact ⟨t.2.1, hne, t, ht, e, rfl⟩
    · rintro ⟨b, hb, t, ht, e1, rfl⟩
      exact .inr ⟨t, ht, e1, hb⟩

theorem counts_split (h : List Inst) (i : Nat) (a : ℚ) :
    Counts (nomBinary (nomRun (col i h)) a).1 (h.filter fun t => t.x i = a) ∧
    Counts (nomBinary (nomRun (col i h)) a).2 (h.filter fun t => t.x i ≠ a) := by
  obtain ⟨s1, s2, s3⟩ := nomRun_spec (col i h)
  constructor
  · intro c
    constructor
    · rw [vote, (C34_binary (col i h) a c).1]
      simp only [weightWhere, col, seenOf, List.filter_map, List.map_map, List.filter_filter]
      congr 1
      simp only [Function.comp_def]
      congr 1
      apply List.filter_congr
      intro t _
      simp [Bool.and_comm]
    · rw [(binary_keys _ a c).1, s3]
      simp only [col, List.mem_map, List.mem_filter]
      constructor
      · rintro ⟨o, ⟨t, ht, rfl⟩, e1, e2⟩
        exact ⟨t, ⟨ht, by simpa using e2⟩, e1⟩
      · rintro ⟨t, ⟨ht, e2⟩, e1⟩
        exact ⟨_, ⟨t, ht, rfl⟩, e1, by simpa using e2⟩
  · intro c
    constructor
    · rw [vote, (C34_binary (col i h) a c).2]
      simp only [weightWhere, col, seenOf, List.filter_map, List.map_map, List.filter_filter]
      congr 1
      simp only [Function.comp_def]
      congr 1
      apply List.filter_congr
      intro t _
      simp [Bool.and_comm]
    · rw [(binary_keys _ a c).2]
      simp only [s3]
      simp only [col, List.mem_map, List.mem_filter]
      constructor
      · rintro ⟨b, hb, o, ⟨t, ht, rfl⟩, e1, e2⟩
        simp only [Option.some.injEq] at e2
        exact ⟨t, ⟨ht, by simpa [e2] using hb⟩, e1⟩
      · rintro ⟨t, ⟨ht, e2⟩, e1⟩
        exact ⟨t.x i, by simpa using e2, _, ⟨t, ht, rfl⟩, e1, rfl⟩

/-- A suggestion that rests on the instances `h`. -/
structure Rests (h : List Inst) (s : Sugg) : Prop where
  op : s.op = .eq ∨ s.op = .ne
  kept : Counts s.kept (h.filter fun t => s.pred.covers t.x)
  rest : Counts s.rest (h.filter fun t => !s.pred.covers t.x)
  sorted : s.kept.Sorted ∧ s.rest.Sorted

theorem rests_try (h : List Inst) (pre : SDict Nat ℚ) (i : Nat) (cls : Option Nat) (vs : List ℚ) (bk : Option Sugg × K)
    (hb : ∀ s, bk.1 = some s → Rests h s) (s : Sugg)
    (hs : (vs.foldl (tryValue merit side (nomRun (col i h)) pre i cls) bk).1 = some s) : Rests h s := by
  induction vs generalizing bk with
  | nil => exact hb s hs
  | cons a vs ih =>
    refine ih _ ?_ hs
    intro s' hs'
    have hnew : Rests h ⟨i, a, if side (merit bk.2 cls pre (nomBinary (nomRun (col i h)) a)).2 = 0 then .eq else .ne,
        (nomBinary (nomRun (col i h)) a).1, (nomBinary (nomRun (col i h)) a).2,
        (merit bk.2 cls pre (nomBinary (nomRun (col i h)) a)).1⟩ := by
      obtain ⟨c1, c2⟩ := counts_split h i a
      obtain ⟨k1, k2⟩ := binary_sorted (nomRun (col i h)) a
      by_cases hz : side (merit bk.2 cls pre (nomBinary (nomRun (col i h)) a)).2 = 0
      · refine ⟨.inl (by simp [hz]), ?_, ?_, ?_⟩
        · simpa [Sugg.kept, Sugg.pred, Pred.covers, hz] using c1
        · simpa [Sugg.rest, Sugg.pred, Pred.covers, hz] using c2
        · simpa [Sugg.kept, Sugg.rest, hz] using ⟨k1, k2⟩
      · refine ⟨.inr (by simp [hz]), ?_, ?_, ?_⟩
        · simpa [Sugg.kept, Sugg.pred, Pred.covers, hz] using c2
        · simpa [Sugg.rest, Sugg.pred, Pred.covers, hz] using c1
        · simpa [Sugg.kept, Sugg.rest, hz] using ⟨k2, k1⟩
    rcases hbk : bk.1 with _ | b
    · simp only [tryValue, hbk, Option.some.injEq] at hs'
      rw [← hs']; exact hnew
    · simp only [tryValue, hbk] at hs'
      split at hs'
      · simp only [Option.some.injEq] at hs'
        rw [← hs']; exact hnew
      · simp only [Option.some.injEq] at hs'
        rw [← hs']; exact hb b hbk

theorem rests_all (h : List Inst) (pre : SDict Nat ℚ) (cls : Option Nat) (k : K) (obs : List (Nat × Option NomObs))
    (ho : ∀ p ∈ obs, p.2 = none ∨ p.2 = some (nomRun (col p.1 h))) :
    ∀ s ∈ (suggestAll (nominal E order merit side) pre cls k obs).1, Rests h s := by
  induction obs generalizing k with
  | nil => intro s hs; cases hs
  | cons p obs ih =>
    intro s hs
    simp only [suggestAll, List.mem_append] at hs
    rcases hs with hs | hs
    · have : (nomSuggest order merit side k p.2 pre p.1 cls).1 = some s := by
        change s ∈ (match (nomSuggest order merit side k p.2 pre p.1 cls).1 with
          | some s => [s]
          | none => []) at hs
        cases hc : (nomSuggest order merit side k p.2 pre p.1 cls).1 with
        | none => rw [hc] at hs; cases hs
        | some s' => rw [hc] at hs; simp only [List.mem_singleton] at hs; rw [hs]
      rcases ho p (by simp) with e | e
      · rw [e] at this; cases this
      · rw [e] at this
        exact rests_try merit side h pre p.1 cls _ (none, k) (by intro s hs; cases hs) s this
    · exact ih _ (fun p hp => ho p (by simp [hp])) s hs

theorem rests_tracks (h : List Inst) (pre : SDict Nat ℚ) (cls : Option Nat) (k : K) (n : Nat)
    (obs : List (Nat × Option NomObs)) (ht : Tracks n obs h) :
    ∀ s ∈ (suggestAll (nominal E order merit side) pre cls k obs).1, Rests h s := by
  rcases ht with ⟨_, ho⟩ | ⟨rfl, _⟩
  · exact rests_all E order merit side h pre cls k obs ho
  · intro s hs; cases hs

/-! ### Rules -/

theorem counts_learn (d : SDict Nat ℚ) (hs : d.Sorted) (h : List Inst) (hc : Counts d h) (t : Inst) :
    Counts (d.alter (fun o => o.getD 0 + t.w) t.y) (h ++ [t]) := by
  intro c
  obtain ⟨h1, h2⟩ := hc c
  constructor
  · rw [seenOf_append, ← h1, vote, get?_alter _ _ hs, vote]
    by_cases e : c = t.y
    · simp [e, seenOf]
    · simp [e, seenOf, Ne.symm e]
  · rw [alter_keys]
    constructor
    · rintro (e | e)
      · exact ⟨t, by simp, e.symm⟩
      · obtain ⟨u, hu, e⟩ := h2.mp e
        exact ⟨u, by simp [hu], e⟩
    · rintro ⟨u, hu, e⟩
      rcases List.mem_append.mp hu with hu | hu
      · exact .inr (h2.mpr ⟨u, hu, e⟩)
      · simp only [List.mem_singleton] at hu
        exact .inl (by rw [← e, hu])

theorem counts_nil : Counts [] [] := by
  intro c
  simp [vote, SDict.get?, seenOf]

theorem merge_nominal (new : Pred) (ps qs : List Pred) (hn : new.op = .eq ∨ new.op = .ne)
    (h : mergePred new ps = some qs) : qs = ps := by
  induction ps generalizing qs with
  | nil => cases h
  | cons p ps ih =>
    simp only [mergePred] at h
    by_cases hp : p.op = new.op ∧ p.att = new.att
    · rw [if_pos hp] at h
      simp only [Option.some.injEq] at h
      rw [← h]
      rcases hn with e | e <;> rw [hp.1, e]
    · rw [if_neg hp] at h
      cases hm : mergePred new ps with
      | none => rw [hm] at h; cases h
      | some rs =>
        rw [hm] at h
        simp only [Option.map_some, Option.some.injEq] at h
        rw [← h, ih rs hm]

theorem tracks_disable (n : Nat) (atts : List Nat) (obs : List (Nat × Option NomObs)) (h : List Inst)
    (ht : Tracks n obs h) : Tracks n (disable (nominal E order merit side) atts obs) h := by
  rcases ht with ⟨hk, ho⟩ | ⟨rfl, rfl⟩
  · left
    constructor
    · rw [← hk, disable, List.map_map]
      apply List.map_congr_left
      intro p _
      simp only [Function.comp]
      split <;> rfl
    · intro p hp
      obtain ⟨q, hq, rfl⟩ := List.mem_map.mp hp
      split
      · exact .inl rfl
      · exact ho q hq
  · right; exact ⟨rfl, rfl⟩

theorem consider_spec (r : Rule (Option NomObs) D) (cls : Option Nat) (h : List Inst) (ht : Tracks E.nAtt r.obs h) :
    let c := considerExpand (nominal E order merit side) r cls
    c.1.dist = r.dist ∧ c.1.preds = r.preds ∧ Tracks E.nAtt c.1.obs h ∧ ∀ s, c.2 = some s → Rests h s := by
  have hobs : ∃ obs', (considerExpand (nominal E order merit side) r cls).1 = { r with obs := obs' } ∧
      Tracks E.nAtt obs' h := by
    simp only [considerExpand]
    split
    · split
      · exact ⟨_, rfl, tracks_disable E order merit side _ _ _ _ ht⟩
      · exact ⟨r.obs, rfl, ht⟩
    · exact ⟨r.obs, rfl, ht⟩
  obtain ⟨obs', e, ht'⟩ := hobs
  intro c
  have ec : c.1 = { r with obs := obs' } := e
  rw [ec]
  refine ⟨rfl, rfl, ht', ?_⟩
  intro s hs
  have hs' : (if shouldExpand (nominal E order merit side) r.dist r.weight
      (sortSugg (suggestAll (nominal E order merit side) r.dist cls (nominal E order merit side).crit0 r.obs).1) false
      then (sortSugg (suggestAll (nominal E order merit side) r.dist cls (nominal E order merit side).crit0 r.obs).1).getLast?
      else none) = some s := hs
  split at hs'
  · exact rests_tracks E order merit side h _ _ _ _ _ ht s ((sort_perm _).mem_iff.mp (List.mem_of_getLast? hs'))
  · cases hs'

/-- What an attempt to expand a rule does to it. -/
theorem expand_spec (r : Rule (Option NomObs) D) (h : List Inst) (ht : Tracks E.nAtt r.obs h) :
    let e := (expandRule (nominal E order merit side) r).1
    (e.dist = r.dist ∧ e.preds = r.preds ∧ (Tracks E.nAtt e.obs h ∨ e.obs = [])) ∨
    ∃ p : Pred, e.preds = r.preds ++ [p] ∧ Counts e.dist (h.filter fun t => p.covers t.x) ∧ e.dist.Sorted ∧ e.obs = [] := by
  intro e
  have he : e = (expandRule (nominal E order merit side) r).1 := rfl
  simp only [expandRule] at he
  by_cases h2 : r.dist.length ≥ 2
  · rw [if_pos h2] at he
    have hc := consider_spec E order merit side r
      (if (nominal E order merit side).crit = .foil then r.cls else none) h ht
    rcases hce : considerExpand (nominal E order merit side) r
      (if (nominal E order merit side).crit = .foil then r.cls else none) with ⟨r', o⟩
    rw [hce] at hc he
    simp only at hc
    obtain ⟨d1, d2, d3, d4⟩ := hc
    cases o with
    | none =>
      simp only at he
      rw [he]
      exact .inl ⟨d1, d2, .inl d3⟩
    | some best =>
      simp only at he
      have hb := d4 best rfl
      rw [he]
      cases hm : mergePred best.pred r'.preds with
      | some ps =>
        left
        have hps := merge_nominal best.pred r'.preds ps hb.op hm
        simp only [applyBest, hm]
        refine ⟨?_, by rw [hps, d2], by simp⟩
        rcases hb.op with e | e <;> rw [e] <;> exact d1
      | none =>
        right
        simp only [applyBest, hm]
        exact ⟨best.pred, by rw [d2], hb.kept, hb.sorted.1, trivial⟩
  · rw [if_neg h2] at he
    rw [he]
    exact .inl ⟨rfl, rfl, .inl ht⟩

/-- The rule counts instances among `all` that meet its conditions; its observers have
been shown the last of them. -/
def Told (n : Nat) (all : List Inst) (r : Rule (Option NomObs) D) : Prop :=
  ∃ b h : List Inst, (b ++ h).Sublist all ∧ (∀ t ∈ b ++ h, r.covers t.x = true) ∧ Counts r.dist (b ++ h) ∧
    r.dist.Sorted ∧ Tracks n r.obs h

theorem Told.mono {n : Nat} {all : List Inst} {r : Rule (Option NomObs) D} (h : Told n all r) (t : Inst) :
    Told n (all ++ [t]) r := by
  obtain ⟨b, l, h1, h2⟩ := h
  exact ⟨b, l, h1.trans (List.sublist_append_left _ _), h2⟩

theorem Told.of_eq {n : Nat} {all : List Inst} {r s : Rule (Option NomObs) D} (h : Told n all r) (e1 : s.preds = r.preds)
    (e2 : s.dist = r.dist) (e3 : s.obs = r.obs) : Told n all s := by
  obtain ⟨b, l, h1, h2, h3, h4, h5⟩ := h
  refine ⟨b, l, h1, ?_, by rw [e2]; exact h3, by rw [e2]; exact h4, by rw [e3]; exact h5⟩
  intro t ht
  rw [Rule.covers, e1]
  exact h2 t ht

theorem told_learn {all : List Inst} {r : Rule (Option NomObs) D} (h : Told E.nAtt all r) (t : Inst)
    (hc : r.covers t.x = true) :
    Told E.nAtt (all ++ [t]) (r.learn (nominal E order merit side) t.x t.y t.w) := by
  obtain ⟨b, l, h1, h2, h3, h4, h5⟩ := h
  refine ⟨b, l ++ [t], ?_, ?_, ?_, ?_, learn_tracks E order merit side r l t h5⟩
  · rw [← List.append_assoc]
    exact h1.append (List.Sublist.refl _)
  · intro u hu
    rw [← List.append_assoc, List.mem_append] at hu
    rcases hu with hu | hu
    · exact h2 u hu
    · simp only [List.mem_singleton] at hu
      rw [hu]; exact hc
  · rw [← List.append_assoc]
    exact counts_learn _ h4 _ h3 t
  · exact alter_sorted _ _ _ h4

theorem told_expand {all : List Inst} {r : Rule (Option NomObs) D} (h : Told E.nAtt all r) :
    Told E.nAtt all (expandRule (nominal E order merit side) r).1 := by
  obtain ⟨b, l, h1, h2, h3, h4, h5⟩ := h
  rcases expand_spec E order merit side r l h5 with ⟨e1, e2, e3⟩ | ⟨p, e1, e2, e3, e4⟩
  · rcases e3 with e3 | e3
    · refine ⟨b, l, h1, ?_, by rw [e1]; exact h3, by rw [e1]; exact h4, e3⟩
      intro t ht; rw [Rule.covers, e2]; exact h2 t ht
    · refine ⟨b ++ l, [], by simpa using h1, ?_, by rw [e1]; simpa using h3, by rw [e1]; exact h4, .inr ⟨e3, rfl⟩⟩
      intro t ht; rw [Rule.covers, e2]; exact h2 t (by simpa using ht)
  · refine ⟨l.filter fun t => p.covers t.x, [], ?_, ?_, by simpa using e2, e3, .inr ⟨e4, rfl⟩⟩
    · rw [List.append_nil]
      exact List.filter_sublist.trans ((List.sublist_append_right _ _).trans h1)
    · intro t ht
      rw [List.append_nil, List.mem_filter] at ht
      rw [Rule.covers, e1, List.all_append]
      have := h2 t (by simp [ht.1])
      rw [Rule.covers] at this
      rw [this]
      simp [ht.2]

theorem told_step {all : List Inst} {r : Rule (Option NomObs) D} (h : Told E.nAtt all r) (t : Inst)
    (hc : r.covers t.x = true) :
    Told E.nAtt (all ++ [t]) (ruleStep (nominal E order merit side) r t.x t.y t.w).1 := by
  have hl := told_learn E order merit side h t hc
  simp only [ruleStep]
  split
  · exact (told_expand E order merit side hl).of_eq rfl rfl rfl
  · exact hl

theorem check_same (E : Env (Option NomObs) D K) (r : Rule (Option NomObs) D) (y : Nat) :
    (r.check E y).1.preds = r.preds ∧ (r.check E y).1.dist = r.dist ∧ (r.check E y).1.obs = r.obs := by
  unfold Rule.check
  split <;> exact ⟨rfl, rfl, rfl⟩

theorem told_scan {all : List Inst} (t : Inst) (n : Nat) :
    ∀ rules : List (Rule (Option NomObs) D), rules.length = n → (∀ r ∈ rules, Told E.nAtt all r) →
      ∀ r ∈ (scan (nominal E order merit side) t.x t.y t.w rules).1, Told E.nAtt (all ++ [t]) r := by
  induction n using Nat.strong_induction_on with
  | _ n ih =>
    intro rules hn hr
    cases rules with
    | nil => intro r h; simp [scan] at h
    | cons r rest =>
      have hrest : ∀ q ∈ rest, Told E.nAtt all q := fun q hq => hr q (by simp [hq])
      simp only [List.length_cons] at hn
      by_cases hc : r.covers t.x = true
      · obtain ⟨c1, c2, c3⟩ := check_same (nominal E order merit side) r t.y
        have hck : Told E.nAtt all (r.check (nominal E order merit side) t.y).1 := (hr r (by simp)).of_eq c1 c2 c3
        have hcc : (r.check (nominal E order merit side) t.y).1.covers t.x = true := by
          rw [Rule.covers, c1]; exact hc
        by_cases hrem : (r.check (nominal E order merit side) t.y).2 = true
        · cases rest with
          | nil =>
            intro q hq
            simp only [scan] at hq
            rw [if_pos hc, if_pos hrem] at hq
            cases hq
          | cons m rest =>
            intro q hq
            simp only [scan] at hq
            rw [if_pos hc, if_pos hrem] at hq
            simp only [List.mem_cons] at hq
            rcases hq with rfl | hq
            · exact (hrest q (by simp)).mono t
            · exact ih rest.length (by simp at hn; omega) rest rfl (fun q hq => hrest q (by simp [hq])) q hq
        · intro q hq
          unfold scan at hq
          simp only at hq
          rw [if_pos hc, if_neg hrem] at hq
          split at hq
          · simp only [List.mem_cons] at hq
            rcases hq with rfl | hq
            · exact told_step E order merit side hck t hcc
            · exact (hrest q hq).mono t
          · simp only [List.mem_cons] at hq
            rcases hq with rfl | hq
            · exact told_step E order merit side hck t hcc
            · exact ih rest.length (by omega) rest rfl hrest q hq
      · intro q hq
        unfold scan at hq
        simp only at hq
        rw [if_neg hc] at hq
        simp only [List.mem_cons] at hq
        rcases hq with rfl | hq
        · exact (hr q (by simp)).mono t
        · exact ih rest.length (by omega) rest rfl hrest q hq

/-! ### Creation -/

/-- A rule made of a suggestion that rests on `h`. -/
def Fresh (h : List Inst) (r : Rule (Option NomObs) D) : Prop :=
  ∃ p : Pred, r.preds = [p] ∧ Counts r.dist (h.filter fun t => p.covers t.x) ∧ r.dist.Sorted ∧ r.obs = []

theorem fresh_ruleOf (E' : Env (Option NomObs) D K) (h : List Inst) (s : Sugg) (hs : Rests h s) (cls : Option Nat) :
    Fresh h (ruleOf E' s cls) := ⟨s.pred, rfl, hs.kept, hs.sorted.1, rfl⟩

theorem foil_spec (d : Rule (Option NomObs) D) (h : List Inst) (ht : Tracks E.nAtt d.obs h) (cs : List Nat)
    (acc : List (Rule (Option NomObs) D) × Bool × K) :
    ∃ new, (foilLoop (nominal E order merit side) d cs acc).1 = acc.1 ++ new ∧ ∀ r ∈ new, Fresh h r := by
  induction cs generalizing acc with
  | nil => exact ⟨[], by simp [foilLoop], by simp⟩
  | cons c cs ih =>
    obtain ⟨rules, should, k⟩ := acc
    simp only [foilLoop]
    split
    · rename_i best _ hlast
      have hb : Rests h best := rests_tracks E order merit side h _ _ _ _ _ ht best
        ((sort_perm _).mem_iff.mp (List.mem_of_getLast? hlast))
      obtain ⟨new, e1, e2⟩ := ih (rules ++ [ruleOf (nominal E order merit side) best (some c)], true,
        (suggestAll (nominal E order merit side) d.dist (some c) k d.obs).2)
      refine ⟨ruleOf (nominal E order merit side) best (some c) :: new, by rw [e1]; simp, ?_⟩
      intro r hr
      rcases List.mem_cons.mp hr with rfl | hr
      · exact fresh_ruleOf _ h best hb _
      · exact e2 r hr
    · exact ih _

/-- What an attempt to create rules does. -/
theorem create_spec (s : St (Option NomObs) D) (h : List Inst) (ht : Tracks E.nAtt s.default.obs h) :
    let c := createRule (nominal E order merit side) s
    ∃ new, c.rules = s.rules ++ new ∧ (∀ r ∈ new, Fresh h r) ∧
      ((c.default.preds = s.default.preds ∧ c.default.dist = s.default.dist ∧ c.default.obs = s.default.obs) ∨
       (c.default.preds = [] ∧ c.default.obs = [] ∧ c.default.dist = []) ∨
       ∃ r p, new = [r] ∧ r.preds = [p] ∧ c.default.preds = [] ∧ c.default.obs = [] ∧ c.default.dist.Sorted ∧
         Counts c.default.dist (h.filter fun t => !p.covers t.x)) := by
  intro c
  have hc : c = createRule (nominal E order merit side) s := rfl
  simp only [createRule] at hc
  split at hc
  · split at hc
    · simp only [createGain] at hc
      split at hc
      · rename_i best _ hlast
        have hb : Rests h best := rests_tracks E order merit side h _ _ _ _ _ ht best
          ((sort_perm _).mem_iff.mp (List.mem_of_getLast? hlast))
        rw [hc]
        exact ⟨[ruleOf (nominal E order merit side) best none], rfl,
          by intro r hr; rw [List.mem_singleton] at hr; rw [hr]; exact fresh_ruleOf _ h best hb _,
          .inr (.inr ⟨_, best.pred, rfl, rfl, rfl, rfl, hb.sorted.2, hb.rest⟩)⟩
      · rw [hc]
        exact ⟨[], by simp, by simp, .inl ⟨rfl, rfl, rfl⟩⟩
    · simp only [createFoil] at hc
      obtain ⟨new, e1, e2⟩ := foil_spec E order merit side s.default h ht (s.default.dist.map Prod.fst)
        (s.rules, false, (nominal E order merit side).crit0)
      rw [hc]
      refine ⟨new, e1, e2, ?_⟩
      simp only
      split
      · exact .inr (.inl ⟨rfl, rfl, rfl⟩)
      · exact .inl ⟨rfl, rfl, rfl⟩
  · rw [hc]
    exact ⟨[], by simp, by simp, .inl ⟨rfl, rfl, rfl⟩⟩

theorem Fresh.told {n : Nat} {all h : List Inst} (hs : h.Sublist all) {r : Rule (Option NomObs) D} (hf : Fresh h r) :
    Told n all r := by
  obtain ⟨p, e1, e2, e3, e4⟩ := hf
  refine ⟨h.filter fun t => p.covers t.x, [], ?_, ?_, by simpa using e2, e3, .inr ⟨e4, rfl⟩⟩
  · rw [List.append_nil]; exact List.filter_sublist.trans hs
  · intro t ht
    rw [List.append_nil, List.mem_filter] at ht
    simp [Rule.covers, e1, ht.2]

/-- All rules and the default rule. -/
def ToldSt (n : Nat) (all : List Inst) (s : St (Option NomObs) D) : Prop :=
  (∀ r ∈ s.rules, Told n all r) ∧ Told n all s.default ∧ s.default.preds = []

theorem told_create {all : List Inst} {s : St (Option NomObs) D} (hs : ToldSt E.nAtt all s) :
    ToldSt E.nAtt all (createRule (nominal E order merit side) s) := by
  obtain ⟨h1, h2, h3⟩ := hs
  obtain ⟨b, l, k1, k2, k3, k4, k5⟩ := h2
  have hl : l.Sublist all := (List.sublist_append_right _ _).trans k1
  obtain ⟨new, e1, e2, e3⟩ := create_spec E order merit side s l k5
  refine ⟨?_, ?_, ?_⟩
  · intro r hr
    rw [e1, List.mem_append] at hr
    rcases hr with hr | hr
    · exact h1 r hr
    · exact (e2 r hr).told hl
  · rcases e3 with ⟨d1, d2, d3⟩ | ⟨d1, d2, d3⟩ | ⟨r, p, _, _, d1, d2, d3, d4⟩
    · exact Told.of_eq ⟨b, l, k1, k2, k3, k4, k5⟩ d1 d2 d3
    · refine ⟨[], [], by simp, by simp, by rw [d3]; exact counts_nil, by rw [d3]; simp [SDict.Sorted], .inr ⟨d2, rfl⟩⟩
    · refine ⟨l.filter fun t => !p.covers t.x, [], ?_, ?_, by simpa using d4, d3, .inr ⟨d2, rfl⟩⟩
      · rw [List.append_nil]; exact List.filter_sublist.trans hl
      · intro t _; simp [Rule.covers, d1]
  · rcases e3 with ⟨d1, _⟩ | ⟨d1, _⟩ | ⟨r, p, _, _, d1, _⟩
    · rw [d1, h3]
    · exact d1
    · exact d1

theorem told_St_learn {all : List Inst} {s : St (Option NomObs) D} (hs : ToldSt E.nAtt all s) (t : Inst) :
    ToldSt E.nAtt (all ++ [t]) (s.learn (nominal E order merit side) t.x t.y t.w) := by
  obtain ⟨h1, h2, h3⟩ := hs
  have hrules : ∀ r ∈ (scan (nominal E order merit side) t.x t.y t.w s.rules).1 ++
      (scan (nominal E order merit side) t.x t.y t.w s.rules).2.1, Told E.nAtt (all ++ [t]) r := by
    intro r hr
    rw [scan_appended, List.append_nil] at hr
    exact told_scan E order merit side t _ s.rules rfl h1 r hr
  have hd : Told E.nAtt (all ++ [t]) (s.default.learn (nominal E order merit side) t.x t.y t.w) :=
    told_learn E order merit side h2 t (by simp [Rule.covers, h3])
  simp only [St.learn]
  split
  · exact ⟨hrules, h2.mono t, h3⟩
  · split
    · apply told_create
      exact ⟨hrules, hd, h3⟩
    · exact ⟨hrules, hd, h3⟩

theorem told_fit (l : List Inst) {all : List Inst} {s : St (Option NomObs) D} (hs : ToldSt E.nAtt all s) :
    ToldSt E.nAtt (all ++ l) (s.fit (nominal E order merit side) l) := by
  induction l generalizing all s with
  | nil => simpa [St.fit] using hs
  | cons t l ih =>
    have e : all ++ t :: l = (all ++ [t]) ++ l := by simp
    rw [e]
    have e2 : s.fit (nominal E order merit side) (t :: l) =
      (if t.w ≠ 0 then s.learn (nominal E order merit side) t.x t.y t.w else s).fit (nominal E order merit side) l := rfl
    rw [e2]
    apply ih
    split
    · exact told_St_learn E order merit side hs t
    · exact ⟨fun r hr => (hs.1 r hr).mono t, hs.2.1.mono t, hs.2.2⟩

/-- C272: after any calls of `partial_fit`, the class weights of every rule, and of the
default rule, are the weights of training instances, each used at most once for the
rule and each meeting all of its conditions. -/
theorem C272_counts_partial (batches : List (List Inst)) :
    let s := batches.foldl (St.fit (nominal E order merit side)) St.init
    ∀ r, r ∈ s.rules ∨ r = s.default →
      ∃ h : List Inst, h.Sublist batches.flatten ∧ (∀ t ∈ h, ∀ p ∈ r.preds, Holds p t.x) ∧ Counts r.dist h := by
  have key : ∀ (batches : List (List Inst)) (all : List Inst) (s : St (Option NomObs) D), ToldSt E.nAtt all s →
      ToldSt E.nAtt (all ++ batches.flatten) (batches.foldl (St.fit (nominal E order merit side)) s) := by
    intro batches
    induction batches with
    | nil => intro all s h; simpa using h
    | cons l ls ih =>
      intro all s h
      have := ih _ _ (told_fit E order merit side l h)
      simpa using this
  have h0 : ToldSt E.nAtt [] (St.init : St (Option NomObs) D) :=
    ⟨by intro r hr; simp [St.init] at hr, ⟨[], [], by simp, by simp, counts_nil, by simp [St.init, newRule, SDict.Sorted],
      .inr ⟨rfl, rfl⟩⟩, rfl⟩
  intro s r hr
  have hk := key batches [] St.init h0
  rw [List.nil_append] at hk
  have : Told E.nAtt batches.flatten r := by
    rcases hr with hr | rfl
    · exact hk.1 r hr
    · exact hk.2.1
  obtain ⟨b, l, k1, k2, k3, _⟩ := this
  exact ⟨b ++ l, k1, fun t ht => (C109_fires_iff_all_hold r t.x).mp (k2 t ht), k3⟩

theorem having_eq (p : Pred) (l : List Inst) : having p l = l.filter fun t => p.covers t.x := by
  apply List.filter_congr
  intro t _
  rw [Bool.eq_iff_iff, covers_holds]
  simp

theorem lacking_eq (p : Pred) (l : List Inst) : lacking p l = l.filter fun t => !p.covers t.x := by
  apply List.filter_congr
  intro t _
  rw [Bool.eq_iff_iff, Bool.not_eq_true', ← Bool.not_eq_true, covers_holds]
  simp

/-- The rule after learning from `l` without an attempt to expand it. -/
theorem tracks_fold (l : List Inst) (r : Rule (Option NomObs) D) (h : List Inst) (ht : Tracks E.nAtt r.obs h) :
    Tracks E.nAtt (l.foldl (fun r t => r.learn (nominal E order merit side) t.x t.y t.w) r).obs (h ++ l) := by
  induction l generalizing r h with
  | nil => simpa using ht
  | cons t l ih =>
    have := ih _ _ (learn_tracks E order merit side r h t ht)
    simpa using this

/-- C272: what an expansion takes over. A rule whose observers are new (a rule just
created, or just expanded) learns from the instances `l`; an attempt to expand it either
leaves conditions and class weights as they are, or adds one condition, and then the
class weights are those of the instances of `l` that meet the new condition: nothing
the rule counted before `l` is left. -/
theorem C272_expansion_partial (r : Rule (Option NomObs) D) (hr : r.obs = []) (l : List Inst) :
    let before := l.foldl (fun r t => r.learn (nominal E order merit side) t.x t.y t.w) r
    let after := (expandRule (nominal E order merit side) before).1
    (after.preds = before.preds ∧ after.dist = before.dist) ∨
    ∃ p, after.preds = before.preds ++ [p] ∧ Counts after.dist (having p l) := by
  intro before after
  have ht := tracks_fold E order merit side l r [] (.inr ⟨hr, rfl⟩)
  rw [List.nil_append] at ht
  rcases expand_spec E order merit side before l ht with ⟨e1, e2, _⟩ | ⟨p, e1, e2, _⟩
  · exact .inl ⟨e2, e1⟩
  · exact .inr ⟨p, e1, by rw [having_eq]; exact e2⟩

/-- C272: what the creation of rules takes over. The default rule, with new observers,
learns from the instances `l`; every rule created then has one condition and the class
weights of the instances of `l` that meet it. If the default rule is changed, it either
starts with no class weights, or there is one new rule and the default rule has the
class weights of the other instances of `l`. -/
theorem C272_creation_partial (s : St (Option NomObs) D) (hr : s.default.obs = []) (l : List Inst) :
    let before := l.foldl (fun r t => r.learn (nominal E order merit side) t.x t.y t.w) s.default
    let after := createRule (nominal E order merit side) { s with default := before }
    ∃ new, after.rules = s.rules ++ new ∧
      (∀ r ∈ new, ∃ p, r.preds = [p] ∧ Counts r.dist (having p l)) ∧
      (after.default.dist = before.dist ∨ after.default.dist = [] ∨
       ∃ r p, new = [r] ∧ r.preds = [p] ∧ Counts after.default.dist (lacking p l)) := by
  intro before after
  have ht := tracks_fold E order merit side l s.default [] (.inr ⟨hr, rfl⟩)
  rw [List.nil_append] at ht
  obtain ⟨new, e1, e2, e3⟩ := create_spec E order merit side { s with default := before } l ht
  refine ⟨new, e1, ?_, ?_⟩
  · intro r hr
    obtain ⟨p, f1, f2, _⟩ := e2 r hr
    exact ⟨p, f1, by rw [having_eq]; exact f2⟩
  · rcases e3 with ⟨_, d2, _⟩ | ⟨_, _, d3⟩ | ⟨r, p, f1, f2, _, _, _, d4⟩
    · exact .inl d2
    · exact .inr (.inl d3)
    · exact .inr (.inr ⟨r, p, f1, f2, by rw [lacking_eq]; exact d4⟩)

/-! ### The claim in full fails -/

/-- A classifier with two nominal attributes and grace period 4 whose criterion asks for
a value that only one class has. -/
def pureEnv (ordered : Bool) : Env (Option NomObs) Bool Unit :=
  nominal
    { nAtt := 2, freshObs := fun _ => none, update := fun o _ _ _ => o, nullObs := none, crit0 := ()
      suggest := fun _ _ _ _ _ => (none, ()), bound := fun _ _ => 0, nb := fun _ d _ => d, detector := none
      detAdd := fun d _ => d, detChange := id, detReset := id, crit := .gain, ordered := ordered, mode := .firstHit
      grace := 4, tie := 1 / 20, maxRules := 5, minWeight := 1, nbThreshold := 0, nbPrediction := false
      removePoor := false }
    id (fun _ _ _ post => (if post.1.length = 1 then ((1 : ℚ) : WithBot ℚ) else ((0 : ℚ) : WithBot ℚ), ())) (fun _ => 0)

/-- An instance with two attributes. -/
def two (a b : ℚ) (y : Nat) : Inst := ⟨fun i => if i = 0 then a else b, y, 1⟩

/-- C272 as stated fails: after four instances there is the rule `x0 = 0`, which counts
two instances of class 0; two more instances that the rule learns make it
`x0 = 0 and x1 = 0`. Two instances of class 0 meet both conditions, one learned before
the rule was made and counted by it then, one learned by the rule itself, but the rule
counts only one. -/
theorem C272_forgets_violated :
    let l1 := [two 0 0 0, two 0 1 0, two 1 0 1, two 1 1 1]
    let l2 := [two 0 0 0, two 0 1 1]
    let s1 := St.init.fit (pureEnv true) l1
    let s2 := s1.fit (pureEnv true) l2
    s1.rules.map (fun r => (r.preds, r.dist)) = [([⟨0, .eq, 0⟩], [(0, 2)])] ∧
    s2.rules.map (fun r => (r.preds, r.dist)) = [([⟨0, .eq, 0⟩, ⟨1, .eq, 0⟩], [(0, 1)])] ∧
    seenOf 0 (having ⟨1, .eq, 0⟩ (having ⟨0, .eq, 0⟩ (l1 ++ l2))) = 2 := by
  decide +kernel

-- The hypothesis of `C272_expansion_partial` and both of its outcomes: the rule above with
-- new observers, and the two instances; with only one class nothing changes.
example :
    let r : Rule (Option NomObs) Bool := ⟨[⟨0, .eq, 0⟩], [(0, 2)], 0, [], none, none⟩
    let learn := fun r l => l.foldl (fun r t => r.learn (pureEnv true) t.x t.y t.w) r
    r.obs = [] ∧
    (expandRule (pureEnv true) (learn r [two 0 0 0, two 0 1 1])).1.preds = [⟨0, .eq, 0⟩, ⟨1, .eq, 0⟩] ∧
    (expandRule (pureEnv true) (learn r [two 0 0 0])).1.dist = [(0, 3)] := by
  decide +kernel

-- Creation: the new rule and the default rule share out the four instances.
example :
    let l := [two 0 0 0, two 0 1 0, two 1 0 1, two 1 1 1]
    let s : St (Option NomObs) Bool := St.init
    let after := createRule (pureEnv true)
      { s with default := l.foldl (fun r t => r.learn (pureEnv true) t.x t.y t.w) s.default }
    s.default.obs = [] ∧ after.rules.map (fun r => (r.preds, r.dist)) = [([⟨0, .eq, 0⟩], [(0, 2)])] ∧
    after.default.dist = [(1, 2)] := by
  decide +kernel

end Verif.Rules
