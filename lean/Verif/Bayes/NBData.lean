import Verif.Bayes.NaiveBayes
import Verif.Trees.Gaussian
import Verif.Trees.Nominal
import Mathlib.Algebra.BigOperators.Group.Finset.Piecewise
import Mathlib.Data.List.Perm.Basic

/-!
C286: what `NaiveBayes` takes from its training rows, with the observers it really uses.
-/

namespace Verif.Bayes

open Verif.Trees

variable {V O : Type}

/-! ### Model -/

/-- The observers of naive_bayes.py 119-128: `NominalAttributeClassObserver` or
`NumericAttributeClassObserverGaussian`. -/
inductive ObsSt where
  | num (o : GObs)
  | nom (o : NomObs)

/-- `probability_of_attribute_value_given_class`, numeric_attribute_class_observer_gaussian.py 46-51; `pdf` is
`probability_density` (gaussian_estimator.py 56-79). -/
def gProb (pdf : Est → ℚ → ℚ) (o : GObs) (v : ℚ) (c : Nat) : ℚ :=
  match o.lookup c with
  | some r => pdf r.est v
  | none => 0

/-- The observers of a `NaiveBayes` with the given nominal attributes. -/
def observers (nominal : Nat → Bool) (pdf : Est → ℚ → ℚ) : Obs ℚ ObsSt where
  fresh i := if nominal i then .nom [] else .num []
  update o v y w := match o with
    | .num o => .num (gUpdate o y v w)
    | .nom o => .nom (nomUpdate o (some v) y w)
  prob o v c := match o with
    | .num o => gProb pdf o v c
    | .nom o => nomProb o v c

/-! ### Specification -/

/-- Total weight of the rows with features `x` and label `y`. -/
def weightOf (h : List (Sample ℚ)) (x : List ℚ) (y : Nat) : ℚ := ((h.filter fun a => a.x = x ∧ a.y = y).map Sample.w).sum

/-! ### Sums over rows -/

theorem sum_key (K : Finset (List ℚ × Nat)) (f : List ℚ → Nat → ℚ) (h : List (Sample ℚ)) (hK : ∀ a ∈ h, (a.x, a.y) ∈ K) :
    (h.map fun a => a.w * f a.x a.y).sum = ∑ k ∈ K, weightOf h k.1 k.2 * f k.1 k.2 := by
  induction h with
  | nil => simp [weightOf]
  | cons a h ih =>
    rw [List.map_cons, List.sum_cons, ih fun b hb => hK b (List.mem_cons_of_mem _ hb)]
    have e : ∀ k : List ℚ × Nat, weightOf (a :: h) k.1 k.2 * f k.1 k.2 =
        (if (a.x, a.y) = k then a.w * f k.1 k.2 else 0) + weightOf h k.1 k.2 * f k.1 k.2 := by
      intro k
      unfold weightOf
      rw [List.filter_cons]
      by_cases hk : (a.x, a.y) = k
      · have h1 : a.x = k.1 ∧ a.y = k.2 := by rw [← hk]; exact ⟨rfl, rfl⟩
        rw [if_pos hk, if_pos (by simpa using h1), List.map_cons, List.sum_cons]; ring
      · have h1 : ¬ (a.x = k.1 ∧ a.y = k.2) := fun q => hk (Prod.ext q.1 q.2)
        rw [if_neg hk, if_neg (by simpa using h1), zero_add]
    simp only [e]
    rw [Finset.sum_add_distrib, Finset.sum_ite_eq, if_pos (hK a List.mem_cons_self)]

theorem sum_same (h h' : List (Sample ℚ)) (hw : ∀ x y, weightOf h x y = weightOf h' x y) (f : List ℚ → Nat → ℚ) :
    (h.map fun a => a.w * f a.x a.y).sum = (h'.map fun a => a.w * f a.x a.y).sum := by
  rw [sum_key (((h ++ h').map fun a => (a.x, a.y)).toFinset) f h (by
      intro a ha; rw [List.mem_toFinset]; exact List.mem_map.2 ⟨a, List.mem_append_left _ ha, rfl⟩),
    sum_key (((h ++ h').map fun a => (a.x, a.y)).toFinset) f h' (by
      intro a ha; rw [List.mem_toFinset]; exact List.mem_map.2 ⟨a, List.mem_append_right _ ha, rfl⟩)]
  exact Finset.sum_congr rfl fun k _ => by rw [hw]

theorem weightOf_pos (h : List (Sample ℚ)) (hp : ∀ a ∈ h, 0 < a.w) (x : List ℚ) (y : Nat) :
    (∃ a ∈ h, a.x = x ∧ a.y = y) ↔ weightOf h x y ≠ 0 := by
  constructor
  · rintro ⟨a, ha, hx⟩
    refine ne_of_gt (List.sum_pos _ (fun q hq => ?_) ?_)
    · obtain ⟨b, hb, rfl⟩ := List.mem_map.1 hq
      exact hp b (List.mem_filter.1 hb).1
    · intro e
      rw [List.map_eq_nil_iff, List.filter_eq_nil_iff] at e
      exact e a ha (by simpa using hx)
  · intro hne
    by_contra hn
    apply hne
    have : h.filter (fun a => decide (a.x = x ∧ a.y = y)) = [] := by
      rw [List.filter_eq_nil_iff]
      intro a ha hx
      exact hn ⟨a, ha, by simpa using hx⟩
    rw [weightOf, this]; rfl

theorem mem_same (h h' : List (Sample ℚ)) (hp : ∀ a ∈ h, 0 < a.w) (hp' : ∀ a ∈ h', 0 < a.w)
    (hw : ∀ x y, weightOf h x y = weightOf h' x y) (P : List ℚ → Nat → Prop) :
    (∃ a ∈ h, P a.x a.y) ↔ ∃ a ∈ h', P a.x a.y := by
  constructor
  · rintro ⟨a, ha, hP⟩
    have := (weightOf_pos h hp a.x a.y).1 ⟨a, ha, rfl, rfl⟩
    rw [hw] at this
    obtain ⟨b, hb, e1, e2⟩ := (weightOf_pos h' hp' a.x a.y).2 this
    exact ⟨b, hb, by rw [e1, e2]; exact hP⟩
  · rintro ⟨a, ha, hP⟩
    have := (weightOf_pos h' hp' a.x a.y).1 ⟨a, ha, rfl, rfl⟩
    rw [← hw] at this
    obtain ⟨b, hb, e1, e2⟩ := (weightOf_pos h hp a.x a.y).2 this
    exact ⟨b, hb, by rw [e1, e2]; exact hP⟩

/-! ### The observers -/

/-- The cells of column `i`: value, label, weight. -/
def cells (i : Nat) (h : List (Sample ℚ)) : List (ℚ × Nat × ℚ) := h.filterMap fun a => (a.x[i]?).map fun v => (v, a.y, a.w)

theorem sum_filterMap {α β : Type} (g : α → Option β) (f : β → ℚ) (l : List α) :
    ((l.filterMap g).map f).sum = (l.map fun a => match g a with | some b => f b | none => 0).sum := by
  induction l with
  | nil => rfl
  | cons a l ih =>
    rw [List.filterMap_cons, List.map_cons, List.sum_cons, ← ih]
    cases g a with
    | none => simp
    | some b => simp

theorem sum_filter {α : Type} (p : α → Bool) (f : α → ℚ) (l : List α) :
    ((l.filter p).map f).sum = (l.map fun a => if p a then f a else 0).sum := by
  induction l with
  | nil => rfl
  | cons a l ih =>
    rw [List.filter_cons, List.map_cons, List.sum_cons, ← ih]
    cases p a <;> simp

/-- Sums over the cells are sums over the rows. -/
theorem cells_sum (i : Nat) (c : Nat) (g : ℚ → ℚ) (h : List (Sample ℚ)) :
    (((cells i h).filter fun q => q.2.1 = c).map fun q => q.2.2 * g q.1).sum =
      (h.map fun a => a.w * (match a.x[i]? with | some v => if a.y = c then g v else 0 | none => 0)).sum := by
  rw [sum_filter, cells, sum_filterMap]
  congr 1
  apply List.map_congr_left
  intro a _
  cases a.x[i]? with
  | none => simp
  | some v => by_cases e : a.y = c <;> simp [e]

theorem num_fold (nominal : Nat → Bool) (pdf : Est → ℚ → ℚ) (l : List (ℚ × Nat × ℚ)) (o : GObs) :
    l.foldl (fun o c => (observers nominal pdf).update o c.1 c.2.1 c.2.2) (.num o) =
      .num ((l.map fun q => (q.2.1, q.1, q.2.2)).foldl (fun o p => gUpdate o p.1 p.2.1 p.2.2) o) := by
  induction l generalizing o with
  | nil => rfl
  | cons a l ih => rw [List.foldl_cons, List.map_cons, List.foldl_cons, ← ih]; rfl

theorem nom_fold (nominal : Nat → Bool) (pdf : Est → ℚ → ℚ) (l : List (ℚ × Nat × ℚ)) (o : NomObs) :
    l.foldl (fun o c => (observers nominal pdf).update o c.1 c.2.1 c.2.2) (.nom o) =
      .nom ((l.map fun q => (⟨some q.1, q.2.1, q.2.2⟩ : NObs)).foldl (fun d o => nomUpdate d o.att o.cls o.w) o) := by
  induction l generalizing o with
  | nil => rfl
  | cons a l ih => rw [List.foldl_cons, List.map_cons, List.foldl_cons, ← ih]; rfl

theorem lookup_mem {α : Type} (l : List (Nat × α)) (hs : l.Pairwise fun a b => a.1 < b.1) (c : Nat) (r : α) :
    l.lookup c = some r ↔ (c, r) ∈ l := by
  induction l with
  | nil => simp
  | cons p l ih =>
    obtain ⟨d, q⟩ := p
    obtain ⟨h1, h2⟩ := List.pairwise_cons.1 hs
    rw [List.lookup_cons]
    by_cases e : c = d
    · subst e
      simp only [beq_self_eq_true, Option.some.injEq, List.mem_cons, Prod.mk.injEq, true_and]
      constructor
      · intro h; exact .inl h.symm
      · rintro (h | h)
        · exact h.symm
        · exact absurd (h1 _ h) (lt_irrefl _)
    · have : (c == d) = false := by simpa using e
      simp only [this, List.mem_cons, Prod.mk.injEq, e, false_and, false_or]
      exact ih h2

/-- The Gaussian likelihood in terms of the cells of the class. -/
theorem gProb_spec (pdf : Est → ℚ → ℚ) (h : List (Nat × ℚ × ℚ)) (v : ℚ) (c : Nat) :
    gProb pdf (gRun h) v c = if ofClass h c = [] then 0 else pdf (Est.run ((ofClass h c).map fun o => (some o.1, o.2))) v := by
  obtain ⟨h1, h2, h3⟩ := gRun_represents h
  unfold gProb
  by_cases hc : ofClass h c = []
  · rw [if_pos hc]
    cases hl : (gRun h).lookup c with
    | none => rfl
    | some r => exact absurd hc ((h3 c).1 ⟨(c, r), (lookup_mem _ h1 c r).1 hl, rfl⟩)
  · rw [if_neg hc]
    obtain ⟨p, hp, rfl⟩ := (h3 c).2 hc
    rw [(lookup_mem _ h1 p.1 p.2).2 hp]
    simp only []
    rw [(h2 p hp).1]

theorem est_ext {e e' : Est} (h1 : e.weightSum = e'.weightSum) (h2 : e.mean = e'.mean) (h3 : e.varSum = e'.varSum) : e = e' := by
  cases e; cases e'; simp_all

/-- The estimator is a function of three sums. -/
theorem est_sums (l l' : List (ℚ × ℚ)) (hl : l ≠ []) (hl' : l' ≠ []) (hp : ∀ o ∈ l, 0 < o.2) (hp' : ∀ o ∈ l', 0 < o.2)
    (h0 : totW l = totW l') (h1 : (l.map fun o => o.2 * o.1).sum = (l'.map fun o => o.2 * o.1).sum)
    (h2 : (l.map fun o => o.2 * o.1 ^ 2).sum = (l'.map fun o => o.2 * o.1 ^ 2).sum) :
    Est.run (l.map fun o => (some o.1, o.2)) = Est.run (l'.map fun o => (some o.1, o.2)) := by
  have hu : ∀ l : List (ℚ × ℚ), usable (l.map fun o => (some o.1, o.2)) = l := by
    intro l
    unfold usable
    rw [List.filterMap_map]
    simp [Function.comp_def]
  have a := (Est.run_spec (l.map fun o => (some o.1, o.2)) (by intro o ho; obtain ⟨q, hq, rfl⟩ := List.mem_map.1 ho; exact hp q hq)).2 (by rw [hu]; exact hl)
  have b := (Est.run_spec (l'.map fun o => (some o.1, o.2)) (by intro o ho; obtain ⟨q, hq, rfl⟩ := List.mem_map.1 ho; exact hp' q hq)).2 (by rw [hu]; exact hl')
  rw [hu] at a b
  refine est_ext (by rw [a.1, b.1, h0]) (by rw [a.2.1, b.2.1, wMean, wMean, h0, h1]) ?_
  rw [a.2.2, b.2.2, wDev_eq l (ne_of_gt (totW_pos l hl hp)), wDev_eq l' (ne_of_gt (totW_pos l' hl' hp')), h0, h1, h2]

/-- The cells of a column belong to positive rows. -/
theorem cells_pos (i : Nat) (h : List (Sample ℚ)) (hp : ∀ a ∈ h, 0 < a.w) : ∀ q ∈ cells i h, 0 < q.2.2 := by
  intro q hq
  obtain ⟨a, ha, e⟩ := List.mem_filterMap.1 hq
  cases hv : a.x[i]? with
  | none => rw [hv] at e; cases e
  | some v => rw [hv] at e; cases e; exact hp a ha

theorem cells_mem (i : Nat) (h : List (Sample ℚ)) (P : ℚ → Nat → Prop) :
    (∃ q ∈ cells i h, P q.1 q.2.1) ↔ ∃ a ∈ h, ∃ v, a.x[i]? = some v ∧ P v a.y := by
  constructor
  · rintro ⟨q, hq, hP⟩
    obtain ⟨a, ha, e⟩ := List.mem_filterMap.1 hq
    cases hv : a.x[i]? with
    | none => rw [hv] at e; cases e
    | some v => rw [hv] at e; cases e; exact ⟨a, ha, v, hv, hP⟩
  · rintro ⟨a, ha, v, hv, hP⟩
    exact ⟨(v, a.y, a.w), List.mem_filterMap.2 ⟨a, ha, by rw [hv]; rfl⟩, hP⟩

theorem prob_same (nominal : Nat → Bool) (pdf : Est → ℚ → ℚ) (h h' : List (Sample ℚ)) (hp : ∀ a ∈ h, 0 < a.w)
    (hp' : ∀ a ∈ h', 0 < a.w) (hw : ∀ x y, weightOf h x y = weightOf h' x y) (i : Nat) (v : ℚ) (c : Nat) :
    (match column (observers nominal pdf) i h with | some o => (observers nominal pdf).prob o v c | none => 1) =
      match column (observers nominal pdf) i h' with | some o => (observers nominal pdf).prob o v c | none => 1 := by
  have hcol : ∀ h, column (observers nominal pdf) i h = if cells i h = [] then none
      else some ((cells i h).foldl (fun o c => (observers nominal pdf).update o c.1 c.2.1 c.2.2) ((observers nominal pdf).fresh i)) :=
    fun h => rfl
  have hnil : cells i h = [] ↔ cells i h' = [] := by
    have e : ∀ h, cells i h = [] ↔ ¬ ∃ q ∈ cells i h, True := by
      intro h
      constructor
      · intro e ⟨q, hq, _⟩; rw [e] at hq; cases hq
      · intro e
        rw [List.eq_nil_iff_forall_not_mem]
        exact fun q hq => e ⟨q, hq, trivial⟩
    rw [e h, e h', cells_mem i h (fun _ _ => True), cells_mem i h' (fun _ _ => True)]
    exact not_congr (mem_same h h' hp hp' hw fun x _ => ∃ v, x[i]? = some v ∧ True)
  have hsum : ∀ g : ℚ → ℚ, (((cells i h).filter fun q => q.2.1 = c).map fun q => q.2.2 * g q.1).sum =
      (((cells i h').filter fun q => q.2.1 = c).map fun q => q.2.2 * g q.1).sum := by
    intro g
    rw [cells_sum, cells_sum]
    exact sum_same h h' hw fun x y => match x[i]? with | some v => if y = c then g v else 0 | none => 0
  have hmem : ∀ a, (∃ q ∈ cells i h, q.1 = a ∧ q.2.1 = c) ↔ ∃ q ∈ cells i h', q.1 = a ∧ q.2.1 = c := by
    intro a
    rw [cells_mem i h fun v y => v = a ∧ y = c, cells_mem i h' fun v y => v = a ∧ y = c]
    exact mem_same h h' hp hp' hw fun x y => ∃ v, x[i]? = some v ∧ v = a ∧ y = c
  rw [hcol h, hcol h']
  by_cases hn : cells i h = []
  · rw [if_pos hn, if_pos (hnil.1 hn)]
  · rw [if_neg hn, if_neg fun e => hn (hnil.2 e)]
    simp only []
    by_cases hi : nominal i = true
    · -- nominal
      have hf : (observers nominal pdf).fresh i = .nom [] := by simp [observers, hi]
      rw [hf, nom_fold, nom_fold]
      show nomProb (nomRun _) v c = nomProb (nomRun _) v c
      set H := (cells i h).map fun q => (⟨some q.1, q.2.1, q.2.2⟩ : NObs) with hH
      set H' := (cells i h').map fun q => (⟨some q.1, q.2.1, q.2.2⟩ : NObs) with hH'
      have hob : ∀ (l : List (ℚ × Nat × ℚ)) a, (∃ o ∈ l.map (fun q => (⟨some q.1, q.2.1, q.2.2⟩ : NObs)), o.cls = c ∧ o.att = some a) ↔
          ∃ q ∈ l, q.1 = a ∧ q.2.1 = c := by
        intro l a
        constructor
        · rintro ⟨o, ho, e1, e2⟩
          obtain ⟨q, hq, rfl⟩ := List.mem_map.1 ho
          exact ⟨q, hq, by simpa using e2, e1⟩
        · rintro ⟨q, hq, e1, e2⟩
          exact ⟨_, List.mem_map.2 ⟨q, hq, rfl⟩, e2, by simp [e1]⟩
      have hwh : ∀ (l : List (ℚ × Nat × ℚ)) (P : ℚ → Bool), weightWhere (l.map fun q => (⟨some q.1, q.2.1, q.2.2⟩ : NObs))
          (fun o => (match o.att with | some a => P a | none => false) && decide (o.cls = c)) =
          ((l.filter fun q => q.2.1 = c).map fun q => q.2.2 * (if P q.1 then 1 else 0)).sum := by
        intro l P
        unfold weightWhere
        rw [sum_filter, sum_filter, List.map_map]
        congr 1
        apply List.map_congr_left
        intro q _
        by_cases e : q.2.1 = c <;> cases hP : P q.1 <;> simp [e, hP]
      by_cases hc : ∃ q ∈ cells i h, q.2.1 = c
      · -- seen
        obtain ⟨q0, hq0, hq0c⟩ := hc
        set vs := (((cells i h).filter fun q => q.2.1 = c).map fun q => q.1).dedup with hvs
        have hvm : ∀ a, a ∈ vs ↔ ∃ q ∈ cells i h, q.1 = a ∧ q.2.1 = c := by
          intro a
          rw [hvs, List.mem_dedup, List.mem_map]
          constructor
          · rintro ⟨q, hq, rfl⟩
            obtain ⟨m1, m2⟩ := List.mem_filter.1 hq
            exact ⟨q, m1, rfl, by simpa using m2⟩
          · rintro ⟨q, hq, e1, e2⟩
            exact ⟨q, List.mem_filter.2 ⟨hq, by simpa using e2⟩, e1⟩
        have hne : vs ≠ [] := List.ne_nil_of_mem ((hvm q0.1).2 ⟨q0, hq0, rfl, hq0c⟩)
        have hposH : ∀ (h : List (Sample ℚ)), (∀ a ∈ h, 0 < a.w) → ∀ o ∈ (cells i h).map (fun q => (⟨some q.1, q.2.1, q.2.2⟩ : NObs)), 0 ≤ o.w := by
          intro h hp o ho
          obtain ⟨q, hq, rfl⟩ := List.mem_map.1 ho
          exact (cells_pos i h hp q hq).le
        have l1 := (C34_laplace H (hposH h hp) c vs (List.nodup_dedup _) hne (fun a => by rw [hvm, hH, hob])).1 v
        have l2 := (C34_laplace H' (hposH h' hp') c vs (List.nodup_dedup _) hne (fun a => by rw [hvm, hmem, hH', hob])).1 v
        rw [l1, l2]
        have w1 : ∀ (l : List (ℚ × Nat × ℚ)), weightWhere (l.map fun q => (⟨some q.1, q.2.1, q.2.2⟩ : NObs)) (fun o => decide (o.att = some v ∧ o.cls = c)) =
            ((l.filter fun q => q.2.1 = c).map fun q => q.2.2 * (if decide (q.1 = v) then 1 else 0)).sum := by
          intro l
          rw [← hwh l fun a => decide (a = v)]
          unfold weightWhere
          congr 2
          apply List.filter_congr
          intro o _
          cases o.att with
          | none => simp
          | some a => simp
        have w2 : ∀ (l : List (ℚ × Nat × ℚ)), weightWhere (l.map fun q => (⟨some q.1, q.2.1, q.2.2⟩ : NObs)) (fun o => decide (o.att ≠ none ∧ o.cls = c)) =
            ((l.filter fun q => q.2.1 = c).map fun q => q.2.2 * (if true then 1 else 0)).sum := by
          intro l
          rw [← hwh l fun a => true]
          unfold weightWhere
          congr 2
          apply List.filter_congr
          intro o _
          cases o.att with
          | none => simp
          | some a => simp
        rw [hH, hH', w1, w1, w2, w2, hsum (fun a => if decide (a = v) then 1 else 0), hsum (fun _ => if true then 1 else 0)]
      · have hc' : ¬ ∃ q ∈ cells i h', q.2.1 = c := by
          rintro ⟨q, hq, e⟩
          obtain ⟨q', hq', e1, e2⟩ := (hmem q.1).2 ⟨q, hq, rfl, e⟩
          exact hc ⟨q', hq', e2⟩
        rw [C34_unseen_class H c (fun o ho e => by
            obtain ⟨q, hq, rfl⟩ := List.mem_map.1 ho
            exact absurd ⟨q, hq, e⟩ hc) v,
          C34_unseen_class H' c (fun o ho e => by
            obtain ⟨q, hq, rfl⟩ := List.mem_map.1 ho
            exact absurd ⟨q, hq, e⟩ hc') v]
    · -- numeric
      have hf : (observers nominal pdf).fresh i = .num [] := by simp [observers, hi]
      rw [hf, num_fold, num_fold]
      show gProb pdf (gRun _) v c = gProb pdf (gRun _) v c
      have hof : ∀ l : List (ℚ × Nat × ℚ), ofClass (l.map fun q => (q.2.1, q.1, q.2.2)) c =
          (l.filter fun q => q.2.1 = c).map fun q => (q.1, q.2.2) := by
        intro l
        unfold ofClass
        rw [List.filter_map, List.map_map]
        rfl
      rw [gProb_spec, gProb_spec, hof, hof]
      have hnil' : ((cells i h).filter fun q => q.2.1 = c) = [] ↔ ((cells i h').filter fun q => q.2.1 = c) = [] := by
        rw [List.filter_eq_nil_iff, List.filter_eq_nil_iff]
        constructor
        · intro hh q hq e
          obtain ⟨q', hq', e1, e2⟩ := (hmem q.1).2 ⟨q, hq, rfl, by simpa using e⟩
          exact hh q' hq' (by simpa using e2)
        · intro hh q hq e
          obtain ⟨q', hq', e1, e2⟩ := (hmem q.1).1 ⟨q, hq, rfl, by simpa using e⟩
          exact hh q' hq' (by simpa using e2)
      by_cases hcn : ((cells i h).filter fun q => q.2.1 = c) = []
      · rw [hcn, hnil'.1 hcn]
      · have hcn' := fun e => hcn (hnil'.2 e)
        rw [if_neg (by simpa using hcn), if_neg (by simpa using hcn')]
        congr 1
        have hpc : ∀ (h : List (Sample ℚ)), (∀ a ∈ h, 0 < a.w) → ∀ o ∈ ((cells i h).filter fun q => q.2.1 = c).map (fun q => (q.1, q.2.2)), 0 < o.2 := by
          intro h hp o ho
          obtain ⟨q, hq, rfl⟩ := List.mem_map.1 ho
          exact cells_pos i h hp q (List.mem_filter.1 hq).1
        refine est_sums _ _ (by simpa using hcn) (by simpa using hcn') (hpc h hp) (hpc h' hp') ?_ ?_ ?_
        · unfold totW
          rw [List.map_map, List.map_map]
          simpa [Function.comp_def] using hsum fun _ => 1
        · rw [List.map_map, List.map_map]
          exact hsum fun v => v
        · rw [List.map_map, List.map_map]
          exact hsum fun v => v ^ 2

/-! ### The answers -/

theorem fill_perm (total : ℚ) (vs vs' : List (Nat × ℚ)) (hp : vs.Perm vs') (hn : (vs.map Prod.fst).Nodup) (row : List ℚ) :
    fill total vs row = fill total vs' row := by
  induction hp generalizing row with
  | nil => rfl
  | cons a _ ih =>
    obtain ⟨k, v⟩ := a
    rw [List.map_cons, List.nodup_cons] at hn
    rw [fill, fill]
    by_cases hk : k < row.length
    · rw [if_pos hk, if_pos hk]; exact ih hn.2 _
    · rw [if_neg hk, if_neg hk]
  | swap a b l =>
    obtain ⟨k, v⟩ := a
    obtain ⟨k', v'⟩ := b
    simp only [List.map_cons, List.nodup_cons, List.mem_cons, not_or] at hn
    simp only [fill, List.length_set]
    by_cases hk : k < row.length
    · by_cases hk' : k' < row.length
      · simp only [hk, hk', if_true]
        rw [List.set_comm _ _ (fun e => hn.1.1 e)]
      · simp [hk, hk']
    · by_cases hk' : k' < row.length
      · simp [hk, hk']
      · simp [hk, hk']
  | trans h1 _ ih1 ih2 => rw [ih1 hn, ih2 ((h1.map Prod.fst).nodup_iff.1 hn)]

theorem joint_same (nominal : Nat → Bool) (pdf : Est → ℚ → ℚ) (h h' : List (Sample ℚ)) (hp : ∀ a ∈ h, 0 < a.w)
    (hp' : ∀ a ∈ h', 0 < a.w) (hw : ∀ x y, weightOf h x y = weightOf h' x y) (x : List ℚ) (c : Nat) :
    joint (observers nominal pdf) h x c = joint (observers nominal pdf) h' x c := by
  unfold joint
  have e1 : classWeight h c = classWeight h' c := by
    unfold classWeight
    rw [sum_filter, sum_filter]
    have := sum_same h h' hw fun _ y => if y = c then 1 else 0
    simpa using this
  have e2 : totalWeight h = totalWeight h' := by
    unfold totalWeight
    simpa using sum_same h h' hw fun _ _ => 1
  rw [e1, e2]
  congr 2
  apply List.map_congr_left
  intro iv _
  have := prob_same nominal pdf h h' hp hp' hw iv.1 iv.2 c
  revert this
  cases column (observers nominal pdf) iv.1 h <;> cases column (observers nominal pdf) iv.1 h' <;> exact id

theorem total_pos {V : Type} (h : List (Sample V)) (hp : ∀ a ∈ h, 0 < a.w) (hne : h ≠ []) : 0 < totalWeight h :=
  List.sum_pos _ (fun q hq => by obtain ⟨b, hb, rfl⟩ := List.mem_map.1 hq; exact hp b hb) (by simpa using hne)

/-- Two trained models that know the same labels and give them the same numerators answer alike. -/
theorem proba_same {V O : Type} (B : Obs V O) (h h' : List (Sample V)) (s s' : NB O) (hf : Facts B h s) (hf' : Facts B h' s')
    (hp : ∀ a ∈ h, 0 < a.w) (hp' : ∀ a ∈ h', 0 < a.w) (hk : ∀ c, (∃ a ∈ h, a.y = c) ↔ ∃ a ∈ h', a.y = c)
    (hj : ∀ x c, joint B h x c = joint B h' x c) (hc : s.classes = s'.classes) (rows : List (List V)) :
    s.proba B rows = s'.proba B rows := by
  have hperm : (s.dist.map Prod.fst).Perm (s'.dist.map Prod.fst) := by
    rw [List.perm_ext_iff_of_nodup hf.nodup hf'.nodup]
    intro c
    rw [hf.keys, hf'.keys, hk]
  have hnil : s.dist = [] ↔ s'.dist = [] := by
    constructor
    · intro e; rw [e] at hperm; simpa using hperm.symm.eq_nil
    · intro e; rw [e] at hperm; simpa using hperm.eq_nil
  unfold NB.proba
  by_cases hd : s.dist = []
  · rw [if_pos hd, if_pos (hnil.1 hd)]
  · rw [if_neg hd, if_neg fun e => hd (hnil.2 e)]
    have key : ∀ x, s.probaRow B x = s'.probaRow B x := by
      intro x
      have hne : h ≠ [] := by
        rintro rfl
        cases hs : s.dist with
        | nil => exact hd hs
        | cons a l => obtain ⟨b, hb, _⟩ := (hf.keys a.1).1 (by rw [hs]; simp); cases hb
      have hne' : h' ≠ [] := by
        rintro rfl
        cases hs : s'.dist with
        | nil => exact hd (hnil.2 hs)
        | cons a l => obtain ⟨b, hb, _⟩ := (hf'.keys a.1).1 (by rw [hs]; simp); cases hb
      have v1 := votes_eq B h s hf hne (ne_of_gt (total_pos h hp hne)) x
      have v2 := votes_eq B h' s' hf' hne' (ne_of_gt (total_pos h' hp' hne')) x
      have hv : (votes B s x).Perm (votes B s' x) := by
        rw [v1, v2]
        have : (fun c => (c, joint B h' x c)) = fun c => (c, joint B h x c) := by funext c; rw [hj]
        rw [this]
        exact hperm.map _
      have hn : ((votes B s x).map Prod.fst).Nodup := by
        rw [v1, List.map_map]
        have : (Prod.fst ∘ fun c => (c, joint B h x c)) = id := rfl
        rw [this, List.map_id]
        exact hf.nodup
      unfold NB.probaRow
      simp only []
      rw [← hc, fill_perm _ _ _ hv hn, (hv.map Prod.snd).sum_eq]
      cases s.classes with
      | some c => rfl
      | none =>
        simp only []
        have hl := hv.map Prod.fst
        have hz : (votes B s x).map Prod.fst = [] ↔ (votes B s' x).map Prod.fst = [] := by
          constructor
          · intro e; rw [e] at hl; exact hl.symm.eq_nil
          · intro e; rw [e] at hl; exact hl.eq_nil
        have hm : ((votes B s x).map Prod.fst).foldl max 0 = ((votes B s' x).map Prod.fst).foldl max 0 :=
          haveI : RightCommutative (max : Nat → Nat → Nat) := ⟨fun a b c => by omega⟩
          hl.foldl_eq 0
        rw [hm]
        by_cases e : (votes B s x).map Prod.fst = []
        · rw [if_pos e, if_pos (hz.1 e)]
        · rw [if_neg e, if_neg fun q => e (hz.2 q)]
    rw [funext key]

theorem fit_classes {V O : Type} (B : Obs V O) (k : Option Classes) (hk : ∀ l, k ≠ some (.array l)) (calls : List (List (Sample V) × Option Classes))
    (hc : ∀ c ∈ calls, c.2 = k) (s s' : NB O) (hs : s.classes = none ∨ s.classes = k) (h : fitAll B s calls = .ok s') :
    s'.classes = if calls = [] then s.classes else k := by
  induction calls generalizing s with
  | nil =>
    simp only [fitAll, List.foldlM_nil, pure, Except.pure, Except.ok.injEq] at h
    rw [if_pos rfl, h]
  | cons c calls ih =>
    rw [if_neg (by simp)]
    simp only [fitAll, List.foldlM_cons, bind, Except.bind] at h
    cases h1 : s.partialFit B c.1 c.2 with
    | error e => rw [h1] at h; cases h
    | ok s1 =>
      rw [h1] at h
      simp only [] at h
      have hs1 : s1.classes = k := by
        have hfold : ∀ (b : List (Sample V)) (s : NB O),
            (b.foldl (fun s a => if a.w ≠ 0 then s.learn B a else s) s).classes = s.classes := by
          intro b
          induction b with
          | nil => exact fun _ => rfl
          | cons a b ih =>
            intro s
            rw [List.foldl_cons, ih]
            split
            · rfl
            · rfl
        have hck := hc c List.mem_cons_self
        rw [hck] at h1
        unfold NB.partialFit at h1
        cases k with
        | none =>
          have h0 : s.classes = none := by rcases hs with h | h <;> exact h
          rw [h0] at h1
          simp only [bind, Except.bind, pure, Except.pure, Except.ok.injEq] at h1
          rw [← h1, hfold]; exact h0
        | some c0 =>
          rcases hs with h0 | h0
          · rw [h0] at h1
            simp only [bind, Except.bind, pure, Except.pure, Except.ok.injEq] at h1
            rw [← h1, hfold]
          · rw [h0] at h1
            cases c0 with
            | array l => exact absurd rfl (hk l)
            | list l =>
              simp only [Classes.falsy, bind, Except.bind, pure, Except.pure, Except.ok.injEq] at h1
              rw [← h1, hfold]
              cases l.isEmpty
              · exact h0
              · rfl
      have := ih (fun c m => hc c (List.mem_cons_of_mem _ m)) s1 (.inr hs1) h
      rw [this]
      split
      · exact hs1
      · rfl

theorem weightOf_effective (h : List (Sample ℚ)) (x : List ℚ) (y : Nat) : weightOf (effective h) x y = weightOf h x y := by
  unfold weightOf effective
  induction h with
  | nil => rfl
  | cons a h ih =>
    rw [List.filter_cons]
    by_cases h0 : a.w = 0
    · rw [if_neg (by simpa using h0), ih, List.filter_cons]
      split
      · rw [List.map_cons, List.sum_cons, h0, zero_add]
      · rfl
    · rw [if_pos (by simpa using h0), List.filter_cons, List.filter_cons]
      split
      · rw [List.map_cons, List.sum_cons, List.map_cons, List.sum_cons, ih]
      · exact ih

/-- C286: two `NaiveBayes` models answer alike if every labelled row had the same total weight in the
training data of both: the order of the rows, how they were spread over calls, and whether a row came once with
weight 3 or three times with weight 1 do not matter.  `classes` is the same list in all calls, or never given. -/
theorem C286_total_weights (nominal : Nat → Bool) (pdf : Est → ℚ → ℚ) (k : Option Classes) (hk : ∀ l, k ≠ some (.array l))
    (calls calls' : List (List (Sample ℚ) × Option Classes)) (hc : ∀ c ∈ calls, c.2 = k) (hc' : ∀ c ∈ calls', c.2 = k)
    (hne : calls ≠ []) (hne' : calls' ≠ [])
    (hp : ∀ a ∈ calls.flatMap Prod.fst, 0 ≤ a.w) (hp' : ∀ a ∈ calls'.flatMap Prod.fst, 0 ≤ a.w)
    (hw : ∀ x y, weightOf (calls.flatMap Prod.fst) x y = weightOf (calls'.flatMap Prod.fst) x y) :
    ∃ s s', fitAll (observers nominal pdf) NB.init calls = .ok s ∧ fitAll (observers nominal pdf) NB.init calls' = .ok s' ∧
      ∀ rows, s.proba (observers nominal pdf) rows = s'.proba (observers nominal pdf) rows ∧
        s.predict (observers nominal pdf) rows = s'.predict (observers nominal pdf) rows := by
  obtain ⟨s, h1, f1⟩ := C97_training (observers nominal pdf) calls fun c hm l e => hk l ((hc c hm).symm.trans e)
  obtain ⟨s', h2, f2⟩ := C97_training (observers nominal pdf) calls' fun c hm l e => hk l ((hc' c hm).symm.trans e)
  refine ⟨s, s', h1, h2, fun rows => ?_⟩
  have hcl : s.classes = s'.classes := by
    rw [fit_classes _ k hk calls hc _ _ (.inl rfl) h1, fit_classes _ k hk calls' hc' _ _ (.inl rfl) h2, if_neg hne, if_neg hne']
  have q1 : ∀ (h : List (Sample ℚ)), (∀ a ∈ h, 0 ≤ a.w) → ∀ a ∈ effective h, 0 < a.w := by
    intro h hp a ha
    obtain ⟨m1, m2⟩ := List.mem_filter.1 ha
    exact lt_of_le_of_ne (hp a m1) (Ne.symm (by simpa using m2))
  have q2 : ∀ x y, weightOf (effective (calls.flatMap Prod.fst)) x y = weightOf (effective (calls'.flatMap Prod.fst)) x y := by
    intro x y; rw [weightOf_effective, weightOf_effective, hw]
  have := proba_same (observers nominal pdf) _ _ s s' f1 f2 (q1 _ hp) (q1 _ hp')
    (fun c => mem_same _ _ (q1 _ hp) (q1 _ hp') q2 fun _ y => y = c)
    (joint_same nominal pdf _ _ (q1 _ hp) (q1 _ hp') q2) hcl rows
  exact ⟨this, by unfold NB.predict; rw [this]⟩

/-- The hypotheses are met: a row of weight 2 in front, or twice with weight 1 and behind. -/
example : ∀ x y, weightOf [⟨[1, 0], 0, 2⟩, ⟨[5, 1], 1, 1⟩] x y = weightOf [⟨[5, 1], 1, 1⟩, ⟨[1, 0], 0, 1⟩, ⟨[1, 0], 0, 1⟩] x y := by
  intro x y
  unfold weightOf
  by_cases h1 : [1, 0] = x ∧ 0 = y <;> by_cases h2 : [5, 1] = x ∧ 1 = y <;> simp [List.filter_cons, h1, h2] <;> norm_num

end Verif.Bayes
