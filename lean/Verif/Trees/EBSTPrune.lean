import Verif.Trees.EBST
import Mathlib.Data.List.Perm.Subperm

/-!
The regression attribute observer under any mixture of updates and prunings: what remains true of
the candidate statistics (C62).
-/

namespace Verif.Trees.EBST

/-! ### Specification -/

/-- An operation of the observer. -/
inductive Op where
  | obs (o : Obs)
  | prune (merit : Stat → Stat → ℚ) (bad : ℚ → Bool) (pre : Stat)

/-- The observer after some operations; numeric_attribute_regression_observer.py 74-81 and 160-284. -/
def runOps : Bst → List Op → Except PyErr Bst
  | t, [] => .ok t
  | t, .obs o :: ops => runOps (t.update o.att o.target o.weight) ops
  | t, .prune merit bad pre :: ops =>
    match t.removeBad merit bad pre with
    | .error e => .error e
    | .ok t' => runOps t' ops

/-- The observations among the operations. -/
def observed : List Op → List Obs
  | [] => []
  | .obs o :: ops => o :: observed ops
  | .prune _ _ _ :: ops => observed ops

/-- Statistics of a list of observations. -/
def obsTotal (l : List Obs) : Stat :=
  ⟨(l.map fun o => o.weight).sum, (l.map fun o => o.weight * o.target).sum,
   (l.map fun o => o.weight * o.target ^ 2).sum⟩

/-! ### Proofs -/

/-- Every node counts some of the observations at or below its value. -/
def Loose : Bst → List (ℚ × Stat) → Prop
  | .nil, _ => True
  | .node v st l r, obs => (∃ o ∈ obs, o.1 = v) ∧ (∃ A, A.Sublist (obs.filter fun o => o.1 ≤ v) ∧ st = tot A) ∧
      Loose l (obs.filter fun o => o.1 < v) ∧ Loose r (obs.filter fun o => v < o.1)

theorem Loose.mono {t : Bst} {a b : List (ℚ × Stat)} (h : Loose t a) (hs : a.Sublist b) : Loose t b := by
  induction t generalizing a b with
  | nil => trivial
  | node v st l r ihl ihr =>
    obtain ⟨⟨o, ho, e⟩, ⟨A, hA, hst⟩, h3, h4⟩ := h
    exact ⟨⟨o, hs.subset ho, e⟩, ⟨A, hA.trans (hs.filter _), hst⟩, ihl h3 (hs.filter _), ihr h4 (hs.filter _)⟩

theorem Loose.insert {t : Bst} {obs : List (ℚ × Stat)} (h : Loose t obs) (a : ℚ) (x : Stat) :
    Loose (t.insert a x) (obs ++ [(a, x)]) := by
  induction t generalizing obs with
  | nil =>
    exact ⟨⟨(a, x), by simp, rfl⟩, ⟨[(a, x)], by simp [List.filter_append], by simp [tot, sadd_zero]⟩, trivial, trivial⟩
  | node v st l r ihl ihr =>
    obtain ⟨⟨o, ho, e⟩, ⟨A, hA, hst⟩, h3, h4⟩ := h
    have hex : ∃ o ∈ obs ++ [(a, x)], o.1 = v := ⟨o, by simp [ho], e⟩
    have hsub : obs.Sublist (obs ++ [(a, x)]) := List.sublist_append_left _ _
    rw [Bst.insert]
    by_cases c1 : a = v
    · rw [if_pos c1]
      refine ⟨hex, ⟨A ++ [(a, x)], ?_, ?_⟩, h3.mono (hsub.filter _), h4.mono (hsub.filter _)⟩
      · rw [List.filter_append]
        exact hA.append (by simp [c1])
      · rw [tot_append, hst]; simp [tot, sadd_zero]
    · rw [if_neg c1]
      by_cases c2 : a < v
      · rw [if_pos c2]
        refine ⟨hex, ⟨A ++ [(a, x)], ?_, ?_⟩, ?_, h4.mono (hsub.filter _)⟩
        · rw [List.filter_append]
          exact hA.append (by simp [le_of_lt c2])
        · rw [tot_append, hst]; simp [tot, sadd_zero]
        · have := ihl h3
          simpa [List.filter_append, c2] using this
      · rw [if_neg c2]
        have c3 : v < a := lt_of_le_of_ne (not_lt.mp c2) (fun e => c1 e.symm)
        refine ⟨hex, ⟨A, hA.trans (hsub.filter _), hst⟩, h3.mono (hsub.filter _), ?_⟩
        have := ihr h4
        simpa [List.filter_append, c3] using this

theorem Loose.prune {t : Bst} {obs : List (ℚ × Stat)} (h : Loose t obs) (merit : Stat → Stat → ℚ) (bad : ℚ → Bool)
    (pre aux : Stat) : Loose (t.prune merit bad pre aux).1 obs := by
  induction t generalizing obs aux with
  | nil => trivial
  | node v st l r ihl ihr =>
    obtain ⟨h1, h2, h3, h4⟩ := h
    have il := ihl h3 aux
    have ir := ihr h4 (aux + st)
    rw [Bst.prune]
    cases hl : l.prune merit bad pre aux with
    | mk l' b =>
      rw [hl] at il
      cases b with
      | false => exact ⟨h1, h2, il, h4⟩
      | true =>
        simp only []
        cases hr : r.prune merit bad pre (aux + st) with
        | mk r' b' =>
          rw [hr] at ir
          cases b' with
          | false => exact ⟨h1, h2, il, ir⟩
          | true =>
            simp only []
            by_cases hb : bad (merit (st + aux) (pre - (st + aux))) = true
            · rw [if_pos hb]; trivial
            · rw [if_neg hb]; exact ⟨h1, h2, il, ir⟩

theorem loose_cands {t : Bst} {obs : List (ℚ × Stat)} (h : Loose t obs) (aux : Stat) (u : ℚ) (L : Stat)
    (hm : (u, L) ∈ t.cands aux) :
    (∃ o ∈ obs, o.1 = u) ∧ ∃ A : List (ℚ × Stat), A.Subperm (obs.filter fun o => o.1 ≤ u) ∧ L = tot A + aux := by
  induction t generalizing obs aux with
  | nil => simp [Bst.cands] at hm
  | node v st l r ihl ihr =>
    obtain ⟨h1, ⟨A, hA, hst⟩, h3, h4⟩ := h
    rw [Bst.cands] at hm
    rcases List.mem_append.mp hm with hm | hm
    · obtain ⟨⟨o, ho, e⟩, B, hB, hL⟩ := ihl h3 aux hm
      exact ⟨⟨o, (List.mem_filter.mp ho).1, e⟩, B,
        hB.trans ((List.filter_sublist).filter _).subperm, hL⟩
    · rcases List.mem_cons.mp hm with hm | hm
      · simp only [Prod.mk.injEq] at hm
        obtain ⟨rfl, rfl⟩ := hm
        exact ⟨h1, A, hA.subperm, by rw [hst]⟩
      · obtain ⟨⟨o, ho, e⟩, B, hB, hL⟩ := ihr h4 (aux + st) hm
        have hvu : v < u := by
          have := (List.mem_filter.mp ho).2
          simp only [decide_eq_true_eq] at this
          rwa [e] at this
        refine ⟨⟨o, (List.mem_filter.mp ho).1, e⟩, A ++ B, ?_, ?_⟩
        · have h5 : (A ++ B).Subperm ((obs.filter fun o => o.1 ≤ v) ++ ((obs.filter fun o => v < o.1).filter fun o => o.1 ≤ u)) :=
            hA.subperm.append hB
          refine h5.trans (List.Perm.subperm ?_)
          have h6 : (obs.filter fun o => o.1 ≤ v) = (obs.filter fun o => o.1 ≤ u).filter fun o => o.1 ≤ v := by
            rw [List.filter_filter]
            congr 1
            funext o
            by_cases ho : o.1 ≤ v
            · simp [ho, le_trans ho hvu.le]
            · simp [ho]
          have h7 : ((obs.filter fun o => v < o.1).filter fun o => o.1 ≤ u) =
              (obs.filter fun o => o.1 ≤ u).filter fun o => !decide (o.1 ≤ v) := by
            rw [List.filter_filter, List.filter_filter]
            congr 1
            funext o
            by_cases ho : o.1 ≤ v
            · simp [ho]
            · simp [not_le.mp ho, ho]
          rw [h6, h7]
          exact List.filter_append_perm _ _
        · rw [hL, tot_append, ← hst]
          ext <;> simp only [add_n, add_s, add_q] <;> ring

theorem runOps_loose (ops : List Op) (t t' : Bst) (h0 : List Obs) (h : Loose t (keyed h0)) (hr : runOps t ops = .ok t') :
    Loose t' (keyed (h0 ++ observed ops)) := by
  induction ops generalizing t h0 with
  | nil =>
    simp only [runOps, Except.ok.injEq] at hr
    rw [← hr]; simpa [observed] using h
  | cons op ops ih =>
    cases op with
    | obs o =>
      rw [runOps] at hr
      have : Loose (t.update o.att o.target o.weight) (keyed (h0 ++ [o])) := by
        cases ha : o.att with
        | none => simpa [Bst.update, keyed, ha] using h
        | some a => simpa [Bst.update, keyed, ha] using h.insert a (obsStat o.target o.weight)
      have := ih _ (h0 ++ [o]) this hr
      simpa [observed] using this
    | prune merit bad pre =>
      rw [runOps] at hr
      cases t with
      | nil => simp [Bst.removeBad] at hr
      | node v st l r =>
        simp only [Bst.removeBad] at hr
        exact ih _ h0 (h.prune merit bad pre 0) hr

theorem tot_keyed (l : List Obs) (h : ∀ o ∈ l, o.att ≠ none) : tot (keyed l) = obsTotal l := by
  induction l with
  | nil => rfl
  | cons o l ih =>
    have hl := ih fun o' m => h o' (List.mem_cons_of_mem _ m)
    cases ha : o.att with
    | none => exact absurd ha (h o List.mem_cons_self)
    | some a =>
      have : keyed (o :: l) = (a, obsStat o.target o.weight) :: keyed l := by simp [keyed, ha]
      rw [this]
      show obsStat o.target o.weight + tot (keyed l) = _
      rw [hl]
      ext <;> simp only [obsTotal, add_n, add_s, add_q, obsStat, List.map_cons, List.sum_cons] <;> ring

theorem keyed_sub (h : List Obs) (u : ℚ) (A : List (ℚ × Stat)) (hA : A.Sublist ((keyed h).filter fun o => o.1 ≤ u)) :
    ∃ B, B.Sublist h ∧ (∀ o ∈ B, ∃ a, o.att = some a ∧ a ≤ u) ∧ A = keyed B := by
  induction h generalizing A with
  | nil =>
    refine ⟨[], List.Sublist.refl _, by simp, ?_⟩
    simpa [keyed] using hA
  | cons o h ih =>
    cases ha : o.att with
    | none =>
      have : keyed (o :: h) = keyed h := by simp [keyed, ha]
      rw [this] at hA
      obtain ⟨B, b1, b2, b3⟩ := ih A hA
      exact ⟨B, b1.trans (List.sublist_cons_self _ _), b2, b3⟩
    | some a =>
      have : keyed (o :: h) = (a, obsStat o.target o.weight) :: keyed h := by simp [keyed, ha]
      rw [this] at hA
      by_cases hu : a ≤ u
      · rw [List.filter_cons_of_pos (by simpa using hu)] at hA
        rcases List.sublist_cons_iff.mp hA with hA | ⟨A', rfl, hA'⟩
        · obtain ⟨B, b1, b2, b3⟩ := ih A hA
          exact ⟨B, b1.trans (List.sublist_cons_self _ _), b2, b3⟩
        · obtain ⟨B, b1, b2, b3⟩ := ih A' hA'
          refine ⟨o :: B, b1.cons_cons o, ?_, by simp [keyed, ha, b3]⟩
          intro o' ho'
          rcases List.mem_cons.mp ho' with rfl | ho'
          · exact ⟨a, ha, hu⟩
          · exact b2 o' ho'
      · rw [List.filter_cons_of_neg (by simpa using hu)] at hA
        obtain ⟨B, b1, b2, b3⟩ := ih A hA
        exact ⟨B, b1.trans (List.sublist_cons_self _ _), b2, b3⟩

theorem tot_perm {a b : List (ℚ × Stat)} (h : a.Perm b) : tot a = tot b := by
  induction h with
  | nil => rfl
  | cons x _ ih => show x.2 + tot _ = x.2 + tot _; rw [ih]
  | swap x y l =>
    show y.2 + (x.2 + tot l) = x.2 + (y.2 + tot l)
    ext <;> simp only [add_n, add_s, add_q] <;> ring
  | trans _ _ i1 i2 => rw [i1, i2]

/-- C62 (partial): whatever observations and prunings took place, every candidate threshold was
observed, and its left statistics are those of some of the observations at or below it (never of
an observation above it, and none is counted twice). -/
theorem C62_subset_partial (ops : List Op) (t : Bst) (hr : runOps .nil ops = .ok t) (u : ℚ) (L : Stat)
    (hm : (u, L) ∈ t.cands 0) :
    Observed (observed ops) u ∧
    ∃ B, B.Sublist (observed ops) ∧ (∀ o ∈ B, ∃ a, o.att = some a ∧ a ≤ u) ∧ L = obsTotal B := by
  have hl := runOps_loose ops .nil t [] trivial hr
  rw [List.nil_append] at hl
  obtain ⟨h1, A, hA, hL⟩ := loose_cands hl 0 u L hm
  refine ⟨(keyed_observed _ u).mp h1, ?_⟩
  obtain ⟨A', p, s⟩ := hA
  obtain ⟨B, b1, b2, b3⟩ := keyed_sub (observed ops) u A' s
  refine ⟨B, b1, b2, ?_⟩
  rw [hL, sadd_zero, ← tot_perm p, b3]
  exact tot_keyed B fun o ho => by obtain ⟨a, ha, _⟩ := b2 o ho; simp [ha]

/-- Non-vacuity: the operations of `C62_stats_after_prune_violated`. -/
example : (runOps .nil [.obs ⟨some 1, 1, 1⟩, .obs ⟨some 2, 1, 1⟩,
      .prune (fun L _ => L.n) (fun m => m > 1) ⟨2, 2, 2⟩, .obs ⟨some 3, 1, 1⟩]).toOption.map (fun t => t.cands 0) =
    some [(1, ⟨1, 1, 1⟩), (3, ⟨2, 2, 2⟩)] := by
  decide +kernel

end Verif.Trees.EBST
