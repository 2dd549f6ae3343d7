import Verif.Trees.HTRPerc
import Mathlib.Data.List.Perm.Subperm

/-!
The statistics in the leaves of a Hoeffding tree regressor: conservation (C170) and the range of
target-mean predictions (C172).
-/

namespace Verif.Trees.HR

open Verif.Trees Verif.Trees.Grow Verif.Trees.EBST
open Verif.Trees.HL (Test)

/-! ### Specification

The attribute observers of a leaf are represented by the rows they were shown; which split
suggestions they make from these is known (C35, C62 for numeric, C64 for nominal attributes). -/

/-- A training row as the observers see it. -/
structure Row where
  x : List ℚ
  y : ℚ
  w : ℚ

/-- Weight, sum and sum of squares of the targets of some rows. -/
def rowStat (l : List Row) : Stat :=
  ⟨(l.map Row.w).sum, (l.map fun r => r.w * r.y).sum, (l.map fun r => r.w * r.y ^ 2).sum⟩

/-- The row goes to branch `i` of the test. -/
def goes (t : Test) (i : Nat) (r : Row) : Bool :=
  match t.branch r.x with
  | .ok b => b = (i : Int)
  | .error _ => false

/-- The test is multiway. -/
def multi : Test → Bool
  | .multi _ => true
  | _ => false

/-- The branch statistics a leaf with statistics `st` may get from observers that were shown the rows
`h`: for a multiway test the rows observed with each category; otherwise some of the rows
observed that go to the first branch (all of them, unless the observer was pruned), and the
difference to `st`. -/
def Cand (h : List Row) (st : Stat) (t : Test) (ds : List Stat) : Prop :=
  if multi t then ∀ i d, ds[i]? = some d → d = rowStat (h.filter (goes t i))
  else ∃ A, A.Subperm (h.filter (goes t 0)) ∧ ds = [rowStat A, st - rowStat A]

/-- The observers remember the rows. -/
def Remembers (cfg : Cfg (List Row)) : Prop :=
  cfg.fresh = [] ∧ ∀ o x y w, cfg.update o x y w = o ++ [⟨x, y, w⟩]

/-- The splits of this row are suggestions of the observers; the observers do not forget rows. -/
def Ev.Fair (e : Ev (List Row)) : Prop :=
  (∀ l st t ds, l.stats = some st → e.choose l = .split t ds → Cand l.obs st t ds) ∧
  ∀ l f, e.choose l = .keep f → f = id

/-- The row of a training event. -/
def Ev.row (e : Ev O) : Row := ⟨e.x, e.y, e.w⟩

/-! ### C172: range of the predictions -/

theorem rowStat_append (a b : List Row) : rowStat (a ++ b) = rowStat a + rowStat b := by
  ext <;> simp [rowStat, add_n, add_s, add_q]

theorem rowStat_perm {a b : List Row} (h : a.Perm b) : rowStat a = rowStat b := by
  unfold rowStat
  rw [(h.map Row.w).sum_eq, (h.map fun r => r.w * r.y).sum_eq, (h.map fun r => r.w * r.y ^ 2).sum_eq]

theorem sub_n (a b : Stat) : (a - b).n = a.n - b.n := rfl
theorem sub_s (a b : Stat) : (a - b).s = a.s - b.s := rfl
theorem sub_q (a b : Stat) : (a - b).q = a.q - b.q := rfl

theorem rowStat_sub {A R : List Row} (h : A.Subperm R) :
    ∃ R', (∀ r ∈ R', r ∈ R) ∧ rowStat R - rowStat A = rowStat R' := by
  obtain ⟨A', p, s⟩ := h
  obtain ⟨R', q⟩ := s.exists_perm_append
  refine ⟨R', fun r hr => q.symm.subset (List.mem_append_right _ hr), ?_⟩
  rw [rowStat_perm q, rowStat_append, rowStat_perm p]
  ext <;> simp only [add_n, add_s, add_q, sub_n, sub_s, sub_q] <;> ring

theorem addStat_row (R : List Row) (x : List ℚ) (y w : ℚ) :
    addStat (some (rowStat R)) y w = rowStat (R ++ [⟨x, y, w⟩]) := by
  rw [rowStat_append]
  ext <;> simp only [addStat, rowStat, add_n, add_s, add_q, List.map_cons, List.map_nil, List.sum_cons, List.sum_nil] <;> ring

theorem addStat_row0 (x : List ℚ) (y w : ℚ) : addStat none y w = rowStat [⟨x, y, w⟩] := by
  ext <;> simp only [addStat, rowStat, List.map_cons, List.map_nil, List.sum_cons, List.sum_nil] <;> ring

theorem learn_stats (cfg : Cfg O) (s : Sums) (e : Ev O) (l l' : Leaf O) (h : l.learn cfg s e = .ok l') :
    l'.stats = some (addStat l.stats e.y e.w) ∧ l'.active = l.active ∧
    l'.obs = if l.active then cfg.update l.obs e.x e.y e.w else l.obs := by
  unfold Leaf.learn at h
  by_cases hp : cfg.perceptron = true
  · simp only [if_pos hp] at h
    cases hu : updateMany cfg s e.x e.y
        (if cfg.lrConst then cfg.lr else cfg.lr / (1 + (addStat l.stats e.y e.w).n * cfg.decay)) ⌊e.w⌋.toNat
        (if l.w = .unset then .ok e.init else l.w) with
    | error err => rw [hu] at h; simp at h
    | ok w =>
      rw [hu] at h
      simp only [Except.ok.injEq] at h
      rw [← h]
      exact ⟨rfl, rfl, rfl⟩
  · simp only [if_neg hp, Except.ok.injEq] at h
    rw [← h]
    exact ⟨rfl, rfl, rfl⟩

/-- Statistics of a non-empty selection of the training rows. -/
def Stat.From (T : List Row) (s : Option Stat) : Prop :=
  ∃ R, (∀ r ∈ R, r ∈ T) ∧ s = some (rowStat R) ∧ 0 < (rowStat R).n

/-- A leaf whose statistics are those of training rows, the observed ones among them. -/
def Leaf.From (T : List Row) (l : Leaf (List Row)) : Prop :=
  ∃ R, (∀ r ∈ R, r ∈ T) ∧ l.obs.Subperm R ∧ l.stats = some (rowStat R) ∧ 0 < (rowStat R).n

theorem Leaf.From.stat {T : List Row} {l : Leaf (List Row)} (h : l.From T) : Stat.From T l.stats := by
  obtain ⟨R, h1, _, h3, h4⟩ := h; exact ⟨R, h1, h3, h4⟩

theorem learn_from (cfg : Cfg (List Row)) (hc : Remembers cfg) (T : List Row) (s : Sums) (e : Ev (List Row)) (hw : 0 < e.w)
    (hT : e.row ∈ T) (l l' : Leaf (List Row)) (hl : l.From T ∨ l = newLeaf cfg true none .unset)
    (h : l.learn cfg s e = .ok l') : l'.From T := by
  obtain ⟨h1, h2, h3⟩ := learn_stats cfg s e l l' h
  rcases hl with ⟨R, r1, r2, r3, r4⟩ | rfl
  · refine ⟨R ++ [e.row], ?_, ?_, ?_, ?_⟩
    · intro r hr
      rcases List.mem_append.mp hr with hr | hr
      · exact r1 r hr
      · rw [List.mem_singleton.mp hr]; exact hT
    · rw [h3]
      by_cases ha : l.active = true
      · rw [if_pos ha, hc.2]
        exact r2.append (List.Subperm.refl _)
      · rw [if_neg ha]
        exact r2.trans (List.sublist_append_left _ _).subperm
    · rw [h1, r3, addStat_row R e.x]; rfl
    · rw [rowStat_append, add_n]
      have : (rowStat [e.row]).n = e.w := by simp [rowStat, Ev.row]
      rw [this]; linarith
  · refine ⟨[e.row], ?_, ?_, ?_, ?_⟩
    · intro r hr; rw [List.mem_singleton.mp hr]; exact hT
    · rw [h3]
      simp only [newLeaf, if_true, hc.1, hc.2, List.nil_append]
      exact List.Subperm.refl _
    · rw [h1]; simp only [newLeaf]; rw [addStat_row0 e.x]; rfl
    · simpa [rowStat, Ev.row] using hw

theorem new_from (cfg : Cfg (List Row)) (hc : Remembers cfg) (T : List Row) (a : Bool) (s : Option Stat) (w : Weights)
    (h : Stat.From T s) : (newLeaf cfg a s w).From T := by
  obtain ⟨R, h1, h2, h3⟩ := h
  exact ⟨R, h1, by simp [newLeaf, hc.1], h2, h3⟩

theorem attempt_from (cfg : Cfg (List Row)) (hc : Remembers cfg) (T : List Row) (e : Ev (List Row)) (hf : e.Fair)
    (hpos : ∀ l t ds, e.choose l = .split t ds → ∀ d ∈ ds, 0 < d.n) (l : Leaf (List Row)) (hl : l.From T) :
    (attempt cfg e l).All (Leaf.From T) (Stat.From T) := by
  unfold attempt
  by_cases hcnd : e.growth = true ∧ l.active = true ∧ weight l.stats - l.last ≥ cfg.grace
  · rw [if_pos hcnd]
    cases hch : e.choose l with
    | keep f =>
      have := hf.2 l f hch
      subst this
      obtain ⟨R, r1, r2, r3, r4⟩ := hl
      exact ⟨R, r1, r2, r3, r4⟩
    | prune => exact new_from cfg hc T false l.stats l.w hl.stat
    | split t ds =>
      obtain ⟨_, _, k3⟩ := kidsFrom_facts (S := Option Stat) 0 (fun d => newLeaf cfg true (some d) l.w) ds 0
      refine ⟨hl.stat, k3 _ _ fun d hd => new_from cfg hc T true (some d) l.w ?_⟩
      have hp := hpos l t ds hch d hd
      obtain ⟨R, r1, r2, r3, r4⟩ := hl
      have hcand := hf.1 l _ t ds r3 hch
      unfold Cand at hcand
      by_cases hm : multi t = true
      · rw [if_pos hm] at hcand
        obtain ⟨i, hi, rfl⟩ := List.getElem_of_mem hd
        have := hcand i ds[i] (List.getElem?_eq_getElem hi)
        refine ⟨l.obs.filter (goes t i), fun r hr => r1 r (r2.subset (List.mem_filter.mp hr).1), by rw [this], by rw [← this]; exact hp⟩
      · rw [if_neg hm] at hcand
        obtain ⟨A, a1, a2⟩ := hcand
        have a3 : A.Subperm R := a1.trans (List.filter_sublist.subperm.trans r2)
        rw [a2] at hd
        simp only [List.mem_cons, List.not_mem_nil, or_false] at hd
        rcases hd with rfl | rfl
        · exact ⟨A, fun r hr => r1 r (a3.subset hr), rfl, hp⟩
        · obtain ⟨R', q1, q2⟩ := rowStat_sub a3
          exact ⟨R', fun r hr => r1 r (q1 r hr), by rw [q2], by rw [← q2]; exact hp⟩
  · rw [if_neg hcnd]; exact hl

theorem setActive_from (cfg : Cfg (List Row)) (hc : Remembers cfg) (T : List Row) (a : Option Bool) (l : Leaf (List Row))
    (hl : l.From T) : (setActive cfg a l).From T := by
  unfold setActive
  cases a with
  | none => exact hl
  | some a =>
    by_cases ha : l.active = a
    · simp only [if_pos ha]; exact hl
    · simp only [if_neg ha]; exact new_from cfg hc T a l.stats l.w hl.stat

theorem mean_total (cfg : Cfg O) (hp : cfg.perceptron = false) (n : Nat) (es : List (Ev O)) (he : ∀ e ∈ es, e.Ok n) :
    ∀ h : Reg O, (∀ r, h.root = some r → r.WF n) →
      ∃ h', run cfg h es = .ok h' ∧ h'.sums.n = h.sums.n + total es ∧ (es ≠ [] → h'.root ≠ none) := by
  induction es with
  | nil => intro h _; exact ⟨h, rfl, by simp [total], fun hn => absurd rfl hn⟩
  | cons e es ih =>
    intro h hwf
    have hee := he e List.mem_cons_self
    have hlearn : ∀ l : Leaf O, ∃ l', l.learn cfg (h.sums.add e.x e.y e.w) e = .ok l' := by
      intro l; unfold Leaf.learn; simp only [hp, Bool.false_eq_true, if_false]; exact ⟨_, rfl⟩
    have hstep : ∃ h', step cfg h e = .ok h' := by
      have hwf' : (h.root.getD (.leaf (newLeaf cfg true none .unset))).WF n := by
        cases hr : h.root with
        | none => trivial
        | some r => exact hwf r hr
      unfold step
      rcases G.learn_spec n e.x hee.1 _ hwf' with ⟨l, r1, pre, post, p1, p2⟩ | ⟨s, r1, pre, post, p1, p2⟩
      · obtain ⟨l', hl'⟩ := hlearn l
        obtain ⟨r', w1, _⟩ := (p2 (fun l => (l.learn cfg (h.sums.add e.x e.y e.w) e).map (attempt cfg e))
          (fun l => l.learn cfg (h.sums.add e.x e.y e.w) e) (newLeaf cfg true none .unset)).2 (attempt cfg e l')
          (by simp only [hl', Except.map])
        simp only [w1]; exact ⟨_, rfl⟩
      · obtain ⟨l', hl'⟩ := hlearn (newLeaf cfg true none .unset)
        obtain ⟨r', w1, _⟩ := (p2 (fun l => (l.learn cfg (h.sums.add e.x e.y e.w) e).map (attempt cfg e))
          (fun l => l.learn cfg (h.sums.add e.x e.y e.w) e) (newLeaf cfg true none .unset)).2 l' hl'
        simp only [w1]; exact ⟨_, rfl⟩
    obtain ⟨h1, hs⟩ := hstep
    have hall : h.All n (fun _ => True) (fun _ => True) := by
      intro r hr
      refine ⟨hwf r hr, ?_⟩
      have : ∀ (r : G (Leaf O) (Option Stat)), r.All (fun _ => True) (fun _ => True) := G.all_true
      exact this r
    obtain ⟨a1, a2, a3⟩ := step_all cfg n (fun _ => True) (fun _ => True) h h1 e hee hall (fun _ _ _ _ => trivial)
      (fun l _ => G.all_true _) (fun _ _ _ => trivial) hs
    obtain ⟨h2, k1, k2, k3⟩ := ih (fun e' m => he e' (List.mem_cons_of_mem _ m)) h1 (fun r hr => (a1 r hr).1)
    refine ⟨h2, by simp only [run, hs, k1], ?_, fun _ => ?_⟩
    · rw [k2, a3]; simp only [Sums.add, total, List.map_cons, List.sum_cons]; ring
    · by_cases hne : es = []
      · subst hne
        simp only [run, Except.ok.injEq] at k1
        rw [← k1]; exact a2
      · exact k3 hne

theorem mean_range (T : List Row) (lo hi : ℚ) (hw : ∀ r ∈ T, 0 < r.w) (hy : ∀ r ∈ T, lo ≤ r.y ∧ r.y ≤ hi) (s : Option Stat)
    (h : Stat.From T s) : ∃ p, mean s = some p ∧ lo ≤ p ∧ p ≤ hi := by
  obtain ⟨R, h1, rfl, h3⟩ := h
  refine ⟨(rowStat R).s / (rowStat R).n, by simp only [mean, if_neg h3.ne'], ?_, ?_⟩
  · rw [le_div_iff₀ h3]
    clear h3
    induction R with
    | nil => simp [rowStat]
    | cons r R ih =>
      have i1 := ih fun r' m => h1 r' (List.mem_cons_of_mem _ m)
      have i2 := mul_le_mul_of_nonneg_left (hy r (h1 r List.mem_cons_self)).1 (hw r (h1 r List.mem_cons_self)).le
      simp only [rowStat, List.map_cons, List.sum_cons] at i1 ⊢
      linarith
  · rw [div_le_iff₀ h3]
    clear h3
    induction R with
    | nil => simp [rowStat]
    | cons r R ih =>
      have i1 := ih fun r' m => h1 r' (List.mem_cons_of_mem _ m)
      have i2 := mul_le_mul_of_nonneg_left (hy r (h1 r List.mem_cons_self)).2 (hw r (h1 r List.mem_cons_self)).le
      simp only [rowStat, List.map_cons, List.sum_cons] at i1 ⊢
      linarith

/-- C172 (partial): a tree with target-mean leaves, trained with positive weights, and whose splits
give every branch a positive weight, predicts for every row a value between the smallest and the
largest target it was trained on.  Missing (and false, see the violation): splits with an empty
branch. -/
theorem C172_range_partial (cfg : Cfg (List Row)) (hc : Remembers cfg) (hp : cfg.perceptron = false) (n : Nat)
    (es : List (Ev (List Row))) (hne : es ≠ []) (he : ∀ e ∈ es, e.Ok n) (hf : ∀ e ∈ es, e.Fair) (hw : ∀ e ∈ es, 0 < e.w)
    (hpos : ∀ e ∈ es, ∀ l t ds, e.choose l = .split t ds → ∀ d ∈ ds, 0 < d.n)
    (lo hi : ℚ) (hy : ∀ e ∈ es, lo ≤ e.y ∧ e.y ≤ hi) (x : List ℚ) (hx : x.length = n) :
    ∃ h p, run cfg {} es = .ok h ∧ predict cfg h [x] = .ok [some p] ∧ lo ≤ p ∧ p ≤ hi := by
  obtain ⟨h, h1, h2, h3⟩ := mean_total cfg hp n es he {} (by simp)
  have hall := run_all cfg n (Leaf.From (es.map Ev.row)) (Stat.From (es.map Ev.row)) es he
    (fun e m s l l' hl hlr => learn_from cfg hc _ s e (hw e m) (List.mem_map_of_mem m) l l' hl hlr)
    (fun e m l hl => attempt_from cfg hc _ e (hf e m) (hpos e m) l hl)
    (fun a l hl => setActive_from cfg hc _ a l hl) {} h (all_empty n _ _) h1
  have hwT : ∀ r ∈ es.map Ev.row, 0 < r.w := by
    simp only [List.mem_map]; rintro _ ⟨e, m, rfl⟩; exact hw e m
  have hyT : ∀ r ∈ es.map Ev.row, lo ≤ r.y ∧ r.y ≤ hi := by
    simp only [List.mem_map]; rintro _ ⟨e, m, rfl⟩; exact hy e m
  have hn : h.sums.n > 0 := by
    rw [h2]
    simp only [zero_add]
    exact List.sum_pos _ (by simp only [List.mem_map]; rintro _ ⟨e, m, rfl⟩; exact hw e m) (by simpa using hne)
  cases hr : h.root with
  | none => exact absurd hr (h3 hne)
  | some r =>
    obtain ⟨w1, w2⟩ := hall r hr
    obtain ⟨ra, rb⟩ := G.route_all _ _ x r w2
    rcases G.learn_spec n x hx r w1 with ⟨l, r1, _⟩ | ⟨s, r1, _⟩
    · obtain ⟨p, p1, p2⟩ := mean_range _ lo hi hwT hyT _ (ra l r1).stat
      refine ⟨h, p, h1, ?_, p2⟩
      simp only [predict, hr, if_pos hn, predictAll, predictOne, r1, hp, Bool.false_eq_true, if_false, p1]
    · obtain ⟨p, p1, p2⟩ := mean_range _ lo hi hwT hyT _ (rb s r1)
      obtain ⟨R, _, rfl, _⟩ := rb s r1
      refine ⟨h, p, h1, ?_, p2⟩
      simp only [predict, hr, if_pos hn, predictAll, predictOne, r1, p1]

end Verif.Trees.HR
