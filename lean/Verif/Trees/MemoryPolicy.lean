import Verif.Trees.Hoeffding
import Mathlib.Data.List.Sort
import Mathlib.Algebra.Order.Field.Rat
import Mathlib.Data.Rat.Lemmas
import Mathlib.Tactic.Linarith
import Mathlib.Tactic.Ring
import Mathlib.Algebra.Order.BigOperators.Group.List

/-!
Policies of the memory management of Hoeffding trees, over the model of the tree in
`Trees/Hoeffding.lean`: which leaves are switched off (`_sort_learning_nodes` of
`trees/hoeffding_tree.py` and `trees/hoeffding_tree_regressor.py`), what
`stop_mem_management` does, and when the sizes are estimated
(`memory_estimate_period`).

Simplifications: sizes in bytes are arbitrary parameters of every estimate.
-/

namespace Verif.Trees.HT

/-! ### Order of the leaves -/

/-- Greatest element of a list of statistics, 0 for none. -/
def greatest (l : List ℚ) : ℚ := match l with
  | [] => 0
  | x :: xs => xs.foldl max x

/-- `calculate_promise`, base.py 118-132: `stats` are the weights of the classes. -/
def promise (stats : List ℚ) : ℚ := if stats.sum > 0 then stats.sum - greatest stats else 0

/-- `_sort_learning_nodes`, hoeffding_tree.py 633-636; `stats` gives the statistics of
the leaf at a path. -/
def byPromise (stats : Path → List ℚ) (l : List Path) : List Path :=
  l.insertionSort fun p q => promise (stats p) ≤ promise (stats q)

/-- `_sort_learning_nodes`, hoeffding_tree_regressor.py 516-519: the depth of a node
found by `__find_learning_nodes` is the length of its path. -/
def byDepth (l : List Path) : List Path := l.insertionSort fun p q => p.length ≥ q.length

theorem byPromise_perm (stats : Path → List ℚ) (l : List Path) : (byPromise stats l).Perm l :=
  List.perm_insertionSort _ l

theorem byDepth_perm (l : List Path) : (byDepth l).Perm l := List.perm_insertionSort _ l

/-- Leaves that are switched off come first in the order. -/
theorem enforce_order (M : ℚ) (stopMem : Bool) (h : HT) (hw : h.WF) (r : T) (hr : h.root = some r)
    (m : Mem) (hsort : (m.sort (r.learning [])).Perm (r.learning []))
    (hgo : ¬ ((h.inact > 0 ∨ (m.a + h.inact * m.i) * m.f > M) ∧ stopMem = true))
    (R : Path → Path → Prop) (hR : (m.sort (r.learning [])).Pairwise R) (p q : Path) (b c : Bool)
    (hp : LeafAt h p b) (hq : LeafAt h q c) (hpa : LeafAt (h.enforce M stopMem m) p true)
    (hqa : LeafAt (h.enforce M stopMem m) q false) : R q p := by
  obtain ⟨k, -, -, -, k4, k5, k6⟩ := C65_memory_limit M stopMem h hw r hr m hsort hgo
  set order := m.sort (r.learning []) with ho
  have h1 := k6 p b hp
  have h2 := k6 q c hq
  rw [← List.take_append_drop (order.length - k) order] at h1 h2 hR
  have hp' : p ∈ order.drop (order.length - k) := by
    rcases List.mem_append.mp h1 with h | h
    · exact absurd (leafAt_unique (k4 p h) hpa) (by simp)
    · exact h
  have hq' : q ∈ order.take (order.length - k) := by
    rcases List.mem_append.mp h2 with h | h
    · exact h
    · exact absurd (leafAt_unique (k5 q h) hqa) (by simp)
  exact (List.pairwise_append.mp hR).2.2 q hq' p hp'

/-- The weight of the samples outside a majority class, for the weights of the classes. -/
def Outside (l : List ℚ) (x : ℚ) : Prop :=
  (l = [] ∧ x = 0) ∨ ∃ l1 m l2, l = l1 ++ m :: l2 ∧ (∀ w ∈ l, w ≤ m) ∧ x = l1.sum + l2.sum

theorem foldl_max_spec (l : List ℚ) (a : ℚ) :
    (l.foldl max a = a ∨ l.foldl max a ∈ l) ∧ a ≤ l.foldl max a ∧ ∀ w ∈ l, w ≤ l.foldl max a := by
  induction l generalizing a with
  | nil => simp
  | cons x l ih =>
    obtain ⟨h1, h2, h3⟩ := ih (max a x)
    rw [List.foldl_cons]
    refine ⟨?_, le_trans (le_max_left _ _) h2, ?_⟩
    · rcases h1 with h1 | h1
      · rw [h1]
        rcases max_choice a x with h | h
        · exact .inl h
        · exact .inr (by rw [h]; exact List.mem_cons_self)
      · exact .inr (List.mem_cons_of_mem _ h1)
    · intro w hw
      rcases List.mem_cons.mp hw with rfl | hw
      · exact le_trans (le_max_right _ _) h2
      · exact h3 w hw

/-- The promise is the weight outside the majority class. -/
theorem promise_outside (l : List ℚ) (hl : ∀ w ∈ l, 0 ≤ w) (x : ℚ) (h : Outside l x) : promise l = x := by
  rcases h with ⟨rfl, rfl⟩ | ⟨l1, m, l2, he, hm, rfl⟩
  · rfl
  · have hsum : l.sum = l1.sum + l2.sum + m := by rw [he]; simp; ring
    have hmm : m ∈ l := by rw [he]; simp
    have hg : greatest l = m := by
      cases hc : l with
      | nil => rw [hc] at hmm; cases hmm
      | cons a t =>
        obtain ⟨h1, h2, h3⟩ := foldl_max_spec t a
        simp only [greatest]
        apply le_antisymm
        · apply hm
          rw [hc]
          rcases h1 with h1 | h1
          · rw [h1]; exact List.mem_cons_self
          · exact List.mem_cons_of_mem _ h1
        · rw [hc] at hmm
          rcases List.mem_cons.mp hmm with rfl | hmm
          · exact h2
          · exact h3 m hmm
    have n1 : 0 ≤ l1.sum := List.sum_nonneg fun w hw => hl w (by rw [he]; simp [hw])
    have n2 : 0 ≤ l2.sum := List.sum_nonneg fun w hw => hl w (by rw [he]; simp [hw])
    have n3 := hl m hmm
    unfold promise
    split_ifs with hc
    · rw [hg, hsum]; ring
    · linarith

/-- C65: whenever memory management of a classification tree runs and is not switched
off, no leaf that is inactive afterwards is more promising than an active one, the
promise being the weight of the samples at the leaf outside its majority class. -/
theorem C65_most_promising (M : ℚ) (stopMem : Bool) (h : HT) (hw : h.WF) (r : T)
    (hr : h.root = some r) (a i f : ℚ) (stats : Path → List ℚ) (hstats : ∀ p, ∀ w ∈ stats p, 0 ≤ w)
    (hgo : ¬ ((h.inact > 0 ∨ (a + h.inact * i) * f > M) ∧ stopMem = true))
    (p q : Path) (b c : Bool) (hp : LeafAt h p b) (hq : LeafAt h q c)
    (hpa : LeafAt (h.enforce M stopMem ⟨a, i, f, byPromise stats⟩) p true)
    (hqa : LeafAt (h.enforce M stopMem ⟨a, i, f, byPromise stats⟩) q false)
    (x y : ℚ) (hx : Outside (stats q) x) (hy : Outside (stats p) y) : x ≤ y := by
  rw [← promise_outside _ (hstats q) x hx, ← promise_outside _ (hstats p) y hy]
  haveI : Std.Total fun p q : Path => promise (stats p) ≤ promise (stats q) :=
    ⟨fun _ _ => le_total _ _⟩
  haveI : IsTrans Path fun p q => promise (stats p) ≤ promise (stats q) :=
    ⟨fun _ _ _ => le_trans⟩
  exact enforce_order M stopMem h hw r hr ⟨a, i, f, byPromise stats⟩ (byPromise_perm _ _) hgo
    (fun p q => promise (stats p) ≤ promise (stats q)) (List.pairwise_insertionSort _ _) p q b c hp hq hpa hqa

/-- 3 samples of one class, 2 and 1 of others: 3 outside the majority class. -/
example : Outside [2, 3, 1] 3 := .inr ⟨[2], 3, [1], rfl, by decide +kernel, by decide +kernel⟩

/-- C264: whenever memory management of a regression tree runs and is not switched off,
no leaf that is inactive afterwards is closer to the root than an active one. -/
theorem C264_deepest_first (M : ℚ) (stopMem : Bool) (h : HT) (hw : h.WF) (r : T)
    (hr : h.root = some r) (a i f : ℚ)
    (hgo : ¬ ((h.inact > 0 ∨ (a + h.inact * i) * f > M) ∧ stopMem = true))
    (p q : Path) (b c : Bool) (hp : LeafAt h p b) (hq : LeafAt h q c)
    (hpa : LeafAt (h.enforce M stopMem ⟨a, i, f, byDepth⟩) p true)
    (hqa : LeafAt (h.enforce M stopMem ⟨a, i, f, byDepth⟩) q false) :
    p.length ≤ q.length := by
  haveI : Std.Total fun p q : Path => p.length ≥ q.length := ⟨fun _ _ => le_total _ _⟩
  haveI : IsTrans Path fun p q => p.length ≥ q.length := ⟨fun _ _ _ h1 h2 => le_trans h2 h1⟩
  exact enforce_order M stopMem h hw r hr ⟨a, i, f, byDepth⟩ (byDepth_perm _) hgo
    (fun p q => p.length ≥ q.length) (List.pairwise_insertionSort _ _) p q b c hp hq hpa hqa

/-- Three leaves, two of them at depth two, and room for one active leaf. -/
def deepTree : HT :=
  { root := some (.split none (.cons 0 (.split none (newKids 0 2)) (.cons 1 (.leaf true) .nil))),
    dec := 2, act := 3, inact := 0 }

example : ((deepTree.enforce 12 false ⟨10, 1, 1, byDepth⟩).isLeaf [1] true,
    (deepTree.enforce 12 false ⟨10, 1, 1, byDepth⟩).isLeaf [0, 0] false,
    (deepTree.enforce 12 false ⟨10, 1, 1, byDepth⟩).isLeaf [0, 1] false) = (true, true, true) := by
  decide +kernel

/-- The same tree as a classification tree: the leaf with the most mixed classes stays
active. -/
example : let stats : Path → List ℚ := fun p => if p = [0, 1] then [5, 4] else [9, 1]
    ((deepTree.enforce 12 false ⟨10, 1, 1, byPromise stats⟩).isLeaf [0, 1] true,
    (deepTree.enforce 12 false ⟨10, 1, 1, byPromise stats⟩).isLeaf [1] false) = (true, true) := by
  decide +kernel

/-! ### `stop_mem_management` -/

/-- C265 (partial): with `stop_mem_management`, when memory management runs and finds
an inactive leaf, the tree stops growing for good.  Missing: the limit is not noticed
when it is first hit (`C265_stop_violated`). -/
theorem C265_stop_partial (M : ℚ) (h : HT) (hc : h.CountersOk) (q : Path) (hq : LeafAt h q false)
    (m : Mem) (es : List Ev) (h' : HT) (hr : HT.run M true (h.enforce M true m) es = .ok h') :
    h'.growth = false ∧ h'.dec = h.dec := by
  have hpos : h.inact > 0 := by
    obtain ⟨r, e1, e2⟩ := (isLeaf_iff h q false).mp hq
    have h1 := T.count_modify 0 1 0 (fun _ => .leaf true) r q _ e2
    have h2 := hc.2.1
    simp only [T.count] at h1
    simp only [HT.inactives, e1] at h2
    omega
  have he : h.enforce M true m = { h with growth := false } := by
    unfold HT.enforce
    rw [if_pos ⟨.inl hpos, rfl⟩]
  rw [he] at hr
  exact C66_growth_never_resumes M true es { h with growth := false } h' rfl hr

/-- C265 is violated: whenever no leaf is inactive yet, all leaves together exceed the
limit and one leaf alone does not, memory management with `stop_mem_management` switches
leaves off and lets the tree grow on. -/
theorem C265_stop_violated (M : ℚ) (h : HT) (hw : h.WF) (hin : h.inact = 0) (r : T)
    (hr : h.root = some r) (hg : h.growth = true) (m : Mem)
    (hsort : (m.sort (r.learning [])).Perm (r.learning []))
    (hone : m.a * m.f ≤ M) (hall : ((r.learning []).length * m.a) * m.f > M) (hn : r.learning [] ≠ []) :
    (h.enforce M true m).growth = true ∧ (∃ q, LeafAt (h.enforce M true m) q false) := by
  have hgo : ¬ ((h.inact > 0 ∨ (m.a + h.inact * m.i) * m.f > M) ∧ true = true) := by
    rw [hin]
    simp only [Int.cast_zero, zero_mul, add_zero, gt_iff_lt, lt_self_iff_false, false_or, and_true, not_lt]
    exact hone
  obtain ⟨k, k1, k2, k3, k4, -, -⟩ := C65_memory_limit M true h hw r hr m hsort hgo
  simp only [hsort.length_eq] at k1 k2 k3 k4
  have hlt : k < (r.learning []).length := by
    rcases Nat.lt_or_ge k (r.learning []).length with h1 | h1
    · exact h1
    · have hk : k = (r.learning []).length := by omega
      rcases k2 with h2 | h2
      · rw [h2] at hk
        exact absurd (List.eq_nil_of_length_eq_zero hk.symm) hn
      · rw [hk] at h2
        simp only [sub_self, zero_mul, add_zero] at h2
        exact absurd h2 (not_le.mpr hall)
  refine ⟨?_, ?_⟩
  · unfold HT.enforce
    rw [if_neg hgo]
    simp only [hr]
    rw [(fold_growth_dec HT.activate (by
      intro h p; unfold HT.activate; split_ifs
      · exact setLeaf_growth h p true
      · exact ⟨rfl, rfl⟩) _ _).1, (fold_growth_dec HT.deactivate (by
      intro h p; unfold HT.deactivate; split_ifs
      · exact setLeaf_growth h p false
      · exact ⟨rfl, rfl⟩) _ _).1]
    exact hg
  · have hl : 0 < ((m.sort (r.learning [])).take ((r.learning []).length - k)).length := by
      rw [List.length_take, hsort.length_eq]; omega
    obtain ⟨q, hq⟩ := List.exists_mem_of_length_pos hl
    exact ⟨q, k4 q hq⟩

/-- Three leaves of 10 bytes and a limit of 12: two leaves are switched off, the tree
may still grow, and the next split attempt makes a third split node. -/
example : (deepTree.enforce 12 true ⟨10, 1, 1, byDepth⟩).growth = true ∧
    ((deepTree.enforce 12 true ⟨10, 1, 1, byDepth⟩).learnAt 12 true [1]
      ⟨fun _ => 0, some .binary, ⟨10, 1, 1, byDepth⟩, none⟩).dec = 3 := by decide +kernel

/-! ### When sizes are estimated -/

/-- The tree with what the size estimates need: `_train_weight_seen_by_model` and the
three figures, hoeffding_tree.py 187-191. -/
structure Sized where
  h : HT := {}
  seen : ℚ := 0
  a : ℚ := 0
  i : ℚ := 0
  f : ℚ := 1

/-- `seen % memory_estimate_period == 0`, line 352. -/
def estimateDue (period : Nat) (seen : ℚ) : Bool := (seen / period).den == 1

/-- One training sample: its weight, what happens outside the model (see `Ev`), and the
figures a size estimate at this moment would find. -/
structure WEv where
  w : ℚ
  br : Path → Int
  decision : Option Decision
  sort1 : List Path → List Path
  a : ℚ
  i : ℚ
  f : ℚ
  actual : ℚ
  sort2 : List Path → List Path

/-- One round of `partial_fit`, lines 293-300, with `_estimate_model_byte_size`,
lines 669-693: memory management runs if the actual size exceeds the limit. -/
def Sized.step (M : ℚ) (stopMem : Bool) (period : Nat) (s : Sized) (e : WEv) : Except PyErr Sized :=
  if e.w = 0 then .ok s
  else
    let due := estimateDue period (s.seen + e.w)
    match s.h.step M stopMem ⟨e.br, e.decision, ⟨s.a, s.i, s.f, e.sort1⟩,
        if due && e.actual > M then some ⟨e.a, e.i, e.f, e.sort2⟩ else none⟩ with
    | .error x => .error x
    | .ok h =>
      .ok (if due then ⟨h, s.seen + e.w, e.a, e.i, e.f⟩ else ⟨h, s.seen + e.w, s.a, s.i, s.f⟩)

/-- A training history. -/
def Sized.run (M : ℚ) (stopMem : Bool) (period : Nat) (s : Sized) (es : List WEv) :
    Except PyErr Sized := es.foldlM (fun s e => s.step M stopMem period e) s

theorem step_seen {M : ℚ} {stopMem : Bool} {period : Nat} {s s' : Sized} {e : WEv}
    (h : s.step M stopMem period e = .ok s') : s'.seen = s.seen + e.w := by
  unfold Sized.step at h
  split at h
  · rename_i h0; cases h; rw [h0, add_zero]
  · simp only at h
    split at h
    · cases h
    · split at h <;> · cases h; rfl

/-- C266 (partial): with unit weights, sizes are estimated at every
`memory_estimate_period`-th sample and at no other.  Missing: other weights
(`C266_never_estimated_violated`). -/
theorem C266_period_partial (M : ℚ) (stopMem : Bool) (period : Nat) (hp : 0 < period) (es : List WEv)
    (hw : ∀ e ∈ es, e.w = 1) (s : Sized) (hr : Sized.run M stopMem period {} es = .ok s) :
    s.seen = es.length ∧ (estimateDue period s.seen = true ↔ period ∣ es.length) := by
  have gen : ∀ (es : List WEv) (s0 s : Sized), (∀ e ∈ es, e.w = 1) →
      Sized.run M stopMem period s0 es = .ok s → s.seen = s0.seen + es.length := by
    intro es
    induction es with
    | nil =>
      intro s0 s _ hr
      simp only [Sized.run, List.foldlM_nil, pure, Except.pure, Except.ok.injEq] at hr
      simp [hr]
    | cons e es ih =>
      intro s0 s hw hr
      simp only [Sized.run, List.foldlM_cons, bind, Except.bind] at hr
      cases hs : s0.step M stopMem period e with
      | error x => rw [hs] at hr; cases hr
      | ok s1 =>
        rw [hs] at hr
        rw [ih s1 s (fun e he => hw e (List.mem_cons_of_mem _ he)) hr, step_seen hs,
          hw e List.mem_cons_self, List.length_cons]
        push_cast; ring
  have h1 : s.seen = es.length := by
    have := gen es {} s hw hr
    simpa using this
  refine ⟨h1, ?_⟩
  rw [h1]
  unfold estimateDue
  rw [beq_iff_eq, Rat.den_div_natCast_eq_one_iff _ _ (by omega)]

theorem due_half (period : Nat) (hp : 0 < period) (n : Nat) :
    estimateDue period ((1 : ℚ) / 2 + n) = false := by
  unfold estimateDue
  rw [beq_eq_false_iff_ne]
  intro h
  have h1 : (((1 : ℚ) / 2 + n) / period) = ((((1 : ℚ) / 2 + n) / period).num : ℚ) := by
    conv_lhs => rw [← Rat.num_div_den (((1 : ℚ) / 2 + n) / period), h]
    simp
  generalize (((1 : ℚ) / 2 + n) / period).num = z at h1
  have hpq : (period : ℚ) ≠ 0 := by exact_mod_cast (by omega : period ≠ 0)
  rw [div_eq_iff hpq] at h1
  have h2 : (1 : ℚ) + 2 * n = 2 * (z * period) := by linarith
  have h3 : (1 : Int) + 2 * n = 2 * (z * period) := by exact_mod_cast h2
  omega

/-! ### Without estimates every leaf stays active -/

mutual
theorem T.mem_learning (t : T) (p pre : Path) (b : Bool) (h : t.get p = some (.leaf b)) :
    pre ++ p ∈ t.learning pre := by
  match t, p with
  | .leaf a, [] => simp [T.learning]
  | .split m kids, [] => simp [T.get] at h
  | .leaf a, i :: p => simp [T.get] at h
  | .split m kids, i :: p =>
    simp only [T.get] at h
    exact F.mem_learning kids i p pre b h
theorem F.mem_learning (k : F) (i : Nat) (p pre : Path) (b : Bool) (h : k.get i p = some (.leaf b)) :
    pre ++ i :: p ∈ k.learning pre := by
  match k with
  | .nil => simp [F.get] at h
  | .cons j t rest =>
    rw [F.get] at h
    simp only [F.learning, List.mem_append]
    by_cases e : i = j
    · rw [if_pos e] at h
      left
      have := T.mem_learning t p (pre ++ [j]) b h
      rw [e]
      simpa using this
    · rw [if_neg e] at h
      exact .inr (F.mem_learning rest i p pre b h)
end

theorem activate_inact (h : HT) (p : Path) :
    (h.activate p).inact ≤ h.inact ∧ (LeafAt h p false → (h.activate p).inact = h.inact - 1) := by
  unfold HT.activate
  by_cases hl : h.isLeaf p false = true
  · obtain ⟨r, e1, -⟩ := (isLeaf_iff h p false).mp hl
    rw [if_pos hl]
    simp [HT.setLeaf, e1]
  · rw [if_neg hl]
    exact ⟨le_refl _, fun h' => absurd h' hl⟩

theorem activate_fold_inact (l : List Path) (h : HT) : (l.foldl HT.activate h).inact ≤ h.inact := by
  induction l generalizing h with
  | nil => exact le_refl _
  | cons p l ih => exact le_trans (ih _) (activate_inact h p).1

theorem activate_fold_mem (l : List Path) (h : HT) (q : Path) (hq : LeafAt h q false) (hm : q ∈ l) :
    (l.foldl HT.activate h).inact ≤ h.inact - 1 := by
  induction l generalizing h with
  | nil => cases hm
  | cons p l ih =>
    rw [List.foldl_cons]
    by_cases e : q = p
    · subst e
      refine le_trans (activate_fold_inact l _) ?_
      rw [(activate_inact h q).2 hq]
    · have hm' : q ∈ l := by
        rcases List.mem_cons.mp hm with h1 | h1
        · exact absurd h1 e
        · exact h1
      by_cases hl : LeafAt h p false
      · refine le_trans (activate_fold_inact l _) ?_
        rw [(activate_inact h p).2 hl]
      · have : h.activate p = h := by unfold HT.activate; exact if_neg hl
        rw [this]
        exact ih h hq hm'

/-- With zero size estimates memory management only activates leaves. -/
theorem enforce_zero (M : ℚ) (hM : 0 ≤ M) (h : HT) (f : ℚ) (sort : List Path → List Path)
    (hs : ∀ l, (sort l).Perm l) :
    (h.enforce M false ⟨0, 0, f, sort⟩).inact ≤ h.inact ∧
      (∀ q, LeafAt h q false → (h.enforce M false ⟨0, 0, f, sort⟩).inact ≤ h.inact - 1) := by
  unfold HT.enforce
  rw [if_neg (by simp)]
  cases hr : h.root with
  | none =>
    simp only
    refine ⟨by simp, ?_⟩
    intro q hq
    obtain ⟨r, e1, -⟩ := (isLeaf_iff h q false).mp hq
    rw [hr] at e1; cases e1
  | some r =>
    simp only
    obtain ⟨-, k2, -, k4⟩ := maxActive_spec 0 0 f M (sort (r.learning [])).length
      (sort (r.learning [])).length 0 (by omega) (by omega) (.inl rfl)
    have hk : maxActive 0 0 f M (sort (r.learning [])).length (sort (r.learning [])).length 0 =
        (sort (r.learning [])).length := by
      rcases k4 with k4 | k4
      · exact k4
      · simp only [mul_zero, add_zero, zero_mul] at k4
        exact absurd k4 (not_lt.mpr hM)
    rw [hk, Nat.sub_self, List.take_zero, List.drop_zero, List.foldl_nil]
    refine ⟨activate_fold_inact _ h, ?_⟩
    intro q hq
    obtain ⟨r', e1, e2⟩ := (isLeaf_iff h q false).mp hq
    rw [hr] at e1
    cases e1
    refine activate_fold_mem _ h q hq ((hs _).mem_iff.mpr ?_)
    exact T.mem_learning r q [] false e2

theorem learnAt_zero (M : ℚ) (hM : 0 ≤ M) (h : HT) (hi : h.inact = 0) (p : Path)
    (br : Path → Int) (d : Option Decision) (f : ℚ) (sort : List Path → List Path)
    (hs : ∀ l, (sort l).Perm l) (est : Option Mem) :
    (h.learnAt M false p ⟨br, d, ⟨0, 0, f, sort⟩, est⟩).inact ≤ 0 := by
  unfold HT.learnAt
  by_cases hl : (h.growth && h.isLeaf p true) = true
  · rw [if_pos hl]
    have hp : LeafAt h p true := by simp only [Bool.and_eq_true] at hl; exact hl.2
    cases d with
    | none => exact le_of_eq hi
    | some d =>
      cases d with
      | noSplit => exact le_of_eq hi
      | preprune =>
        simp only [HT.attempt]
        have h1 := setLeaf_leafAt (c := false) hp hp
        rw [if_pos rfl] at h1
        have h2 := (enforce_zero M hM (h.setLeaf p false) f sort hs).2 p h1
        obtain ⟨r, e1, -⟩ := (isLeaf_iff h p true).mp hp
        have h3 : (h.setLeaf p false).inact = h.inact + 1 := by simp [HT.setLeaf, e1]
        omega
      | binary =>
        simp only [HT.attempt]
        exact le_trans (enforce_zero M hM _ f sort hs).1 (le_of_eq hi)
      | multiway k =>
        simp only [HT.attempt]
        exact le_trans (enforce_zero M hM _ f sort hs).1 (le_of_eq hi)
  · rw [if_neg hl]; exact le_of_eq hi

theorem step_zero (M : ℚ) (hM : 0 ≤ M) (h h' : HT) (hc : h.CountersOk) (hi : h.inact = 0)
    (br : Path → Int) (d : Option Decision) (f : ℚ) (sort : List Path → List Path)
    (hs : ∀ l, (sort l).Perm l)
    (hst : h.step M false ⟨br, d, ⟨0, 0, f, sort⟩, none⟩ = .ok h') : h'.inact = 0 := by
  have hc' := counters_step M false hc _ hst
  refine le_antisymm ?_ (by rw [hc'.2.1]; exact Int.natCast_nonneg _)
  unfold HT.step at hst
  simp only at hst
  have this : ∀ k, Except.ok k = Except.ok (ε := PyErr) h' → k = h' := by
    intro k hk; simpa using hk
  cases hroot : h.root <;>
  · simp only [hroot] at hst
    split at hst
    · split at hst
      · split_ifs at hst
        rw [← this _ hst]
        refine learnAt_zero M hM _ ?_ _ br d f sort hs none; exact hi
      · rw [← this _ hst]
        refine learnAt_zero M hM _ ?_ _ br d f sort hs none; exact hi
    · split at hst
      · rw [← this _ hst]
        refine learnAt_zero M hM _ ?_ _ br d f sort hs none; exact hi
      · rw [← this _ hst]; exact le_of_eq hi
      · rw [← this _ hst]; exact le_of_eq hi

/-- C266 is violated: after one sample of weight one half, followed by any samples with
whole weights, sizes are never estimated, and however small the limit is, every leaf of
the tree stays active. -/
theorem C266_never_estimated_violated (M : ℚ) (hM : 0 ≤ M) (period : Nat) (hp : 0 < period)
    (e : WEv) (he : e.w = 1 / 2) (es : List WEv) (hw : ∀ e ∈ es, ∃ n : Nat, e.w = n)
    (hs : ∀ e' ∈ e :: es, ∀ l, (e'.sort1 l).Perm l) (s : Sized)
    (hr : Sized.run M false period {} (e :: es) = .ok s) :
    estimateDue period s.seen = false ∧ s.a = 0 ∧ s.h.inactives = 0 := by
  have one : ∀ (s0 s1 : Sized) (e : WEv) (n : Nat), s0.seen + e.w = 1 / 2 + (n : ℚ) →
      (∀ l, (e.sort1 l).Perm l) → s0.a = 0 → s0.i = 0 → s0.h.inact = 0 → s0.h.CountersOk →
      s0.step M false period e = .ok s1 →
      s1.seen = s0.seen + e.w ∧ s1.a = 0 ∧ s1.i = 0 ∧ s1.h.inact = 0 ∧ s1.h.CountersOk := by
    intro s0 s1 e n hn hsort ha hi0 hin hc h
    have hseen := step_seen h
    refine ⟨hseen, ?_⟩
    unfold Sized.step at h
    split at h
    · cases h; exact ⟨ha, hi0, hin, hc⟩
    · have hd : estimateDue period (s0.seen + e.w) = false := by rw [hn]; exact due_half period hp n
      simp only [hd, Bool.false_and, Bool.false_eq_true, if_false, ha, hi0] at h
      split at h
      · cases h
      · rename_i h1 hst
        cases h
        exact ⟨rfl, rfl, step_zero M hM s0.h h1 hc hin e.br e.decision s0.f e.sort1 hsort hst,
          counters_step M false hc _ hst⟩
  have gen : ∀ (es : List WEv) (s0 s : Sized) (n : Nat), (∀ e ∈ es, ∃ n : Nat, e.w = n) →
      (∀ e' ∈ es, ∀ l, (e'.sort1 l).Perm l) → s0.seen = 1 / 2 + (n : ℚ) →
      s0.a = 0 → s0.i = 0 → s0.h.inact = 0 → s0.h.CountersOk →
      Sized.run M false period s0 es = .ok s →
      (∃ m : Nat, s.seen = 1 / 2 + (m : ℚ)) ∧ s.a = 0 ∧ s.h.inact = 0 ∧ s.h.CountersOk := by
    intro es
    induction es with
    | nil =>
      intro s0 s n _ _ h0 ha _ hin hc hr
      simp only [Sized.run, List.foldlM_nil, pure, Except.pure, Except.ok.injEq] at hr
      rw [← hr]
      exact ⟨⟨n, h0⟩, ha, hin, hc⟩
    | cons e es ih =>
      intro s0 s n hw hs h0 ha hi0 hin hc hr
      simp only [Sized.run, List.foldlM_cons, bind, Except.bind] at hr
      cases hst : s0.step M false period e with
      | error x => rw [hst] at hr; cases hr
      | ok s1 =>
        rw [hst] at hr
        obtain ⟨k, hk⟩ := hw e List.mem_cons_self
        have hn : s0.seen + e.w = 1 / 2 + ((n + k : Nat) : ℚ) := by rw [h0, hk]; push_cast; ring
        obtain ⟨g1, g2, g3, g4, g5⟩ := one s0 s1 e (n + k) hn (hs e List.mem_cons_self) ha hi0 hin hc hst
        exact ih s1 s (n + k) (fun e he => hw e (List.mem_cons_of_mem _ he))
          (fun e he => hs e (List.mem_cons_of_mem _ he)) (by rw [g1, hn]) g2 g3 g4 g5 hr
  simp only [Sized.run, List.foldlM_cons, bind, Except.bind] at hr
  cases hst : Sized.step M false period {} e with
  | error x => rw [hst] at hr; cases hr
  | ok s1 =>
    rw [hst] at hr
    obtain ⟨g1, g2, g3, g4, g5⟩ := one {} s1 e 0 (by simp [he]) (hs e List.mem_cons_self) rfl rfl rfl
      ⟨rfl, rfl, rfl⟩ hst
    obtain ⟨⟨m, hm⟩, h2, h3, h4⟩ := gen es s1 s 0 hw (fun e he => hs e (List.mem_cons_of_mem _ he))
      (by rw [g1, he]; simp) g2 g3 g4 g5 hr
    refine ⟨by rw [hm]; exact due_half period hp m, h2, ?_⟩
    have := h4.2.1
    rw [h3] at this
    exact_mod_cast this.symm

/-- A sample that splits the tree, if it may grow, and finds every leaf large. -/
def bigSample (w : ℚ) : WEv := ⟨w, fun _ => 0, some .binary, byDepth, 10, 1, 1, 100, byDepth⟩

/-- With a period of two and a limit of 12, four unit samples leave one leaf active; if
the first one has weight one half, all five leaves stay active. -/
example : ((Sized.run 12 false 2 {} [bigSample 1, bigSample 1, bigSample 1, bigSample 1]).toOption.map
      fun s => (s.h.act, s.h.inact, estimateDue 2 s.seen)) = some (1, 2, true) ∧
    ((Sized.run 12 false 2 {} [bigSample (1 / 2), bigSample 1, bigSample 1, bigSample 1]).toOption.map
      fun s => (s.h.act, s.h.inact, estimateDue 2 s.seen)) = some (5, 0, false) := by decide +kernel

end Verif.Trees.HT
