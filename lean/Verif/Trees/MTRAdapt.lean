import Verif.Trees.MTRPerc

/-!
C203: adaptive leaves of the multi-target trees.
-/

namespace Verif.Trees.MT

open Verif.Trees.Grow
open Verif.Trees.HL (Test)

variable {O H : Type} {T : Nat}

/-! ### Specification -/

/-- What a leaf learns in sequence: tree sums, leaf statistics (both with the row), row, and the head before. -/
structure Entry (T : Nat) (H : Type) where
  s : Sums T
  st : VStat T
  e : Row T
  h : H

/-- Rows learnt one after the other. -/
inductive Lived (hd : Head T H) (h0 : H) : List (Entry T H) → H → Prop where
  | nil : Lived hd h0 [] h0
  | snoc {l h h'} (s : Sums T) (st : VStat T) (e : Row T) : Lived hd h0 l h → hd.learn s st e h = .ok h' →
      Lived hd h0 (l ++ [⟨s, st, e, h⟩]) h'

/-- What an active leaf starts with: it is the first of a tree, or made by a split or a reactivation. -/
def Begins (hd : Head T H) (h0 : H) : Prop := h0 = hd.fresh ∨ ∃ p, h0 = hd.child p

/-- Errors, oldest first, each faded by 0.95 per later error. -/
def faded : List ℚ → ℚ
  | [] => 0
  | e :: es => e * (19 / 20) ^ es.length + faded es

/-- One row of weight in `[1, 2)` (a single update) once the tree has seen a weight above 1 and target
`j` varies. -/
def Entry.Plain (sqrt : ℚ → ℚ) (j : Fin T) (n : Entry T H) : Prop :=
  1 ≤ n.e.w ∧ n.e.w < 2 ∧ 1 < n.s.n ∧ 0 < sd sqrt (n.s.yy j) (n.s.y j) n.s.n

/-- The error of an answer in standard deviations of the target. -/
def Entry.err (sqrt : ℚ → ℚ) (j : Fin T) (n : Entry T H) (p : ℚ) : ℚ := |n.e.y j - p| / sd sqrt (n.s.yy j) (n.s.y j) n.s.n

/-- `err` is the error of the perceptron as it was before it learnt the row. -/
def PercErr (sqrt : ℚ → ℚ) (j : Fin T) (n : Entry T (Adapt T)) (err : ℚ) : Prop :=
  ∃ v p, percPred sqrt n.s n.e.x (started n.e.init n.h.w) = .ok v ∧ v j = some p ∧ err = n.err sqrt j p

/-- `err` is the error of the mean of the leaf, the row itself included. -/
def MeanErr (sqrt : ℚ → ℚ) (j : Fin T) (n : Entry T H) (err : ℚ) : Prop :=
  n.st.n ≠ 0 ∧ err = n.err sqrt j (n.st.s j / n.st.n)

/-- The same errors for stacked trees. -/
def StackErr (sqrt : ℚ → ℚ) (j : Fin T) (n : Entry T (Stack T)) (err err2 : ℚ) : Prop :=
  ∃ v p p2, stackPred sqrt n.s n.e.x (started2 n.e n.h.w) = .ok v ∧ v.1 j = some p ∧ v.2 j = some p2 ∧
    err = n.err sqrt j p ∧ err2 = n.err sqrt j p2

/-! ### Proofs -/

theorem faded_snoc (l : List ℚ) (e : ℚ) : faded (l ++ [e]) = 19 / 20 * faded l + e := by
  induction l with
  | nil => simp [faded]
  | cons a l ih =>
    simp only [List.cons_append, faded, ih, List.length_append, List.length_singleton, pow_succ]
    ring

theorem forall₂_snoc {α β : Type} {R : α → β → Prop} (l : List α) (a : α) (m : List β) (h : List.Forall₂ R (l ++ [a]) m) :
    ∃ m' b, m = m' ++ [b] ∧ List.Forall₂ R l m' ∧ R a b := by
  induction l generalizing m with
  | nil =>
    cases h with
    | cons h1 h2 => cases h2; exact ⟨[], _, rfl, .nil, h1⟩
  | cons c l ih =>
    cases h with
    | cons h1 h2 =>
      obtain ⟨m', b, rfl, k1, k2⟩ := ih _ h2
      exact ⟨_ :: m', b, rfl, .cons h1 k1, k2⟩

theorem floor_one {w : ℚ} (h1 : 1 ≤ w) (h2 : w < 2) : ⌊w⌋.toNat = 1 := by
  have : ⌊w⌋ = 1 := by
    rw [Int.floor_eq_iff]
    exact ⟨by exact_mod_cast h1, by push_cast; linarith⟩
  rw [this]; rfl

theorem err_abs (sqrt : ℚ → ℚ) (s : Sums T) (j : Fin T) (y : V T) (p : ℚ) (hn : 1 < s.n) (hd : 0 < sd sqrt (s.yy j) (s.y j) s.n) :
    |normalizeY sqrt s y j - p| =
      |y j - (p * sd sqrt (s.yy j) (s.y j) s.n + s.y j / s.n)| / sd sqrt (s.yy j) (s.y j) s.n := by
  unfold normalizeY standard
  rw [if_neg (not_le.mpr hn)]
  simp only
  rw [if_pos hd.ne']
  generalize sd sqrt (s.yy j) (s.y j) s.n = d at hd ⊢
  rw [eq_div_iff hd.ne', ← abs_of_pos hd, ← abs_mul, abs_of_pos hd]
  congr 1
  field_simp
  ring

theorem mean_abs (sqrt : ℚ → ℚ) (s : Sums T) (j : Fin T) (y : V T) (m : ℚ) (hn : 1 < s.n) (hd : 0 < sd sqrt (s.yy j) (s.y j) s.n) :
    |normalizeY sqrt s y j - standard sqrt (s.yy j) (s.y j) s.n m| = |y j - m| / sd sqrt (s.yy j) (s.y j) s.n := by
  rw [err_abs sqrt s j y _ hn hd]
  congr 2
  unfold standard
  simp only
  rw [if_pos hd.ne']
  field_simp
  ring

theorem fade_some (f e : VN T) (j : Fin T) (a b : ℚ) (hf : f j = some a) (he : e j = some b) :
    fade f e j = some (19 / 20 * a + |b|) := by
  simp only [fade, hf, he]

theorem normMean_some (sqrt : ℚ → ℚ) (s : Sums T) (st : VStat T) (j : Fin T) (hn : 1 < s.n) (h0 : st.n ≠ 0) :
    normMean sqrt s st j = some (standard sqrt (s.yy j) (s.y j) s.n (st.s j / st.n)) := by
  unfold normMean
  rw [if_neg (not_le.mpr hn)]
  simp only [mean, if_neg h0, Option.map_some]

theorem adapt_learn (sqrt : ℚ → ℚ) (j : Fin T) (n : Entry T (Adapt T)) (hp : n.Plain sqrt j) (h' : Adapt T)
    (hl : (adaptHead T sqrt).learn n.s n.st n.e n.h = .ok h') :
    (∀ a err, n.h.fP j = some a → PercErr sqrt j n err → h'.fP j = some (19 / 20 * a + err)) ∧
    ∀ a err, n.h.fM j = some a → MeanErr sqrt j n err → h'.fM j = some (19 / 20 * a + err) := by
  obtain ⟨p1, p2, p3, p4⟩ := hp
  simp only [adaptHead, floor_one p1 p2, times] at hl
  unfold adaptUpdate at hl
  cases hno : normalize sqrt n.s n.e.x with
  | error e => rw [hno] at hl; simp [Except.map] at hl
  | ok xs =>
    rw [hno] at hl
    simp only at hl
    by_cases hf : fits (started n.e.init n.h.w) xs.length = true
    · rw [if_pos hf] at hl
      cases hl
      refine ⟨fun a err ha hperr => ?_, fun a err ha hmerr => ?_⟩
      · obtain ⟨v, p, hv, hvp, rfl⟩ := hperr
        unfold percPred at hv
        rw [hno] at hv
        simp only [if_pos hf, Except.ok.injEq] at hv
        subst hv
        cases hq : apply (started n.e.init n.h.w) xs j with
        | none => simp [denorm, hq] at hvp
        | some q =>
          simp only [denorm, hq, Option.map_some, Option.some.injEq] at hvp
          simp only [fade, ha, minus, hq, Option.map_some]
          rw [err_abs sqrt n.s j n.e.y q p3 p4, hvp]
          rfl
      · obtain ⟨h0, rfl⟩ := hmerr
        simp only [fade, ha, minus, normMean_some sqrt n.s n.st j p3 h0, Option.map_some]
        rw [mean_abs sqrt n.s j n.e.y _ p3 p4]
        rfl
    · rw [if_neg hf] at hl; cases hl

/-- C203: the error kept for the perceptron is the sum of its errors on the rows the leaf has learnt, each
measured with the weights before the row and faded by 0.95 per later row; for the mean the row itself is
already part of the mean. -/
theorem C203_faded_partial (sqrt : ℚ → ℚ) (j : Fin T) (h0 h : Adapt T) (h00 : Begins (adaptHead T sqrt) h0)
    (l : List (Entry T (Adapt T))) (hl : Lived (adaptHead T sqrt) h0 l h) (hpl : ∀ n ∈ l, n.Plain sqrt j)
    (errs merrs : List ℚ) (he : List.Forall₂ (PercErr sqrt j) l errs) (hm : List.Forall₂ (MeanErr sqrt j) l merrs) :
    h.fP j = some (faded errs) ∧ h.fM j = some (faded merrs) := by
  obtain ⟨hP, hM⟩ : h0.fP j = some 0 ∧ h0.fM j = some 0 := by
    rcases h00 with rfl | ⟨p, rfl⟩ <;> exact ⟨rfl, rfl⟩
  induction hl generalizing errs merrs with
  | nil => cases he; cases hm; exact ⟨hP, hM⟩
  | @snoc l h h' s st e hl hstep ih =>
    obtain ⟨errs1, err, rfl, q1, q2⟩ := forall₂_snoc _ _ _ he
    obtain ⟨merrs1, merr, rfl, r1, r2⟩ := forall₂_snoc _ _ _ hm
    obtain ⟨i1, i2⟩ := ih (fun n hn => hpl n (List.mem_append_left _ hn)) errs1 merrs1 q1 r1
    obtain ⟨k1, k2⟩ := adapt_learn sqrt j ⟨s, st, e, h⟩ (hpl _ (by simp)) h' hstep
    rw [faded_snoc, faded_snoc]
    exact ⟨k1 _ _ i1 q2, k2 _ _ i2 r2⟩

theorem stack_learn (sqrt : ℚ → ℚ) (j : Fin T) (n : Entry T (Stack T)) (hp : n.Plain sqrt j) (h' : Stack T)
    (hl : (sstAdaptHead T sqrt).learn n.s n.st n.e n.h = .ok h') :
    (∀ a b err err2, n.h.fP j = some a → n.h.fS j = some b → StackErr sqrt j n err err2 →
      h'.fP j = some (19 / 20 * a + err) ∧ h'.fS j = some (19 / 20 * b + err2)) ∧
    ∀ a err, n.h.fM j = some a → MeanErr sqrt j n err → h'.fM j = some (19 / 20 * a + err) := by
  obtain ⟨p1, p2, p3, p4⟩ := hp
  simp only [sstAdaptHead, floor_one p1 p2, times] at hl
  unfold stackUpdate at hl
  cases hno : normalize sqrt n.s n.e.x with
  | error e => rw [hno] at hl; simp [Except.map] at hl
  | ok xs =>
    rw [hno] at hl
    simp only at hl
    by_cases hf : fits (started2 n.e n.h.w).1 xs.length = true ∧ fits (started2 n.e n.h.w).2 (T + 1) = true
    · rw [if_pos hf] at hl
      cases hl
      refine ⟨fun a b err err2 ha hb hserr => ?_, fun a err ha hmerr => ?_⟩
      · obtain ⟨v, p, p', hv, hvp, hvp', rfl, rfl⟩ := hserr
        unfold stackPred at hv
        rw [hno] at hv
        simp only [if_pos hf, Except.ok.injEq] at hv
        subst hv
        have hden : ∀ q : VN T, denormS sqrt n.s q j = denorm sqrt n.s q j := by
          intro q
          unfold denormS
          rw [if_neg (by intro h; rw [h] at p3; exact absurd p3 (by decide +kernel)),
            if_neg (by rintro ⟨h, -⟩; exact absurd h (ne_of_gt p3)), if_neg (ne_of_gt p3)]
        simp only [hden] at hvp hvp'
        constructor
        · cases hq : apply (started2 n.e n.h.w).1 xs j with
          | none => simp [denorm, hq] at hvp
          | some q =>
            simp only [denorm, hq, Option.map_some, Option.some.injEq] at hvp
            simp only [fade, ha, minus, hq, Option.map_some]
            rw [err_abs sqrt n.s j n.e.y q p3 p4, hvp]
            rfl
        · cases hq : stack (started2 n.e n.h.w).2 (apply (started2 n.e n.h.w).1 xs) j with
          | none => simp [denorm, hq] at hvp'
          | some q =>
            simp only [denorm, hq, Option.map_some, Option.some.injEq] at hvp'
            simp only [fade, hb, minus, hq, Option.map_some]
            rw [err_abs sqrt n.s j n.e.y q p3 p4, hvp']
            rfl
      · obtain ⟨h0, rfl⟩ := hmerr
        simp only [fade, ha, minus, normMean_some sqrt n.s n.st j p3 h0, Option.map_some]
        rw [mean_abs sqrt n.s j n.e.y _ p3 p4]
        rfl
    · rw [if_neg hf] at hl; cases hl

/-- C203: the same for the three predictors of a stacked tree. -/
theorem C203_faded_stacked_partial (sqrt : ℚ → ℚ) (j : Fin T) (h0 h : Stack T) (h00 : Begins (sstAdaptHead T sqrt) h0)
    (l : List (Entry T (Stack T))) (hl : Lived (sstAdaptHead T sqrt) h0 l h)
    (hpl : ∀ n ∈ l, n.Plain sqrt j) (errs : List (ℚ × ℚ)) (merrs : List ℚ)
    (he : List.Forall₂ (fun n p => StackErr sqrt j n p.1 p.2) l errs) (hm : List.Forall₂ (MeanErr sqrt j) l merrs) :
    h.fP j = some (faded (errs.map Prod.fst)) ∧ h.fS j = some (faded (errs.map Prod.snd)) ∧ h.fM j = some (faded merrs) := by
  obtain ⟨hP, hM, hS⟩ : h0.fP j = some 0 ∧ h0.fM j = some 0 ∧ h0.fS j = some 0 := by
    rcases h00 with rfl | ⟨p, rfl⟩ <;> exact ⟨rfl, rfl, rfl⟩
  induction hl generalizing errs merrs with
  | nil => cases he; cases hm; exact ⟨hP, hS, hM⟩
  | @snoc l h h' s st e hl hstep ih =>
    obtain ⟨errs1, err, rfl, q1, q2⟩ := forall₂_snoc _ _ _ he
    obtain ⟨merrs1, merr, rfl, r1, r2⟩ := forall₂_snoc _ _ _ hm
    obtain ⟨i1, i2, i3⟩ := ih (fun n hn => hpl n (List.mem_append_left _ hn)) errs1 merrs1 q1 r1
    obtain ⟨k1, k2⟩ := stack_learn sqrt j ⟨s, st, e, h⟩ (hpl _ (by simp)) h' hstep
    simp only [List.map_append, List.map_cons, List.map_nil]
    rw [faded_snoc, faded_snoc, faded_snoc]
    obtain ⟨m1, m2⟩ := k1 _ _ _ _ i1 i2 q2
    exact ⟨m1, m2, k2 _ _ i3 r2⟩

/-- C203: the leaves a split makes are active and start afresh, whatever the leaf that is split. -/
theorem C203_born (cfg : Cfg T O H) (e : Ev T O H) (l : Leaf T O H) (t : Test) (st : Option (VStat T))
    (kids : GF (Leaf T O H) (Option (VStat T))) (h : attempt cfg e l = .split t st kids) :
    ∀ l' ∈ kids.leaves, l'.active = true ∧ Begins cfg.head l'.head := by
  unfold attempt at h
  by_cases hc : e.growth = true ∧ l.active = true ∧ weight l.stats - l.last ≥ cfg.grace
  · rw [if_pos hc] at h
    cases hch : e.choose l with
    | keep f => rw [hch] at h; simp at h
    | prune => rw [hch] at h; simp at h
    | split t' ds =>
      rw [hch] at h
      simp only [G.split.injEq] at h
      rw [← h.2.2, (kidsFrom_facts (S := Option (VStat T)) 0 (fun d => heir cfg true (some d) l.head) ds 0).2.1]
      intro l' hl'
      obtain ⟨d, -, rfl⟩ := List.mem_map.mp hl'
      exact ⟨rfl, .inr ⟨l.head, rfl⟩⟩
  · rw [if_neg hc] at h; simp at h

/-- C203: the answer of an adaptive leaf for a target comes from the predictor with the smaller faded
error. -/
theorem C203_choice (sqrt : ℚ → ℚ) (s : Sums T) (hn : 1 < s.n) (st : Option (VStat T)) (x : List ℚ) (h : Adapt T) (w : Rows T)
    (hw : h.w = some w) (v : VN T) (hv : (adaptHead T sqrt).predict s st x h = .ok v) (j : Fin T) (m p : ℚ)
    (hm : h.fM j = some m) (hp : h.fP j = some p) :
    (m < p → v j = mean st j) ∧ (p < m → ∃ u, percPred sqrt s x w = .ok u ∧ v j = u j) := by
  simp only [adaptHead, hw] at hv
  rw [if_neg (not_le.mpr hn)] at hv
  cases hpp : percPred sqrt s x w with
  | error e => rw [hpp] at hv; cases hv
  | ok u =>
    rw [hpp] at hv
    cases hv
    simp only [hm, hp, nle]
    refine ⟨fun h => by rw [if_neg (by simpa using h)], fun h => ⟨u, rfl, by rw [if_pos (by simpa using h.le)]⟩⟩

/-- C203: the answer of a stacked adaptive leaf comes from a predictor with the least faded error. -/
theorem C203_choice_stacked (sqrt : ℚ → ℚ) (s : Sums T) (st : Option (VStat T)) (x : List ℚ) (h : Stack T) (w : Rows T × Rows T)
    (hw : h.w = some w) (v : VN T) (hv : (sstAdaptHead T sqrt).predict s st x h = .ok v) (j : Fin T) (m p q : ℚ)
    (hm : h.fM j = some m) (hp : h.fP j = some p) (hq : h.fS j = some q) :
    ∃ u, stackPred sqrt s x w = .ok u ∧ ((v j = mean st j ∧ m ≤ p ∧ m ≤ q) ∨ (v j = u.1 j ∧ p ≤ m ∧ p ≤ q) ∨
      (v j = u.2 j ∧ q ≤ m ∧ q ≤ p)) := by
  simp only [sstAdaptHead, hw] at hv
  cases hpp : stackPred sqrt s x w with
  | error e => rw [hpp] at hv; cases hv
  | ok u =>
    rw [hpp] at hv
    cases hv
    refine ⟨u, rfl, ?_⟩
    simp only [hm, hp, hq, select, argmin3, neq]
    by_cases h1 : m ≤ p ∧ m ≤ q
    · rw [if_pos h1]
      simp only [if_true]
      by_cases h2 : m = p ∧ p = q
      · rw [if_pos (by simp [h2.1, h2.2])]
        exact .inr (.inl ⟨rfl, h2.1.ge, h2.2.le⟩)
      · rw [if_neg (by simpa using h2)]
        exact .inl ⟨rfl, h1⟩
    · rw [if_neg h1]
      by_cases h2 : p ≤ q
      · have hpm : p ≤ m := by
          by_contra hc
          exact h1 ⟨(not_le.mp hc).le, (not_le.mp hc).le.trans h2⟩
        rw [if_pos h2]
        simp only [Nat.one_ne_zero, if_false, if_true]
        by_cases h3 : p = q
        · rw [if_pos (by simpa using h3)]
          exact .inr (.inr ⟨rfl, h3 ▸ hpm, h3.ge⟩)
        · rw [if_neg (by simpa using h3)]
          exact .inr (.inl ⟨rfl, hpm, h2⟩)
      · have hqm : q ≤ m := by
          by_contra hc
          exact h1 ⟨by linarith [not_le.mp hc, not_le.mp h2], (not_le.mp hc).le⟩
        rw [if_neg h2]
        refine .inr (.inr ⟨?_, hqm, (not_le.mp h2).le⟩)
        simp

/-- C203: the mean of a new leaf is not charged for its first row, whatever the target: it has already
seen it.  (The perceptron is charged for the row before it learns it.) -/
theorem C203_own_row_violated (sqrt : ℚ → ℚ) (s : Sums T) (x : List ℚ) (y : V T) (w lr : ℚ) (hw : 1 ≤ w ∧ w < 2)
    (init init2 : Fin T → List ℚ) (h' : Adapt T)
    (hl : (adaptHead T sqrt).learn s (addStat none y w) ⟨x, y, w, lr, init, init2⟩ (adaptHead T sqrt).fresh = .ok h') (j : Fin T) :
    h'.fM j = some 0 := by
  simp only [adaptHead, floor_one hw.1 hw.2, times] at hl
  unfold adaptUpdate at hl
  cases hno : normalize sqrt s x with
  | error e => simp only [hno] at hl; simp [Except.map] at hl
  | ok xs =>
    simp only [hno] at hl
    by_cases hf : fits (started init none) xs.length = true
    · simp only [if_pos hf] at hl
      cases hl
      have hw0 : w ≠ 0 := by intro h; rw [h] at hw; exact absurd hw.1 (by decide +kernel)
      have hm : minus (normalizeY sqrt s y) (normMean sqrt s (addStat none y w)) j = some 0 := by
        unfold minus normMean normalizeY
        by_cases h1 : s.n ≤ 1
        · simp [if_pos h1]
        · have hmean : mean (some (addStat none y w)) j = some (y j) := by
            show (if w = 0 then none else some (y j * w / w)) = _
            rw [if_neg hw0, mul_div_cancel_right₀ _ hw0]
          simp only [if_neg h1, hmean, Option.map_some, sub_self]
      simp only [fade, hm]
      norm_num
    · simp only [if_neg hf] at hl
      cases hl

/-- The leaf of `percCfg` with faded errors. -/
def adaptCfg : Cfg 1 Unit (Adapt 1) := ⟨adaptHead 1 toyRoot, 100, 1 / 2, 0, true, (), fun _ _ _ _ => ()⟩

/-- A row. -/
def adaptEv (x y : ℚ) : Ev 1 Unit (Adapt 1) :=
  ⟨[x], ![y], 1, fun _ => [1, 1], fun _ => [], true, fun _ => .prune, fun _ => none⟩

/-- After three rows the perceptron has a smaller faded error than the mean and answers. -/
example : ((run adaptCfg {} [adaptEv (-1) (-2), adaptEv 0 0, adaptEv 1 2]).toOption.bind fun h => h.root.bind fun r =>
    (predictOne adaptCfg h.sums r [2]).toOption.map fun v => v 0) = some (some (10 / 3)) := by
  decide +kernel

/-- An entry as in the theorems: standard deviation 2, mean 0, weights (1/2, 1/2), target 2 at attribute 1. -/
def plainEntry : Entry 1 (Adapt 1) :=
  ⟨⟨3, fun _ => 0, fun _ => 8, some [0], some [2]⟩, ⟨3, fun _ => 0, fun _ => 8⟩,
    ⟨[1], fun _ => 2, 1, 1 / 2, fun _ => [1, 1], fun _ => []⟩,
    ⟨some fun _ => some [1 / 2, 1 / 2], fun _ => some 1, fun _ => some (1 / 2)⟩⟩

example : plainEntry.Plain toyRoot 0 := by refine ⟨?_, ?_, ?_, ?_⟩ <;> decide +kernel

example : ((percPred toyRoot plainEntry.s plainEntry.e.x (started plainEntry.e.init plainEntry.h.w)).toOption.map fun v => v 0) =
    some (some 2) := by decide +kernel

end Verif.Trees.MT
