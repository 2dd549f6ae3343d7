import Verif.Trees.HTRProps

/-!
The perceptrons in the leaves of a Hoeffding tree regressor (C173) and rows of small weight (C175).
-/

namespace Verif.Trees.HR

open Verif.Trees Verif.Trees.Grow Verif.Trees.EBST
open Verif.Trees.HL (Test)

variable {O : Type}

/-! ### Specification -/

/-- Weighted mean of a quantity over the training rows. -/
def mu (es : List (Ev O)) (q : Ev O → ℚ) : ℚ := wsum es q / total es

/-- Weighted variance of a quantity over the training rows. -/
def variance (es : List (Ev O)) (q : Ev O → ℚ) : ℚ := wsum es (fun e => (q e - mu es q) ^ 2) / total es

/-- Standard deviation, 0 as long as the total weight is at most 1. -/
def spread (sqrt : ℚ → ℚ) (es : List (Ev O)) (q : Ev O → ℚ) : ℚ :=
  if total es > 1 ∧ variance es q > 0 then sqrt (variance es q) else 0

/-! ### Invariants along training -/

theorem attempt_wf (cfg : Cfg O) (n : Nat) (e : Ev O) (he : e.Ok n) (l : Leaf O) : (attempt cfg e l).WF n := by
  unfold attempt
  by_cases hc : e.growth = true ∧ l.active = true ∧ weight l.stats - l.last ≥ cfg.grace
  · rw [if_pos hc]
    have := he.2.2 l
    cases h : e.choose l with
    | keep f => trivial
    | prune => trivial
    | split t ds =>
      rw [h] at this
      obtain ⟨k1, _, k3⟩ := kidsFrom_facts (S := Option Stat) n (fun d => newLeaf cfg true (some d) l.w) ds 0
      rw [Nat.zero_add] at k1
      exact ⟨ds.length, this, k1⟩
  · rw [if_neg hc]; trivial

/-- Every leaf and every split node of the tree satisfies a condition. -/
def Reg.All (n : Nat) (P : Leaf O → Prop) (Q : Option Stat → Prop) (h : Reg O) : Prop :=
  ∀ r, h.root = some r → r.WF n ∧ r.All P Q

theorem step_all (cfg : Cfg O) (n : Nat) (P : Leaf O → Prop) (Q : Option Stat → Prop) (h h' : Reg O) (e : Ev O)
    (he : e.Ok n) (hi : h.All n P Q)
    (h1 : ∀ l l', (P l ∨ l = newLeaf cfg true none .unset) → l.learn cfg (h.sums.add e.x e.y e.w) e = .ok l' → P l')
    (h2 : ∀ l, P l → (attempt cfg e l).All P Q) (h3 : ∀ a l, P l → P (setActive cfg a l))
    (hs : step cfg h e = .ok h') :
    h'.All n P Q ∧ h'.root ≠ none ∧ h'.sums = h.sums.add e.x e.y e.w := by
  have hwf : (h.root.getD (.leaf (newLeaf cfg true none .unset))).WF n := by
    cases hr : h.root with
    | none => trivial
    | some r => exact (hi r hr).1
  have fin : ∀ r' : G (Leaf O) (Option Stat),
      (h.root.getD (.leaf (newLeaf cfg true none .unset))).learn e.x
        (fun l => (l.learn cfg (h.sums.add e.x e.y e.w) e).map (attempt cfg e))
        (fun l => l.learn cfg (h.sums.add e.x e.y e.w) e) (newLeaf cfg true none .unset) = .ok r' →
      r'.WF n → r'.All P Q → h'.All n P Q ∧ h'.root ≠ none ∧ h'.sums = h.sums.add e.x e.y e.w := by
    intro r' hr' hwf' hall'
    simp only [step, hr', Except.ok.injEq] at hs
    subst hs
    refine ⟨fun r hr => ?_, by simp, rfl⟩
    simp only [Option.some.injEq] at hr
    subst hr
    obtain ⟨m1, _, _, m4⟩ := G.mapLeaves_facts n (fun p => setActive cfg (e.memory p)) r' []
    exact ⟨m1 hwf', m4 _ _ (fun q l hl => h3 _ l hl) hall'⟩
  rcases G.learn_spec n e.x he.1 _ hwf with ⟨l, r1, pre, post, p1, p2⟩ | ⟨s, r1, pre, post, p1, p2⟩
  · have hp : P l ∨ l = newLeaf cfg true none .unset := by
      cases hr : h.root with
      | none =>
        rw [hr] at r1
        simp only [Option.getD_none, G.route, Except.ok.injEq, End.leaf.injEq] at r1
        exact .inr r1.symm
      | some r =>
        rw [hr] at r1
        exact .inl ((G.route_all _ _ e.x r (hi r hr).2).1 l r1)
    obtain ⟨q1, q2⟩ := p2 (fun l => (l.learn cfg (h.sums.add e.x e.y e.w) e).map (attempt cfg e))
      (fun l => l.learn cfg (h.sums.add e.x e.y e.w) e) (newLeaf cfg true none .unset)
    cases g1 : l.learn cfg (h.sums.add e.x e.y e.w) e with
    | error err =>
      have := q1 err (by simp only [g1, Except.map])
      simp [step, this] at hs
    | ok l' =>
      obtain ⟨r', w1, _, w3, w4⟩ := q2 (attempt cfg e l') (by simp only [g1, Except.map])
      refine fin r' w1 (w3 (attempt_wf cfg n e he l')) ?_
      have a2 := h2 l' (h1 l l' hp g1)
      cases hr : h.root with
      | none =>
        rw [hr] at w1 r1
        simp only [Option.getD_none, G.route, Except.ok.injEq, End.leaf.injEq] at r1
        simp only [Option.getD_none, G.learn, r1, g1, Except.map, Except.ok.injEq] at w1
        rw [← w1]; exact a2
      | some r => exact w4 _ _ a2 (by rw [hr]; exact (hi r hr).2)
  · obtain ⟨q1, q2⟩ := p2 (fun l => (l.learn cfg (h.sums.add e.x e.y e.w) e).map (attempt cfg e))
      (fun l => l.learn cfg (h.sums.add e.x e.y e.w) e) (newLeaf cfg true none .unset)
    cases g1 : (newLeaf cfg true none .unset : Leaf O).learn cfg (h.sums.add e.x e.y e.w) e with
    | error err =>
      have := q1 err g1
      simp [step, this] at hs
    | ok l' =>
      obtain ⟨r', w1, _, w3, w4⟩ := q2 l' g1
      refine fin r' w1 w3 ?_
      cases hr : h.root with
      | none => rw [hr] at r1; simp [G.route] at r1
      | some r => exact w4 _ _ (h1 _ l' (.inr rfl) g1) (by rw [hr]; exact (hi r hr).2)

theorem run_all (cfg : Cfg O) (n : Nat) (P : Leaf O → Prop) (Q : Option Stat → Prop) (es : List (Ev O))
    (he : ∀ e ∈ es, e.Ok n)
    (h1 : ∀ e ∈ es, ∀ s l l', (P l ∨ l = newLeaf cfg true none .unset) → Leaf.learn cfg s e l = .ok l' → P l')
    (h2 : ∀ e ∈ es, ∀ l, P l → (attempt cfg e l).All P Q) (h3 : ∀ a l, P l → P (setActive cfg a l)) :
    ∀ h h' : Reg O, h.All n P Q → run cfg h es = .ok h' → h'.All n P Q := by
  induction es with
  | nil => intro h h' hi hr; simp only [run, Except.ok.injEq] at hr; rw [← hr]; exact hi
  | cons e es ih =>
    intro h h' hi hr
    cases hs : step cfg h e with
    | error err => simp [run, hs] at hr
    | ok h1' =>
      simp only [run, hs] at hr
      obtain ⟨a, _, _⟩ := step_all cfg n P Q h h1' e (he e List.mem_cons_self) hi
        (fun l l' => h1 e List.mem_cons_self _ l l') (h2 e List.mem_cons_self) h3 hs
      exact ih (fun e' m => he e' (List.mem_cons_of_mem _ m)) (fun e' m => h1 e' (List.mem_cons_of_mem _ m))
        (fun e' m => h2 e' (List.mem_cons_of_mem _ m)) h1' h' a hr

theorem all_empty (n : Nat) (P : Leaf O → Prop) (Q : Option Stat → Prop) : ({} : Reg O).All n P Q := by
  intro r hr; simp at hr

/-- A condition on the perceptron weights alone passes through split attempts. -/
theorem attempt_w (cfg : Cfg O) (P : Weights → Prop) (e : Ev O) (l : Leaf O) (h : P l.w) :
    (attempt cfg e l).All (fun l => P l.w) (fun _ => True) := by
  unfold attempt
  by_cases hc : e.growth = true ∧ l.active = true ∧ weight l.stats - l.last ≥ cfg.grace
  · rw [if_pos hc]
    cases e.choose l with
    | keep f => exact h
    | prune => exact h
    | split t ds =>
      obtain ⟨_, _, k3⟩ := kidsFrom_facts (S := Option Stat) 0 (fun d => newLeaf cfg true (some d) l.w) ds 0
      exact ⟨trivial, k3 _ _ fun d _ => h⟩
  · rw [if_neg hc]; exact h

theorem setActive_w (cfg : Cfg O) (P : Weights → Prop) (a : Option Bool) (l : Leaf O) (h : P l.w) :
    P (setActive cfg a l).w := by
  unfold setActive
  cases a with
  | none => exact h
  | some a =>
    by_cases ha : l.active = a
    · simp only [if_pos ha]; exact h
    · simp only [if_neg ha]; exact h

/-! ### C173: the perceptrons -/

theorem norm1_nonneg (w : List ℚ) : 0 ≤ norm1 w := by
  unfold norm1
  exact List.sum_nonneg (by simp only [List.mem_map]; rintro _ ⟨v, _, rfl⟩; exact abs_nonneg v)

theorem norm1_div (w : List ℚ) (c : ℚ) (hc : 0 ≤ c) : norm1 (w.map (· / c)) = norm1 w / c := by
  induction w with
  | nil => simp [norm1]
  | cons v w ih =>
    have : norm1 (v :: w) = |v| + norm1 w := by simp [norm1]
    rw [this]
    have : norm1 ((v :: w).map (· / c)) = |v / c| + norm1 (w.map (· / c)) := by simp [norm1]
    rw [this, ih, abs_div, abs_of_nonneg hc]
    ring

theorem updateW_norm (cfg : Cfg O) (s : Sums) (x : List ℚ) (y lr : ℚ) (w : Weights) (v : List ℚ)
    (h : updateW cfg s x y lr w = .ok (.ok v)) : norm1 v = 1 := by
  unfold updateW at h
  cases hn : normalize cfg s x with
  | error e => rw [hn] at h; simp at h
  | ok xs =>
    rw [hn] at h
    cases w with
    | unset => simp at h
    | nan => simp at h
    | ok w =>
      simp only [] at h
      by_cases hl : w.length = xs.length
      · rw [if_pos hl] at h
        simp only [Except.ok.injEq] at h
        by_cases h0 : norm1 (List.zipWith (· + ·) w (xs.map fun v => lr * (normalizeY cfg s y - dot w xs) * v)) = 0
        · rw [if_pos h0] at h; simp at h
        · rw [if_neg h0] at h
          simp only [Weights.ok.injEq] at h
          rw [← h, norm1_div _ _ (norm1_nonneg _)]
          exact div_self h0
      · rw [if_neg hl] at h; simp at h

theorem updateMany_norm (cfg : Cfg O) (s : Sums) (x : List ℚ) (y lr : ℚ) (k : Nat) (w : Weights) (v : List ℚ)
    (h : updateMany cfg s x y lr (k + 1) w = .ok (.ok v)) : norm1 v = 1 := by
  induction k generalizing w with
  | zero =>
    simp only [updateMany] at h
    cases hu : updateW cfg s x y lr w with
    | error e => rw [hu] at h; simp at h
    | ok w' =>
      rw [hu] at h
      simp only [Except.ok.injEq] at h
      subst h
      exact updateW_norm cfg s x y lr w v hu
  | succ k ih =>
    rw [updateMany] at h
    cases hu : updateW cfg s x y lr w with
    | error e => rw [hu] at h; simp at h
    | ok w' =>
      rw [hu] at h
      exact ih w' h

theorem floor_pos {w : ℚ} (hw : 1 ≤ w) : ∃ k, ⌊w⌋.toNat = k + 1 := by
  have : (1 : ℤ) ≤ ⌊w⌋ := Int.le_floor.mpr (by exact_mod_cast hw)
  exact ⟨⌊w⌋.toNat - 1, by omega⟩

theorem learn_norm (cfg : Cfg O) (hp : cfg.perceptron = true) (s : Sums) (e : Ev O) (hw : 1 ≤ e.w) (l l' : Leaf O)
    (h : l.learn cfg s e = .ok l') : ∀ w, l'.w = .ok w → norm1 w = 1 := by
  intro w hw'
  obtain ⟨k, hk⟩ := floor_pos hw
  unfold Leaf.learn at h
  simp only [if_pos hp, hk] at h
  cases hu : updateMany cfg s e.x e.y
      (if cfg.lrConst then cfg.lr else cfg.lr / (1 + (addStat l.stats e.y e.w).n * cfg.decay)) (k + 1)
      (if l.w = .unset then .ok e.init else l.w) with
  | error err => rw [hu] at h; simp at h
  | ok w' =>
    rw [hu] at h
    simp only [Except.ok.injEq] at h
    rw [← h] at hw'
    simp only at hw'
    subst hw'
    exact updateMany_norm cfg s e.x e.y _ k _ w hu

/-- C173: when every training row has weight at least 1, the perceptron of every leaf has weights
whose absolute values sum to 1 (or `nan`, after a division by zero). -/
theorem C173_unit_norm (cfg : Cfg O) (n : Nat) (hp : cfg.perceptron = true) (es : List (Ev O)) (he : ∀ e ∈ es, e.Ok n)
    (hw : ∀ e ∈ es, 1 ≤ e.w) (h : Reg O) (hr : run cfg {} es = .ok h) (r : G (Leaf O) (Option Stat))
    (hroot : h.root = some r) : ∀ l ∈ r.leaves, ∀ w, l.w = .ok w → (w.map fun v => |v|).sum = 1 := by
  have := run_all cfg n (fun l => ∀ w, l.w = .ok w → norm1 w = 1) (fun _ => True) es he
    (fun e m s l l' _ hl => learn_norm cfg hp s e (hw e m) l l' hl)
    (fun e m l hl => attempt_w cfg (fun v => ∀ w, v = .ok w → norm1 w = 1) e l hl)
    (fun a l hl => setActive_w cfg (fun v => ∀ w, v = .ok w → norm1 w = 1) a l hl) {} h (all_empty n _ _) hr
  intro l hl
  exact G.all_leaves _ _ r (this r hroot).2 l hl

theorem dot_le (w xs : List ℚ) (B : ℚ) (hB : ∀ v ∈ xs, |v| ≤ B) (hl : w.length = xs.length) : |dot w xs| ≤ norm1 w * B := by
  induction w generalizing xs with
  | nil => cases xs with
    | nil => simp [dot, norm1]
    | cons v vs => simp at hl
  | cons a w ih => cases xs with
    | nil => simp at hl
    | cons v vs =>
      have h1 : dot (a :: w) (v :: vs) = a * v + dot w vs := by simp [dot]
      have h2 : norm1 (a :: w) = |a| + norm1 w := by simp [norm1]
      rw [h1, h2]
      have h3 := ih vs (fun u hu => hB u (List.mem_cons_of_mem _ hu)) (by simpa using hl)
      have h4 := hB v List.mem_cons_self
      calc |a * v + dot w vs| ≤ |a * v| + |dot w vs| := abs_add_le _ _
        _ ≤ |a| * B + norm1 w * B := by
            rw [abs_mul]
            exact add_le_add (mul_le_mul_of_nonneg_left h4 (abs_nonneg a)) h3
        _ = (|a| + norm1 w) * B := by ring

theorem wsum_sq (es : List (Ev O)) (q : Ev O → ℚ) (m : ℚ) :
    wsum es (fun e => (q e - m) ^ 2) = wsum es (fun e => q e ^ 2) - 2 * m * wsum es q + m ^ 2 * total es := by
  induction es with
  | nil => simp [wsum, total]
  | cons e es ih =>
    have h1 : ∀ g : Ev O → ℚ, wsum (e :: es) g = e.w * g e + wsum es g := by intro g; simp [wsum]
    have h2 : total (e :: es) = e.w + total es := by simp [total]
    rw [h1, h1, h1, h2, ih]
    ring

theorem sd_spread (sqrt : ℚ → ℚ) (es : List (Ev O)) (q : Ev O → ℚ) :
    sd sqrt (wsum es fun e => q e ^ 2) (wsum es q) (total es) = spread sqrt es q := by
  unfold sd spread
  by_cases hn : total es > 1
  · have hn0 : total es ≠ 0 := by intro h; rw [h] at hn; exact absurd hn (by decide +kernel)
    have hpos : (0 : ℚ) < total es := lt_trans one_pos hn
    have hv : wsum es (fun e => q e ^ 2) - wsum es q * wsum es q / total es = variance es q * total es := by
      rw [variance, wsum_sq, mu]
      field_simp
      ring
    simp only [if_pos hn, hv, true_and, hn]
    have hiff : variance es q * total es > 0 ↔ variance es q > 0 := by
      constructor
      · intro h; exact (pos_iff_pos_of_mul_pos h).mpr hpos
      · intro h; exact mul_pos h hpos
    by_cases hva : variance es q > 0
    · rw [if_pos (hiff.mpr hva), if_pos hva, mul_div_assoc, div_self hn0, mul_one]; simp
    · rw [if_neg (fun h => hva (hiff.mp h)), if_neg hva]; simp
  · rw [if_neg hn, if_neg (fun h => hn h.1)]

theorem normFrom_le (cfg : Cfg O) (s : Sums) (es : List (Ev O)) (hs : s.Of es) (B : ℚ) (hB : 0 ≤ B)
    (x : List ℚ) (i : Nat) (xs : List ℚ) (h : normFrom cfg s i x = .ok xs)
    (hx : ∀ j v, x[j]? = some v →
      (cfg.nominal (i + j) = true → |v| ≤ B) ∧
      (cfg.nominal (i + j) = false → spread cfg.sqrt es (Ev.att (i + j)) > 0 →
        |v - mu es (Ev.att (i + j))| ≤ B * (3 * spread cfg.sqrt es (Ev.att (i + j))))) :
    ∀ v ∈ xs, |v| ≤ B := by
  induction x generalizing i xs with
  | nil =>
    simp only [normFrom, Except.ok.injEq] at h
    subst h
    simp
  | cons v vs ih =>
    rw [normFrom] at h
    cases hr : normFrom cfg s (i + 1) vs with
    | error e => rw [hr] at h; simp at h
    | ok rest =>
      simp only [hr] at h
      have hrest := ih (i + 1) rest hr (fun j u hj => by
        have := hx (j + 1) u (by simpa using hj)
        rwa [show i + (j + 1) = i + 1 + j by omega] at this)
      have hv := hx 0 v (by simp)
      rw [Nat.add_zero] at hv
      by_cases c1 : cfg.nominal i = false ∧ s.n > 1
      · simp only [if_pos c1] at h
        cases e1 : s.x[i]? with
        | none => rw [e1] at h; simp at h
        | some a =>
          cases e2 : s.xx[i]? with
          | none => rw [e1, e2] at h; simp at h
          | some b =>
            rw [e1, e2] at h
            simp only [Except.ok.injEq] at h
            have ha : a = wsum es (Ev.att i) := by
              rw [← (hs.2.2.2 i).1, List.getD_eq_getElem?_getD, e1]; rfl
            have hb : b = wsum es (fun e => Ev.att i e ^ 2) := by
              rw [← (hs.2.2.2 i).2, List.getD_eq_getElem?_getD, e2]; rfl
            rw [ha, hb, hs.1, sd_spread] at h
            rw [← h]
            intro u hu
            rcases List.mem_cons.mp hu with rfl | hu
            · by_cases hd : spread cfg.sqrt es (Ev.att i) > 0
              · rw [if_pos hd, abs_div, abs_of_pos (by linarith : (0:ℚ) < 3 * spread cfg.sqrt es (Ev.att i)),
                  div_le_iff₀ (by linarith)]
                exact hv.2 c1.1 hd
              · rw [if_neg hd]; simpa using hB
            · exact hrest u hu
      · simp only [if_neg c1] at h
        by_cases c2 : cfg.nominal i = true
        · simp only [if_pos c2, Except.ok.injEq] at h
          rw [← h]
          intro u hu
          rcases List.mem_cons.mp hu with rfl | hu
          · exact hv.1 c2
          · exact hrest u hu
        · simp only [if_neg c2, Except.ok.injEq] at h
          rw [← h]
          intro u hu
          rcases List.mem_cons.mp hu with rfl | hu
          · simpa using hB
          · exact hrest u hu

/-- C173: predictions of perceptron leaves are bounded.  After training on rows of weight at
least 1, a row that reaches a leaf and whose numeric attributes all lie within `3 B` standard
deviations of their means (and whose nominal codes are at most `B` in absolute value), `B ≥ 1`,
gets a prediction within `3 B` standard deviations of the mean target (if not `nan`). -/
theorem C173_bounded (cfg : Cfg O) (n : Nat) (hn : 2 ≤ n) (hp : cfg.perceptron = true) (hsq : ∀ v, 0 ≤ cfg.sqrt v)
    (es : List (Ev O)) (he : ∀ e ∈ es, e.Ok n) (hw : ∀ e ∈ es, 1 ≤ e.w)
    (h : Reg O) (hr : run cfg {} es = .ok h) (r : G (Leaf O) (Option Stat)) (hroot : h.root = some r)
    (x : List ℚ) (l : Leaf O) (hl : r.route x = .ok (.leaf l)) (B : ℚ) (hB : 1 ≤ B)
    (hnom : ∀ i v, x[i]? = some v → cfg.nominal i = true → |v| ≤ B)
    (hnum : ∀ i v, x[i]? = some v → cfg.nominal i = false → spread cfg.sqrt es (Ev.att i) > 0 →
      |v - mu es (Ev.att i)| ≤ B * (3 * spread cfg.sqrt es (Ev.att i)))
    (p : ℚ) (hpred : predictOne cfg h.sums r x = .ok (some p)) :
    |p - mu es Ev.y| ≤ B * (3 * spread cfg.sqrt es Ev.y) := by
  obtain ⟨h', k1, k2, k3, _⟩ := run_ok cfg n hn es he {} [] (inv_empty cfg n) of_empty
  rw [hr] at k1
  simp only [Except.ok.injEq] at k1
  subst k1
  rw [List.nil_append] at k3
  have hgood := (G.route_all _ _ x r (k2.1 r hroot).2.1).1 l hl
  have hnorm : ∀ w, l.w = .ok w → norm1 w = 1 := by
    have := run_all cfg n (fun l => ∀ w, l.w = .ok w → norm1 w = 1) (fun _ => True) es he
      (fun e m s l l' _ hl => learn_norm cfg hp s e (hw e m) l l' hl)
      (fun e m l hl => attempt_w cfg (fun v => ∀ w, v = .ok w → norm1 w = 1) e l hl)
      (fun a l hl => setActive_w cfg (fun v => ∀ w, v = .ok w → norm1 w = 1) a l hl) {} h (all_empty n _ _) hr
    exact (G.route_all _ _ x r (this r hroot).2).1 l hl
  unfold predictOne at hpred
  simp only [hl, if_pos hp] at hpred
  unfold percPredict at hpred
  cases hlw : l.w with
  | unset => exact absurd hlw (hgood.2.1 hp)
  | nan =>
    rw [hlw] at hpred
    simp only [] at hpred
    cases hx : normalize cfg h.sums x with
    | error e => rw [hx] at hpred; simp at hpred
    | ok xs => rw [hx] at hpred; simp at hpred
  | ok w =>
    rw [hlw] at hpred
    simp only [] at hpred
    cases hx : normalize cfg h.sums x with
    | error e => rw [hx] at hpred; simp at hpred
    | ok xs =>
      rw [hx] at hpred
      simp only [] at hpred
      by_cases hlen : w.length = xs.length
      · rw [if_pos hlen] at hpred
        simp only [Except.ok.injEq, Option.some.injEq] at hpred
        have hxs : ∀ v ∈ xs, |v| ≤ B := by
          unfold normalize at hx
          cases hf : normFrom cfg h.sums 0 x with
          | error e => rw [hf] at hx; simp [Except.map] at hx
          | ok ys =>
            rw [hf] at hx
            simp only [Except.map, Except.ok.injEq] at hx
            have hys := normFrom_le cfg h.sums es k3 B (by linarith) x 0 ys hf (fun j v hj => by
              rw [Nat.zero_add]; exact ⟨hnom j v hj, hnum j v hj⟩)
            intro v hv
            rw [← hx, List.mem_append] at hv
            rcases hv with hv | hv
            · exact hys v hv
            · simp only [List.mem_singleton] at hv
              rw [hv]
              by_cases h1 : h.sums.n > 1
              · rw [if_pos h1]; simpa using hB
              · rw [if_neg h1]; simp; linarith
        have hd := dot_le w xs B hxs hlen
        rw [hnorm w hlw, one_mul] at hd
        have hsd : sd cfg.sqrt h.sums.yy h.sums.y h.sums.n = spread cfg.sqrt es Ev.y := by
          rw [k3.1, k3.2.1, k3.2.2.1, sd_spread]
        have hmean : h.sums.y / h.sums.n = mu es Ev.y := by rw [k3.1, k3.2.1, mu]
        have hsp : 0 ≤ spread cfg.sqrt es Ev.y := by
          unfold spread
          by_cases hc : total es > 1 ∧ variance es Ev.y > 0
          · rw [if_pos hc]; exact hsq _
          · rw [if_neg hc]
        rw [← hpred, hsd, hmean]
        have : dot w xs * spread cfg.sqrt es Ev.y * 3 + mu es Ev.y - mu es Ev.y = dot w xs * (3 * spread cfg.sqrt es Ev.y) := by ring
        rw [this, abs_mul, abs_of_nonneg (by linarith : (0:ℚ) ≤ 3 * spread cfg.sqrt es Ev.y)]
        exact mul_le_mul_of_nonneg_right hd (by linarith)
      · rw [if_neg hlen] at hpred; simp at hpred

/-- A tree with perceptron leaves, two numeric attributes, exact square roots of 1. -/
def percCfg : Cfg Unit :=
  { perceptron := true, grace := 200, lr := 1/50, decay := 1/1000, lrConst := true, nominal := fun _ => false,
    sqrt := fun _ => 1, fresh := (), update := fun o _ _ _ => o }

/-- A row without split attempts. -/
def percEv (x : List ℚ) (y : ℚ) : Ev Unit :=
  { x, y, w := 1, init := [1/2, 0, 1/4], growth := true, choose := fun _ => .keep id, memory := fun _ => none }

/-- The hypotheses of C173 are met, and the perceptron does learn. -/
example : (∀ e ∈ [percEv [0, 1] 0, percEv [2, 1] 2], e.Ok 2 ∧ 1 ≤ e.w) ∧
    spread percCfg.sqrt [percEv [0, 1] 0, percEv [2, 1] 2] Ev.y = 1 ∧
    mu [percEv [0, 1] 0, percEv [2, 1] 2] Ev.y = 1 ∧
    ((run percCfg {} [percEv [0, 1] 0, percEv [2, 1] 2]).toOption.bind fun h =>
      (predict percCfg h [[1, 1], [2, 1]]).toOption) = some [some (1337/671), some (1786/671)] := by
  refine ⟨?_, by decide +kernel, by decide +kernel, by decide +kernel⟩
  intro e he
  simp only [List.mem_cons, List.not_mem_nil, or_false] at he
  rcases he with rfl | rfl <;> exact ⟨⟨rfl, rfl, fun _ => trivial⟩, by decide +kernel⟩

/-! ### C175: rows of small weight -/

theorem floor_zero {w : ℚ} (h0 : 0 ≤ w) (h1 : w < 1) : ⌊w⌋.toNat = 0 := by
  have : ⌊w⌋ < 1 := Int.floor_lt.mpr (by exact_mod_cast h1)
  omega

/-- C175 (violated): when every row has a weight below 1, no perceptron is ever trained: every leaf
keeps the weights that were drawn at random for one of the rows, whatever the targets are. -/
theorem C175_fractions_violated (cfg : Cfg O) (n : Nat) (hp : cfg.perceptron = true) (es : List (Ev O)) (he : ∀ e ∈ es, e.Ok n)
    (hw : ∀ e ∈ es, 0 < e.w ∧ e.w < 1) (h : Reg O) (hr : run cfg {} es = .ok h) (r : G (Leaf O) (Option Stat))
    (hroot : h.root = some r) : ∀ l ∈ r.leaves, ∃ e ∈ es, l.w = .ok e.init := by
  have := run_all cfg n (fun l => ∃ e ∈ es, l.w = .ok e.init) (fun _ => True) es he
    (fun e m s l l' hl hlearn => by
      unfold Leaf.learn at hlearn
      simp only [if_pos hp, floor_zero (hw e m).1.le (hw e m).2, updateMany, Except.ok.injEq] at hlearn
      rw [← hlearn]
      rcases hl with ⟨e0, m0, h0⟩ | h0
      · exact ⟨e0, m0, by simp [h0]⟩
      · exact ⟨e, m, by simp [h0, newLeaf]⟩)
    (fun e m l hl => attempt_w cfg (fun v => ∃ e ∈ es, v = .ok e.init) e l hl)
    (fun a l hl => setActive_w cfg (fun v => ∃ e ∈ es, v = .ok e.init) a l hl) {} h (all_empty n _ _) hr
  intro l hl
  exact G.all_leaves _ _ r (this r hroot).2 l hl

/-- The statistics of a list of rows. -/
def statOf (es : List (Ev O)) : Stat := ⟨total es, wsum es Ev.y, wsum es fun e => e.y ^ 2⟩

theorem addStat_snoc (es : List (Ev O)) (e : Ev O) :
    addStat (some (statOf es)) e.y e.w = statOf (es ++ [e]) := by
  simp only [addStat, statOf, total, wsum, List.map_append, List.map_cons, List.map_nil, List.sum_append, List.sum_cons,
    List.sum_nil, add_zero, Stat.mk.injEq, true_and]
  exact ⟨by ring, by ring⟩

theorem addStat_first (e : Ev O) : addStat none e.y e.w = statOf [e] := by
  simp only [addStat, statOf, total, wsum, List.map_cons, List.map_nil, List.sum_cons, List.sum_nil, add_zero, Stat.mk.injEq,
    true_and]
  exact ⟨by ring, by ring⟩

theorem mean_run (cfg : Cfg O) (hp : cfg.perceptron = false) (es : List (Ev O)) (hg : ∀ e ∈ es, e.growth = false) :
    ∀ (h : Reg O) (es0 : List (Ev O)),
      ((h.root = none ∧ es0 = []) ∨ ∃ l, h.root = some (.leaf l) ∧ l.stats = some (statOf es0)) → h.sums.n = total es0 →
      ∃ h', run cfg h es = .ok h' ∧ h'.sums.n = total (es0 ++ es) ∧
        ((h'.root = none ∧ es0 ++ es = []) ∨ ∃ l, h'.root = some (.leaf l) ∧ l.stats = some (statOf (es0 ++ es))) := by
  induction es with
  | nil => intro h es0 hi hn; exact ⟨h, rfl, by simpa using hn, by simpa using hi⟩
  | cons e es ih =>
    intro h es0 hi hn
    have hge := hg e List.mem_cons_self
    have hlearn : ∀ l : Leaf O, l.stats = (if es0 = [] then none else some (statOf es0)) ∨ l.stats = some (statOf es0) →
        ∃ l', l.learn cfg (h.sums.add e.x e.y e.w) e = .ok l' ∧ l'.stats = some (statOf (es0 ++ [e])) := by
      intro l hl
      unfold Leaf.learn
      simp only [hp, Bool.false_eq_true, if_false]
      refine ⟨_, rfl, ?_⟩
      simp only [Option.some.injEq]
      rcases hl with hl | hl
      · by_cases h0 : es0 = []
        · rw [if_pos h0] at hl; rw [hl, h0]; exact addStat_first e
        · rw [if_neg h0] at hl; rw [hl]; exact addStat_snoc es0 e
      · rw [hl]; exact addStat_snoc es0 e
    have hact : ∀ a (l : Leaf O), (setActive cfg a l).stats = l.stats := by
      intro a l
      unfold setActive
      cases a with
      | none => rfl
      | some a =>
        by_cases ha : l.active = a
        · simp only [if_pos ha]
        · simp only [if_neg ha]; rfl
    have hstep : ∃ h1 l, step cfg h e = .ok h1 ∧ h1.root = some (.leaf l) ∧ l.stats = some (statOf (es0 ++ [e])) ∧
        h1.sums.n = total (es0 ++ [e]) := by
      have hsum : (h.sums.add e.x e.y e.w).n = total (es0 ++ [e]) := by simp [Sums.add, hn, total]
      obtain ⟨l, hl0, hl1⟩ : ∃ l, h.root.getD (.leaf (newLeaf cfg true none .unset)) = .leaf l ∧
          (l.stats = (if es0 = [] then none else some (statOf es0)) ∨ l.stats = some (statOf es0)) := by
        rcases hi with ⟨h1, h2⟩ | ⟨l, h1, h2⟩
        · exact ⟨_, by rw [h1]; rfl, .inl (by rw [if_pos h2]; rfl)⟩
        · exact ⟨l, by rw [h1]; rfl, .inr h2⟩
      obtain ⟨l', g1, g2⟩ := hlearn l hl1
      have hatt : attempt cfg e l' = .leaf l' := by unfold attempt; rw [if_neg (by simp [hge])]
      refine ⟨⟨h.sums.add e.x e.y e.w, some (.leaf (setActive cfg (e.memory []) l'))⟩, _, ?_, rfl, by rw [hact]; exact g2, hsum⟩
      unfold step
      simp only [hl0, G.learn, g1, Except.map, hatt, G.mapLeaves]
    obtain ⟨h1, l, s1, s2, s3, s4⟩ := hstep
    obtain ⟨h2, k1, k2, k3⟩ := ih (fun e' m => hg e' (List.mem_cons_of_mem _ m)) h1 (es0 ++ [e]) (.inr ⟨l, s2, s3⟩) s4
    exact ⟨h2, by simp only [run, s1, k1], by simpa using k2, by simpa using k3⟩

/-- C175 (partial): with target-mean leaves, and as long as the tree does not grow, every row counts
with its weight: the prediction is the weighted mean of the targets.  Missing (and false, see the
violation): perceptron leaves. -/
theorem C175_weighted_mean_partial (cfg : Cfg O) (hp : cfg.perceptron = false) (es : List (Ev O))
    (hg : ∀ e ∈ es, e.growth = false) (hw : ∀ e ∈ es, 0 < e.w) (hne : es ≠ []) (x : List ℚ) :
    ∃ h, run cfg {} es = .ok h ∧
      predict cfg h [x] = .ok [some ((es.map fun e => e.w * e.y).sum / (es.map Ev.w).sum)] := by
  obtain ⟨h, h1, h2, h3⟩ := mean_run cfg hp es hg {} [] (.inl ⟨rfl, rfl⟩) (by simp [total])
  rw [List.nil_append] at h2 h3
  have hpos : 0 < total es := by
    unfold total
    exact List.sum_pos _ (by simp only [List.mem_map]; rintro _ ⟨e, m, rfl⟩; exact hw e m) (by simpa using hne)
  refine ⟨h, h1, ?_⟩
  rcases h3 with ⟨_, h4⟩ | ⟨l, h4, h5⟩
  · exact absurd h4 hne
  · unfold predict
    rw [h4]
    simp only []
    rw [if_pos (by rw [h2]; exact hpos)]
    have : mean l.stats = some ((es.map fun e => e.w * e.y).sum / (es.map Ev.w).sum) := by
      have h0 : (statOf es).n ≠ 0 := hpos.ne'
      rw [h5, mean]
      simp only [if_neg h0]
      rfl
    simp only [predictAll, predictOne, G.route, hp, Bool.false_eq_true, if_false, this]

/-- The hypotheses of C174 and C176 are met by rows of two attributes, those of
`C174_single_attribute_violated` by rows of one. -/
example : (∀ e ∈ [percEv [0, 1] 0, percEv [2, 1] 2], e.Ok 2) ∧ 0 < total [percEv [0, 1] 0, percEv [2, 1] 2] ∧
    ({ percEv [3] 0 with init := [1, 0] } : Ev Unit).Ok 1 ∧ percCfg.nominal 0 = false := by
  refine ⟨fun e he => ?_, by decide +kernel, ⟨rfl, rfl, fun _ => trivial⟩, rfl⟩
  simp only [List.mem_cons, List.not_mem_nil, or_false] at he
  rcases he with rfl | rfl <;> exact ⟨rfl, rfl, fun _ => trivial⟩

/-- The hypotheses of C175: a row of weight one half leaves the perceptron untrained; target-mean
leaves do count it. -/
example : ((run percCfg {} [{ percEv [0, 1] 4 with w := 1/2 }, { percEv [2, 1] 2 with w := 1/2 }]).toOption.bind fun h =>
      h.root.map fun r => r.leaves.map fun l => l.w) = some [.ok [1/2, 0, 1/4]] ∧
    ((run { percCfg with perceptron := false } {} [{ percEv [0, 1] 4 with w := 1/2, growth := false },
        { percEv [2, 1] 1 with growth := false }]).toOption.bind fun h =>
      (predict { percCfg with perceptron := false } h [[1, 1]]).toOption) = some [some 2] := by
  decide +kernel

end Verif.Trees.HR
