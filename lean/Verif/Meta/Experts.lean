import Verif.Lazy.KNN
import Mathlib.Data.List.Sort
import Mathlib.Algebra.Order.BigOperators.Group.List
import Mathlib.Data.Rat.Floor

/-!
Models of `meta/dynamic_weighted_majority.py` and
`meta/additive_expert_ensemble.py`; C38, C39, C69.

Simplifications: labels are natural numbers; an estimator is an arbitrary state with
arbitrary `predict` and `learn` functions; weights are rational numbers; the vote
table (lines 214-224) is written per class as the sum of the weights of the experts
voting for it.
-/

namespace Verif.Meta

open Verif.Lazy (argmax argmax_spec)

/-- A base estimator: state after construction, prediction, one training step. -/
structure Learner (σ X : Type) where
  fresh : σ
  predict : σ → X → Nat
  learn : σ → X → Nat → σ

/-- `WeightedExpert`, dynamic_weighted_majority.py 84-98. -/
structure Expert (σ : Type) where
  st : σ
  w : ℚ

/-- Learner state, dynamic_weighted_majority.py 251-259. -/
structure Ens (σ : Type) where
  epochs : Nat
  numClasses : Nat
  experts : List (Expert σ)

variable {σ X : Type}

/-- Vote table: entry `c` is the total weight voting for class `c` (lines 214, 224). -/
def votes (K : Nat) (ballots : List (Nat × ℚ)) : List ℚ :=
  (List.range K).map fun c : Nat => ((ballots.filter fun b => b.1 = c).map Prod.snd).sum

/-- Lines 225-229: largest weight, least weight below 1 and its first position. -/
def scan : List ℚ → Nat → ℚ × ℚ × Option Nat → ℚ × ℚ × Option Nat
  | [], _, st => st
  | w :: ws, i, (m, ww, wi) =>
    if w < ww then scan ws (i + 1) (max m w, w, some i) else scan ws (i + 1) (max m w, ww, wi)

namespace DWM

/-- Constructor parameters. -/
structure Params where
  nEst : Nat
  period : Nat
  beta : ℚ
  theta : ℚ

/-- `reset`, lines 251-259. -/
def reset (L : Learner σ X) : Ens σ := ⟨0, 2, [⟨L.fresh, 1⟩]⟩

/-- Lines 219-222: weights after the penalty. -/
def penalise (L : Learner σ X) (beta : ℚ) (due : Bool) (x : X) (y : Nat) (es : List (Expert σ)) :
    List (Expert σ) :=
  es.map fun e => if L.predict e.st x ≠ y ∧ due = true then { e with w := e.w * beta } else e

/-- Lines 232-238. -/
def renew (P : Params) (L : Learner σ X) (m : ℚ) (wi : Option Nat) (wrong : Bool) (es : List (Expert σ)) :
    Except PyErr (List (Expert σ)) :=
  if m = 0 then .error .zeroDivision
  else
    let es := (es.map fun e => { e with w := e.w * (1 / m) }).filter fun e => P.theta ≤ e.w
    if wrong then
      if es.length = P.nEst then
        match wi with
        | none => .error .typeError
        | some k => if k < es.length then .ok (es.eraseIdx k ++ [⟨L.fresh, 1⟩]) else .error .indexError
      else .ok (es ++ [⟨L.fresh, 1⟩])
    else .ok es

/-- `fit_single_sample`, lines 181-242; `nc` is the length of the `classes` argument. -/
def step (P : Params) (L : Learner σ X) (s : Ens σ) (x : X) (y nc : Nat) : Except PyErr (Ens σ) :=
  if P.period = 0 then .error .zeroDivision
  else
    let epochs := s.epochs + 1
    let K := max nc (max (y + 1) s.numClasses)
    let due : Bool := decide (epochs % P.period = 0)
    let es := penalise L P.beta due x y s.experts
    if es.any fun e => decide (K ≤ L.predict e.st x) then .error .indexError
    else
      let yhat := argmax (votes K (es.map fun e => (L.predict e.st x, e.w)))
      let sc := scan (es.map Expert.w) 0 (0, 1, none)
      (if due then renew P L sc.1 sc.2.2 (decide (yhat ≠ y)) es else .ok es).map fun es =>
        ⟨epochs, K, es.map fun e => { e with st := L.learn e.st x y }⟩

/-- `partial_fit`, lines 149-153, over a whole stream: each sample with the length of
the `classes` argument of its call. -/
def run (P : Params) (L : Learner σ X) (s : Ens σ) (xs : List (X × Nat × Nat)) : Except PyErr (Ens σ) :=
  xs.foldlM (fun s a => step P L s a.1 a.2.1 a.2.2) s

end DWM

/-! ### Lemmas -/

theorem votes_get (K : Nat) (b : List (Nat × ℚ)) (c : Nat) (h : c < K) :
    (votes K b)[c]? = some (((b.filter fun b => b.1 = c).map Prod.snd).sum) := by
  simp [votes, h]

theorem length_votes (K : Nat) (b : List (Nat × ℚ)) : (votes K b).length = K := by simp [votes]

/-- If all ballots are for `y`, the majority is `y`. -/
theorem argmax_unanimous (K : Nat) (b : List (Nat × ℚ)) (y : Nat) (hy : y < K) (hne : b ≠ [])
    (hall : ∀ a ∈ b, a.1 = y) (hpos : ∀ a ∈ b, 0 < a.2) : argmax (votes K b) = y := by
  have hnev : votes K b ≠ [] := by
    intro h
    have := length_votes K b
    rw [h] at this; simp only [List.length_nil] at this; omega
  obtain ⟨v, h1, h2, _⟩ := argmax_spec (votes K b) hnev
  have hsum : 0 < ((b.filter fun b => b.1 = y).map Prod.snd).sum := by
    have : b.filter (fun b => b.1 = y) = b := by
      rw [List.filter_eq_self]; intro a ha; simp [hall a ha]
    rw [this]
    apply List.sum_pos
    · intro x hx
      obtain ⟨a, ha, rfl⟩ := List.mem_map.mp hx
      exact hpos a ha
    · simpa using hne
  have hle := h2 _ (List.mem_of_getElem? (votes_get K b y hy))
  have hlt : argmax (votes K b) < K := by
    have := List.getElem?_eq_some_iff.mp h1
    obtain ⟨hlt, _⟩ := this
    rwa [length_votes] at hlt
  by_contra hne'
  rw [votes_get K b _ hlt] at h1
  have : b.filter (fun a => a.1 = argmax (votes K b)) = [] := by
    rw [List.filter_eq_nil_iff]
    intro a ha
    simp only [decide_eq_true_eq]
    rw [hall a ha]; exact fun h => hne' h.symm
  rw [this] at h1
  simp only [List.map_nil, List.sum_nil, Option.some.injEq] at h1
  rw [← h1] at hle
  linarith

theorem scan_spec (ws pre : List ℚ) (m ww : ℚ) (wi : Option Nat)
    (hm : ∀ w ∈ pre, w ≤ m) (hm' : m = 0 ∨ m ∈ pre) (hw : ∀ w ∈ pre, ww ≤ w)
    (hwi : (wi = none ∧ ww = 1) ∨ ∃ k, wi = some k ∧ pre[k]? = some ww) :
    let r := scan ws pre.length (m, ww, wi)
    (∀ w ∈ pre ++ ws, w ≤ r.1) ∧ (m ≤ r.1) ∧ (r.1 = 0 ∨ r.1 ∈ pre ++ ws) ∧
    (∀ w ∈ pre ++ ws, r.2.1 ≤ w) ∧
    ((r.2.2 = none ∧ r.2.1 = 1) ∨ ∃ k, r.2.2 = some k ∧ (pre ++ ws)[k]? = some r.2.1) := by
  induction ws generalizing pre m ww wi with
  | nil => simp only [scan, List.append_nil]; exact ⟨hm, le_refl _, hm', hw, hwi⟩
  | cons w ws ih =>
    simp only [scan]
    have hlen : pre.length + 1 = (pre ++ [w]).length := by simp
    have hm1 : ∀ x ∈ pre ++ [w], x ≤ max m w := by
      intro x hx
      rcases List.mem_append.mp hx with h | h
      · exact le_trans (hm x h) (le_max_left _ _)
      · rw [List.mem_singleton.mp h]; exact le_max_right _ _
    have hm2 : max m w = 0 ∨ max m w ∈ pre ++ [w] := by
      rcases max_choice m w with e | e <;> rw [e]
      · rcases hm' with h | h
        · exact .inl h
        · exact .inr (by simp [h])
      · exact .inr (by simp)
    by_cases hlt : w < ww
    · rw [if_pos hlt, hlen]
      obtain ⟨a, b, c, d, e⟩ := ih (pre ++ [w]) (max m w) w (some pre.length) hm1 hm2 (by
        intro x hx
        rcases List.mem_append.mp hx with h | h
        · exact le_trans (le_of_lt hlt) (hw x h)
        · rw [List.mem_singleton.mp h]) (.inr ⟨_, rfl, by simp⟩)
      simp only [List.append_assoc, List.singleton_append] at a c d e
      exact ⟨a, le_trans (le_max_left _ _) b, c, d, e⟩
    · rw [if_neg hlt, hlen]
      obtain ⟨a, b, c, d, e⟩ := ih (pre ++ [w]) (max m w) ww wi hm1 hm2 (by
        intro x hx
        rcases List.mem_append.mp hx with h | h
        · exact hw x h
        · rw [List.mem_singleton.mp h]; exact not_lt.mp hlt) (by
        rcases hwi with h | ⟨k, hk, h⟩
        · exact .inl h
        · refine .inr ⟨k, hk, ?_⟩
          rw [List.getElem?_append_left (List.getElem?_eq_some_iff.mp h).1]; exact h)
      simp only [List.append_assoc, List.singleton_append] at a c d e
      exact ⟨a, le_trans (le_max_left _ _) b, c, d, e⟩

/-- `scan` on a list of weights in (0,1]: the maximum, and the position of a least
weight, unless all weights are 1. -/
theorem scan_weights (ws : List ℚ) (hne : ws ≠ []) (h0 : ∀ w ∈ ws, 0 < w) (h1 : ∀ w ∈ ws, w ≤ 1) :
    let r := scan ws 0 (0, 1, none)
    0 < r.1 ∧ r.1 ∈ ws ∧ (∀ w ∈ ws, w ≤ r.1) ∧
    ((r.2.2 = none ∧ ∀ w ∈ ws, w = 1) ∨ ∃ k a, r.2.2 = some k ∧ ws[k]? = some a ∧ ∀ w ∈ ws, a ≤ w) := by
  obtain ⟨a, b, c, d, e⟩ := scan_spec ws [] 0 1 none (by simp) (.inl rfl) (by simp) (.inl ⟨rfl, rfl⟩)
  simp only [List.length_nil, List.nil_append] at a b c d e
  obtain ⟨w, hw⟩ := List.exists_mem_of_ne_nil ws hne
  have hpos : 0 < (scan ws 0 (0, 1, none)).1 := lt_of_lt_of_le (h0 w hw) (a w hw)
  refine ⟨hpos, ?_, a, ?_⟩
  · rcases c with c | c
    · rw [c] at hpos; exact absurd hpos (lt_irrefl _)
    · exact c
  · rcases e with ⟨e1, e2⟩ | ⟨k, e1, e2⟩
    · refine .inl ⟨e1, ?_⟩
      intro w hw
      have := d w hw
      rw [e2] at this
      exact le_antisymm (h1 w hw) this
    · exact .inr ⟨k, _, e1, e2, d⟩

/-! ### C38 -/

namespace DWM

/-- Between 1 and `n` experts, all weights in (0,1]. -/
def Inv (n : Nat) (s : Ens σ) : Prop :=
  1 ≤ s.experts.length ∧ s.experts.length ≤ n ∧ ∀ e ∈ s.experts, 0 < e.w ∧ e.w ≤ 1

/-- Parameters in their documented ranges. -/
def Params.Ok (P : Params) : Prop :=
  1 ≤ P.nEst ∧ 1 ≤ P.period ∧ 0 < P.beta ∧ P.beta < 1 ∧ 0 ≤ P.theta ∧ P.theta ≤ 1

theorem penalise_length (L : Learner σ X) (beta : ℚ) (due : Bool) (x : X) (y : Nat) (es : List (Expert σ)) :
    (penalise L beta due x y es).length = es.length := by simp [penalise]

theorem penalise_mem {L : Learner σ X} {beta : ℚ} {due : Bool} {x : X} {y : Nat} {es : List (Expert σ)}
    (hb0 : 0 < beta) (hb1 : beta < 1) (hes : ∀ e ∈ es, 0 < e.w ∧ e.w ≤ 1) {e : Expert σ}
    (he : e ∈ penalise L beta due x y es) :
    0 < e.w ∧ e.w ≤ 1 ∧ (due = true → L.predict e.st x ≠ y → e.w < 1) := by
  obtain ⟨e0, h0, rfl⟩ := List.mem_map.mp he
  obtain ⟨p0, p1⟩ := hes e0 h0
  by_cases h : L.predict e0.st x ≠ y ∧ due = true
  · rw [if_pos h]
    have hlt : e0.w * beta < 1 := by nlinarith
    exact ⟨mul_pos p0 hb0, le_of_lt hlt, fun _ _ => hlt⟩
  · rw [if_neg h]
    refine ⟨p0, p1, fun hd hp => absurd ⟨hp, hd⟩ h⟩

/-- C38: one training step from a legal state raises nothing, keeps the invariant,
and at the end of an update period the largest weight is 1 and none is below `theta`. -/
theorem C38_step (P : Params) (hP : P.Ok) (L : Learner σ X) (s : Ens σ) (x : X) (y nc : Nat)
    (hi : Inv P.nEst s)
    (hpred : ∀ e ∈ s.experts, L.predict e.st x < max nc (max (y + 1) s.numClasses)) :
    ∃ s', step P L s x y nc = .ok s' ∧ Inv P.nEst s' ∧ s'.epochs = s.epochs + 1 ∧
      s'.numClasses = max nc (max (y + 1) s.numClasses) ∧
      (s'.epochs % P.period = 0 →
        (∃ e ∈ s'.experts, e.w = 1) ∧ ∀ e ∈ s'.experts, P.theta ≤ e.w) := by
  obtain ⟨hn, hper, hb0, hb1, ht0, ht1⟩ := hP
  obtain ⟨i1, i2, i3⟩ := hi
  set K := max nc (max (y + 1) s.numClasses) with hK
  set due : Bool := decide ((s.epochs + 1) % P.period = 0) with hdue
  set es := penalise L P.beta due x y s.experts with hes
  have hlen : es.length = s.experts.length := penalise_length _ _ _ _ _ _
  have hmem : ∀ e ∈ es, 0 < e.w ∧ e.w ≤ 1 ∧ (due = true → L.predict e.st x ≠ y → e.w < 1) :=
    fun e he => penalise_mem hb0 hb1 i3 he
  have hst : ∀ e ∈ es, ∃ e0 ∈ s.experts, e.st = e0.st := by
    intro e he
    obtain ⟨e0, h0, rfl⟩ := List.mem_map.mp he
    refine ⟨e0, h0, ?_⟩
    split_ifs <;> rfl
  have hany : es.any (fun e => decide (K ≤ L.predict e.st x)) = false := by
    rw [List.any_eq_false]
    intro e he
    obtain ⟨e0, h0, e1⟩ := hst e he
    simp only [decide_eq_true_eq, not_le, e1]
    exact hpred e0 h0
  have hws : es.map Expert.w ≠ [] := by
    intro h
    have := congrArg List.length h
    simp only [List.length_map, List.length_nil] at this
    omega
  have hw0 : ∀ w ∈ es.map Expert.w, 0 < w := by
    intro w hw; obtain ⟨e, he, rfl⟩ := List.mem_map.mp hw; exact (hmem e he).1
  have hw1 : ∀ w ∈ es.map Expert.w, w ≤ 1 := by
    intro w hw; obtain ⟨e, he, rfl⟩ := List.mem_map.mp hw; exact (hmem e he).2.1
  obtain ⟨m0, mmem, mmax, mwi⟩ := scan_weights (es.map Expert.w) hws hw0 hw1
  set sc := scan (es.map Expert.w) 0 (0, 1, none) with hsc
  set yhat := argmax (votes K (es.map fun e => (L.predict e.st x, e.w))) with hyh
  -- scaled experts
  set sl := es.map (fun e => { e with w := e.w * (1 / sc.1) }) with hsl
  have hslw : ∀ e ∈ sl, 0 < e.w ∧ e.w ≤ 1 := by
    intro e he
    obtain ⟨e0, h0, rfl⟩ := List.mem_map.mp he
    have := mmax e0.w (List.mem_map_of_mem h0)
    refine ⟨mul_pos (hmem e0 h0).1 (one_div_pos.mpr m0), ?_⟩
    show e0.w * (1 / sc.1) ≤ 1
    rw [mul_one_div]; exact (div_le_one m0).mpr this
  have hmax1 : ∃ e ∈ sl, e.w = 1 := by
    obtain ⟨e0, h0, e1⟩ := List.mem_map.mp mmem
    refine ⟨_, List.mem_map_of_mem h0, ?_⟩
    show e0.w * (1 / sc.1) = 1
    rw [e1, mul_one_div, div_self (ne_of_gt m0)]
  set fl := sl.filter (fun e => decide (P.theta ≤ e.w)) with hfl
  have hflw : ∀ e ∈ fl, (0 < e.w ∧ e.w ≤ 1) ∧ P.theta ≤ e.w := by
    intro e he
    obtain ⟨h1, h2⟩ := List.mem_filter.mp he
    exact ⟨hslw e h1, by simpa using h2⟩
  have hfl1 : ∃ e ∈ fl, e.w = 1 := by
    obtain ⟨e, he, h1⟩ := hmax1
    exact ⟨e, List.mem_filter.mpr ⟨he, by simp [h1, ht1]⟩, h1⟩
  have hfllen : fl.length ≤ s.experts.length := by
    have h1 : fl.length ≤ sl.length := List.length_filter_le _ sl
    have h2 : sl.length = es.length := by simp [hsl]
    omega
  have hflpos : 1 ≤ fl.length := by
    obtain ⟨e, he, _⟩ := hfl1
    exact List.length_pos_of_mem he
  -- the result of renewal
  have hren : ∃ es', (if due then renew P L sc.1 sc.2.2 (decide (yhat ≠ y)) es else .ok es) = .ok es' ∧
      1 ≤ es'.length ∧ es'.length ≤ P.nEst ∧ (∀ e ∈ es', 0 < e.w ∧ e.w ≤ 1) ∧
      (due = true → (∃ e ∈ es', e.w = 1) ∧ ∀ e ∈ es', P.theta ≤ e.w) := by
    cases hd : due with
    | false =>
      refine ⟨es, by simp, by omega, by omega, fun e he => ⟨(hmem e he).1, (hmem e he).2.1⟩, by simp⟩
    | true =>
      simp only [if_true, renew, if_neg (ne_of_gt m0), ← hsl, ← hfl]
      by_cases hwr : yhat ≠ y
      · simp only [hwr, decide_true, if_true, ne_eq, not_false_eq_true]
        by_cases hfull : fl.length = P.nEst
        · rw [if_pos hfull]
          have hall : fl = sl := by
            apply List.filter_eq_self.mpr
            have : fl.length = sl.length := by
              have h2 : sl.length = es.length := by simp [hsl]
              omega
            exact List.length_filter_eq_length_iff.mp this
          rcases mwi with ⟨_, hone⟩ | ⟨k, a, hk, hka, _⟩
          · exfalso
            apply hwr
            apply argmax_unanimous K _ y (by rw [hK]; omega)
            · intro h
              have := congrArg List.length h
              simp only [List.length_map, List.length_nil] at this
              omega
            · intro b hb
              obtain ⟨e, he, rfl⟩ := List.mem_map.mp hb
              by_contra hne
              have h1 := (hmem e he).2.2 hd hne
              have h2 := hone e.w (List.mem_map_of_mem he)
              linarith
            · intro b hb
              obtain ⟨e, he, rfl⟩ := List.mem_map.mp hb
              exact (hmem e he).1
          · have hklt : k < fl.length := by
              have := (List.getElem?_eq_some_iff.mp hka).1
              rw [hall, hsl]; simpa using this
            rw [hk]
            simp only [if_pos hklt]
            have hmem' : ∀ e ∈ fl.eraseIdx k, e ∈ fl := fun e he => List.mem_of_mem_eraseIdx he
            refine ⟨_, rfl, ?_, ?_, ?_, ?_⟩
            · simp
            · rw [List.length_append, List.length_eraseIdx_of_lt hklt]
              simp only [List.length_singleton]; omega
            · intro e he
              rcases List.mem_append.mp he with h | h
              · exact (hflw e (hmem' e h)).1
              · rw [List.mem_singleton.mp h]; exact ⟨one_pos, le_refl _⟩
            · intro _
              refine ⟨⟨⟨L.fresh, 1⟩, by simp, rfl⟩, ?_⟩
              intro e he
              rcases List.mem_append.mp he with h | h
              · exact (hflw e (hmem' e h)).2
              · rw [List.mem_singleton.mp h]; exact ht1
        · rw [if_neg hfull]
          refine ⟨_, rfl, by simp, by simp only [List.length_append, List.length_singleton]; omega, ?_, ?_⟩
          · intro e he
            rcases List.mem_append.mp he with h | h
            · exact (hflw e h).1
            · rw [List.mem_singleton.mp h]; exact ⟨one_pos, le_refl _⟩
          · intro _
            refine ⟨⟨⟨L.fresh, 1⟩, by simp, rfl⟩, ?_⟩
            intro e he
            rcases List.mem_append.mp he with h | h
            · exact (hflw e h).2
            · rw [List.mem_singleton.mp h]; exact ht1
      · simp only [hwr, decide_false, Bool.false_eq_true, if_false]
        exact ⟨fl, rfl, hflpos, by omega, fun e he => (hflw e he).1, fun _ => ⟨hfl1, fun e he => (hflw e he).2⟩⟩
  obtain ⟨es', he', l1, l2, l3, l4⟩ := hren
  refine ⟨⟨s.epochs + 1, K, es'.map fun e => { e with st := L.learn e.st x y }⟩, ?_, ⟨?_, ?_, ?_⟩, rfl, rfl, ?_⟩
  · unfold step
    rw [if_neg (by omega)]
    simp only [← hK, ← hdue, ← hes]
    rw [hany]
    simp only [Bool.false_eq_true, if_false, ← hyh, ← hsc]
    rw [he']
    rfl
  · simpa using l1
  · simpa using l2
  · intro e he
    obtain ⟨e0, h0, rfl⟩ := List.mem_map.mp he
    exact l3 e0 h0
  · intro hd
    obtain ⟨⟨e, he, h1⟩, h2⟩ := l4 (by rw [hdue]; simpa using hd)
    refine ⟨⟨_, List.mem_map_of_mem he, h1⟩, ?_⟩
    intro e he
    obtain ⟨e0, h0, rfl⟩ := List.mem_map.mp he
    exact h2 e0 h0

/-- C38: for every stream, and experts that predict classes below the number of
classes announced, training never raises; at every point the ensemble has between 1
and `n_estimators` experts with weights in (0,1]; and after each update period the
largest weight is 1 and none is below `theta`. -/
theorem C38_bounded_normalised (P : Params) (hP : P.Ok) (L : Learner σ X) (C : Nat)
    (hL : ∀ st x, L.predict st x < C) (xs : List (X × Nat × Nat)) (hC : C ≤ 2 ∨ ∀ a ∈ xs, C ≤ a.2.2) :
    ∃ s, run P L (reset L) xs = .ok s ∧ s.epochs = xs.length ∧ Inv P.nEst s ∧
      (s.epochs % P.period = 0 →
        (∃ e ∈ s.experts, e.w = 1) ∧ ∀ e ∈ s.experts, P.theta ≤ e.w) := by
  have key : ∀ ys : List (X × Nat × Nat), (C ≤ 2 ∨ ∀ a ∈ ys, C ≤ a.2.2) → ∀ s0 : Ens σ, 2 ≤ s0.numClasses →
      Inv P.nEst s0 →
      (s0.epochs % P.period = 0 → (∃ e ∈ s0.experts, e.w = 1) ∧ ∀ e ∈ s0.experts, P.theta ≤ e.w) →
      ∃ s, run P L s0 ys = .ok s ∧ s.epochs = s0.epochs + ys.length ∧ Inv P.nEst s ∧
      (s.epochs % P.period = 0 → (∃ e ∈ s.experts, e.w = 1) ∧ ∀ e ∈ s.experts, P.theta ≤ e.w) := by
    intro ys
    induction ys with
    | nil => intro _ s0 _ hi hd; exact ⟨s0, rfl, rfl, hi, hd⟩
    | cons a ys ih =>
      intro hc s0 h2 hi hd
      obtain ⟨s1, e1, i1, ep1, nc1, d1⟩ := C38_step P hP L s0 a.1 a.2.1 a.2.2 hi (by
        intro e _
        have := hL e.st a.1
        rcases hc with h | h
        · omega
        · have := h a (by simp); omega)
      obtain ⟨s2, e2, ep2, i2, d2⟩ := ih (by
        rcases hc with h | h
        · exact .inl h
        · exact .inr fun b hb => h b (by simp [hb])) s1 (by omega) i1 d1
      refine ⟨s2, ?_, ?_, i2, d2⟩
      · simp only [run, List.foldlM_cons, e1, bind, Except.bind] at e2 ⊢; exact e2
      · rw [ep2, ep1, List.length_cons]; omega
  obtain ⟨s, e, ep, i, d⟩ := key xs hC (reset L) (by simp [reset]) (by
    refine ⟨by simp [reset], by simpa [reset] using hP.1, ?_⟩
    intro e he
    simp only [reset, List.mem_singleton] at he
    rw [he]; exact ⟨one_pos, le_refl _⟩) (by
    intro _
    refine ⟨⟨_, List.mem_singleton_self _, rfl⟩, ?_⟩
    intro e he
    simp only [reset, List.mem_singleton] at he
    rw [he]; exact hP.2.2.2.2.2)
  exact ⟨s, e, by simpa [reset] using ep, i, d⟩

/-- C38: when the ensemble is full, all experts survive the threshold and the ensemble
errs at an update, one expert of least (penalised) weight is replaced by a new expert
of weight 1; the others keep their order and their scaled weights. -/
theorem C38_weakest_replaced (P : Params) (hP : P.Ok) (L : Learner σ X) (es : List (Expert σ))
    (hfull : es.length = P.nEst) (hes : ∀ e ∈ es, 0 < e.w ∧ e.w ≤ 1) (hlow : ∃ e ∈ es, e.w < 1)
    (es' : List (Expert σ))
    (hkeep : ∀ e ∈ es, ∀ f ∈ es, P.theta * f.w ≤ e.w)
    (hr : let sc := scan (es.map Expert.w) 0 (0, 1, none)
      renew P L sc.1 sc.2.2 true es = .ok es') :
    ∃ (k : Nat) (a : Expert σ) (m : ℚ), es[k]? = some a ∧ (∀ e ∈ es, a.w ≤ e.w) ∧
      (∃ e ∈ es, e.w = m) ∧ (∀ e ∈ es, e.w ≤ m) ∧
      es'.map Expert.w = ((es.eraseIdx k).map fun e => e.w / m) ++ [1] := by
  have hne : es.map Expert.w ≠ [] := by
    obtain ⟨e, he, _⟩ := hlow
    intro h
    have := List.map_eq_nil_iff.mp h
    rw [this] at he; simp at he
  obtain ⟨m0, mmem, mmax, mwi⟩ := scan_weights (es.map Expert.w) hne
    (by intro w hw; obtain ⟨e, he, rfl⟩ := List.mem_map.mp hw; exact (hes e he).1)
    (by intro w hw; obtain ⟨e, he, rfl⟩ := List.mem_map.mp hw; exact (hes e he).2)
  simp only at hr
  set sc := scan (es.map Expert.w) 0 (0, 1, none) with hsc
  obtain ⟨em, hem, hemw⟩ := List.mem_map.mp mmem
  rcases mwi with ⟨_, hone⟩ | ⟨k, a, hk, hka, hmin⟩
  · obtain ⟨e, he, hlt⟩ := hlow
    have := hone e.w (List.mem_map_of_mem he)
    linarith
  · obtain ⟨ek, hek, hekw⟩ : ∃ ek, es[k]? = some ek ∧ ek.w = a := by
      rw [List.getElem?_map] at hka
      cases h : es[k]? with
      | none => rw [h] at hka; cases hka
      | some ek => rw [h] at hka; exact ⟨ek, rfl, by simpa using hka⟩
    refine ⟨k, ek, sc.1, hek, ?_, ⟨em, hem, hemw⟩, fun e he => mmax e.w (List.mem_map_of_mem he), ?_⟩
    · intro e he; rw [hekw]; exact hmin e.w (List.mem_map_of_mem he)
    · have hfilt : (es.map fun e => ({ e with w := e.w * (1 / sc.1) } : Expert σ)).filter
          (fun e => decide (P.theta ≤ e.w)) = es.map fun e => { e with w := e.w * (1 / sc.1) } := by
        rw [List.filter_eq_self]
        intro e he
        obtain ⟨e0, h0, rfl⟩ := List.mem_map.mp he
        simp only [decide_eq_true_eq]
        rw [mul_one_div, le_div_iff₀ m0, ← hemw]
        exact hkeep e0 h0 em hem
      have hklt : k < es.length := (List.getElem?_eq_some_iff.mp hek).1
      simp only [renew, if_neg (ne_of_gt m0), hfilt, if_true, List.length_map, hfull, hk] at hr
      rw [if_pos (by omega)] at hr
      simp only [Except.ok.injEq] at hr
      rw [← hr]
      have he : (es.map fun e => ({ e with w := e.w * (1 / sc.1) } : Expert σ)).eraseIdx k =
          (es.eraseIdx k).map fun e => { e with w := e.w * (1 / sc.1) } := List.eraseIdx_map ..
      rw [he]
      simp only [List.map_append, List.map_cons, List.map_nil, List.map_map]
      congr 1
      apply List.map_congr_left
      intro e _
      show e.w * (1 / sc.1) = e.w / sc.1
      ring

/-- Specification: the weight of an expert once its mistake, if any, has been charged. -/
def charged (L : Learner σ X) (beta : ℚ) (x : X) (y : Nat) (e : Expert σ) : ℚ :=
  if L.predict e.st x = y then e.w else beta * e.w

/-- C93: dynamic weighted majority.  Inside an update period weights do not change.  At its
end, if the ensemble was right, there is `m`, the largest charged weight, such that the new
weights are those charged weights divided by `m` that reach `theta`, in the old order; every
remaining expert has learned the sample. -/
theorem C93_dwm_penalties (P : Params) (hP : P.Ok) (L : Learner σ X) (s s' : Ens σ) (x : X) (y nc : Nat)
    (hi : Inv P.nEst s) (hs : step P L s x y nc = .ok s') :
    (s'.epochs % P.period ≠ 0 →
      s'.experts = s.experts.map fun e => ⟨L.learn e.st x y, e.w⟩) ∧
    (s'.epochs % P.period = 0 →
      argmax (votes s'.numClasses (s.experts.map fun e => (L.predict e.st x, charged L P.beta x y e))) = y →
      ∃ m, m ∈ s.experts.map (charged L P.beta x y) ∧
        (∀ w ∈ s.experts.map (charged L P.beta x y), w ≤ m) ∧
        s'.experts = (s.experts.filter fun e => P.theta ≤ charged L P.beta x y e / m).map fun e =>
          ⟨L.learn e.st x y, charged L P.beta x y e / m⟩) := by
  obtain ⟨hn, hper, hb0, hb1, ht0, ht1⟩ := hP
  obtain ⟨i1, i2, i3⟩ := hi
  have hpen : ∀ due : Bool, penalise L P.beta due x y s.experts =
      s.experts.map fun e => ⟨e.st, if due then charged L P.beta x y e else e.w⟩ := by
    intro due
    apply List.map_congr_left
    intro e _
    cases due with
    | false => simp
    | true =>
      by_cases h : L.predict e.st x = y
      · simp [h, charged]
      · simp [h, charged, mul_comm]
  rw [step, if_neg (by omega)] at hs
  simp only at hs
  set K := max nc (max (y + 1) s.numClasses) with hK
  split_ifs at hs with hany hd
  · -- end of a period
    have hd' : decide ((s.epochs + 1) % P.period = 0) = true := by simpa using hd
    rw [hd'] at hs
    have hp := hpen true
    simp only [if_true] at hp
    rw [hp] at hs
    have hwm : ((s.experts.map fun e => (⟨e.st, charged L P.beta x y e⟩ : Expert σ)).map Expert.w) =
        s.experts.map (charged L P.beta x y) := by simp [Function.comp_def]
    have hvm : ((s.experts.map fun e => (⟨e.st, charged L P.beta x y e⟩ : Expert σ)).map
        fun e => (L.predict e.st x, e.w)) = s.experts.map fun e => (L.predict e.st x, charged L P.beta x y e) := by
      simp [Function.comp_def]
    rw [hwm, hvm] at hs
    have hpos : ∀ w ∈ s.experts.map (charged L P.beta x y), 0 < w ∧ w ≤ 1 := by
      intro w hw
      obtain ⟨e, he, rfl⟩ := List.mem_map.mp hw
      obtain ⟨p0, p1⟩ := i3 e he
      rw [charged]
      split_ifs
      · exact ⟨p0, p1⟩
      · exact ⟨mul_pos hb0 p0, by nlinarith⟩
    have hne : s.experts.map (charged L P.beta x y) ≠ [] := by
      intro h
      have := congrArg List.length h
      simp only [List.length_map, List.length_nil] at this
      omega
    obtain ⟨m0, mmem, mmax, _⟩ := scan_weights _ hne (fun w hw => (hpos w hw).1) (fun w hw => (hpos w hw).2)
    set sc := scan (s.experts.map (charged L P.beta x y)) 0 (0, 1, none) with hsc
    refine ⟨?_, ?_⟩
    · intro h
      exfalso
      apply h
      revert hs
      cases renew P L sc.1 sc.2.2 _ _ with
      | error _ => intro hs; cases hs
      | ok es => intro hs; cases hs; exact of_decide_eq_true hd
    · intro _ hy
      have hKs : s'.numClasses = K := by
        revert hs
        cases renew P L sc.1 sc.2.2 _ _ with
        | error _ => intro hs; cases hs
        | ok es => intro hs; cases hs; rfl
      rw [hKs] at hy
      refine ⟨sc.1, mmem, mmax, ?_⟩
      rw [hy] at hs
      rw [renew, if_neg (ne_of_gt m0)] at hs
      simp only [ne_eq, not_true_eq_false, decide_false, Bool.false_eq_true, if_false, Except.map,
        Except.ok.injEq] at hs
      rw [← hs]
      simp only [List.map_map, List.filter_map, Function.comp_def, mul_one_div]
  · have hd' : decide ((s.epochs + 1) % P.period = 0) = false := by simpa using hd
    rw [hd'] at hs
    have hp := hpen false
    simp only [Bool.false_eq_true, if_false] at hp
    rw [hp] at hs
    simp only [Except.map, Except.ok.injEq] at hs
    subst hs
    refine ⟨fun _ => by simp [Function.comp_def], fun h => absurd h (by simpa using hd)⟩

/-- A learner that always predicts its state (non-vacuity). -/
def constL : Learner Nat Nat := ⟨0, fun s _ => s, fun s x _ => if x = 1 then s + 1 else s⟩

example : (⟨2, 1, 1/2, 1/100⟩ : Params).Ok := by
  refine ⟨?_, ?_, ?_, ?_, ?_, ?_⟩ <;> norm_num

/-- The first expert errs, a second is added, then the weakest of two is replaced. -/
example : (match run ⟨2, 1, 1/2, 1/100⟩ constL (reset constL) [(0, 1, 2), (0, 1, 2), (0, 0, 2)] with
    | .ok s => some (s.experts.map Expert.w)
    | .error _ => none) = some [1, 1] := by decide +kernel

end DWM

/-! ### Additive expert ensemble -/

namespace AddExp

/-- `pruning` parameter. -/
inductive Pruning where
  | weakest
  | oldest
  deriving DecidableEq

/-- Constructor parameters. -/
structure Params where
  nEst : Nat
  beta : ℚ
  gamma : ℚ
  pruning : Pruning

/-- `_add_expert`, additive_expert_ensemble.py 237-249: for `weakest`, insertion before
the first expert of smaller weight. -/
def addExpert (p : Pruning) (new : Expert σ) : List (Expert σ) → List (Expert σ)
  | [] => [new]
  | e :: es =>
    match p with
    | .oldest => e :: es ++ [new]
    | .weakest => if e.w < new.w then new :: e :: es else e :: addExpert p new es

/-- Lines 207-208. -/
def sortExperts (p : Pruning) (es : List (Expert σ)) : List (Expert σ) :=
  match p with
  | .weakest => es.insertionSort fun a b => a.w ≤ b.w
  | .oldest => es

/-- Lines 216-218. -/
def prune (n : Nat) (es : List (Expert σ)) : List (Expert σ) := if es.length > n then es.drop 1 else es

/-- Sum of the weights. -/
def total (es : List (Expert σ)) : ℚ := (es.map Expert.w).sum

/-- `reset`, lines 257-260. -/
def reset (L : Learner σ X) : Ens σ := ⟨0, 2, [⟨L.fresh, 1⟩]⟩

/-- Lines 210-218, after the penalties and the sorting: `wrong` tells whether the
ensemble erred. -/
def renew (P : Params) (L : Learner σ X) (wrong : Bool) (es : List (Expert σ)) : List (Expert σ) :=
  prune P.nEst (if wrong then addExpert P.pruning ⟨L.fresh, total es * P.gamma⟩ es else es)

/-- Lines 200-201. -/
def penalise (L : Learner σ X) (beta : ℚ) (x : X) (y : Nat) (es : List (Expert σ)) : List (Expert σ) :=
  es.map fun e => if L.predict e.st x ≠ y then { e with w := e.w * beta } else e

/-- Lines 224-228. -/
def normalise (epochs : Nat) (es : List (Expert σ)) : Except PyErr (List (Expert σ)) :=
  if epochs % 1000 ≠ 0 then
    if total es = 0 then .error .zeroDivision
    else .ok (es.map fun e => { e with w := e.w / total es })
  else .ok es

/-- `fit_single_sample`, lines 185-228. -/
def step (P : Params) (L : Learner σ X) (s : Ens σ) (x : X) (y nc : Nat) : Except PyErr (Ens σ) :=
  let epochs := s.epochs + 1
  let K := max nc (max (y + 1) s.numClasses)
  if s.experts.any fun e => decide (K ≤ L.predict e.st x) then .error .indexError
  else
    let yhat := argmax (votes K (s.experts.map fun e => (L.predict e.st x, e.w)))
    let es := sortExperts P.pruning (penalise L P.beta x y s.experts)
    let es := renew P L (decide (yhat ≠ y)) es
    (normalise epochs (es.map fun e => { e with st := L.learn e.st x y })).map fun es => ⟨epochs, K, es⟩

/-- `partial_fit`, lines 128-155, over a whole stream. -/
def run (P : Params) (L : Learner σ X) (s : Ens σ) (xs : List (X × Nat × Nat)) : Except PyErr (Ens σ) :=
  xs.foldlM (fun s a => step P L s a.1 a.2.1 a.2.2) s

theorem sort_perm (p : Pruning) (es : List (Expert σ)) : (sortExperts p es).Perm es := by
  cases p with
  | weakest => exact List.perm_insertionSort _ _
  | oldest => exact List.Perm.refl _

theorem sort_sorted (es : List (Expert σ)) :
    (sortExperts .weakest es).Pairwise fun a b => a.w ≤ b.w := by
  haveI : Std.Total (fun a b : Expert σ => a.w ≤ b.w) := ⟨fun a b => le_total _ _⟩
  haveI : IsTrans (Expert σ) (fun a b : Expert σ => a.w ≤ b.w) := ⟨fun a b c => le_trans⟩
  exact List.pairwise_insertionSort _ es

theorem add_mem (p : Pruning) (new : Expert σ) (es : List (Expert σ)) :
    (addExpert p new es).Perm (new :: es) := by
  induction es with
  | nil => simp [addExpert]
  | cons e es ih =>
    cases p with
    | oldest =>
      simp only [addExpert]
      exact List.perm_append_singleton new (e :: es)
    | weakest =>
      simp only [addExpert]
      split_ifs
      · exact List.Perm.refl _
      · exact (List.Perm.cons e ih).trans (List.Perm.swap new e es)

theorem add_all_ge (new : Expert σ) (es : List (Expert σ)) (h : ∀ e ∈ es, new.w ≤ e.w) :
    addExpert .weakest new es = es ++ [new] := by
  induction es with
  | nil => rfl
  | cons e es ih =>
    simp only [addExpert]
    rw [if_neg (not_lt.mpr (h e (by simp))), ih fun e he => h e (by simp [he])]
    rfl

theorem add_oldest (new : Expert σ) (es : List (Expert σ)) : addExpert .oldest new es = es ++ [new] := by
  cases es <;> rfl

/-- C39 (violated): `pruning='weakest'`.  Let the ensemble (sorted by weight, as the code
leaves it) be full and err, and let the new expert's weight differ from the smallest
weight.  Then the expert removed is never one of least weight: if the new expert outweighs
the weakest, the new expert itself is discarded; otherwise the weakest old expert goes
although the new one weighs less. -/
theorem C39_prunes_wrong_expert_violated (P : Params) (hp : P.pruning = .weakest) (L : Learner σ X)
    (e : Expert σ) (es : List (Expert σ)) (hs : (e :: es).Pairwise fun a b => a.w ≤ b.w)
    (hfull : (e :: es).length = P.nEst) (hne : total (e :: es) * P.gamma ≠ e.w) :
    ∃ removed, (removed :: renew P L true (e :: es)).Perm (⟨L.fresh, total (e :: es) * P.gamma⟩ :: e :: es) ∧
      ∃ kept ∈ renew P L true (e :: es), kept.w < removed.w := by
  set new : Expert σ := ⟨L.fresh, total (e :: es) * P.gamma⟩ with hnew
  have hge : ∀ f ∈ e :: es, e.w ≤ f.w := by
    intro f hf
    rcases List.mem_cons.mp hf with rfl | h
    · exact le_refl _
    · exact (List.pairwise_cons.mp hs).1 f h
  by_cases hlt : e.w < new.w
  · have hr : renew P L true (e :: es) = e :: es := by
      have ha : addExpert .weakest new (e :: es) = new :: e :: es := by rw [addExpert]; exact if_pos hlt
      simp only [renew, if_true, ← hnew, hp, ha, prune]
      rw [if_pos (by simp only [List.length_cons] at hfull ⊢; omega)]
      rfl
    rw [hr]
    exact ⟨new, List.Perm.refl _, e, by simp, hlt⟩
  · have hle : new.w ≤ e.w := not_lt.mp hlt
    have hadd : addExpert .weakest new (e :: es) = e :: (es ++ [new]) :=
      add_all_ge new (e :: es) fun f hf => le_trans hle (hge f hf)
    have hr : renew P L true (e :: es) = es ++ [new] := by
      simp only [renew, if_true, ← hnew, hp, hadd, prune]
      rw [if_pos (by simp only [List.length_cons, List.length_append, List.length_nil] at hfull ⊢; omega)]
      rfl
    rw [hr]
    refine ⟨e, ?_, new, by simp, lt_of_le_of_ne hle hne⟩
    exact List.perm_append_singleton new (e :: es)

/-- C39 (violated): hence, while the new expert would outweigh the weakest one, a full
ensemble never changes its members however often it errs. -/
theorem C39_full_ensemble_frozen_violated (P : Params) (hp : P.pruning = .weakest) (L : Learner σ X)
    (e : Expert σ) (es : List (Expert σ)) (hfull : (e :: es).length = P.nEst)
    (hlt : e.w < total (e :: es) * P.gamma) (wrong : Bool) :
    renew P L wrong (e :: es) = e :: es := by
  cases wrong with
  | false =>
    simp only [renew, prune]
    rw [if_neg Bool.false_ne_true, if_neg (by omega)]
  | true =>
    simp only [renew, if_true, hp, addExpert, if_pos hlt, prune]
    rw [if_pos (by simp only [List.length_cons] at hfull ⊢; omega)]
    rfl

/-- The hypotheses are met by a full ensemble of three with `gamma = 0.1`. -/
example : (renew ⟨3, 4/5, 1/10, .weakest⟩ DWM.constL true [⟨7, 1/20⟩, ⟨8, 9/20⟩, ⟨9, 1/2⟩]).map Expert.st =
    [7, 8, 9] := by decide +kernel

/-- C39: `pruning='oldest'` is first in, first out. -/
theorem C39_oldest_fifo (P : Params) (hp : P.pruning = .oldest) (L : Learner σ X) (es : List (Expert σ))
    (hn : 1 ≤ P.nEst) (hle : es.length ≤ P.nEst) :
    renew P L true es = lastN P.nEst (es ++ [⟨L.fresh, total es * P.gamma⟩]) := by
  simp only [renew, if_true, hp, add_oldest, prune, lastN, List.length_append, List.length_singleton]
  by_cases h : es.length + 1 > P.nEst
  · rw [if_pos h]
    congr 1; omega
  · rw [if_neg h, show es.length + 1 - P.nEst = 0 by omega]
    rfl

/-- C93: additive expert ensemble.  While there is room, after a sample the experts are the
old ones with their charged weights, and, if the ensemble erred, a fresh one with `gamma`
times the total of these weights; all have learned the sample, and all weights are divided
by their sum except after every 1000th sample. -/
theorem C93_aee_penalties (P : Params) (L : Learner σ X) (s s' : Ens σ) (x : X) (y nc : Nat)
    (hs : step P L s x y nc = .ok s') :
    let erred := argmax (votes s'.numClasses (s.experts.map fun e => (L.predict e.st x, e.w))) ≠ y
    let ws := s.experts.map (DWM.charged L P.beta x y)
    ∀ new : List (Expert σ), (¬ erred → new = []) → (erred → new = [⟨L.learn L.fresh x y, P.gamma * ws.sum⟩]) →
      s.experts.length + new.length ≤ P.nEst →
      ∃ c : ℚ, (s'.epochs % 1000 ≠ 0 → c = ws.sum + (new.map Expert.w).sum ∧ c ≠ 0) ∧
        (s'.epochs % 1000 = 0 → c = 1) ∧
        s'.experts.Perm ((s.experts.map fun e => ⟨L.learn e.st x y, DWM.charged L P.beta x y e / c⟩) ++
          new.map fun e => ⟨e.st, e.w / c⟩) := by
  have hpen : penalise L P.beta x y s.experts =
      s.experts.map fun e => ⟨e.st, DWM.charged L P.beta x y e⟩ := by
    apply List.map_congr_left
    intro e _
    by_cases h : L.predict e.st x = y
    · simp [h, DWM.charged]
    · simp [h, DWM.charged, mul_comm]
  rw [step] at hs
  simp only at hs
  set K := max nc (max (y + 1) s.numClasses) with hK
  split_ifs at hs with hany
  set so := sortExperts P.pruning (penalise L P.beta x y s.experts) with hso
  have hperm : so.Perm (s.experts.map fun e => ⟨e.st, DWM.charged L P.beta x y e⟩) := by
    rw [hso, hpen]; exact sort_perm _ _
  have hKs : s'.numClasses = K ∧ s'.epochs = s.epochs + 1 := by
    revert hs
    cases normalise (s.epochs + 1) _ with
    | error _ => intro hs; cases hs
    | ok es => intro hs; cases hs; exact ⟨rfl, rfl⟩
  obtain ⟨hk1, hk2⟩ := hKs
  intro erred ws new hn0 hn1 hroom
  have htot : total so = ws.sum := by
    unfold total
    rw [(hperm.map Expert.w).sum_eq]
    simp [ws, Function.comp_def]
  -- the renewed experts, trained
  set rn := (renew P L (decide (argmax (votes K (s.experts.map fun e => (L.predict e.st x, e.w))) ≠ y)) so).map
    (fun e => ({ e with st := L.learn e.st x y } : Expert σ)) with hrn
  have hrp : rn.Perm ((s.experts.map fun e => ⟨L.learn e.st x y, DWM.charged L P.beta x y e⟩) ++ new) := by
    have hlen : so.length = s.experts.length := by rw [hperm.length_eq]; simp
    have hm := hperm.map (fun e => ({ e with st := L.learn e.st x y } : Expert σ))
    rw [List.map_map] at hm
    by_cases he : erred
    · have he' : argmax (votes K (s.experts.map fun e => (L.predict e.st x, e.w))) ≠ y := by
        rw [← hk1]; exact he
      have hnew := hn1 he
      rw [hnew] at hroom
      simp only [List.length_singleton] at hroom
      rw [hrn, renew, decide_eq_true he', if_pos rfl, prune,
        if_neg (by rw [(add_mem _ _ _).length_eq, List.length_cons]; omega), hnew, htot, mul_comm ws.sum]
      refine ((add_mem _ _ _).map _).trans ?_
      rw [List.map_cons]
      exact (List.Perm.cons _ hm).trans (List.perm_append_singleton _ _).symm
    · have he' : argmax (votes K (s.experts.map fun e => (L.predict e.st x, e.w))) = y := by
        rw [← hk1]; exact not_not.mp he
      have hnew := hn0 he
      rw [hnew] at hroom
      simp only [List.length_nil] at hroom
      rw [hrn, renew, he', prune]
      simp only [ne_eq, not_true_eq_false, decide_false, Bool.false_eq_true, if_false]
      rw [if_neg (by omega), hnew, List.append_nil]
      exact hm
  have hrt : total rn = ws.sum + (new.map Expert.w).sum := by
    unfold total
    rw [(hrp.map Expert.w).sum_eq]
    simp [ws, Function.comp_def]
  rw [normalise] at hs
  rw [hk2]
  by_cases hep : (s.epochs + 1) % 1000 = 0
  · rw [if_neg (by simpa using hep)] at hs
    refine ⟨1, fun h => absurd hep h, fun _ => rfl, ?_⟩
    simp only [Except.map, Except.ok.injEq] at hs
    subst hs
    simpa using hrp
  · rw [if_pos hep] at hs
    by_cases hz : total rn = 0
    · rw [if_pos hz] at hs; cases hs
    · rw [if_neg hz] at hs
      refine ⟨total rn, fun _ => ⟨hrt, hz⟩, fun h => absurd h hep, ?_⟩
      simp only [Except.map, Except.ok.injEq] at hs
      subst hs
      have := hrp.map (fun e => ({ e with w := e.w / total rn } : Expert σ))
      simpa [Function.comp_def] using this

/-- Two experts, one wrong, the ensemble errs on the tie: 1/2, 1/4 and the new 3/40, scaled. -/
example : (match step ⟨3, 1/2, 1/10, .oldest⟩ DWM.constL ⟨4, 2, [⟨1, 1/2⟩, ⟨0, 1/2⟩]⟩ 0 1 2 with
    | .ok s => some (s.experts.map fun e => (e.st, e.w))
    | .error _ => none) = some [(1, 20/33), (0, 10/33), (0, 1/11)] := by decide +kernel

/-- Legal states: between 1 and `n` experts, positive weights. -/
def Inv (n : Nat) (s : Ens σ) : Prop :=
  1 ≤ s.experts.length ∧ s.experts.length ≤ n ∧ ∀ e ∈ s.experts, 0 < e.w

theorem total_pos (es : List (Expert σ)) (hne : 1 ≤ es.length) (h : ∀ e ∈ es, 0 < e.w) : 0 < total es := by
  unfold total
  apply List.sum_pos
  · intro w hw; obtain ⟨e, he, rfl⟩ := List.mem_map.mp hw; exact h e he
  · intro h'; rw [List.map_eq_nil_iff] at h'; rw [h'] at hne; simp at hne

theorem total_div (es : List (Expert σ)) (c : ℚ) :
    total (es.map fun e => { e with w := e.w / c }) = total es / c := by
  induction es with
  | nil => simp [total]
  | cons e es ih =>
    simp only [total, List.map_cons, List.sum_cons] at ih ⊢
    rw [ih]; ring

/-- C39 (what holds): for every stream and either pruning mode, training does not raise,
the ensemble keeps between 1 and `n_estimators` experts of positive weight, and after each
sample the weights sum to 1, except after every 1000th. -/
theorem C39_size_and_weights_partial (P : Params) (hn : 1 ≤ P.nEst) (hb : 0 < P.beta) (hg : 0 < P.gamma)
    (L : Learner σ X) (C : Nat) (hL : ∀ st x, L.predict st x < C) (xs : List (X × Nat × Nat))
    (hC : C ≤ 2 ∨ ∀ a ∈ xs, C ≤ a.2.2) :
    ∃ s, run P L (reset L) xs = .ok s ∧ s.epochs = xs.length ∧ Inv P.nEst s ∧
      (xs.length % 1000 ≠ 0 → total s.experts = 1) := by
  have hstep : ∀ (s : Ens σ) (x : X) (y nc : Nat), Inv P.nEst s → 2 ≤ s.numClasses → (C ≤ 2 ∨ C ≤ nc) →
      ∃ s', step P L s x y nc = .ok s' ∧ s'.epochs = s.epochs + 1 ∧ 2 ≤ s'.numClasses ∧ Inv P.nEst s' ∧
        (s'.epochs % 1000 ≠ 0 → total s'.experts = 1) := by
    intro s x y nc hi h2 hc
    obtain ⟨i1, i2, i3⟩ := hi
    have hany : s.experts.any (fun e => decide (max nc (max (y + 1) s.numClasses) ≤ L.predict e.st x)) = false := by
      rw [List.any_eq_false]
      intro e _
      have := hL e.st x
      simp only [decide_eq_true_eq, not_le]
      rcases hc with h | h <;> omega
    set wrong : Bool := decide (argmax (votes (max nc (max (y + 1) s.numClasses))
      (s.experts.map fun e => (L.predict e.st x, e.w))) ≠ y) with hwr
    set so := sortExperts P.pruning (penalise L P.beta x y s.experts) with hso
    have hsl : so.length = s.experts.length := by
      rw [hso, (sort_perm _ _).length_eq]; simp [penalise]
    have hsw : ∀ e ∈ so, 0 < e.w := by
      intro e he
      have he' := (sort_perm _ _).mem_iff.mp he
      obtain ⟨e0, h0, rfl⟩ := List.mem_map.mp he'
      split_ifs
      · exact mul_pos (i3 e0 h0) hb
      · exact i3 e0 h0
    have hnew : 0 < total so * P.gamma := mul_pos (total_pos so (by omega) hsw) hg
    set rn := renew P L wrong so with hrn
    have hprune : ∀ l : List (Expert σ), 1 ≤ l.length → l.length ≤ P.nEst + 1 → (∀ e ∈ l, 0 < e.w) →
        1 ≤ (prune P.nEst l).length ∧ (prune P.nEst l).length ≤ P.nEst ∧ ∀ e ∈ prune P.nEst l, 0 < e.w := by
      intro l h1 h2 h3
      unfold prune
      split_ifs with h
      · refine ⟨?_, ?_, fun e he => h3 e (List.mem_of_mem_drop he)⟩ <;> simp only [List.length_drop] <;> omega
      · exact ⟨h1, by omega, h3⟩
    have hrn' : 1 ≤ rn.length ∧ rn.length ≤ P.nEst ∧ ∀ e ∈ rn, 0 < e.w := by
      rw [hrn, renew]
      apply hprune
      · cases wrong with
        | false => simp; omega
        | true =>
          simp only [if_true]
          rw [(add_mem _ _ _).length_eq]; simp
      · cases wrong with
        | false => simp; omega
        | true =>
          simp only [if_true]
          rw [(add_mem _ _ _).length_eq]; simp only [List.length_cons]; omega
      · intro e he
        by_cases hw : wrong = true
        · rw [if_pos hw] at he
          rcases List.mem_cons.mp ((add_mem _ _ _).mem_iff.mp he) with rfl | h
          · exact hnew
          · exact hsw e h
        · rw [if_neg hw] at he
          exact hsw e he
    set ln := rn.map (fun e => { e with st := L.learn e.st x y }) with hln
    have hlnw : ∀ e ∈ ln, 0 < e.w := by
      intro e he; obtain ⟨e0, h0, rfl⟩ := List.mem_map.mp he; exact hrn'.2.2 e0 h0
    have hlnl : ln.length = rn.length := by simp [hln]
    have htot : 0 < total ln := total_pos ln (by omega) hlnw
    have hstep' : step P L s x y nc = (normalise (s.epochs + 1) ln).map fun es =>
        ⟨s.epochs + 1, max nc (max (y + 1) s.numClasses), es⟩ := by
      unfold step
      simp only
      rw [hany]
      simp only [Bool.false_eq_true, if_false]
      rfl
    by_cases hep : (s.epochs + 1) % 1000 ≠ 0
    · refine ⟨⟨s.epochs + 1, max nc (max (y + 1) s.numClasses), ln.map fun e => { e with w := e.w / total ln }⟩, ?_, rfl, ?_, ⟨?_, ?_, ?_⟩, ?_⟩
      · rw [hstep', normalise, if_pos hep, if_neg (ne_of_gt htot)]; rfl
      · show 2 ≤ max nc (max (y + 1) s.numClasses); omega
      · show 1 ≤ (ln.map _).length; rw [List.length_map]; omega
      · show (ln.map _).length ≤ _; rw [List.length_map]; omega
      · intro e he
        obtain ⟨e0, h0, rfl⟩ := List.mem_map.mp he
        exact div_pos (hlnw e0 h0) htot
      · intro _
        show total (ln.map fun e => { e with w := e.w / total ln }) = 1
        rw [total_div, div_self (ne_of_gt htot)]
    · refine ⟨⟨s.epochs + 1, max nc (max (y + 1) s.numClasses), ln⟩, ?_, rfl, ?_, ⟨?_, ?_, ?_⟩, ?_⟩
      · rw [hstep', normalise, if_neg hep]; rfl
      · show 2 ≤ max nc (max (y + 1) s.numClasses); omega
      · show 1 ≤ ln.length; omega
      · show ln.length ≤ _; omega
      · exact hlnw
      · intro h; exact absurd h hep
  have key : ∀ ys : List (X × Nat × Nat), (C ≤ 2 ∨ ∀ a ∈ ys, C ≤ a.2.2) → ∀ s0 : Ens σ, 2 ≤ s0.numClasses →
      Inv P.nEst s0 → (s0.epochs % 1000 ≠ 0 → total s0.experts = 1) →
      ∃ s, run P L s0 ys = .ok s ∧ s.epochs = s0.epochs + ys.length ∧ Inv P.nEst s ∧
        (s.epochs % 1000 ≠ 0 → total s.experts = 1) := by
    intro ys
    induction ys with
    | nil => intro _ s0 _ hi hd; exact ⟨s0, rfl, rfl, hi, hd⟩
    | cons a ys ih =>
      intro hc s0 h2 hi hd
      obtain ⟨s1, e1, ep1, nc1, i1, d1⟩ := hstep s0 a.1 a.2.1 a.2.2 hi h2 (by
        rcases hc with h | h
        · exact .inl h
        · exact .inr (h a (by simp)))
      obtain ⟨s2, e2, ep2, i2, d2⟩ := ih (by
        rcases hc with h | h
        · exact .inl h
        · exact .inr fun b hb => h b (by simp [hb])) s1 nc1 i1 d1
      refine ⟨s2, ?_, ?_, i2, d2⟩
      · simp only [run, List.foldlM_cons, e1, bind, Except.bind] at e2 ⊢; exact e2
      · rw [ep2, ep1, List.length_cons]; omega
  obtain ⟨s, e, ep, i, d⟩ := key xs hC (reset L) (by simp [reset]) (by
    refine ⟨by simp [reset], by simpa [reset] using hn, ?_⟩
    intro e he
    simp only [reset, List.mem_singleton] at he
    rw [he]; exact one_pos) (by intro h; simp [reset] at h)
  have hep : s.epochs = xs.length := by simpa [reset] using ep
  exact ⟨s, e, hep, i, by rw [← hep]; exact d⟩

example : (match run ⟨2, 4/5, 1/10, .weakest⟩ DWM.constL (reset DWM.constL)
      [(0, 1, 2), (0, 1, 2), (0, 0, 2)] with
    | .ok s => some (s.experts.map Expert.w)
    | .error _ => none) = some [1/11, 10/11] := by decide +kernel

end AddExp

/-! ### Prediction of both ensembles -/

/-- `predict` for one row, dynamic_weighted_majority.py 172-176 and
additive_expert_ensemble.py 174-178: weighted mean of the label numbers, rounded. -/
def predictRow (ballots : List (Nat × ℚ)) : Int :=
  ⌊((ballots.map fun b => (b.1 : ℚ) * b.2 / (ballots.map Prod.snd).sum).sum + 1/2 : ℚ)⌋

/-- Total weight voting for `c`. -/
def weightFor (c : Nat) (ballots : List (Nat × ℚ)) : ℚ := ((ballots.filter fun b => b.1 = c).map Prod.snd).sum

/-- C69 (violated): with three classes the predicted label can be one no expert voted for. -/
theorem C69_predicts_unvoted_class_violated :
    ∃ ballots : List (Nat × ℚ), (∀ b ∈ ballots, 0 < b.2) ∧ ∀ b ∈ ballots, (b.1 : Int) ≠ predictRow ballots := by
  refine ⟨[(0, 1), (2, 1)], by decide +kernel, ?_⟩
  have : predictRow [(0, 1), (2, 1)] = 1 := by
    simp only [predictRow, List.map_cons, List.map_nil, List.sum_cons, List.sum_nil]
    rw [Int.floor_eq_iff]; norm_num
  rw [this]
  decide

/-- C69 (what holds): for labels 0 and 1 the prediction is the weighted majority, ties to 1. -/
theorem C69_binary_majority_partial (ballots : List (Nat × ℚ)) (hne : ballots ≠ [])
    (hpos : ∀ b ∈ ballots, 0 < b.2) (hbin : ∀ b ∈ ballots, b.1 = 0 ∨ b.1 = 1) :
    predictRow ballots = if weightFor 0 ballots ≤ weightFor 1 ballots then 1 else 0 := by
  have hS : 0 < (ballots.map Prod.snd).sum := by
    apply List.sum_pos
    · intro w hw; obtain ⟨b, hb, rfl⟩ := List.mem_map.mp hw; exact hpos b hb
    · simpa using hne
  have hsplit : ∀ (c : ℚ) (l : List (Nat × ℚ)), (∀ b ∈ l, b.1 = 0 ∨ b.1 = 1) →
      (l.map fun b => (b.1 : ℚ) * b.2 / c).sum = weightFor 1 l / c ∧
      (l.map Prod.snd).sum = weightFor 0 l + weightFor 1 l := by
    intro c l
    induction l with
    | nil => intro _; simp [weightFor]
    | cons b l ih =>
      intro h
      obtain ⟨h1, h2⟩ := ih fun b hb => h b (by simp [hb])
      rw [List.map_cons, List.sum_cons, h1, List.map_cons, List.sum_cons, h2]
      rcases h b (by simp) with e | e
      · simp only [weightFor, List.filter_cons, e]
        constructor
        · simp
        · simp; ring
      · simp only [weightFor, List.filter_cons, e]
        constructor
        · simp; ring
        · simp; ring
  obtain ⟨h1, h2⟩ := hsplit (ballots.map Prod.snd).sum ballots hbin
  have hnn : ∀ c, 0 ≤ weightFor c ballots := by
    intro c
    apply List.sum_nonneg
    intro w hw
    obtain ⟨b, hb, rfl⟩ := List.mem_map.mp hw
    exact le_of_lt (hpos b (List.mem_filter.mp hb).1)
  unfold predictRow
  rw [h1]
  rw [h2] at hS ⊢
  have h0 := hnn 0
  have h1' := hnn 1
  split_ifs with hle
  · rw [Int.floor_eq_iff]
    constructor
    · have : 1/2 ≤ weightFor 1 ballots / (weightFor 0 ballots + weightFor 1 ballots) := by
        rw [le_div_iff₀ hS]; linarith
      push_cast; linarith
    · have : weightFor 1 ballots / (weightFor 0 ballots + weightFor 1 ballots) ≤ 1 := by
        rw [div_le_one hS]; linarith
      push_cast; linarith
  · rw [Int.floor_eq_iff]
    have hlt := not_le.mp hle
    constructor
    · have : 0 ≤ weightFor 1 ballots / (weightFor 0 ballots + weightFor 1 ballots) :=
        div_nonneg h1' (le_of_lt hS)
      push_cast; linarith
    · have : weightFor 1 ballots / (weightFor 0 ballots + weightFor 1 ballots) < 1/2 := by
        rw [div_lt_iff₀ hS]; linarith
      push_cast; linarith

example : predictRow [(0, 1/3), (1, 1/2), (0, 1/4)] = 0 := by
  rw [C69_binary_majority_partial _ (by simp) (by decide +kernel) (by decide)]
  decide +kernel

end Verif.Meta
