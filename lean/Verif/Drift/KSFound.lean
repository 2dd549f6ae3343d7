import Verif.Drift.KSOrder
import Mathlib.Data.Nat.Choose.Basic
import Mathlib.Tactic.NormNum
import Mathlib.Tactic.Positivity
import Mathlib.Algebra.Order.Field.Basic

/-!
Property C308: which changes KSWIN is certain to report, and when it can report none.
-/

namespace Verif.Drift.KS

/-! ### Specification -/

/-- `detected_change()` answers `True` after the last of these values. -/
def Reported (c : KSPar) (xs : List ℚ) : Prop := ∃ kept, seen (run c xs) = .ok (true, kept)

/-- All values of one list are below all values of the other. -/
def Apart (a b : List ℚ) : Prop := (∀ x ∈ a, ∀ y ∈ b, x < y) ∨ (∀ x ∈ a, ∀ y ∈ b, y < x)

/-! ### The statistic of separated samples -/

private theorem cdf_bounds (a : List ℚ) (v : ℚ) : 0 ≤ cdf a v ∧ cdf a v ≤ 1 := by
  unfold cdf
  refine ⟨by positivity, ?_⟩
  by_cases h : a = []
  · subst h; simp
  · have hl : (0 : ℚ) < a.length := by exact_mod_cast List.length_pos_iff.2 h
    rw [div_le_one hl]
    exact_mod_cast List.length_filter_le _ _

private theorem cdf_all (a : List ℚ) (v : ℚ) (hn : a ≠ []) (h : ∀ x ∈ a, x ≤ v) : cdf a v = 1 := by
  unfold cdf
  rw [List.filter_eq_self.2 (by simpa using h)]
  have hl : (a.length : ℚ) ≠ 0 := by
    have := List.length_pos_iff.2 hn
    exact_mod_cast this.ne'
  exact div_self hl

private theorem cdf_none (a : List ℚ) (v : ℚ) (h : ∀ x ∈ a, v < x) : cdf a v = 0 := by
  unfold cdf
  rw [List.filter_eq_nil_iff.2 (by simpa using h)]
  simp

private theorem exists_top (a : List ℚ) (hn : a ≠ []) : ∃ v ∈ a, ∀ x ∈ a, x ≤ v := by
  induction a with
  | nil => exact absurd rfl hn
  | cons x l ih =>
    by_cases hl : l = []
    · subst hl; exact ⟨x, by simp, by simp⟩
    · obtain ⟨v, hv, hm⟩ := ih hl
      by_cases h : x ≤ v
      · exact ⟨v, by simp [hv], by simpa using ⟨h, hm⟩⟩
      · refine ⟨x, by simp, ?_⟩
        intro y hy
        rcases List.mem_cons.1 hy with rfl | hy
        · exact le_refl _
        · exact le_trans (hm y hy) (not_le.1 h).le

private theorem ksStat_le_one (a b : List ℚ) : ksStat a b ≤ 1 := by
  rw [ksStat_le]
  refine ⟨by norm_num, fun v _ => ?_⟩
  have h1 := cdf_bounds a v
  have h2 := cdf_bounds b v
  rw [abs_le]
  constructor <;> linarith

private theorem ksStat_apart (a b : List ℚ) (ha : a ≠ []) (hb : b ≠ []) (h : Apart a b) : ksStat a b = 1 := by
  apply le_antisymm (ksStat_le_one a b)
  have key := ((ksStat_le a b (ksStat a b)).1 (le_refl _)).2
  rcases h with h | h
  · obtain ⟨v, hv, hm⟩ := exists_top a ha
    have := key v (by simp [hv])
    rw [cdf_all a v ha hm, cdf_none b v (fun y hy => h v hv y hy)] at this
    simpa using this
  · obtain ⟨v, hv, hm⟩ := exists_top b hb
    have := key v (by simp [hv])
    rw [cdf_all b v hb hm, cdf_none a v (fun x hx => h x hx v hv)] at this
    simpa using this

/-! ### One call -/

private theorem run_add (c : KSPar) (xs : List ℚ) (x : ℚ) :
    run c (xs ++ [x]) = run c xs >>= fun s => addElement c s x := by
  unfold run
  cases init c with
  | error e => rfl
  | ok s => exact foldlM_snoc _ _ _ _

/-- A call with a full window. -/
private theorem step_full (c : KSPar) (t : KS) (x : ℚ) (h1 : 1 ≤ c.statSize) (h2 : c.statSize + 2 ≤ c.windowSize)
    (hw : c.windowSize ≤ t.window.length) :
    addElement c t x = if c.reject (c.choice (t.n + 1) (t.window.tail.take (t.window.tail.length - c.statSize)))
        (lastN c.statSize t.window.tail) then
      .ok ⟨lastN c.statSize t.window.tail ++ [x], true, t.n + 1⟩ else .ok ⟨t.window.tail ++ [x], false, t.n + 1⟩ := by
  unfold addElement
  rw [if_pos hw]
  cases hl : t.window with
  | nil => rw [hl] at hw; simp at hw; omega
  | cons a l =>
    rw [hl] at hw
    simp only [List.length_cons] at hw
    have hs : c.statSize ≠ 0 := by omega
    have hp : dropLastK c.statSize l = l.take (l.length - c.statSize) := by unfold dropLastK; rw [if_neg hs]
    have hq : takeLastK c.statSize l = lastN c.statSize l := by unfold takeLastK; rw [if_neg hs]
    have hne : l.take (l.length - c.statSize) ≠ [] := by
      intro e
      have := congrArg List.length e
      simp only [List.length_take, List.length_nil] at this
      omega
    simp only [hp, hq, List.tail_cons]
    rw [if_neg (by rintro ⟨e, _⟩; exact hne e), if_neg hs]
    rfl

/-- While nothing is reported, a full window slides. -/
private theorem slides (c : KSPar) (h1 : 1 ≤ c.statSize) (h2 : c.statSize + 2 ≤ c.windowSize) (xs : List ℚ) (t : KS)
    (hr : run c xs = .ok t) (hw : c.windowSize ≤ t.window.length) : ∀ post : List ℚ,
    (∀ k, 0 < k → k ≤ post.length → ¬ Reported c (xs ++ post.take k)) →
    ∃ t', run c (xs ++ post) = .ok t' ∧ t'.window = (t.window ++ post).drop post.length := by
  intro post
  induction post using List.reverseRecOn with
  | nil => intro _; exact ⟨t, by simpa using hr, by simp⟩
  | append_singleton l x ih =>
    intro h
    obtain ⟨t', e, hwin⟩ := ih fun k hk1 hk2 => by
      have := h k hk1 (by simp; omega)
      rwa [List.take_append_of_le_length hk2] at this
    have hlen : t'.window.length = t.window.length := by
      rw [hwin, List.length_drop, List.length_append]; omega
    have hlast := h (l ++ [x]).length (by simp) (le_refl _)
    rw [List.take_of_length_le (le_refl _)] at hlast
    have hrun : run c (xs ++ (l ++ [x])) = addElement c t' x := by
      rw [← List.append_assoc, run_add, e]; rfl
    have hst := step_full c t' x h1 h2 (by omega)
    by_cases hrej : c.reject (c.choice (t'.n + 1) (t'.window.tail.take (t'.window.tail.length - c.statSize)))
        (lastN c.statSize t'.window.tail) = true
    · rw [if_pos hrej] at hst
      exact absurd ⟨_, by rw [hrun, hst]; rfl⟩ hlast
    · rw [if_neg hrej] at hst
      refine ⟨_, by rw [hrun, hst], ?_⟩
      have hdr : l.length < (t.window ++ l).length := by rw [List.length_append]; omega
      rw [← List.append_assoc, List.length_append, List.length_singleton, List.drop_append_of_le_length (by omega)]
      show t'.window.tail ++ [x] = _
      rw [hwin, ← List.drop_one, List.drop_drop]

private theorem choice_length (w s : Nat) (al : ℚ) (draw : Nat → Nat → List Nat) (hd : Draws s draw)
    (pval : ℚ → Nat → Nat → ℚ) (n : Nat) (pool : List ℚ) (hp : pool ≠ []) :
    ((withTest w s al draw pval).choice n pool).length = s ∧ ∀ y ∈ (withTest w s al draw pval).choice n pool, y ∈ pool := by
  obtain ⟨d1, d2⟩ := hd n pool.length (List.length_pos_iff.2 hp)
  constructor
  · simp only [withTest]
    refine Eq.trans ?_ d1
    generalize draw n pool.length = d at d2
    clear d1
    induction d with
    | nil => rfl
    | cons i d ih =>
      have : i < pool.length := d2 i (by simp)
      rw [List.filterMap_cons, List.getElem?_eq_getElem this]
      simp only [List.length_cons]
      rw [ih (fun j hj => d2 j (by simp [hj]))]
  · intro y hy
    simp only [withTest, List.mem_filterMap] at hy
    obtain ⟨i, _, hi⟩ := hy
    exact List.mem_of_getElem? hi

/-! ### The property -/

/-- **C308, found.**  Let the window be full and the next `stat_size` values all lie above, or all below, the values in the window.
If the p-value of two entirely separated samples is at most `alpha`, a change is reported on one of these values or on the next,
whatever that is and whatever is drawn. -/
theorem C308_found (w s : Nat) (al : ℚ) (draw : Nat → Nat → List Nat) (hd : Draws s draw) (pval : ℚ → Nat → Nat → ℚ)
    (h1 : 1 ≤ s) (h2 : s + 2 ≤ w) (hp : pval 1 s s ≤ al) (xs post : List ℚ) (x : ℚ) (b : Bool) (kept : List ℚ)
    (hr : seen (run (withTest w s al draw pval) xs) = .ok (b, kept)) (hw : w ≤ kept.length) (hs : post.length = s)
    (hap : Apart kept post) :
    ∃ k, 0 < k ∧ k ≤ s + 1 ∧ Reported (withTest w s al draw pval) (xs ++ (post ++ [x]).take k) := by
  cases hrun : run (withTest w s al draw pval) xs with
  | error e => rw [hrun] at hr; cases hr
  | ok t =>
    have hk : t.window = kept := by
      rw [hrun] at hr
      have := congrArg (fun r : Except PyErr (Bool × List ℚ) => r.toOption.map Prod.snd) hr
      simpa [seen, Except.map, Except.toOption] using this
    subst hk
    by_contra hcon
    obtain ⟨t', e, hwin⟩ := slides (withTest w s al draw pval) h1 h2 xs t hrun hw post fun k hk1 hk2 hrep => by
      refine hcon ⟨k, hk1, by omega, ?_⟩
      rwa [List.take_append_of_le_length hk2]
    have hlen : t'.window.length = t.window.length := by
      rw [hwin, List.length_drop, List.length_append]; omega
    have hst := step_full (withTest w s al draw pval) t' x h1 h2 (by rw [hlen]; exact hw)
    have htail : t'.window.tail = t.window.drop (s + 1) ++ post := by
      rw [hwin, hs, ← List.drop_one, List.drop_drop, List.drop_append_of_le_length (by omega)]
    have hl1 : (t.window.drop (s + 1)).length = t.window.length - (s + 1) := List.length_drop
    have hpool : t'.window.tail.take (t'.window.tail.length - s) = t.window.drop (s + 1) := by
      rw [htail, List.length_append, hs, Nat.add_sub_cancel, List.take_left]
    have hnew : lastN s t'.window.tail = post := by
      rw [htail, lastN, List.length_append, hs, Nat.add_sub_cancel, List.drop_left]
    have hne : t.window.drop (s + 1) ≠ [] := by
      intro e
      rw [e] at hl1
      simp only [List.length_nil] at hl1
      omega
    obtain ⟨c1, c2⟩ := choice_length w s al draw hd pval (t'.n + 1) _ hne
    have hstat : ksStat ((withTest w s al draw pval).choice (t'.n + 1) (t.window.drop (s + 1))) post = 1 := by
      refine ksStat_apart _ _ ?_ ?_ ?_
      · intro e; rw [e] at c1; simp at c1; omega
      · intro e; rw [e] at hs; simp at hs; omega
      · rcases hap with h | h
        · exact .inl fun a ha => h a (List.mem_of_mem_drop (c2 a ha))
        · exact .inr fun a ha => h a (List.mem_of_mem_drop (c2 a ha))
    have hrej : (withTest w s al draw pval).reject ((withTest w s al draw pval).choice (t'.n + 1) (t.window.drop (s + 1))) post = true := by
      show (decide _ && decide _) = true
      rw [hstat, c1, hs, Bool.and_eq_true, decide_eq_true_eq, decide_eq_true_eq]
      exact ⟨hp, by norm_num⟩
    rw [show (withTest w s al draw pval).statSize = s from rfl, hpool, hnew, if_pos hrej] at hst
    refine hcon ⟨s + 1, by omega, le_refl _, ?_⟩
    rw [List.take_of_length_le (by simp; omega), ← List.append_assoc]
    refine ⟨post ++ [x], ?_⟩
    rw [run_add, e]
    show seen (addElement _ t' x) = _
    rw [hst]
    rfl

/-- **C308, never.**  If the p-value of two entirely separated samples exceeds `alpha` (and no other two samples of that size have a smaller
one), no change is ever reported, whatever the values and whatever is drawn. -/
theorem C308_never (w s : Nat) (al : ℚ) (draw : Nat → Nat → List Nat) (hd : Draws s draw) (pval : ℚ → Nat → Nat → ℚ)
    (h1 : 1 ≤ s) (h2 : s + 2 ≤ w) (hp : al < pval 1 s s) (hmin : ∀ d, d ≤ 1 → pval 1 s s ≤ pval d s s) (xs : List ℚ) :
    ¬ Reported (withTest w s al draw pval) xs := by
  rintro ⟨kept, h⟩
  rcases List.eq_nil_or_concat xs with rfl | ⟨l, x, rfl⟩
  · unfold run init at h
    split at h <;> simp [seen, Except.map, bind, Except.bind, pure, Except.pure] at h
  · rw [List.concat_eq_append, run_add] at h
    cases hrun : run (withTest w s al draw pval) l with
    | error e => rw [hrun] at h; cases h
    | ok t =>
      rw [hrun] at h
      replace h : seen (addElement (withTest w s al draw pval) t x) = .ok (true, kept) := h
      by_cases hw : w ≤ t.window.length
      · have hst := step_full (withTest w s al draw pval) t x h1 h2 hw
        have hl : t.window.tail.length = t.window.length - 1 := List.length_tail
        have hne : t.window.tail.take (t.window.tail.length - s) ≠ [] := by
          intro e
          have := congrArg List.length e
          simp only [List.length_take, List.length_nil] at this
          omega
        obtain ⟨c1, _⟩ := choice_length w s al draw hd pval (t.n + 1) _ hne
        have c2 : (lastN s t.window.tail).length = s := by rw [length_lastN]; omega
        have hrej : (withTest w s al draw pval).reject ((withTest w s al draw pval).choice (t.n + 1)
            (t.window.tail.take (t.window.tail.length - s))) (lastN s t.window.tail) = false := by
          show (decide _ && decide _) = false
          rw [c1, c2, Bool.and_eq_false_iff]
          left
          rw [decide_eq_false_iff_not, not_le]
          exact lt_of_lt_of_le hp (hmin _ (ksStat_le_one _ _))
        rw [show (withTest w s al draw pval).statSize = s from rfl, hrej] at hst
        rw [hst] at h
        simp [seen, Except.map] at h
      · unfold addElement at h
        rw [if_neg (show ¬ t.window.length ≥ (withTest w s al draw pval).windowSize from hw)] at h
        simp [seen, Except.map] at h

/-- **C308, small samples.**  The exact two-sided p-value of two entirely separated samples of `s` values is `2 / C(2 s, s)`.  With the
default `alpha` of 0.005 and a `stat_size` of 5 or less nothing is ever reported. -/
theorem C308_small_never (w s : Nat) (draw : Nat → Nat → List Nat) (hd : Draws s draw) (pval : ℚ → Nat → Nat → ℚ)
    (h1 : 1 ≤ s) (h5 : s ≤ 5) (h2 : s + 2 ≤ w) (hexact : pval 1 s s = 2 / (Nat.choose (2 * s) s : ℚ))
    (hmin : ∀ d, d ≤ 1 → pval 1 s s ≤ pval d s s) (xs : List ℚ) :
    ¬ Reported (withTest w s (1 / 200) draw pval) xs := by
  refine C308_never w s (1 / 200) draw hd pval h1 h2 ?_ hmin xs
  rw [hexact]
  have : s = 1 ∨ s = 2 ∨ s = 3 ∨ s = 4 ∨ s = 5 := by omega
  rcases this with rfl | rfl | rfl | rfl | rfl <;> norm_num [Nat.choose]

/-- **C308, default.**  With the defaults (`alpha` 0.005, 100 values of which 30 are newest) and the exact p-value, 30 values above or below
the 100 in the window are always reported. -/
theorem C308_default_found (draw : Nat → Nat → List Nat) (hd : Draws 30 draw) (pval : ℚ → Nat → Nat → ℚ)
    (hexact : pval 1 30 30 = 2 / (Nat.choose 60 30 : ℚ)) (xs post : List ℚ) (x : ℚ) (b : Bool) (kept : List ℚ)
    (hr : seen (run (withTest 100 30 (1 / 200) draw pval) xs) = .ok (b, kept)) (hw : 100 ≤ kept.length) (hs : post.length = 30)
    (hap : Apart kept post) :
    ∃ k, 0 < k ∧ k ≤ 31 ∧ Reported (withTest 100 30 (1 / 200) draw pval) (xs ++ (post ++ [x]).take k) := by
  refine C308_found 100 30 (1 / 200) draw hd pval (by norm_num) (by norm_num) ?_ xs post x b kept hr hw hs hap
  rw [hexact]
  have : (400 : ℕ) ≤ Nat.choose 60 30 := by decide +kernel
  have h : (400 : ℚ) ≤ (Nat.choose 60 30 : ℚ) := by exact_mod_cast this
  rw [div_le_div_iff₀ (by linarith) (by norm_num)]
  linarith

/-! ### Examples -/

/-- always the oldest values -/
private def old3 : Nat → Nat → List Nat := fun _ _ => [0, 0, 0]

private theorem old3_draws : Draws 3 old3 := by
  intro n size h
  refine ⟨rfl, ?_⟩
  intro i hi
  simp only [old3, List.mem_cons, List.not_mem_nil, or_false, or_self] at hi
  omega

/-- Non-vacuity of `C308_found`. -/
example : ∃ k, 0 < k ∧ k ≤ 4 ∧ Reported (withTest 6 3 (1 / 2) old3 (fun d _ _ => 1 - d)) (([0, 1, 0, 1, 0, 1] : List ℚ) ++ (([5, 6, 7] : List ℚ) ++ [0]).take k) :=
  C308_found 6 3 (1 / 2) old3 old3_draws (fun d _ _ => 1 - d) (by norm_num) (by norm_num) (by norm_num) [0, 1, 0, 1, 0, 1] [5, 6, 7] 0 false
    [0, 1, 0, 1, 0, 1] (by decide +kernel) (by simp) rfl (by left; decide +kernel)

/-- Non-vacuity of `C308_never`. -/
example (xs : List ℚ) : ¬ Reported (withTest 6 3 (1 / 200) old3 (fun d _ _ => 11 / 10 - d)) xs :=
  C308_never 6 3 (1 / 200) old3 old3_draws _ (by norm_num) (by norm_num) (by norm_num) (fun d h => by linarith) xs

end Verif.Drift.KS
