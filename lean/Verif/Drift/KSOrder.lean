import Verif.Drift.Model
import Mathlib.Data.List.Induction
import Mathlib.Tactic.Linarith
import Mathlib.Tactic.Ring
import Mathlib.Tactic.FieldSimp
import Mathlib.Algebra.Order.Field.Rat
import Mathlib.Algebra.Order.Ring.Abs

/-!
Property C298: what the two-sample Kolmogorov-Smirnov test makes of the values
KSWIN keeps.  `Model.lean` leaves the test open; here the statistic is written
out and only the table from statistics to p-values is left open.
-/

namespace Verif.Drift.KS

/-- The share of a sample that is at most `v`
(`np.searchsorted(data1, data_all, side='right') / n1` inside
`scipy.stats.ks_2samp`, called from `kswin.py:116-117`). -/
def cdf (a : List ℚ) (v : ℚ) : ℚ := ((a.filter (fun x => decide (x ≤ v))).length : ℚ) / a.length

/-- The differences of the two distribution functions at all the values of the
two samples (`cddiffs` in `ks_2samp`). -/
def cddiffs (a b : List ℚ) : List ℚ := (a ++ b).map (fun v => cdf a v - cdf b v)

/-- The statistic `st` of `ks_2samp`, `kswin.py:116`: the larger of `-min` and
`max` of the differences.  (The difference at the largest value is `0`, so
starting the two folds at `0` changes nothing.) -/
def ksStat (a b : List ℚ) : ℚ :=
  max (-((cddiffs a b).foldr min 0)) ((cddiffs a b).foldr max 0)

/-- The detector of `kswin.py:77-128` with its test: `draw n k` are the
positions `np.random.choice` takes from a pool of `k` values at the `n`-th
call (line 114; the positions do not depend on the values), `pval` turns the
statistic and the two sizes into the exact p-value (lines 116-117), and a change is
`p_value <= alpha and st > 0.1` (line 119). -/
def withTest (windowSize statSize : Nat) (alpha : ℚ) (draw : Nat → Nat → List Nat)
    (pval : ℚ → Nat → Nat → ℚ) : KSPar where
  windowSize := windowSize
  statSize := statSize
  choice n pool := (draw n pool.length).filterMap (fun i => pool[i]?)
  reject a b := decide (pval (ksStat a b) a.length b.length ≤ alpha) && decide (ksStat a b > 1 / 10)

/-! ### The statistic -/

private theorem foldr_max_le (l : List ℚ) (c : ℚ) :
    l.foldr max 0 ≤ c ↔ 0 ≤ c ∧ ∀ x ∈ l, x ≤ c := by
  induction l with
  | nil => simp
  | cons a l ih => simp only [List.foldr_cons, max_le_iff, ih, List.mem_cons, forall_eq_or_imp]; tauto

private theorem le_foldr_min (l : List ℚ) (c : ℚ) :
    c ≤ l.foldr min 0 ↔ c ≤ 0 ∧ ∀ x ∈ l, c ≤ x := by
  induction l with
  | nil => simp
  | cons a l ih => simp only [List.foldr_cons, le_min_iff, ih, List.mem_cons, forall_eq_or_imp]; tauto

theorem ksStat_le (a b : List ℚ) (c : ℚ) :
    ksStat a b ≤ c ↔ 0 ≤ c ∧ ∀ v ∈ a ++ b, |cdf a v - cdf b v| ≤ c := by
  unfold ksStat
  rw [max_le_iff, foldr_max_le, neg_le, le_foldr_min]
  unfold cddiffs
  simp only [List.forall_mem_map, abs_le]
  constructor
  · rintro ⟨⟨h1, h2⟩, h3, h4⟩
    exact ⟨h3, fun v hv => ⟨h2 v hv, h4 v hv⟩⟩
  · rintro ⟨h1, h2⟩
    exact ⟨⟨by linarith, fun v hv => (h2 v hv).1⟩, h1, fun v hv => (h2 v hv).2⟩

private theorem ksStat_congr {a b a' b' : List ℚ}
    (h : ∀ c, 0 ≤ c → ((∀ v ∈ a ++ b, |cdf a v - cdf b v| ≤ c) ↔
      ∀ v ∈ a' ++ b', |cdf a' v - cdf b' v| ≤ c)) : ksStat a b = ksStat a' b' := by
  apply eq_of_forall_ge_iff
  intro c
  rw [ksStat_le, ksStat_le]
  constructor
  · rintro ⟨h1, h2⟩; exact ⟨h1, (h c h1).1 h2⟩
  · rintro ⟨h1, h2⟩; exact ⟨h1, (h c h1).2 h2⟩

private theorem cdf_map_mono {f : ℚ → ℚ} (hf : ∀ x y, x < y → f x < f y) (a : List ℚ) (v : ℚ) :
    cdf (a.map f) (f v) = cdf a v := by
  have hle : ∀ x, (f x ≤ f v) ↔ x ≤ v := fun x =>
    ⟨fun h => not_lt.1 fun h' => absurd (hf _ _ h') (not_lt.2 h),
     fun h => (lt_or_eq_of_le h).elim (fun h' => le_of_lt (hf _ _ h')) (fun h' => h' ▸ le_refl _)⟩
  unfold cdf
  rw [List.filter_map, List.length_map, List.length_map]
  congr 3
  apply List.filter_congr
  intro x _
  simp [Function.comp, hle]

private theorem ksStat_mono {f : ℚ → ℚ} (hf : ∀ x y, x < y → f x < f y) (a b : List ℚ) :
    ksStat (a.map f) (b.map f) = ksStat a b := by
  apply ksStat_congr
  intro c _
  rw [← List.map_append, List.forall_mem_map]
  simp only [cdf_map_mono hf]

/-- The share of a sample strictly below `v`. -/
private def below (a : List ℚ) (v : ℚ) : ℚ :=
  ((a.filter (fun x => decide (x < v))).length : ℚ) / a.length

private theorem len_split (a : List ℚ) (v : ℚ) :
    (a.filter (fun x => decide (v ≤ x))).length + (a.filter (fun x => decide (x < v))).length
      = a.length := by
  induction a with
  | nil => rfl
  | cons x a ih =>
    by_cases h : v ≤ x
    · simp [h, not_lt.2 h] at ih ⊢; omega
    · simp [h, not_le.1 h] at ih ⊢; omega

private theorem cdf_map_anti {f : ℚ → ℚ} (hf : ∀ x y, x < y → f y < f x) (a : List ℚ) (ha : a ≠ [])
    (v : ℚ) : cdf (a.map f) (f v) = 1 - below a v := by
  have hle : ∀ x, (f x ≤ f v) ↔ v ≤ x := fun x =>
    ⟨fun h => not_lt.1 fun h' => absurd (hf _ _ h') (not_lt.2 h),
     fun h => (lt_or_eq_of_le h).elim (fun h' => le_of_lt (hf _ _ h')) (fun h' => h' ▸ le_refl _)⟩
  have h0 : (a.length : ℚ) ≠ 0 := by
    have := List.length_pos_iff.2 ha
    exact_mod_cast this.ne'
  unfold cdf below
  rw [List.filter_map, List.length_map, List.length_map]
  have e : (a.filter ((fun x => decide (x ≤ f v)) ∘ f)) = a.filter (fun x => decide (v ≤ x)) := by
    apply List.filter_congr
    intro x _
    simp [Function.comp, hle]
  rw [e]
  have := len_split a v
  have h : ((a.filter (fun x => decide (v ≤ x))).length : ℚ)
      + ((a.filter (fun x => decide (x < v))).length : ℚ) = a.length := by exact_mod_cast this
  rw [eq_sub_iff_add_eq, ← add_div, h, div_self h0]

/-- The largest value of a list below a bound, or none is below. -/
private theorem pred_or (l : List ℚ) (v : ℚ) :
    (∀ x ∈ l, ¬ x < v) ∨ ∃ u ∈ l, u < v ∧ ∀ x ∈ l, x < v → x ≤ u := by
  induction l with
  | nil => left; simp
  | cons a l ih =>
    by_cases h : a < v
    · right
      rcases ih with h1 | ⟨u, hu, huv, hm⟩
      · exact ⟨a, by simp, h, by
          intro x hx hxv
          rcases List.mem_cons.1 hx with rfl | hx
          · exact le_refl _
          · exact absurd hxv (h1 x hx)⟩
      · rcases le_total a u with hau | hua
        · exact ⟨u, by simp [hu], huv, by
            intro x hx hxv
            rcases List.mem_cons.1 hx with rfl | hx
            · exact hau
            · exact hm x hx hxv⟩
        · exact ⟨a, by simp, h, by
            intro x hx hxv
            rcases List.mem_cons.1 hx with rfl | hx
            · exact le_refl _
            · exact le_trans (hm x hx hxv) hua⟩
    · rcases ih with h1 | ⟨u, hu, huv, hm⟩
      · left
        intro x hx
        rcases List.mem_cons.1 hx with rfl | hx
        · exact h
        · exact h1 x hx
      · right
        exact ⟨u, by simp [hu], huv, by
          intro x hx hxv
          rcases List.mem_cons.1 hx with rfl | hx
          · exact absurd hxv h
          · exact hm x hx hxv⟩

/-- The smallest value of a list above a bound, or none is above. -/
private theorem succ_or (l : List ℚ) (v : ℚ) :
    (∀ x ∈ l, ¬ v < x) ∨ ∃ u ∈ l, v < u ∧ ∀ x ∈ l, v < x → u ≤ x := by
  rcases pred_or (l.map (fun x => -x)) (-v) with h | ⟨u, hu, huv, hm⟩
  · left
    intro x hx hvx
    exact h (-x) (List.mem_map.2 ⟨x, hx, rfl⟩) (by linarith)
  · right
    obtain ⟨w, hw, rfl⟩ := List.mem_map.1 hu
    exact ⟨w, hw, by linarith, fun x hx hvx => by
      have := hm (-x) (List.mem_map.2 ⟨x, hx, rfl⟩) (by linarith)
      linarith⟩

private theorem filter_eq_of {a : List ℚ} {p q : ℚ → Prop} [DecidablePred p] [DecidablePred q]
    (h : ∀ x ∈ a, p x ↔ q x) :
    (a.filter (fun x => decide (p x))).length = (a.filter (fun x => decide (q x))).length := by
  congr 1
  apply List.filter_congr
  intro x hx
  simp [h x hx]

private theorem ksStat_anti {f : ℚ → ℚ} (hf : ∀ x y, x < y → f y < f x) (a b : List ℚ)
    (ha : a ≠ []) (hb : b ≠ []) : ksStat (a.map f) (b.map f) = ksStat a b := by
  apply ksStat_congr
  intro c hc
  rw [← List.map_append, List.forall_mem_map]
  have e : ∀ v, cdf (a.map f) (f v) - cdf (b.map f) (f v) = -(below a v - below b v) := by
    intro v; rw [cdf_map_anti hf a ha, cdf_map_anti hf b hb]; ring
  simp only [e, abs_neg]
  constructor
  · intro h v hv
    rcases succ_or (a ++ b) v with hn | ⟨u, hu, hvu, hm⟩
    · have h1 : ∀ l : List ℚ, l ≠ [] → (∀ x ∈ l, x ∈ a ++ b) → cdf l v = 1 := by
        intro l hl hs
        have h0 : (l.length : ℚ) ≠ 0 := by
          have := List.length_pos_iff.2 hl
          exact_mod_cast this.ne'
        unfold cdf
        rw [List.filter_eq_self.2 (by intro x hx; simpa using not_lt.1 (hn x (hs x hx))), div_self h0]
      rw [h1 a ha (by intro x hx; simp [hx]), h1 b hb (by intro x hx; simp [hx])]
      simpa using hc
    · have h1 : ∀ l : List ℚ, (∀ x ∈ l, x ∈ a ++ b) → cdf l v = below l u := by
        intro l hs
        unfold cdf below
        rw [filter_eq_of (q := fun x => x < u)]
        intro x hx
        exact ⟨fun h => lt_of_le_of_lt h hvu, fun h => not_lt.1 fun h' =>
          absurd (hm x (hs x hx) h') (not_le.2 h)⟩
      rw [h1 a (by intro x hx; simp [hx]), h1 b (by intro x hx; simp [hx])]
      exact h u hu
  · intro h v hv
    rcases pred_or (a ++ b) v with hn | ⟨u, hu, huv, hm⟩
    · have h1 : ∀ l : List ℚ, (∀ x ∈ l, x ∈ a ++ b) → below l v = 0 := by
        intro l hs
        unfold below
        rw [List.filter_eq_nil_iff.2 (by intro x hx; simpa using not_lt.1 (hn x (hs x hx)))]
        simp
      rw [h1 a (by intro x hx; simp [hx]), h1 b (by intro x hx; simp [hx])]
      simpa using hc
    · have h1 : ∀ l : List ℚ, (∀ x ∈ l, x ∈ a ++ b) → below l v = cdf l u := by
        intro l hs
        unfold cdf below
        rw [filter_eq_of (q := fun x => x ≤ u)]
        intro x hx
        exact ⟨fun h => hm x (hs x hx) h, fun h => lt_of_le_of_lt h huv⟩
      rw [h1 a (by intro x hx; simp [hx]), h1 b (by intro x hx; simp [hx])]
      exact h u hu

/-! ### The detector -/

private theorem run_append (c : KSPar) (xs : List ℚ) (x : ℚ) :
    run c (xs ++ [x]) = run c xs >>= fun s => addElement c s x := by
  unfold run
  cases init c with
  | error e => rfl
  | ok s => exact foldlM_snoc _ _ _ _

private theorem lastN_map (f : ℚ → ℚ) (k : Nat) (l : List ℚ) :
    lastN k (l.map f) = (lastN k l).map f := by
  unfold lastN; simp

/-- The state with every stored value sent through a map. -/
private def through (f : ℚ → ℚ) (s : KS) : KS := ⟨s.window.map f, s.change, s.n⟩

private theorem step_map (f : ℚ → ℚ) (c : KSPar) (s : KS) (x : ℚ)
    (hc : ∀ n p, c.choice n (p.map f) = (c.choice n p).map f)
    (hr : ∀ n p b, p ≠ [] → b ≠ [] →
      c.reject ((c.choice n p).map f) (b.map f) = c.reject (c.choice n p) b) :
    addElement c (through f s) (f x) = (addElement c s x).map (through f) := by
  have hd : ∀ w, dropLastK c.statSize (w.map f) = (dropLastK c.statSize w).map f := by
    intro w; unfold dropLastK; split <;> simp
  have ht : ∀ w, takeLastK c.statSize (w.map f) = (takeLastK c.statSize w).map f := by
    intro w; unfold takeLastK; split
    · rfl
    · exact lastN_map f _ _
  obtain ⟨win, ch, n⟩ := s
  unfold addElement
  simp only [through, List.length_map]
  by_cases h : win.length ≥ c.windowSize
  · rw [if_pos h, if_pos h]
    cases win with
    | nil => rfl
    | cons a w =>
      simp only [List.map_cons, hd, ht, List.map_eq_nil_iff, hc]
      by_cases h1 : dropLastK c.statSize w = [] ∧ c.statSize ≠ 0
      · rw [if_pos h1, if_pos h1]; rfl
      · rw [if_neg h1, if_neg h1]
        by_cases h2 : c.statSize = 0
        · rw [if_pos h2, if_pos h2]; rfl
        · rw [if_neg h2, if_neg h2]
          have hp : dropLastK c.statSize w ≠ [] := fun e => h1 ⟨e, h2⟩
          have hb : takeLastK c.statSize w ≠ [] := by
            intro e
            unfold takeLastK at e
            rw [if_neg h2] at e
            unfold lastN at e
            rw [List.drop_eq_nil_iff] at e
            have hw : w = [] := by
              by_contra hw
              have := List.length_pos_iff.2 hw
              omega
            exact hp (by rw [hw]; unfold dropLastK; split <;> simp)
          rw [hr _ _ _ hp hb]
          split <;> simp [Except.map, through]
  · rw [if_neg h, if_neg h]
    simp [Except.map, through]

private theorem run_map (f : ℚ → ℚ) (c : KSPar)
    (hc : ∀ n p, c.choice n (p.map f) = (c.choice n p).map f)
    (hr : ∀ n p b, p ≠ [] → b ≠ [] →
      c.reject ((c.choice n p).map f) (b.map f) = c.reject (c.choice n p) b) (xs : List ℚ) :
    run c (xs.map f) = (run c xs).map (through f) := by
  induction xs using List.reverseRecOn with
  | nil =>
    unfold run init
    split <;> rfl
  | append_singleton xs x ih =>
    rw [List.map_append, List.map_singleton, run_append, ih, run_append]
    cases h : run c xs with
    | error e => rfl
    | ok s => exact step_map f c s x hc hr

private theorem choice_map (f : ℚ → ℚ) (w s : Nat) (al : ℚ) (draw pval) (n : Nat) (p : List ℚ) :
    (withTest w s al draw pval).choice n (p.map f)
      = ((withTest w s al draw pval).choice n p).map f := by
  simp only [withTest, List.length_map]
  generalize draw n p.length = d
  induction d with
  | nil => rfl
  | cons i d ih =>
    simp only [List.filterMap_cons, List.getElem?_map]
    cases p[i]? with
    | none => simpa using ih
    | some y => simpa using ih

/-! ### The property -/

/-- What a user sees of a run: whether it went through, and if so whether the
last call reported a change and which values are kept. -/
def seen (r : Except PyErr KS) : Except PyErr (Bool × List ℚ) := r.map fun s => (s.change, s.window)

/-- `np.random.choice(pool, k)` takes `k` positions of a non-empty pool. -/
def Draws (k : Nat) (draw : Nat → Nat → List Nat) : Prop :=
  ∀ n size, 0 < size → (draw n size).length = k ∧ ∀ i ∈ draw n size, i < size

/-- The share of a sample at or below a value. -/
def share (a : List ℚ) (v : ℚ) : ℚ := (a.countP (fun x => decide (x ≤ v)) : ℚ) / a.length

/-- **C298, order.**  Sending every value of the stream through a strictly
increasing map (new units, a logarithm, ...) changes no report: the same
exceptions, the same alarms, and the window holds the images of the values. -/
theorem C298_increasing (w s : Nat) (al : ℚ) (draw : Nat → Nat → List Nat)
    (pval : ℚ → Nat → Nat → ℚ) (f : ℚ → ℚ) (hf : ∀ x y, x < y → f x < f y) (xs : List ℚ) :
    seen (run (withTest w s al draw pval) (xs.map f))
      = (seen (run (withTest w s al draw pval) xs)).map fun o => (o.1, o.2.map f) := by
  rw [run_map f _ (choice_map f w s al draw pval)]
  · cases run (withTest w s al draw pval) xs <;> rfl
  · intro n p b _ _
    generalize (withTest w s al draw pval).choice n p = a
    simp only [withTest, ksStat_mono hf, List.length_map]

/-- **C298, reversal.**  The same for a strictly decreasing map (a sign change):
KSWIN does not tell a rise from a fall. -/
theorem C298_decreasing (w s : Nat) (al : ℚ) (draw : Nat → Nat → List Nat) (hs : 0 < s)
    (hd : Draws s draw) (pval : ℚ → Nat → Nat → ℚ) (f : ℚ → ℚ) (hf : ∀ x y, x < y → f y < f x)
    (xs : List ℚ) :
    seen (run (withTest w s al draw pval) (xs.map f))
      = (seen (run (withTest w s al draw pval) xs)).map fun o => (o.1, o.2.map f) := by
  rw [run_map f _ (choice_map f w s al draw pval)]
  · cases run (withTest w s al draw pval) xs <;> rfl
  · intro n p b hp hb
    have ha : (withTest w s al draw pval).choice n p ≠ [] := by
      obtain ⟨h1, h2⟩ := hd n p.length (List.length_pos_iff.2 hp)
      simp only [withTest]
      cases hdr : draw n p.length with
      | nil => rw [hdr] at h1; simp at h1; omega
      | cons i d =>
        have : i < p.length := h2 i (by rw [hdr]; simp)
        simp [List.filterMap_cons, List.getElem?_eq_getElem this]
    generalize (withTest w s al draw pval).choice n p = a at ha
    simp only [withTest, ksStat_anti hf a b ha hb, List.length_map]

/-- **C298, delay.**  The value handed to `add_element` takes no part in the
test of that call: whatever it is, the report is the same. -/
theorem C298_delay (w s : Nat) (al : ℚ) (draw : Nat → Nat → List Nat)
    (pval : ℚ → Nat → Nat → ℚ) (xs : List ℚ) (x y : ℚ) :
    (seen (run (withTest w s al draw pval) (xs ++ [x]))).map Prod.fst
      = (seen (run (withTest w s al draw pval) (xs ++ [y]))).map Prod.fst := by
  rw [run_append, run_append]
  cases run (withTest w s al draw pval) xs with
  | error e => rfl
  | ok st =>
    show (seen (addElement _ st x)).map _ = (seen (addElement _ st y)).map _
    unfold addElement
    split
    · split
      · rfl
      · dsimp only
        split
        · rfl
        · split
          · rfl
          · split <;> rfl
    · rfl

private theorem cdf_eq_share (a : List ℚ) (v : ℚ) : cdf a v = share a v := by
  unfold cdf share; rw [List.countP_eq_length_filter]

/-- The window after a run holds values of the stream. -/
private theorem window_mem (c : KSPar) (xs : List ℚ) (s : KS) (h : run c xs = .ok s) :
    s.window <:+ xs := by
  induction xs using List.reverseRecOn generalizing s with
  | nil =>
    unfold run init at h
    split at h
    · cases h
    · cases h; exact List.suffix_refl _
  | append_singleton xs x ih =>
    rw [run_append] at h
    cases hr : run c xs with
    | error e => rw [hr] at h; cases h
    | ok t =>
      rw [hr] at h
      replace h : addElement c t x = .ok s := h
      have hs := ih t hr
      have app : ∀ l : List ℚ, l <:+ xs → (l ++ [x]) <:+ (xs ++ [x]) := by
        rintro l ⟨p, rfl⟩; exact ⟨p, by simp⟩
      unfold addElement at h
      split at h
      · split at h
        · cases h
        · rename_i a w hw
          rw [hw] at hs
          have hws : w <:+ xs := (List.suffix_cons a w).trans hs
          dsimp only at h
          split at h
          · cases h
          · split at h
            · cases h
            · split at h
              · cases h
                apply app
                unfold takeLastK
                split
                · exact hws
                · exact (List.drop_suffix _ _).trans hws
              · cases h; exact app _ hws
      · cases h; exact app _ hs

/-- **C298, gap.**  A report of a change shows that a share of the newest
`stat_size` values before the call and the share of older values drawn for the test
differ, at some value of the stream, by more than `0.1`; the drawn ones are
`stat_size` values of the stream, each older than the newest `stat_size` ones. -/
theorem C298_gap (w s : Nat) (al : ℚ) (draw : Nat → Nat → List Nat) (hd : Draws s draw)
    (pval : ℚ → Nat → Nat → ℚ) (xs : List ℚ) (x : ℚ) (kept : List ℚ)
    (h : seen (run (withTest w s al draw pval) (xs ++ [x])) = .ok (true, kept)) :
    ∃ older newest drawn : List ℚ, older ++ newest <:+ xs ∧ newest.length = s ∧
      drawn.length = s ∧ (∀ y ∈ drawn, y ∈ older) ∧ kept = newest ++ [x] ∧
      ∃ v ∈ drawn ++ newest, 1 / 10 < |share drawn v - share newest v| := by
  rw [run_append] at h
  cases hr : run (withTest w s al draw pval) xs with
  | error e => rw [hr] at h; cases h
  | ok t =>
    rw [hr] at h
    replace h : seen (addElement (withTest w s al draw pval) t x) = .ok (true, kept) := h
    have hs := window_mem _ _ _ hr
    unfold addElement at h
    split at h
    · split at h
      · cases h
      · rename_i a l hw
        rw [hw] at hs
        have hws : l <:+ xs := (List.suffix_cons a l).trans hs
        dsimp only at h
        split at h
        · cases h
        · rename_i h1
          split at h
          · cases h
          · rename_i h2
            have hs0 : s ≠ 0 := h2
            have hp : dropLastK s l ≠ [] := fun e => h1 ⟨e, h2⟩
            split at h
            · rename_i hrej
              have hlen : s ≤ l.length := by
                unfold dropLastK at hp
                rw [if_neg hs0] at hp
                by_contra hcon
                exact hp (by rw [show l.length - s = 0 by omega]; rfl)
              have hdl : dropLastK s l = l.take (l.length - s) := by
                unfold dropLastK; rw [if_neg hs0]
              have htl : takeLastK s l = l.drop (l.length - s) := by
                unfold takeLastK; rw [if_neg hs0]; rfl
              have hk : kept = takeLastK s l ++ [x] := by
                have := congrArg (fun r : Except PyErr (Bool × List ℚ) => r.toOption.map Prod.snd) h
                simpa [seen, Except.map, Except.toOption, withTest] using this.symm
              obtain ⟨d1, d2⟩ := hd (t.n + 1) (dropLastK s l).length (List.length_pos_iff.2 hp)
              refine ⟨dropLastK s l, takeLastK s l,
                (withTest w s al draw pval).choice (t.n + 1) (dropLastK s l), ?_, ?_, ?_, ?_, hk, ?_⟩
              · rw [hdl, htl, List.take_append_drop]; exact hws
              · rw [htl, List.length_drop]; omega
              · simp only [withTest]
                refine Eq.trans ?_ d1
                generalize draw (t.n + 1) (dropLastK s l).length = d at d2
                clear d1
                induction d with
                | nil => rfl
                | cons i d ih =>
                  have : i < (dropLastK s l).length := d2 i (by simp)
                  rw [List.filterMap_cons, List.getElem?_eq_getElem this]
                  simp only [List.length_cons]
                  rw [ih (fun j hj => d2 j (by simp [hj]))]
              · intro y hy
                simp only [withTest, List.mem_filterMap] at hy
                obtain ⟨i, _, hi⟩ := hy
                exact List.mem_of_getElem? hi
              · simp only [withTest, Bool.and_eq_true, decide_eq_true_eq] at hrej
                by_contra hno
                have hle := (ksStat_le ((withTest w s al draw pval).choice (t.n + 1) (dropLastK s l))
                  (takeLastK s l) (1 / 10)).2 ⟨by norm_num, fun v hv => by
                  simp only [cdf_eq_share]
                  by_contra hc
                  exact hno ⟨v, hv, not_le.1 hc⟩⟩
                exact absurd hrej.2 (not_lt.2 hle)
            · cases h
    · cases h

/-- **C298, constant stream.**  A stream that repeats one value is never
reported, whatever the p-values are. -/
theorem C298_constant (w s : Nat) (al : ℚ) (draw : Nat → Nat → List Nat) (hd : Draws s draw)
    (pval : ℚ → Nat → Nat → ℚ) (v : ℚ) (m : Nat) (x : ℚ) (b : Bool) (kept : List ℚ)
    (h : seen (run (withTest w s al draw pval) (List.replicate m v ++ [x])) = .ok (b, kept)) :
    b = false := by
  cases b with
  | false => rfl
  | true =>
    exfalso
    obtain ⟨older, newest, drawn, h1, h2, h3, h4, _, u, hu, h5⟩ := C298_gap w s al draw hd pval _ x kept h
    have hall : ∀ y ∈ older ++ newest, y = v := fun y hy => List.eq_of_mem_replicate (h1.subset hy)
    have hdv : ∀ y ∈ drawn, y = v := fun y hy => hall y (by simp [h4 y hy])
    have hnv : ∀ y ∈ newest, y = v := fun y hy => hall y (by simp [hy])
    have e1 : drawn = List.replicate s v := List.eq_replicate_iff.2 ⟨h3, hdv⟩
    have e2 : newest = List.replicate s v := List.eq_replicate_iff.2 ⟨h2, hnv⟩
    rw [e1, e2, sub_self, abs_zero] at h5
    norm_num at h5

/-! ### Examples -/

/-- positions 0, 1, 0, 1, ... -/
private def exDraw : Nat → Nat → List Nat := fun _ size => [0, 1 % size, 0]

private theorem exDraws : Draws 3 exDraw := by
  intro n size h
  refine ⟨rfl, ?_⟩
  intro i hi
  simp only [exDraw, List.mem_cons, List.not_mem_nil, or_false] at hi
  rcases hi with rfl | rfl | rfl
  · exact h
  · exact Nat.mod_lt _ h
  · exact h

private def exPar : KSPar := withTest 6 3 (1 / 2) exDraw (fun d _ _ => 1 - d)

/-- A jump is reported, after its scale is changed and after it is turned round too. -/
example : seen (run exPar [0, 0, 1, 5, 6, 7, 0]) = .ok (true, [5, 6, 7, 0]) := by decide +kernel
example : seen (run exPar ([0, 0, 1, 5, 6, 7, 0].map (fun x => 3 * x + 1)))
    = .ok (true, [16, 19, 22, 1]) := by decide +kernel
example : seen (run exPar ([0, 0, 1, 5, 6, 7, 0].map (fun x => -x)))
    = .ok (true, [-5, -6, -7, 0]) := by decide +kernel
example : (seen (run exPar (List.replicate 9 4 ++ [7]))).map Prod.fst = .ok false := by decide +kernel
example := C298_gap 6 3 (1 / 2) exDraw exDraws (fun d _ _ => 1 - d) [0, 0, 1, 5, 6, 7] 0 [5, 6, 7, 0]
  (by decide +kernel)

end Verif.Drift.KS
