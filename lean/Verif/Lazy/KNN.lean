import Verif.Buffers.Props
import Verif.Stats
import Mathlib.Algebra.BigOperators.Group.List.Basic
import Mathlib.Data.List.GetD
import Mathlib.Data.List.Induction
import Mathlib.Algebra.BigOperators.Ring.List

/-!
Model of `lazy/base_neighbors.py`, `lazy/knn_classifier.py`, `lazy/knn_regressor.py`,
`lazy/knn_adwin.py`, and C31, C32, C61.

Simplifications: the data window is the list of (row, label) pairs fed one at a
time (C03 proves that `SlidingWindow` keeps the newest `window_size` of these);
class labels are natural numbers; the KD-tree query is an arbitrary function from
window and row to a list of window positions; ADWIN is an arbitrary pair of
"detected" and "width" results.
-/

namespace Verif.Lazy

variable {X : Type}

/-- Window update of `partial_fit` for one sample: `SlidingWindow.add_sample`. -/
def addSample {α : Type} (w : Nat) (win : List α) (s : α) : List α := lastN w (win ++ [s])

/-! ### KNNClassifier -/

/-- State of `KNNClassifier`. -/
structure Knn (X : Type) where
  win : List (X × Nat)
  classes : List Nat

/-- `partial_fit`, knn_classifier.py 126-133. -/
def Knn.fit (w : Nat) (m : Knn X) (batch : List (X × Nat)) (classes : Option (List Nat)) : Knn X :=
  ⟨batch.foldl (addSample w) m.win, m.classes ++ classes.getD []⟩

/-- One neighbour's vote, line 183. -/
def vote (k : Nat) (votes : List ℚ) (label : Nat) : List ℚ :=
  votes.modify label (· + 1 / (k : ℚ))

/-- The votes for one row, lines 181-184; `nbrs` are window positions, `maxClass`
is `max(self.classes)`. -/
def votesFor (win : List (X × Nat)) (maxClass : Nat) (nbrs : List Nat) : Except PyErr (List ℚ) :=
  nbrs.foldlM (fun votes i =>
    match win[i]? with
    | none => .error .indexError
    | some s => if s.2 < votes.length then .ok (vote nbrs.length votes s.2) else .error .indexError)
    (List.replicate (maxClass + 1) 0)

/-- `predict_proba`, lines 154-186. -/
def Knn.predictProba (k : Nat) (query : List (X × Nat) → X → List Nat) (m : Knn X) (rows : List X) :
    Except PyErr (List (List ℚ)) :=
  if m.win.length < k then .ok (rows.map fun _ => [0])
  else
    let classes := m.classes ++ m.win.map Prod.snd
    rows.mapM fun x => votesFor m.win (classes.foldl max 0) (query m.win x)

/-- `np.argmax` of a row: position of the first maximum. -/
def argmax : List ℚ → Nat
  | [] => 0
  | x :: xs =>
    (xs.foldl (fun (st : ℚ × Nat × Nat) v =>
      if st.1 < v then (v, st.2.2, st.2.2 + 1) else (st.1, st.2.1, st.2.2 + 1)) (x, 0, 1)).2.1

/-- `predict`, lines 135-152. -/
def Knn.predict (k : Nat) (query : List (X × Nat) → X → List Nat) (m : Knn X) (rows : List X) :
    Except PyErr (List Nat) :=
  (m.predictProba k query rows).map fun p => p.map argmax

/-! ### KNNRegressor -/

/-- `_predict(X)`, knn_regressor.py 157-171: an array of zeros (`none`), or one number. -/
def regPredictAll (k : Nat) (agg : List ℚ → ℚ) (query : List (X × ℚ) → X → List Nat)
    (win : List (X × ℚ)) (rows : List X) : Option ℚ :=
  if win.length < k then none
  else some (agg ((rows.flatMap fun x => query win x).filterMap fun i => (win[i]?).map Prod.snd))

/-- `predict`, lines 134-155.  Storing the zero array of length `r` into one cell
(154) works for `r = 1` and is a `ValueError` otherwise. -/
def regPredict (k : Nat) (agg : List ℚ → ℚ) (query : List (X × ℚ) → X → List Nat)
    (win : List (X × ℚ)) (rows : List X) : Except PyErr (List ℚ) :=
  rows.mapM fun _ =>
    match regPredictAll k agg query win rows with
    | some v => .ok v
    | none => if rows.length = 1 then .ok 0 else .error .valueError

/-! ### KNNADWINClassifier -/

/-- End of `partial_fit`, knn_adwin.py 156-160, after all samples were added. -/
def shrink {α : Type} (k : Nat) (detected : Bool) (width : Nat) (win : List α) : List α :=
  if win.length ≥ k then
    if detected then
      if width < win.length then (List.range (win.length - width)).foldl (fun w _ => w.drop 1) win
      else win
    else win
  else win

/-! ### Specification and proofs -/

/-- The window after feeding samples one at a time is the newest `w` of them. -/
theorem fit_window {α : Type} (w : Nat) (h samples : List α) :
    samples.foldl (addSample w) (lastN w h) = lastN w (h ++ samples) := by
  induction samples generalizing h with
  | nil => simp
  | cons s ss ih =>
    rw [List.foldl_cons, addSample, lastN_lastN_append, ih]
    simp

theorem sum_modify (l : List ℚ) (i : Nat) (d : ℚ) (h : i < l.length) :
    (l.modify i (· + d)).sum = l.sum + d := by
  induction l generalizing i with
  | nil => simp at h
  | cons a l ih =>
    cases i with
    | zero => simp [List.modify]; ring
    | succ i =>
      simp only [List.modify_succ_cons, List.sum_cons]
      rw [ih i (by simpa using h)]; ring

/-- Frequency of label `c` among the labels `ls`. -/
def freq (ls : List Nat) (c : Nat) : ℚ := (ls.count c : ℚ) / ls.length

theorem votesFor_spec (win : List (X × Nat)) (maxClass : Nat) (nbrs : List Nat)
    (hn : ∀ i ∈ nbrs, i < win.length) (hc : ∀ s ∈ win, s.2 ≤ maxClass) :
    ∃ p, votesFor win maxClass nbrs = .ok p ∧ p.length = maxClass + 1 ∧
      ∀ c, c ≤ maxClass →
        p[c]? = some (((nbrs.filterMap fun i => (win[i]?).map Prod.snd).count c : ℚ) * (1 / nbrs.length)) := by
  unfold votesFor
  generalize hk : nbrs.length = k
  clear hk
  induction nbrs using List.reverseRecOn with
  | nil =>
    refine ⟨_, rfl, by simp, ?_⟩
    intro c hcm
    have : c < maxClass + 1 := by omega
    simp [List.getElem?_replicate, this]
  | append_singleton nbrs i ih =>
    obtain ⟨p, h1, h2, h3⟩ := ih (fun j hj => hn j (by simp [hj]))
    have hi := hn i (by simp)
    have hget : win[i]? = some win[i] := List.getElem?_eq_getElem hi
    have hlab : win[i].2 ≤ maxClass := hc _ (List.getElem_mem hi)
    rw [List.foldlM_append, h1]
    refine ⟨vote k p win[i].2, ?_, ?_, ?_⟩
    · simp only [List.foldlM_cons, List.foldlM_nil, bind, Except.bind, pure, Except.pure, hget, h2]
      rw [if_pos (by omega)]
    · simp [vote, h2]
    · intro c hcm
      have hh := h3 c hcm
      simp only [vote, List.getElem?_modify, hh, List.filterMap_append, List.filterMap_cons, hget,
        Option.map_some, List.filterMap_nil, List.count_append, List.count_singleton]
      by_cases hcc : win[i].2 = c
      · simp [hcc]; ring
      · simp [hcc]

/-- The list is determined by its entries: sum of a list given by entries. -/
theorem sum_eq_of_getElem? (p : List ℚ) (f : Nat → ℚ) (n : Nat) (hl : p.length = n)
    (h : ∀ c, c < n → p[c]? = some (f c)) : p = (List.range n).map f := by
  apply List.ext_getElem?
  intro c
  by_cases hc : c < n
  · rw [h c hc]; simp [hc]
  · rw [List.getElem?_eq_none (by omega), List.getElem?_eq_none (by simp; omega)]

theorem sum_count_range (ls : List Nat) (n : Nat) (h : ∀ a ∈ ls, a < n) :
    ((List.range n).map fun c => (ls.count c : ℚ)).sum = ls.length := by
  induction ls with
  | nil => simp
  | cons a ls ih =>
    have ih' := ih (fun b hb => h b (by simp [hb]))
    have ha := h a (by simp)
    have : ((List.range n).map fun c => ((a :: ls).count c : ℚ)).sum =
        ((List.range n).map fun c => (ls.count c : ℚ)).sum +
        ((List.range n).map fun c => if a = c then (1 : ℚ) else 0).sum := by
      rw [← List.sum_map_add]
      congr 1
      apply List.map_congr_left
      intro c _
      rw [List.count_cons]
      by_cases hac : a = c
      · simp [hac]
      · simp [hac]
    rw [this, ih']
    have h1 : ∀ m, ((List.range m).map fun c => if a = c then (1 : ℚ) else 0).sum =
        if a < m then 1 else 0 := by
      intro m
      induction m with
      | zero => simp
      | succ m ihm =>
        rw [List.range_succ, List.map_append, List.sum_append, ihm]
        by_cases h1 : a < m
        · have h2 : a ≠ m := by omega
          have h3 : a < m + 1 := by omega
          simp [h1, h2, h3]
        · by_cases h2 : a = m
          · subst h2; simp
          · have h3 : ¬ a < m + 1 := by omega
            simp [h1, h2, h3]
    rw [h1, if_pos ha]
    simp

theorem le_foldl_max (l : List Nat) (a : Nat) : a ≤ l.foldl max a ∧ ∀ b ∈ l, b ≤ l.foldl max a := by
  induction l generalizing a with
  | nil => simp
  | cons x l ih =>
    rw [List.foldl_cons]
    obtain ⟨h1, h2⟩ := ih (max a x)
    refine ⟨le_trans (le_max_left _ _) h1, ?_⟩
    intro b hb
    rcases List.mem_cons.mp hb with rfl | hb
    · exact le_trans (le_max_right _ _) h1
    · exact h2 b hb

theorem mapM_ok {α β : Type} (f : α → Except PyErr β) (g : α → β) (l : List α)
    (h : ∀ a ∈ l, f a = .ok (g a)) : l.mapM f = .ok (l.map g) := by
  induction l with
  | nil => rfl
  | cons a l ih =>
    rw [List.mapM_cons, h a (by simp), ih (fun b hb => h b (by simp [hb]))]
    rfl

theorem argmax_spec (l : List ℚ) (h : l ≠ []) :
    ∃ v, l[argmax l]? = some v ∧ (∀ w ∈ l, w ≤ v) ∧
      ∀ i w, i < argmax l → l[i]? = some w → w < v := by
  cases l with
  | nil => simp at h
  | cons x xs =>
    clear h
    have key : ∀ (ys pre : List ℚ) (b : ℚ) (bi : Nat), pre[bi]? = some b → (∀ w ∈ pre, w ≤ b) →
        (∀ i w, i < bi → pre[i]? = some w → w < b) →
        ∃ v, (pre ++ ys)[(ys.foldl (fun (st : ℚ × Nat × Nat) v =>
          if st.1 < v then (v, st.2.2, st.2.2 + 1) else (st.1, st.2.1, st.2.2 + 1))
            (b, bi, pre.length)).2.1]? = some v ∧ (∀ w ∈ pre ++ ys, w ≤ v) ∧
          ∀ i w, i < (ys.foldl (fun (st : ℚ × Nat × Nat) v =>
            if st.1 < v then (v, st.2.2, st.2.2 + 1) else (st.1, st.2.1, st.2.2 + 1))
              (b, bi, pre.length)).2.1 → (pre ++ ys)[i]? = some w → w < v := by
      intro ys
      induction ys with
      | nil => intro pre b bi h1 h2 h3; exact ⟨b, by simpa using h1, by simpa using h2, by simpa using h3⟩
      | cons y ys ih =>
        intro pre b bi h1 h2 h3
        rw [List.foldl_cons]
        have hbi : bi < pre.length := by
          by_contra hlt
          rw [List.getElem?_eq_none (by omega)] at h1
          cases h1
        by_cases hlt : b < y
        · simp only [hlt, if_true]
          have := ih (pre ++ [y]) y pre.length (by simp) (by
            intro w hw
            rcases List.mem_append.mp hw with hw | hw
            · exact le_of_lt (lt_of_le_of_lt (h2 w hw) hlt)
            · simp at hw; exact le_of_eq hw) (by
            intro i w hi hw
            rw [List.getElem?_append_left hi] at hw
            exact lt_of_le_of_lt (h2 w (List.mem_of_getElem? hw)) hlt)
          simpa [List.append_assoc] using this
        · simp only [hlt, if_false]
          have := ih (pre ++ [y]) b bi (by rw [List.getElem?_append_left hbi]; exact h1) (by
            intro w hw
            rcases List.mem_append.mp hw with hw | hw
            · exact h2 w hw
            · simp at hw; rw [hw]; exact not_lt.mp hlt) (by
            intro i w hi hw
            rw [List.getElem?_append_left (by omega)] at hw
            exact h3 i w hi hw)
          simpa [List.append_assoc] using this
    have := key xs [x] x 0 (by simp) (by simp) (by intro i w hi; omega)
    simpa [argmax] using this

/-- Labels of the neighbours of a row. -/
def labels (win : List (X × Nat)) (nbrs : List Nat) : List Nat :=
  nbrs.filterMap fun i => (win[i]?).map Prod.snd

theorem length_labels (win : List (X × Nat)) (nbrs : List Nat) (h : ∀ i ∈ nbrs, i < win.length) :
    (labels win nbrs).length = nbrs.length := by
  induction nbrs with
  | nil => rfl
  | cons i nbrs ih =>
    have hi := h i (by simp)
    have hget : win[i]? = some win[i] := List.getElem?_eq_getElem hi
    have := ih (fun j hj => h j (by simp [hj]))
    simp only [labels, List.filterMap_cons, hget, Option.map_some, List.length_cons] at this ⊢
    rw [this]

/-- C31: after any training history with at least `k` samples in the window, and
for any neighbour search that returns `k` window positions, each probability row
is the label frequency among the neighbours: entries lie in [0,1], sum to 1, and
entry `c` is the fraction of neighbours labelled `c`. -/
theorem C31_proba_is_frequency (w k : Nat) (hk : 0 < k) (query : List (X × Nat) → X → List Nat)
    (hist batch : List (X × Nat)) (cls : List Nat) (classes : Option (List Nat)) (rows : List X)
    (hq : ∀ x, (query (lastN w (hist ++ batch)) x).length = k ∧
      ∀ i ∈ query (lastN w (hist ++ batch)) x, i < (lastN w (hist ++ batch)).length)
    (hsize : k ≤ (lastN w (hist ++ batch)).length) :
    ∃ p, ((⟨lastN w hist, cls⟩ : Knn X).fit w batch classes).predictProba k query rows = .ok p ∧
      p.length = rows.length ∧
      ∀ (i : Nat) (x : X) (row : List ℚ), rows[i]? = some x → p[i]? = some row →
        let ls := labels (lastN w (hist ++ batch)) (query (lastN w (hist ++ batch)) x)
        ls.length = k ∧ (∀ c, row.getD c 0 = freq ls c) ∧ (∀ v ∈ row, 0 ≤ v ∧ v ≤ 1) ∧
          row.sum = 1 := by
  set win := lastN w (hist ++ batch) with hwin
  have hfit : ((⟨lastN w hist, cls⟩ : Knn X).fit w batch classes) =
      ⟨win, cls ++ classes.getD []⟩ := by
    simp [Knn.fit, fit_window, hwin]
  rw [hfit]
  unfold Knn.predictProba
  simp only
  rw [if_neg (by omega)]
  set mc := (cls ++ classes.getD [] ++ win.map Prod.snd).foldl max 0 with hmc
  have hlab : ∀ s ∈ win, s.2 ≤ mc := by
    intro s hs
    apply (le_foldl_max _ 0).2
    simp only [List.mem_append, List.mem_map]
    exact .inr ⟨s, hs, rfl⟩
  have hrow : ∀ x, votesFor win mc (query win x) =
      .ok ((List.range (mc + 1)).map fun c => freq (labels win (query win x)) c) := by
    intro x
    obtain ⟨p, h1, h2, h3⟩ := votesFor_spec win mc (query win x) (hq x).2 hlab
    rw [h1]
    congr 1
    apply sum_eq_of_getElem? p _ _ h2
    intro c hc
    rw [h3 c (by omega)]
    simp only [freq, length_labels win _ (hq x).2]
    rw [mul_one_div]
    rfl
  rw [mapM_ok _ _ rows (fun x _ => hrow x)]
  refine ⟨_, rfl, by simp, ?_⟩
  intro i x row hx hr
  simp only [List.getElem?_map, hx, Option.map_some, Option.some.injEq] at hr
  subst hr
  set ls := labels win (query win x) with hls
  have hll : ls.length = k := by rw [length_labels win _ (hq x).2]; exact (hq x).1
  have hkq : (0 : ℚ) < k := by exact_mod_cast hk
  have hlmem : ∀ a ∈ ls, a < mc + 1 := by
    intro a ha
    obtain ⟨j, _, hj⟩ := List.mem_filterMap.mp ha
    cases hw : win[j]? with
    | none => rw [hw] at hj; cases hj
    | some s =>
      rw [hw] at hj
      simp only [Option.map_some, Option.some.injEq] at hj
      have := hlab s (List.mem_of_getElem? hw)
      omega
  refine ⟨hll, ?_, ?_, ?_⟩
  · intro c
    by_cases hc : c < mc + 1
    · simp [List.getD, hc, ls]
    · have hz : ls.count c = 0 := List.count_eq_zero.mpr (fun hm => hc (hlmem c hm))
      rw [List.getD_eq_default _ _ (by simp; omega), freq, hz]
      simp
  · intro v hv
    obtain ⟨c, _, rfl⟩ := List.mem_map.mp hv
    unfold freq
    rw [show (labels win (query win x)).length = k from hll]
    constructor
    · positivity
    · rw [div_le_one hkq]
      have : (labels win (query win x)).count c ≤ k := by
        rw [← hll]; exact List.count_le_length
      exact_mod_cast this
  · have e : ((List.range (mc + 1)).map fun c => freq ls c) =
        (List.range (mc + 1)).map fun c => (ls.count c : ℚ) * (1 / k) := by
      apply List.map_congr_left
      intro c _
      simp only [freq, hll, mul_one_div]
    show ((List.range (mc + 1)).map fun c => freq ls c).sum = 1
    rw [e, List.sum_map_mul_right, sum_count_range ls (mc + 1) hlmem, hll]
    field_simp

/-- C31: `predict` returns for each row a label that is most frequent among the
neighbours, the smallest one in case of ties. -/
theorem C31_predict_is_majority (w k : Nat) (hk : 0 < k) (query : List (X × Nat) → X → List Nat)
    (hist batch : List (X × Nat)) (cls : List Nat) (classes : Option (List Nat)) (rows : List X)
    (hq : ∀ x, (query (lastN w (hist ++ batch)) x).length = k ∧
      ∀ i ∈ query (lastN w (hist ++ batch)) x, i < (lastN w (hist ++ batch)).length)
    (hsize : k ≤ (lastN w (hist ++ batch)).length) :
    ∃ p, ((⟨lastN w hist, cls⟩ : Knn X).fit w batch classes).predict k query rows = .ok p ∧
      p.length = rows.length ∧
      ∀ (i : Nat) (x : X) (c : Nat), rows[i]? = some x → p[i]? = some c →
        let ls := labels (lastN w (hist ++ batch)) (query (lastN w (hist ++ batch)) x)
        c ∈ ls ∧ (∀ d, ls.count d ≤ ls.count c) ∧ ∀ d < c, ls.count d < ls.count c := by
  obtain ⟨p, h1, h2, h3⟩ := C31_proba_is_frequency w k hk query hist batch cls classes rows hq hsize
  refine ⟨p.map argmax, by simp [Knn.predict, h1, Except.map], by simp [h2], ?_⟩
  intro i x c hx hc
  rw [List.getElem?_map] at hc
  cases hr : p[i]? with
  | none => rw [hr] at hc; cases hc
  | some row =>
    rw [hr] at hc
    simp only [Option.map_some, Option.some.injEq] at hc
    obtain ⟨hll, hf, hv, hs⟩ := h3 i x row hx hr
    intro ls
    have hne : row ≠ [] := by rintro rfl; simp at hs
    obtain ⟨v, ha, hb, hcc⟩ := argmax_spec row hne
    rw [hc] at ha hcc
    have hkq : (0 : ℚ) < k := by exact_mod_cast hk
    have hv1 : v = freq ls c := by
      rw [← hf c]; simp [List.getD, ha]
    have hle : ∀ d, freq ls d ≤ freq ls c := by
      intro d
      rw [← hv1, ← hf d]
      cases hd : row[d]? with
      | none =>
        simp only [List.getD, hd, Option.getD_none]
        exact (hv v (List.mem_of_getElem? ha)).1
      | some u =>
        simp only [List.getD, hd, Option.getD_some]
        exact hb u (List.mem_of_getElem? hd)
    have hcount : ∀ d, ls.count d ≤ ls.count c := by
      intro d
      have := hle d
      unfold freq at this
      rw [hll, div_le_div_iff_of_pos_right hkq] at this
      exact_mod_cast this
    refine ⟨?_, hcount, ?_⟩
    · have hpos : ls.length > 0 := by rw [hll]; exact hk
      obtain ⟨a, ha⟩ := List.exists_mem_of_length_pos hpos
      have h4 := hcount a
      have h5 : 0 < ls.count a := List.count_pos_iff.mpr ha
      exact List.count_pos_iff.mp (by omega)
    · intro d hd
      have hclen : c < row.length := by
        by_contra hlt
        rw [List.getElem?_eq_none (by omega)] at ha
        cases ha
      have hdget : row[d]? = some row[d] := List.getElem?_eq_getElem (by omega)
      have h4 := hcc d _ hd hdget
      have h5 : row[d] = freq ls d := by rw [← hf d]; simp [List.getD, hdget]
      rw [h5, hv1] at h4
      unfold freq at h4
      rw [hll, div_lt_div_iff_of_pos_right hkq] at h4
      exact_mod_cast h4

/-- C31: with fewer than `k` samples in the window every row is the single
probability 0, and every prediction is class 0. -/
theorem C31_cold_start (w k : Nat) (query : List (X × Nat) → X → List Nat)
    (hist batch : List (X × Nat)) (cls : List Nat) (classes : Option (List Nat)) (rows : List X)
    (hsize : (lastN w (hist ++ batch)).length < k) :
    ((⟨lastN w hist, cls⟩ : Knn X).fit w batch classes).predictProba k query rows =
      .ok (rows.map fun _ => [0]) ∧
    ((⟨lastN w hist, cls⟩ : Knn X).fit w batch classes).predict k query rows =
      .ok (rows.map fun _ => 0) := by
  have hfit : ((⟨lastN w hist, cls⟩ : Knn X).fit w batch classes) =
      ⟨lastN w (hist ++ batch), cls ++ classes.getD []⟩ := by
    simp [Knn.fit, fit_window]
  have h1 : ((⟨lastN w hist, cls⟩ : Knn X).fit w batch classes).predictProba k query rows =
      .ok (rows.map fun _ => [0]) := by
    rw [hfit]
    simp only [Knn.predictProba, if_pos hsize]
  refine ⟨h1, ?_⟩
  simp only [Knn.predict, h1, Except.map, List.map_map]
  rfl

/-- C32: every row of the result is the same number, the aggregate over the
neighbours of all queried rows together. -/
theorem C32_all_rows_share (k : Nat) (agg : List ℚ → ℚ) (query : List (X × ℚ) → X → List Nat)
    (win : List (X × ℚ)) (rows : List X) (hsize : k ≤ win.length) :
    regPredict k agg query win rows = .ok (rows.map fun _ =>
      agg ((rows.flatMap fun x => query win x).filterMap fun i => (win[i]?).map Prod.snd)) := by
  unfold regPredict
  apply mapM_ok
  intro x _
  simp only [regPredictAll, if_neg (not_lt.mpr hsize)]

/-- C32: for a single row the prediction is the aggregate over its own neighbours. -/
theorem C32_single_row (k : Nat) (agg : List ℚ → ℚ) (query : List (X × ℚ) → X → List Nat)
    (win : List (X × ℚ)) (x : X) (hsize : k ≤ win.length) :
    regPredict k agg query win [x] =
      .ok [agg ((query win x).filterMap fun i => (win[i]?).map Prod.snd)] := by
  rw [C32_all_rows_share k agg query win [x] hsize]
  simp

/-- C32: before `k` samples are known, one row gives 0 and several rows raise. -/
theorem C32_cold_start (k : Nat) (agg : List ℚ → ℚ) (query : List (X × ℚ) → X → List Nat)
    (win : List (X × ℚ)) (hsize : win.length < k) (x y : X) (rows : List X) :
    regPredict k agg query win [x] = .ok [0] ∧
    regPredict k agg query win (x :: y :: rows) = .error .valueError := by
  have h : ∀ rows, regPredictAll k agg query win rows = none := by
    intro rows; simp [regPredictAll, hsize]
  constructor
  · simp only [regPredict, List.mapM_cons, List.mapM_nil, h]; rfl
  · unfold regPredict
    rw [List.mapM_cons]
    simp only [h, List.length_cons]
    rw [if_neg (by omega)]
    rfl

/-- C32 is violated for several rows: with one neighbour each, rows whose
neighbours have targets 0 and 10 are both predicted as 5. -/
theorem C32_multirow_violated :
    regPredict 1 mean (fun _ x => [x]) [(0, (0 : ℚ)), (1, 10)] [0, 1] = .ok [5, 5] ∧
    regPredict 1 mean (fun _ x => [x]) [(0, (0 : ℚ)), (1, 10)] [0] = .ok [0] ∧
    regPredict 1 mean (fun _ x => [x]) [(0, (0 : ℚ)), (1, 10)] [1] = .ok [10] := by
  refine ⟨?_, ?_, ?_⟩ <;> decide +kernel

/-- C61: after a detected change the kNN-ADWIN window is exactly the newest
`width` of its samples (all of them if it had fewer); without one, or below `k`
samples, it is unchanged. -/
theorem C61_shrink {α : Type} (k : Nat) (detected : Bool) (width : Nat) (win : List α) :
    shrink k detected width win =
      if k ≤ win.length ∧ detected = true then lastN width win else win := by
  have hdrop : ∀ n (l : List α), (List.range n).foldl (fun w _ => w.drop 1) l = l.drop n := by
    intro n
    induction n with
    | zero => intro l; simp
    | succ n ih =>
      intro l
      rw [List.range_succ, List.foldl_append, ih]
      simp [List.drop_drop]
  unfold shrink
  by_cases h1 : win.length ≥ k
  · rw [if_pos h1]
    cases detected with
    | false => simp
    | true =>
      simp only [if_true, and_true]
      rw [if_pos h1]
      by_cases h2 : width < win.length
      · rw [if_pos h2, hdrop]; rfl
      · rw [if_neg h2, lastN_of_le (by omega)]
  · rw [if_neg h1, if_neg (by omega)]

/-- Non-vacuity of C31: window of 4, k = 2, positional neighbours. -/
example : ((⟨[], [3]⟩ : Knn Nat).fit 4 [(9, 9), (0, 1), (1, 2), (2, 2), (3, 0)] none).predictProba 2
    (fun _ x => [x, x + 1]) [0, 1, 2] =
      .ok [[0, 1/2, 1/2, 0], [0, 0, 1, 0], [1/2, 0, 1/2, 0]] := by decide +kernel

/-- Non-vacuity of C61. -/
example : shrink 2 true 3 [1, 2, 3, 4, 5] = [3, 4, 5] := by decide

end Verif.Lazy
