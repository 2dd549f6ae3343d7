import Verif.Bayes.NBUnits

/-! C304: the order of the columns does not matter to `NaiveBayes`, nor does a column that always
holds the same value. -/

namespace Verif.Bayes

open Verif.Trees

/-! ### Specification -/

/-- A row with the columns `pos` only, in that order. -/
def arrange (pos : List Nat) (x : List ℚ) : List ℚ := pos.map fun j => x.getD j 0

/-- A training row with the columns `pos` only, in that order. -/
def Sample.arrange (pos : List Nat) (r : Sample ℚ) : Sample ℚ := ⟨Bayes.arrange pos r.x, r.y, r.w⟩

/-- Which of the columns are nominal afterwards. -/
def arrangeNominal (pos : List Nat) (nominal : Nat → Bool) : Nat → Bool := fun k => nominal (pos.getD k 0)

/-! ### A constant column has likelihood 1 -/

theorem est_constant (v : ℚ) (l : List (ℚ × ℚ)) (hl : l ≠ []) (hp : ∀ o ∈ l, 0 < o.2) (hv : ∀ o ∈ l, o.1 = v) :
    0 < (Est.run (l.map fun o => (some o.1, o.2))).weightSum ∧ (Est.run (l.map fun o => (some o.1, o.2))).mean = v ∧
      (Est.run (l.map fun o => (some o.1, o.2))).varSum = 0 := by
  induction l using List.reverseRecOn with
  | nil => exact absurd rfl hl
  | append_singleton l o ih =>
    have e : Est.run ((l ++ [o]).map fun o => (some o.1, o.2)) = (Est.run (l.map fun o => (some o.1, o.2))).add (some o.1) o.2 := by
      simp [Est.run, List.foldl_append]
    rw [e]
    have ho : o.1 = v := hv o (by simp)
    have hw : 0 < o.2 := hp o (by simp)
    by_cases h0 : l = []
    · subst h0
      simp [Est.run, Est.add, hw, ho]
    · obtain ⟨i1, i2, i3⟩ := ih h0 (fun o ho => hp o (by simp [ho])) (fun o ho => hv o (by simp [ho]))
      generalize Est.run (l.map fun o => (some o.1, o.2)) = E at *
      unfold Est.add
      simp only [if_pos i1, i2, i3, ho]
      exact ⟨by linarith, by simp, by simp⟩

theorem density_constant (dens : ℚ → ℚ → ℚ) (v : ℚ) (l : List (ℚ × ℚ)) (hl : l ≠ []) (hp : ∀ o ∈ l, 0 < o.2) (hv : ∀ o ∈ l, o.1 = v) :
    density dens (Est.run (l.map fun o => (some o.1, o.2))) v = 1 := by
  obtain ⟨h1, h2, h3⟩ := est_constant v l hl hp hv
  generalize Est.run (l.map fun o => (some o.1, o.2)) = E at *
  have hvar : E.variance = 0 := by unfold Est.variance; rw [h3]; simp
  unfold density
  rw [if_pos h1, hvar, if_neg (lt_irrefl _), h2, if_pos rfl]

theorem nom_constant (v : ℚ) (c : Nat) (l : List NObs) (hv : ∀ o ∈ l, o.att = some v) (hp : ∀ o ∈ l, 0 < o.w) :
    SDict.Sorted (nomRun l) ∧ ((∃ o ∈ l, o.cls = c) → ∃ W, 0 < W ∧ SDict.get? (nomRun l) c = some [(v, W)]) ∧
      ((¬ ∃ o ∈ l, o.cls = c) → SDict.get? (nomRun l) c = none) := by
  induction l using List.reverseRecOn with
  | nil => exact ⟨List.Pairwise.nil, by simp, fun _ => rfl⟩
  | append_singleton l o ih =>
    obtain ⟨i1, i2, i3⟩ := ih (fun o ho => hv o (by simp [ho])) (fun o ho => hp o (by simp [ho]))
    have ho := hv o (by simp)
    have hw := hp o (by simp)
    have e : nomRun (l ++ [o]) = bump2 (nomRun l) o.cls v o.w := by
      simp [nomRun, List.foldl_append, nomUpdate, ho]
    rw [e]
    unfold bump2
    refine ⟨SDict.alter_sorted _ _ _ i1, ?_, ?_⟩
    · intro _
      rw [SDict.get?_alter _ _ i1]
      by_cases hc : c = o.cls
      · rw [if_pos hc, ← hc]
        by_cases hs : ∃ o ∈ l, o.cls = c
        · obtain ⟨W, hW, hg⟩ := i2 hs
          rw [hg]
          exact ⟨W + o.w, by linarith, by simp [Trees.bump, SDict.alter]⟩
        · rw [i3 hs]
          exact ⟨o.w, hw, by simp [Trees.bump, SDict.alter]⟩
      · rw [if_neg hc]
        apply i2
        rename_i h
        obtain ⟨q, hq, hqc⟩ := h
        rcases List.mem_append.1 hq with hq | hq
        · exact ⟨q, hq, hqc⟩
        · rw [List.mem_singleton] at hq
          subst hq
          exact absurd hqc.symm hc
    · intro hn
      rw [SDict.get?_alter _ _ i1, if_neg (fun hc => hn ⟨o, by simp, hc.symm⟩)]
      exact i3 fun ⟨q, hq, hqc⟩ => hn ⟨q, by simp [hq], hqc⟩

theorem likelihood_constant (nominal : Nat → Bool) (dens : ℚ → ℚ → ℚ) (h : List (Sample ℚ)) (hp : ∀ r ∈ h, 0 < r.w) (j : Nat) (v : ℚ)
    (hv : ∀ r ∈ h, r.x[j]? = some v) (c : Nat) (hc : ∃ r ∈ h, r.y = c) :
    likelihood (observers nominal (density dens)) h j v c = 1 := by
  obtain ⟨r, hr, hrc⟩ := hc
  have hcell : ∀ q ∈ cells j h, q.1 = v := by
    intro q hq
    obtain ⟨a, ha, e⟩ := List.mem_filterMap.1 hq
    rw [hv a ha] at e
    cases e
    rfl
  have hm : (v, c, r.w) ∈ cells j h := List.mem_filterMap.2 ⟨r, hr, by rw [hv r hr, hrc]; rfl⟩
  have hne : cells j h ≠ [] := List.ne_nil_of_mem hm
  unfold likelihood
  rw [column_cells, if_neg hne]
  simp only []
  cases hn : nominal j with
  | false =>
    have hf : (observers nominal (density dens)).fresh j = .num [] := by simp [observers, hn]
    rw [hf, num_fold]
    show gProb (density dens) (gRun _) _ c = 1
    rw [gProb_spec]
    have hof : ofClass ((cells j h).map fun q => (q.2.1, q.1, q.2.2)) c =
        ((cells j h).filter fun q => q.2.1 = c).map fun q => (q.1, q.2.2) := by
      unfold ofClass
      rw [List.filter_map, List.map_map]
      rfl
    rw [hof]
    have hmem : (v, r.w) ∈ ((cells j h).filter fun q => q.2.1 = c).map fun q => (q.1, q.2.2) :=
      List.mem_map.2 ⟨_, List.mem_filter.2 ⟨hm, by simp⟩, rfl⟩
    rw [if_neg (List.ne_nil_of_mem hmem)]
    apply density_constant dens v _ (List.ne_nil_of_mem hmem)
    · intro o ho
      obtain ⟨q, hq, rfl⟩ := List.mem_map.1 ho
      exact cells_pos j h hp q (List.mem_filter.1 hq).1
    · intro o ho
      obtain ⟨q, hq, rfl⟩ := List.mem_map.1 ho
      exact hcell q (List.mem_filter.1 hq).1
  | true =>
    have hf : (observers nominal (density dens)).fresh j = .nom [] := by simp [observers, hn]
    rw [hf, nom_fold]
    show nomProb (nomRun _) v c = 1
    obtain ⟨_, h2, _⟩ := nom_constant v c ((cells j h).map fun q => (⟨some q.1, q.2.1, q.2.2⟩ : NObs))
      (by
        intro o ho
        obtain ⟨q, hq, rfl⟩ := List.mem_map.1 ho
        simp [hcell q hq])
      (by
        intro o ho
        obtain ⟨q, hq, rfl⟩ := List.mem_map.1 ho
        exact cells_pos j h hp q hq)
    obtain ⟨W, hW, hg⟩ := h2 ⟨_, List.mem_map.2 ⟨_, hm, rfl⟩, rfl⟩
    unfold nomProb
    rw [hg]
    simp only [SDict.get?, if_true, Option.getD_some, List.map_cons, List.map_nil, List.sum_cons, List.sum_nil, List.length_cons,
      List.length_nil, add_zero, Nat.cast_one, zero_add]
    exact div_self (by linarith)

/-! ### The columns rearranged -/

theorem arrange_get (pos : List Nat) (x : List ℚ) (n : Nat) (hx : x.length = n) (hlt : ∀ j ∈ pos, j < n) (k : Nat) (hk : k < pos.length) :
    (arrange pos x)[k]? = x[pos[k]]? := by
  have h1 : pos[k] < x.length := by rw [hx]; exact hlt _ (List.getElem_mem _)
  simp [arrange, hk, List.getElem?_eq_getElem h1]

theorem likelihood_arranged (nominal : Nat → Bool) (pdf : Est → ℚ → ℚ) (pos : List Nat) (n : Nat) (hlt : ∀ j ∈ pos, j < n)
    (h : List (Sample ℚ)) (hlen : ∀ r ∈ h, r.x.length = n) (k : Nat) (hk : k < pos.length) (v : ℚ) (c : Nat) :
    likelihood (observers (arrangeNominal pos nominal) pdf) (h.map (Sample.arrange pos)) k v c =
      likelihood (observers nominal pdf) h pos[k] v c := by
  have hcells : cells k (h.map (Sample.arrange pos)) = cells pos[k] h := by
    unfold cells
    rw [List.filterMap_map]
    apply List.filterMap_congr
    intro r hr
    simp only [Function.comp_apply, Sample.arrange, arrange_get pos r.x n (hlen r hr) hlt k hk]
  have hfresh : (observers (arrangeNominal pos nominal) pdf).fresh k = (observers nominal pdf).fresh pos[k] := by
    simp [observers, arrangeNominal, hk]
  unfold likelihood
  rw [column_cells, column_cells, hcells, hfresh]
  rfl

theorem zip_range_map (pos : List Nat) (f : Nat → ℚ → ℚ) (x : List ℚ) :
    ((List.range (arrange pos x).length).zip (arrange pos x)).map (fun iv => f iv.1 iv.2) =
      (List.range pos.length).map fun k => f k (x.getD (pos.getD k 0) 0) := by
  apply List.ext_getElem
  · simp [arrange]
  · intro k h1 h2
    simp at h2
    simp [arrange, h2]

theorem joint_arranged (nominal : Nat → Bool) (dens : ℚ → ℚ → ℚ) (n : Nat) (pos : List Nat) (hnd : pos.Nodup) (hlt : ∀ j ∈ pos, j < n)
    (h : List (Sample ℚ)) (hp : ∀ r ∈ h, 0 < r.w) (hlen : ∀ r ∈ h, r.x.length = n) (x : List ℚ) (hx : x.length = n)
    (hconst : ∀ j < n, j ∉ pos → ∃ v, (∀ r ∈ h, r.x[j]? = some v) ∧ x[j]? = some v) (c : Nat) :
    joint (observers (arrangeNominal pos nominal) (density dens)) (h.map (Sample.arrange pos)) (arrange pos x) c =
      joint (observers nominal (density dens)) h x c := by
  have e1 : classWeight (h.map (Sample.arrange pos)) c = classWeight h c := by
    unfold classWeight
    rw [List.filter_map, List.map_map]
    rfl
  have e2 : totalWeight (h.map (Sample.arrange pos)) = totalWeight h := by
    unfold totalWeight
    rw [List.map_map]
    rfl
  rw [joint_eq, joint_eq, e1, e2]
  by_cases hc : ∃ r ∈ h, r.y = c
  · congr 1
    set L : Nat → ℚ := fun j => likelihood (observers nominal (density dens)) h j (x.getD j 0) c with hL
    have hnew : (((List.range (arrange pos x).length).zip (arrange pos x)).map fun iv =>
        likelihood (observers (arrangeNominal pos nominal) (density dens)) (h.map (Sample.arrange pos)) iv.1 iv.2 c).prod
          = (pos.map L).prod := by
      rw [zip_range_map pos (fun k v => likelihood (observers (arrangeNominal pos nominal) (density dens)) (h.map (Sample.arrange pos)) k v c)]
      congr 1
      apply List.ext_getElem
      · simp
      · intro k h1 h2
        simp at h1
        simp only [List.getElem_map, List.getElem_range]
        rw [likelihood_arranged nominal _ pos n hlt h hlen k h1]
        simp [hL, h1]
    have hold : (((List.range x.length).zip x).map fun iv => likelihood (observers nominal (density dens)) h iv.1 iv.2 c).prod
        = ((List.range n).map L).prod := by
      congr 1
      apply List.ext_getElem
      · simp [hx]
      · intro k h1 h2
        simp at h1
        simp [hL, h1]
    rw [hnew, hold]
    have hsplit : (List.range n).Perm (pos ++ (List.range n).filter fun j => j ∉ pos) := by
      rw [List.perm_ext_iff_of_nodup List.nodup_range]
      · intro j
        simp only [List.mem_append, List.mem_filter, List.mem_range, decide_eq_true_eq]
        constructor
        · intro hj
          by_cases hm : j ∈ pos
          · exact Or.inl hm
          · exact Or.inr ⟨hj, hm⟩
        · rintro (hm | ⟨hj, _⟩)
          · exact hlt j hm
          · exact hj
      · rw [List.nodup_append]
        refine ⟨hnd, List.nodup_range.filter _, ?_⟩
        intro a ha b hb hab
        subst hab
        simp at hb
        exact hb.2 ha
    rw [(hsplit.map L).prod_eq, List.map_append, List.prod_append]
    have hone : (((List.range n).filter fun j => j ∉ pos).map L).prod = 1 := by
      apply List.prod_eq_one
      intro y hy
      obtain ⟨j, hj, rfl⟩ := List.mem_map.1 hy
      simp only [List.mem_filter, List.mem_range, decide_eq_true_eq] at hj
      obtain ⟨v, hv1, hv2⟩ := hconst j hj.1 hj.2
      have : x.getD j 0 = v := by rw [List.getD_eq_getElem?_getD, hv2]; rfl
      rw [hL]
      simp only [this]
      exact likelihood_constant nominal dens h hp j v hv1 c hc
    rw [hone, mul_one]
  · have e0 : classWeight h c = 0 := by
      unfold classWeight
      have : h.filter (fun r => decide (r.y = c)) = [] := by
        rw [List.filter_eq_nil_iff]
        intro r hr e
        exact hc ⟨r, hr, by simpa using e⟩
      rw [this]; rfl
    rw [e0]; simp

/-! ### The answers -/

/-- The class distribution and the labels do not depend on the features. -/
theorem fit_labels_map (B B' : Obs ℚ ObsSt) (g : Sample ℚ → Sample ℚ) (hy : ∀ r, (g r).y = r.y) (hw : ∀ r, (g r).w = r.w)
    (calls : List (List (Sample ℚ) × Option Classes)) (s t : NB ObsSt)
    (hd : s.dist = t.dist) (hc : s.classes = t.classes) (s' t' : NB ObsSt) (hs : fitAll B s calls = .ok s')
    (ht : fitAll B' t (calls.map fun c => (c.1.map g, c.2)) = .ok t') :
    s'.dist = t'.dist ∧ s'.classes = t'.classes := by
  induction calls generalizing s t with
  | nil =>
    simp only [fitAll, List.map_nil, List.foldlM_nil, pure, Except.pure, Except.ok.injEq] at hs ht
    rw [← hs, ← ht]; exact ⟨hd, hc⟩
  | cons c calls ih =>
    simp only [fitAll, List.map_cons, List.foldlM_cons, bind, Except.bind] at hs ht
    cases h1 : s.partialFit B c.1 c.2 with
    | error e => rw [h1] at hs; cases hs
    | ok s1 =>
      cases h2 : t.partialFit B' (c.1.map g) c.2 with
      | error e => rw [h2] at ht; cases ht
      | ok t1 =>
        rw [h1] at hs
        rw [h2] at ht
        simp only [] at hs ht
        have hfold : ∀ (l : List (Sample ℚ)) (s t : NB ObsSt), s.dist = t.dist → s.classes = t.classes →
            (l.foldl (fun s a => if a.w ≠ 0 then s.learn B a else s) s).dist =
              ((l.map g).foldl (fun s a => if a.w ≠ 0 then s.learn B' a else s) t).dist ∧
            (l.foldl (fun s a => if a.w ≠ 0 then s.learn B a else s) s).classes =
              ((l.map g).foldl (fun s a => if a.w ≠ 0 then s.learn B' a else s) t).classes := by
          intro l
          induction l with
          | nil => exact fun s t h1 h2 => ⟨h1, h2⟩
          | cons r l ih =>
            intro s t h1 h2
            rw [List.foldl_cons, List.map_cons, List.foldl_cons, hw]
            by_cases h0 : r.w ≠ 0
            · rw [if_pos h0, if_pos h0]
              refine ih _ _ ?_ h2
              show bump s.dist r.y r.w = bump t.dist (g r).y (g r).w
              rw [h1, hy, hw]
            · rw [if_neg h0, if_neg h0]; exact ih _ _ h1 h2
        have key : s1.dist = t1.dist ∧ s1.classes = t1.classes := by
          unfold NB.partialFit at h1 h2
          rw [← hc] at h2
          have step : ∀ f : Bool, (Except.ok ((c.1.foldl (fun s a => if a.w ≠ 0 then s.learn B a else s)
                (match f, c.2 with | true, some c => { s with classes := some c } | _, _ => s))) : Except PyErr (NB ObsSt)) = .ok s1 →
              (Except.ok (((c.1.map g).foldl (fun s a => if a.w ≠ 0 then s.learn B' a else s)
                (match f, c.2 with | true, some c => { t with classes := some c } | _, _ => t))) : Except PyErr (NB ObsSt)) = .ok t1 →
              s1.dist = t1.dist ∧ s1.classes = t1.classes := by
            intro f g1 g2
            rw [Except.ok.injEq] at g1 g2
            rw [← g1, ← g2]
            cases f with
            | false => exact hfold _ _ _ hd hc
            | true =>
              cases c.2 with
              | none => exact hfold _ _ _ hd hc
              | some c0 => exact hfold _ _ _ hd rfl
          cases hsc : s.classes with
          | none =>
            rw [hsc] at h1 h2
            exact step true h1 h2
          | some c0 =>
            rw [hsc] at h1 h2
            simp only [] at h1 h2
            cases hfal : c0.falsy with
            | error e => rw [hfal] at h1; cases h1
            | ok f =>
              rw [hfal] at h1 h2
              exact step f h1 h2
        exact ih s1 t1 key.1 key.2 hs ht

/-- C304: rearrange the columns of all training rows and of the rows to predict in the same way, leaving out any
that hold one value throughout; and tell `NaiveBayes` which of the columns are now nominal.  Then `predict_proba` and
`predict` answer as before. -/
theorem C304_columns (nominal : Nat → Bool) (dens : ℚ → ℚ → ℚ) (n : Nat) (pos : List Nat) (hnd : pos.Nodup) (hlt : ∀ j ∈ pos, j < n)
    (calls : List (List (Sample ℚ) × Option Classes)) (hc : ∀ c ∈ calls, ∀ l, c.2 ≠ some (.array l))
    (hp : ∀ r ∈ calls.flatMap Prod.fst, 0 < r.w) (hlen : ∀ r ∈ calls.flatMap Prod.fst, r.x.length = n)
    (rows : List (List ℚ)) (hrows : ∀ x ∈ rows, x.length = n)
    (hconst : ∀ j < n, j ∉ pos → ∃ v, (∀ r ∈ calls.flatMap Prod.fst, r.x[j]? = some v) ∧ ∀ x ∈ rows, x[j]? = some v) :
    ∃ s s', fitAll (observers nominal (density dens)) NB.init calls = .ok s ∧
      fitAll (observers (arrangeNominal pos nominal) (density dens)) NB.init
        (calls.map fun c => (c.1.map (Sample.arrange pos), c.2)) = .ok s' ∧
      s'.proba (observers (arrangeNominal pos nominal) (density dens)) (rows.map (arrange pos)) =
        s.proba (observers nominal (density dens)) rows ∧
      s'.predict (observers (arrangeNominal pos nominal) (density dens)) (rows.map (arrange pos)) =
        s.predict (observers nominal (density dens)) rows := by
  set B := observers nominal (density dens) with hB
  set B' := observers (arrangeNominal pos nominal) (density dens) with hB'
  set H := calls.flatMap Prod.fst with hH
  obtain ⟨s, h1, f1⟩ := C97_training B calls hc
  obtain ⟨s', h2, f2⟩ := C97_training B' (calls.map fun c => (c.1.map (Sample.arrange pos), c.2)) (by
    intro c hm l
    obtain ⟨c0, h0, rfl⟩ := List.mem_map.1 hm
    exact hc c0 h0 l)
  obtain ⟨d1, d2⟩ := fit_labels_map B B' (Sample.arrange pos) (fun _ => rfl) (fun _ => rfl) calls NB.init NB.init rfl rfl s s' h1 h2
  refine ⟨s, s', h1, h2, ?_⟩
  have hflat : (calls.map fun c => (c.1.map (Sample.arrange pos), c.2)).flatMap Prod.fst = H.map (Sample.arrange pos) := by
    rw [hH, List.flatMap_map, List.map_flatMap]
  rw [hflat] at f2
  have eff : ∀ h : List (Sample ℚ), (∀ r ∈ h, 0 < r.w) → effective h = h := by
    intro h hp
    unfold effective
    rw [List.filter_eq_self]
    intro r hr
    simpa using (hp r hr).ne'
  have hp2 : ∀ r ∈ H.map (Sample.arrange pos), 0 < r.w := by
    intro r hr
    obtain ⟨r0, h0, rfl⟩ := List.mem_map.1 hr
    exact hp r0 h0
  rw [← hH, eff H hp] at f1
  rw [eff _ hp2] at f2
  have key : s'.proba B' (rows.map (arrange pos)) = s.proba B rows := by
    unfold NB.proba
    rw [← d1]
    by_cases hd0 : s.dist = []
    · rw [if_pos hd0, if_pos hd0, List.map_map]; rfl
    · rw [if_neg hd0, if_neg hd0]
      have hne : H ≠ [] := by
        intro e
        cases hs : s.dist with
        | nil => exact hd0 hs
        | cons p l => obtain ⟨r, hr, _⟩ := (f1.keys p.1).1 (by rw [hs]; simp); rw [e] at hr; cases hr
      have row : ∀ x ∈ rows, s'.probaRow B' (arrange pos x) = s.probaRow B x := by
        intro x hx
        have v1 := votes_eq B H s f1 hne (ne_of_gt (total_pos H hp hne)) x
        have v2 := votes_eq B' (H.map (Sample.arrange pos)) s' f2 (by simpa using hne) (ne_of_gt (total_pos _ hp2 (by simpa using hne)))
          (arrange pos x)
        have v3 : votes B' s' (arrange pos x) = votes B s x := by
          rw [v1, v2, ← d1]
          apply List.map_congr_left
          intro c _
          rw [joint_arranged nominal dens n pos hnd hlt H hp hlen x (hrows x hx) (fun j hj hjp => by
            obtain ⟨v, a, b⟩ := hconst j hj hjp
            exact ⟨v, a, b x hx⟩) c]
        unfold NB.probaRow
        simp only [v3, d2]
      clear hrows hconst
      induction rows with
      | nil => rfl
      | cons x rows ih =>
        rw [List.map_cons, List.mapM_cons, List.mapM_cons, row x (by simp), ih fun y hy => row y (by simp [hy])]
  refine ⟨key, ?_⟩
  unfold NB.predict
  rw [key]

/-! ### Example -/

/-- Three columns, the second nominal, the third always 7. -/
private def three : List (Sample ℚ) := [⟨[1, 0, 7], 0, 1⟩, ⟨[3, 1, 7], 0, 1⟩, ⟨[4, 1, 7], 1, 1⟩, ⟨[8, 1, 7], 1, 2⟩]

example : ∃ s s', fitAll (observers (fun j => j = 1) (density fun v d => 1 / (1 + v + d * d))) NB.init [(three, none)] = .ok s ∧
    fitAll (observers (arrangeNominal [1, 0] fun j => j = 1) (density fun v d => 1 / (1 + v + d * d))) NB.init
      [(three.map (Sample.arrange [1, 0]), none)] = .ok s' ∧
    s'.proba (observers (arrangeNominal [1, 0] fun j => j = 1) (density fun v d => 1 / (1 + v + d * d))) [[1, 2]] =
      s.proba (observers (fun j => j = 1) (density fun v d => 1 / (1 + v + d * d))) [[2, 1, 7]] := by
  obtain ⟨s, s', h1, h2, h3, _⟩ := C304_columns (fun j => j = 1) (fun v d => 1 / (1 + v + d * d)) 3 [1, 0] (by decide) (by decide)
    [(three, none)] (by simp) (by simp [three]) (by simp [three]) [[2, 1, 7]] (by simp)
    (by
      intro j hj hjp
      have : j = 2 := by simp at hjp; omega
      subst this
      exact ⟨7, by simp [three], by simp⟩)
  exact ⟨s, s', h1, h2, h3⟩

end Verif.Bayes
